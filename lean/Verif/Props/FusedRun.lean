import Verif.Props.FusedSteps

set_option linter.unusedSectionVars false

namespace Verif.Props
open Verif.Quant.Regex Verif.Quant.Transformer Verif.Quant.Transforms8Bit Verif.Quant.Apply

variable {V U M : Type}

namespace Aux

section Search
variable [Inhabited M] {g : Graph V M}

theorem matchLayer_some {l : Layer} {cls cfg} (hc : l.name ∈ g.candidates) (h1 : matchPattern l.cls cls = true)
    (h2 : ∀ e ∈ cfg, l.get e.1 = e.2) : matchLayer g l cls cfg = true := by
  simp only [matchLayer, Bool.and_eq_true, List.all_eq_true, Bool.or_eq_true, decide_eq_true_eq]
  exact ⟨⟨Or.inr hc, h1⟩, fun e he => Or.inr (h2 e he)⟩

theorem matchTree_leaf {l : Layer} {cls cfg hd} (h1 : matchLayer g l cls cfg = true)
    (h2 : g.functional = true → isMatchSupported g l hd = true) :
    matchTree g (.mk cls cfg []) l hd = some (nodeOf g l []) := by
  rw [matchTree, if_neg (by rw [h1]; simp), if_neg, if_pos List.isEmpty_nil]
  intro h
  rw [Bool.and_eq_true] at h
  rw [h2 h.1] at h
  simp at h

theorem matchTree_chain {l x : Layer} {cls cfg hd q n} (h1 : matchLayer g l cls cfg = true)
    (h2 : g.functional = true → isMatchSupported g l hd = true)
    (h3 : getLayers g (inputLayerNames g l) = [x]) (h4 : matchTree g q x false = some n) :
    matchTree g (.mk cls cfg [q]) l hd = some (nodeOf g l [n]) := by
  rw [matchTree, if_neg (by rw [h1]; simp), if_neg, if_neg (by simp), h3, matchTrees, h4, matchTrees]
  · rfl
  · intro h
    rw [Bool.and_eq_true] at h
    rw [h2 h.1] at h
    simp at h

theorem find_some {p : Pattern} {matched : List String} {l : Layer} {n} (hl : l ∈ g.layers) (hm : l.name ∉ matched)
    (h : matchTree g p l true = some n) : findPattern g p matched ≠ none := by
  intro hn
  rw [findPattern, List.findSome?_eq_none_iff] at hn
  have := hn l hl
  rw [if_neg hm, h] at this
  simp at this

end Search

theorem mem_matchedBy {matched : List (String × String)} {t x : String} :
    x ∈ matchedBy matched t ↔ (t, x) ∈ matched := by
  rw [matchedBy, List.mem_map]
  constructor
  · rintro ⟨e, he, rfl⟩
    obtain ⟨h1, h2⟩ := List.mem_filter.1 he
    rw [← of_decide_eq_true h2]; exact h1
  · intro h
    exact ⟨_, List.mem_filter.2 ⟨h, by simp⟩, rfl⟩

section Run
variable [DecidableEq U] [DecidableEq V] {c : Classes} {am : AModel V U}
  (hnd : (am.layers.map fun a => a.layer.name).Nodup)
  {auto : String → ℕ → String} {expand : V → V} {str1 str2 : String → String}
  {A B : ALayer U} (hA : A ∈ am.layers) (hB : B ∈ am.layers)
  (hcA : A.layer.cls ∈ Spec.fusedClasses) (hcB : B.layer.cls ∈ Spec.normClasses)
  (hfresh : Spec.FreshNames auto (am.layers.map fun a => a.layer.name))

/-- What a turn before the fusion does. -/
def Outcome (c : Classes) (am : AModel V U) (auto : String → ℕ → String) (expand : V → V)
    (str1 str2 : String → String) (a b hd tname : String) (noop : Prop) (K : Graph V (Meta U) → Prop)
    (g : Graph V (Meta U)) (t : Transform V (Meta U)) (m r : Node V (Meta U)) (k k' : ℕ) : Prop :=
  ((∀ n, Spec.InTree n m → n.name ≠ a ∧ n.name ≠ b) ∧ (t.name = tname → m.name ≠ hd) ∧
    ∀ g', ReplaceStep c am auto expand str1 str2 g t m r k k' g' → replace g m r = .ok g' → K g') ∨
  (Fuses a b noop m r ∧ t.name ∉ ["InputLayerQuantize", "SeparableConv1DQuantize", "SeparableConvQuantize"]) ∨
  (r = m ∧ t.name ≠ tname) ∨
  ((∀ n, Spec.InTree n m → n.name ≠ a) ∧ (nodeNames m).count b ≤ 1 ∧ t.name ≠ tname ∧
    t.name ∉ ["InputLayerQuantize", "SeparableConv1DQuantize", "SeparableConvQuantize"] ∧
    (∀ n, Spec.InTree n r → n.name = b → n.info.get = none) ∧
    ∀ g', ReplaceStep c am auto expand str1 str2 g t m r k k' g' → replace g m r = .ok g' → K g')

include hnd hA hB hcA hcB hfresh

theorem fuse_run (metaEq : Meta U → Meta U → Bool) (hrefl : ∀ i, metaEq i i = true)
    (T : Transform V (Meta U)) (early late : List (Transform V (Meta U)))
    (hsplit : transforms auto c expand str1 str2 = early ++ T :: late) (hd : String) (noop : Prop)
    (K : Graph V (Meta U) → Prop)
    (hexist : ∀ g k, ApplyInv c am g → Base auto am A.layer.name B.layer.name g k →
      FusedBefore A.layer.name B.layer.name g → K g →
      ∃ l ∈ g.layers, l.name = hd ∧ ∃ n, matchTree g T.pattern l true = some n)
    (hout : ∀ g t m r k k' matched, ApplyInv c am g → Base auto am A.layer.name B.layer.name g k →
      FusedBefore A.layer.name B.layer.name g → K g → (t ∈ early ∨ t = T) →
      findPattern g t.pattern matched = some m → t.replacement k m = .ok (r, k') →
      Outcome c am auto expand str1 str2 A.layer.name B.layer.name hd T.name noop K g t m r k k')
    (hbase : Base auto am A.layer.name B.layer.name (unwrap am) 0)
    (hbefore : FusedBefore A.layer.name B.layer.name (unwrap am)) (hK : K (unwrap am))
    (hstart : ApplyInv c am (unwrap am)) (fuel : ℕ) (g' : Graph V (Meta U))
    (hrun : run metaEq (transforms auto c expand str1 str2) fuel
      (start (transforms auto c expand str1 str2) (unwrap am)) = some (.ok g')) :
    ApplyInv c am g' ∧ FusedAfter A.layer.name B.layer.name noop g' := by
  have hna : A.layer.name ∈ am.layers.map fun a => a.layer.name := List.mem_map_of_mem hA
  have hnb : B.layer.name ∈ am.layers.map fun a => a.layer.name := List.mem_map_of_mem hB
  let J : Loop V (Meta U) → Prop := fun s => Base auto am A.layer.name B.layer.name s.graph s.supply ∧
      ((FusedBefore A.layer.name B.layer.name s.graph ∧ K s.graph ∧
        (∃ pre post, s.rest = pre ++ T :: post ∧ ∀ t ∈ pre, t ∈ early) ∧ (T.name, hd) ∉ s.matched) ∨
      FusedAfter A.layer.name B.layer.name noop s.graph)
  suffices hall : ApplyInv c am g' ∧ ∃ s', J s' ∧ s'.graph = g' ∧ s'.rest = [] by
    obtain ⟨h1, s, ⟨-, hJ⟩, hsg, hsr⟩ := hall
    rcases hJ with ⟨-, -, ⟨pre, post, h, -⟩, -⟩ | hJ
    · rw [hsr] at h; simp at h
    · rw [hsg] at hJ
      exact ⟨h1, hJ⟩
  refine loop_run hnd metaEq hfresh J ?_ ?_ ?_ ?_ fuel _ g' hstart
      ⟨hbase, Or.inl ⟨hbefore, hK, ⟨early, late, hsplit, fun t h => h⟩, by simp [start]⟩⟩ (fun t h => h) hrun
  · rintro s - ⟨hb, hJ⟩ hnil
    refine ⟨hb, ?_⟩
    rcases hJ with ⟨-, -, ⟨pre, post, h, -⟩, -⟩ | hJ
    · rw [hnil] at h; simp at h
    · exact Or.inr hJ
  · rintro s t tl hok ⟨hb, hJ⟩ hr hnone
    refine ⟨hb, ?_⟩
    rcases hJ with ⟨hbef, hk, ⟨pre, post, h, hpre⟩, hmat⟩ | hJ
    · left
      refine ⟨hbef, hk, ?_, hmat⟩
      cases pre with
      | nil =>
        exfalso
        rw [hr, List.nil_append] at h
        obtain ⟨rfl, rfl⟩ := List.cons.inj h
        obtain ⟨l, hl, he, n, hn⟩ := hexist s.graph s.supply hok hb hbef hk
        exact find_some hl (fun hh => hmat (mem_matchedBy.1 (he ▸ hh))) hn hnone
      | cons p pre =>
        rw [hr, List.cons_append] at h
        obtain ⟨rfl, rfl⟩ := List.cons.inj h
        exact ⟨pre, post, rfl, fun t ht => hpre t (by simp [ht])⟩
    · exact Or.inr hJ
  · rintro s s' t tl m r k hok ⟨hb, hJ⟩ hr ht hfind hrep hbeq hrest hmatched hsup hgraph
    have hb' : Base auto am A.layer.name B.layer.name s'.graph s'.supply := by
      rw [hgraph, hsup]
      refine ⟨hb.link, hb.candA, hb.candB, fun hf => ?_⟩
      exact seqOk_mono (seq_step8 (unitOps auto expand str1 str2) hfresh c (hb.seq hf) ht hfind hrep).1 (hb.seq hf)
    refine ⟨hb', ?_⟩
    rw [hgraph, hrest, hmatched]
    rcases hJ with ⟨hbef, hk, ⟨pre, post, h, hpre⟩, hmat⟩ | hJ
    · left
      refine ⟨hbef, hk, ⟨pre, post, h, hpre⟩, ?_⟩
      have hmem : t ∈ early ∨ t = T := by
        cases pre with
        | nil => rw [hr, List.nil_append] at h; exact Or.inr (List.cons.inj h).1
        | cons p pre =>
          rw [hr, List.cons_append] at h
          rw [(List.cons.inj h).1]
          exact Or.inl (hpre p (by simp))
      rw [List.mem_append, List.mem_singleton, not_or]
      refine ⟨hmat, ?_⟩
      intro he
      obtain ⟨e1, e2⟩ := Prod.mk.inj he
      rcases hout s.graph t m r s.supply k _ hok hb hbef hk hmem hfind hrep with
        ⟨-, h1, -⟩ | ⟨hf, -⟩ | ⟨-, h1⟩ | ⟨-, -, h1, -⟩
      · exact h1 e1.symm e2.symm
      · obtain ⟨n, hn, hna'⟩ := hf.keptA
        obtain ⟨n', hn', hl⟩ := beq_layers metaEq m r hbeq n hn
        obtain ⟨hml, -, hmt⟩ := findPattern_some hfind
        have := hbef.act n'.layer (matchTree_nodes _ _ _ _ _ hml hmt n' hn').1 (by rw [hl]; exact hna')
        rw [hl, (hf.setA n hn hna').1] at this
        revert this
        decide
      · exact h1 e1.symm
      · exact h1 e1.symm
    · exact Or.inr hJ
  · rintro s s' t tl m r k hok ⟨hb, hJ⟩ hr hs hfind hbeq hg hrest hmatched hsup
    dsimp only [J]
    rw [hsup, hrest, hmatched]
    rcases hJ with ⟨hbef, hk, ⟨pre, post, h, hpre⟩, hmat⟩ | hJ
    · have hmem : t ∈ early ∨ t = T := by
        cases pre with
        | nil => rw [hr, List.nil_append] at h; exact Or.inr (List.cons.inj h).1
        | cons p pre =>
          rw [hr, List.cons_append] at h
          rw [(List.cons.inj h).1]
          exact Or.inl (hpre p (by simp))
      rcases hout s.graph t m r s.supply k _ hok hb hbef hk hmem hfind hs.replaced with
        ⟨h0, h1, h2⟩ | ⟨hf, hn⟩ | ⟨h0, -⟩ | ⟨h0, h1, h2, h3, h4, h5⟩
      · refine ⟨base_other hfresh hok hb hs hfind hg hna hnb h0, Or.inl ⟨?_, h2 _ hs hg, ⟨pre, post, h, hpre⟩, ?_⟩⟩
        · obtain ⟨k1, k2⟩ := keep_other hs.effect hs.step hna fun n hn => (h0 n hn).1
          obtain ⟨-, k3⟩ := keep_other hs.effect hs.step hnb fun n hn => (h0 n hn).2
          refine ⟨?_, ?_, ?_⟩
          · intro l' hl' he
            obtain ⟨l, hl, hsame⟩ := k1 l' hl' he
            rw [get_same hsame]
            exact hbef.act l hl (hsame.1.symm.trans he)
          · rw [configOf, k2]; exact hbef.metaA
          · rw [configOf, k3]; exact hbef.metaB
        · rw [List.mem_append, List.mem_singleton, not_or]
          refine ⟨hmat, fun he => ?_⟩
          obtain ⟨e1, e2⟩ := Prod.mk.inj he
          exact h1 e1.symm e2.symm
      · exact ⟨base_same hfresh hok hb hs hfind hg hn (List.nodup_iff_count_le_one.1 hf.nodup _)
          (List.nodup_iff_count_le_one.1 hf.nodup _), Or.inr (fuses_after hs.effect hf)⟩
      · rw [h0, beq_refl metaEq hrefl] at hbeq
        simp at hbeq
      · have hzero : (nodeNames m).count A.layer.name ≤ 1 := by
          rw [List.count_eq_zero_of_not_mem]
          · exact Nat.zero_le _
          · intro hh
            obtain ⟨n, hn, he⟩ := (mem_nodeNames _ _).1 hh
            exact h0 n hn he
        refine ⟨base_same hfresh hok hb hs hfind hg h3 hzero h1,
          Or.inl ⟨?_, h5 _ hs hg, ⟨pre, post, h, hpre⟩, ?_⟩⟩
        · obtain ⟨k1, k2⟩ := keep_other hs.effect hs.step hna h0
          refine ⟨?_, ?_, ?_⟩
          · intro l' hl' he
            obtain ⟨l, hl, hsame⟩ := k1 l' hl' he
            rw [get_same hsame]
            exact hbef.act l hl (hsame.1.symm.trans he)
          · rw [configOf, k2]; exact hbef.metaA
          · rcases hs.effect.info B.layer.name with ⟨n, hn, he, -, hi⟩ | ⟨-, hi⟩
            · rw [configOf, hi]
              exact h4 n hn he
            · rw [configOf, hi]
              split
              · rfl
              · exact hbef.metaB
        · rw [List.mem_append, List.mem_singleton, not_or]
          refine ⟨hmat, fun he => ?_⟩
          exact h2 (Prod.mk.inj he).1.symm
    · obtain ⟨h1, h2⟩ := after_step hnd hA hB hcA hcB hfresh hok hb hJ hs hfind hg
      exact ⟨h1, Or.inr h2⟩

end Run

end Aux
end Verif.Props
