import Verif.Props.FusedMatch

set_option linter.unusedSectionVars false

namespace Verif.Props
open Verif.Quant.Regex Verif.Quant.Transformer Verif.Quant.Transforms8Bit Verif.Quant.Apply

variable {V U M : Type}

namespace Aux

/-- Operations that compute nothing: what is left of the theorems about values is then about the shape of the
model. -/
def unitSem : Spec.Semantics V Unit := fun _ _ _ _ _ => ()

theorem unitOps (auto : String → ℕ → String) (expand : V → V) (str1 str2 : String → String) :
    Spec.FloatOps (unitSem (V := V)) auto expand str1 str2 U :=
  ⟨fun _ _ _ _ _ => rfl, fun _ _ _ => rfl, fun _ _ _ _ _ _ _ _ _ => rfl, fun _ _ _ _ _ _ _ _ _ => rfl⟩

/-- The output of `a` goes to `b` only. -/
def Link (g : Graph V M) (a b : String) : Prop := FeedsF g a b ∨ FeedsS g a b

theorem link_feeds [Inhabited M] {g : Graph V M} {a b : String} (h : Link g a b) : Feeds g a b :=
  h.elim feeds_functional feeds_sequential

section
variable [DecidableEq U] [DecidableEq V] {auto : String → ℕ → String} {expand : V → V} {str1 str2 : String → String} {c : Classes}
  {names : List String} (hfresh : Spec.FreshNames auto names)
  {g g0 g' : Graph V (Meta U)} {t : Transform V (Meta U)} (ht : t ∈ transforms auto c expand str1 str2)
  {matched : List String} {m r : Node V (Meta U)} {k k' : ℕ} {relu : Prop}
  (hf : findPattern g t.pattern matched = some m) (hr : t.replacement k m = .ok (r, k'))
  (hg : replace g m r = .ok g')
include ht hf hr hg hfresh

theorem seq_step {a b : String} (hl : FeedsS g a b) (hseq : SeqOk (unitSem (V := V)) auto names g0 g k) :
    g' = replaceSequential g m r ∧ SeqOk (unitSem (V := V)) auto names g0 (replaceSequential g m r) k' := by
  refine ⟨?_, (seq_step8 (unitOps auto expand str1 str2) hfresh c hseq ht hf hr).2⟩
  rw [replace, hl.functional] at hg
  simp only [Bool.false_eq_true, if_false, Except.ok.injEq] at hg
  exact hg.symm

/-- A step that touches neither of two connected layers. -/
theorem link_other {a b : String} (hl : Link g a b)
    (hseq : g.functional = false → SeqOk (unitSem (V := V)) auto names g0 g k)
    (hstep : StepOk c names relu m r) (ha : a ∈ names) (hb : b ∈ names)
    (hout : ∀ n, Spec.InTree n m → n.name ≠ a ∧ n.name ≠ b) : Link g' a b := by
  obtain ⟨hml, -, hmt⟩ := findPattern_some hf
  have hnodes := matchTree_nodes _ _ _ _ _ hml hmt
  have hm : ∀ x, (x = a ∨ x = b) → x ∉ nodeNames m := by
    intro x hx h
    obtain ⟨n, hn, rfl⟩ := (mem_nodeNames _ _).1 h
    rcases hx with h | h
    · exact (hout n hn).1 h
    · exact (hout n hn).2 h
  have hrn : ∀ x, (x = a ∨ x = b) → x ∉ nodeNames r := by
    intro x hx h
    obtain ⟨n', hn', rfl⟩ := (mem_nodeNames _ _).1 h
    have hin : n'.name ∈ names := by rcases hx with h | h <;> rw [h] <;> assumption
    rcases hstep with ⟨h1, -⟩ | ⟨h1, -⟩
    · rcases h1 n' hn' with ⟨n, hn, hs⟩ | ⟨hnew, -⟩
      · exact hm _ hx ((mem_nodeNames _ _).2 ⟨n, hn, hs.name.symm⟩)
      · exact hnew.1 hin
    · exact (h1 n' hn').1.1 hin
  rcases hl with hl | hl
  · left
    have hfun := (replace_effect hml hg).functional
    rw [replace, hl.functional] at hg
    exact feedsF_other hl (fun n hn => (hnodes n hn).1) hg hfun (hm _ (Or.inl rfl)) (hm _ (Or.inr rfl))
      (hrn _ (Or.inl rfl)) (hrn _ (Or.inr rfl))
  · right
    obtain ⟨rfl, hok⟩ := seq_step hfresh ht hf hr hg hl (hseq hl.functional)
    obtain ⟨pre, post, hpp, -⟩ := seq_match g hl.functional hl.unique _ _ _ _ hml hmt
    have special : ∀ cls, t.pattern = .mk cls [] [] → FeedsS (replaceSequential g m r) a b := by
      intro cls hp
      rw [hp] at hmt
      obtain ⟨l, w, i, rfl⟩ : ∃ l w i, m = .mk l w i [] := ⟨_, _, _, leaf_match hmt⟩
      exact feedsS_other hl hpp (hout _ (.root _)).1 (hout _ (.root _)).2 hok.model.unique hok.model.sequential
    rcases transforms_split auto c expand str1 str2 t ht with ⟨hp, -⟩ | ⟨hp, -⟩ | ⟨hp, -⟩ | ⟨hn, -⟩
    · exact special _ hp
    · exact special _ hp
    · exact special _ hp
    · exact feedsS_same hl hpp (unitSem (V := V))
        (pure_same (unitOps auto expand str1 str2) c t ht hn g _ _ _ _ _ _ hmt hr).1 hok.model.unique
        hok.model.sequential

/-- A step that replaces layers by layers of the same names. -/
theorem link_same {a b : String} (hl : Link g a b)
    (hseq : g.functional = false → SeqOk (unitSem (V := V)) auto names g0 g k)
    (hn : t.name ∉ ["InputLayerQuantize", "SeparableConv1DQuantize", "SeparableConvQuantize"])
    (hca : (nodeNames m).count a ≤ 1) (hcb : (nodeNames m).count b ≤ 1) : Link g' a b := by
  obtain ⟨hml, -, hmt⟩ := findPattern_some hf
  have hs := (pure_same (unitOps auto expand str1 str2) c t ht hn g _ _ _ _ _ _ hmt hr).1
  rcases hl with hl | hl
  · left
    have hfun := (replace_effect hml hg).functional
    have hmat := matched_of_find hl.functional hf
    rw [replace, hl.functional] at hg
    exact feedsF_same hl hmat unitSem hs hca hcb hg hfun
  · right
    obtain ⟨rfl, hok⟩ := seq_step hfresh ht hf hr hg hl (hseq hl.functional)
    obtain ⟨pre, post, hpp, -⟩ := seq_match g hl.functional hl.unique _ _ _ _ hml hmt
    exact feedsS_same hl hpp unitSem hs hok.model.unique hok.model.sequential

end

/-! ### The loops, with what is left to be tried -/

section
variable [DecidableEq U] [DecidableEq V] {c : Classes} {am : AModel V U}
  (hnd : (am.layers.map fun a => a.layer.name).Nodup)
  {auto : String → ℕ → String} {expand : V → V} {str1 str2 : String → String}

include hnd in
theorem loop_run (metaEq : Meta U → Meta U → Bool)
    (hfresh : Spec.FreshNames auto (am.layers.map fun a => a.layer.name))
    (J : Loop V (Meta U) → Prop)
    (hagain : ∀ s, ApplyInv c am s.graph → J s → s.rest = [] →
      J { s with rest := transforms auto c expand str1 str2, found := false })
    (hmiss : ∀ s t tl, ApplyInv c am s.graph → J s → s.rest = t :: tl →
      findPattern s.graph t.pattern (matchedBy s.matched t.name) = none → J { s with rest := tl })
    (hidle : ∀ s s' t tl m r k, ApplyInv c am s.graph → J s → s.rest = t :: tl →
      t ∈ transforms auto c expand str1 str2 →
      findPattern s.graph t.pattern (matchedBy s.matched t.name) = some m →
      t.replacement s.supply m = .ok (r, k) → Node.beq metaEq m r = true →
      s'.rest = s.rest → s'.matched = s.matched ++ [(t.name, m.name)] → s'.supply = k → s'.graph = s.graph → J s')
    (hstep : ∀ s s' t tl m r k, ApplyInv c am s.graph → J s → s.rest = t :: tl →
      ReplaceStep c am auto expand str1 str2 s.graph t m r s.supply k s'.graph →
      findPattern s.graph t.pattern (matchedBy s.matched t.name) = some m →
      Node.beq metaEq m r = false → replace s.graph m r = .ok s'.graph →
      s'.rest = s.rest → s'.matched = s.matched ++ [(t.name, m.name)] → s'.supply = k → J s') :
    ∀ fuel (s : Loop V (Meta U)) g', ApplyInv c am s.graph → J s →
    (∀ t ∈ s.rest, t ∈ transforms auto c expand str1 str2) →
    run metaEq (transforms auto c expand str1 str2) fuel s = some (.ok g') →
    ApplyInv c am g' ∧ ∃ s', J s' ∧ s'.graph = g' ∧ s'.rest = [] := by
  intro fuel
  induction fuel with
  | zero => intro s g' _ _ _ h; simp [run] at h
  | succ fuel ih =>
    intro s g' hok hj hrest h
    rw [run] at h
    split at h
    · rename_i s' hturn
      have hboth : ApplyInv c am s'.graph ∧ J s' := by
        rcases turn_next hturn with ⟨hnil, -, rfl⟩ | ⟨t, tl, hr, hnone, rfl⟩ |
          ⟨t, tl, m, r, k, hr, hfind, hrep, hrs, hmat, hsup, ⟨hbeq, hg, -⟩ | ⟨hbeq, hg, -⟩⟩
        · exact ⟨hok, hagain s hok hj hnil⟩
        · exact ⟨hok, hmiss s t tl hok hj hr hnone⟩
        · refine ⟨by rw [hg]; exact hok, ?_⟩
          exact hidle s s' t tl m r k hok hj hr (hrest t (by rw [hr]; simp)) hfind hrep hbeq hrs hmat hsup hg
        · have ht : t ∈ transforms auto c expand str1 str2 := hrest t (by rw [hr]; simp)
          obtain ⟨hml, -, hmt⟩ := findPattern_some hfind
          have hsep : ∀ l ∈ s.graph.layers, l.cls ∈ ["SeparableConv1D", "ReLU", "Activation",
              "InputLayer", "Concatenate"] → ∃ a ∈ am.layers, a.layer.name = l.name ∧ a.layer.cls = l.cls := by
            intro l hl hc
            rcases hok.layers l hl with ⟨a, ha, e1, e2, -⟩ | ⟨-, e2, -⟩
            · exact ⟨a, ha, e1, e2⟩
            · exact absurd hc e2
          have hcand : ∀ n, Spec.InTree n m → n.name ∈ s.graph.candidates := by
            intro n hn
            rcases matchTree_candidates _ _ _ _ _ hmt n hn with h | h
            · exact absurd h hok.candidates
            · exact h
          have hstep' : StepOk c (am.layers.map fun a => a.layer.name)
              (m.layer.cls = "ReLU" ∨ m.layer.cls = "Activation") m r := by
            refine transforms_step c hfresh ht hok.newline ?_ hfind hrep
            intro l hl hc
            obtain ⟨a, ha, e1, -⟩ := hsep l hl (by rw [hc]; simp)
            rw [← e1]; exact List.mem_map_of_mem ha
          have heff := replace_effect hml hg
          have hnodes := matchTree_nodes _ _ _ _ _ hml hmt
          refine ⟨apply_step hnd hok (m := m) (r := r)
            (relu := m.layer.cls = "ReLU" ∨ m.layer.cls = "Activation") ?_ hnodes hcand hstep' heff, ?_⟩
          · intro hre
            obtain ⟨a, ha, e1, e2⟩ := hsep _ hml (by rcases hre with h | h <;> rw [h] <;> simp)
            refine ⟨a, ha, ?_, by rw [e2]; exact hre⟩
            by_contra hnone
            refine hok.untouched a ha (by simpa using hnone) ?_ ?_
            · rw [e2]; rcases hre with h | h <;> rw [h] <;> intro hh <;> exact absurd hh (by decide)
            · rw [e1]; exact hcand m (Spec.InTree.root m)
          · exact hstep s s' t tl m r k hok hj hr ⟨ht, ⟨_, hfind⟩, hrep, heff, hnodes, hcand, hstep'⟩ hfind hbeq hg
              hrs hmat hsup
      refine ih s' g' hboth.1 hboth.2 ?_ h
      rcases turn_next hturn with ⟨-, -, rfl⟩ | ⟨t, tl, hr, -, rfl⟩ |
          ⟨t, tl, m, r, k, hr, hfind, hrep, hrest', -⟩
      · exact fun t ht => ht
      · exact fun t' ht' => hrest t' (by rw [hr]; simp only [List.mem_cons]; exact Or.inr ht')
      · rw [hrest']; exact hrest
    · rename_i g hturn
      simp only [Option.some.injEq, Except.ok.injEq] at h
      subst h
      rw [turn_done hturn]
      refine ⟨hok, s, hj, rfl, ?_⟩
      rw [turn] at hturn
      split at hturn
      · assumption
      · split at hturn
        · simp at hturn
        · split at hturn
          · simp at hturn
          · split at hturn
            · simp at hturn
            · split at hturn <;> simp at hturn
    · simp at h

end

end Aux
end Verif.Props
