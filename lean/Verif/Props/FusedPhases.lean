import Verif.Props.FusedLoop

set_option linter.unusedSectionVars false

namespace Verif.Props
open Verif.Quant.Regex Verif.Quant.Transformer Verif.Quant.Transforms8Bit Verif.Quant.Apply

variable {V U M : Type}

namespace Aux

/-- The config that the loops have for a layer so far. -/
def configOf (g : Graph V (Meta U)) (x : String) : Option (QConfig U) := ((g.metadata x).getD default).get

theorem get_default : (default : Meta U).get = none := rfl

mutual
/-- Trees that compare equal have the same layers. -/
theorem beq_layers [DecidableEq V] (metaEq : M → M → Bool) : ∀ m r : Node V M, Node.beq metaEq m r = true →
    ∀ n, Spec.InTree n r → ∃ n', Spec.InTree n' m ∧ n'.layer = n.layer
  | .mk l w i ins, .mk l' w' i' ins' => by
    intro h n hn
    simp only [Node.beq, Bool.and_eq_true, decide_eq_true_eq] at h
    cases hn with
    | root => exact ⟨_, .root _, h.1.1.1⟩
    | child hc hn =>
      obtain ⟨c, hc', n', hn', e⟩ := beqList_layers metaEq ins ins' h.2 _ hc n hn
      exact ⟨n', .child hc' hn', e⟩
theorem beqList_layers [DecidableEq V] (metaEq : M → M → Bool) : ∀ ms rs : List (Node V M),
    Node.beqList metaEq ms rs = true → ∀ d ∈ rs, ∀ n, Spec.InTree n d →
    ∃ c ∈ ms, ∃ n', Spec.InTree n' c ∧ n'.layer = n.layer
  | [], [] => by intro _ d hd; simp at hd
  | [], _ :: _ => by intro h; simp [Node.beqList] at h
  | _ :: _, [] => by intro h; simp [Node.beqList] at h
  | m :: ms, r :: rs => by
    intro h d hd n hn
    rw [Node.beqList, Bool.and_eq_true] at h
    rcases List.mem_cons.1 hd with rfl | hd
    · obtain ⟨n', hn', e⟩ := beq_layers metaEq m d h.1 n hn
      exact ⟨m, by simp, n', hn', e⟩
    · obtain ⟨c, hc, n', hn', e⟩ := beqList_layers metaEq ms rs h.2 d hd n hn
      exact ⟨c, by simp [hc], n', hn', e⟩
end

mutual
theorem beq_refl [DecidableEq V] (metaEq : M → M → Bool) (h : ∀ i, metaEq i i = true) :
    ∀ m : Node V M, Node.beq metaEq m m = true
  | .mk l w i ins => by simp [Node.beq, h, beqList_refl metaEq h ins]
theorem beqList_refl [DecidableEq V] (metaEq : M → M → Bool) (h : ∀ i, metaEq i i = true) :
    ∀ ms : List (Node V M), Node.beqList metaEq ms ms = true
  | [] => rfl
  | m :: ms => by rw [Node.beqList, beq_refl metaEq h m, beqList_refl metaEq h ms]; rfl
end

section Keep
variable {c : Classes} {names : List String} {relu : Prop} {g g' : Graph V (Meta U)} {m r : Node V (Meta U)}
  (heff : Effect g m r g') (hstep : StepOk c names relu m r) {x : String} (hx : x ∈ names)
include heff hstep hx

theorem keep_names (hm : ∀ n, Spec.InTree n m → n.name ≠ x) : ∀ n, Spec.InTree n r → n.name ≠ x := by
  intro n' hn' he
  rcases hstep with ⟨h1, -⟩ | ⟨h1, -⟩
  · rcases h1 n' hn' with ⟨n, hn, hs⟩ | ⟨hnew, -⟩
    · exact hm n hn (hs.name.symm.trans he)
    · exact hnew.1 (he ▸ hx)
  · exact (h1 n' hn').1.1 (he ▸ hx)

/-- A layer that is not in the match stays as it is. -/
theorem keep_other (hm : ∀ n, Spec.InTree n m → n.name ≠ x) :
    (∀ l' ∈ g'.layers, l'.name = x → ∃ l ∈ g.layers, Spec.SameLayer l l') ∧ g'.metadata x = g.metadata x := by
  have hr := keep_names heff hstep hx hm
  refine ⟨?_, ?_⟩
  · intro l' hl' he
    rcases heff.only l' hl' with ⟨l, hl, -, hs⟩ | ⟨n, hn, hs⟩
    · exact ⟨l, hl, hs⟩
    · exact absurd (hs.1.symm.trans he) (hr n hn)
  · rcases heff.info x with ⟨n, hn, he, -⟩ | ⟨-, h⟩
    · exact absurd he (hr n hn)
    · rw [h, if_neg]
      intro hmem
      obtain ⟨n, hn, he⟩ := (mem_nodeNames _ _).1 hmem
      exact hm n hn he

/-- A no-op config stays. -/
theorem keep_noOp (hinfo : ∀ n, Spec.InTree n m → n.info = (g.metadata n.name).getD default) {q : QConfig U}
    (hq : configOf g x = some q) (hk : q.kind = .noOp) : ∃ q', configOf g' x = some q' ∧ q'.kind = .noOp := by
  by_cases hm : ∀ n, Spec.InTree n m → n.name ≠ x
  · rw [configOf, (keep_other heff hstep hx hm).2]
    exact ⟨q, hq, hk⟩
  · obtain ⟨n, hn, he⟩ : ∃ n, Spec.InTree n m ∧ n.name = x := by
      by_contra h
      exact hm fun n hn he => h ⟨n, hn, he⟩
    have hmeta : ∀ n, Spec.InTree n m → n.name = x → n.info.get = some q := by
      intro n hn he
      rw [hinfo n hn, he]; exact hq
    rcases hstep with ⟨h1, h2⟩ | ⟨-, h2⟩
    · have hnew : ∀ n n', NodeStep c relu n n' → Spec.InTree n m → n.name = x →
          ∃ q', n'.info.get = some q' ∧ q'.kind = .noOp := by
        intro n n' hs hn he
        obtain ⟨q', hq', hkk⟩ := hs.info.has q (hmeta n hn he)
        refine ⟨q', hq', ?_⟩
        rcases hkk with h | h
        · rw [h, hk]
        · exact h.2.2
      rcases heff.info x with ⟨n', hn', he', -, h⟩ | ⟨hdef, -⟩
      · rcases h1 n' hn' with ⟨n, hn, hs⟩ | ⟨hnew', -⟩
        · rw [configOf, h]
          exact hnew n n' hs hn (hs.name.symm.trans he')
        · exact absurd (he' ▸ hx) hnew'.1
      · obtain ⟨n', hn', hs⟩ := h2 n hn
        obtain ⟨q', hq', -⟩ := hnew n n' hs hn he
        rw [hdef n' hn' (hs.name.trans he), get_default] at hq'
        simp at hq'
    · have := (h2 n hn).2
      rw [hmeta n hn he] at this
      simp at this

end Keep

section Third
variable [Inhabited M] {g : Graph V M} {b d clsB clsD : String} {lin : Bool}

mutual
/-- A match without the layer `b` does not contain the layer `d`, which has the input `b` only. -/
theorem no_third (h2 : Two g b d clsB clsD lin) : ∀ (p : Pattern) (l : Layer) hd (m : Node V M), l ∈ g.layers →
    nowhere (leafHit clsD) p = true → matchTree g p l hd = some m →
    (∀ n, Spec.InTree n m → n.name ≠ b) → ∀ n, Spec.InTree n m → n.name ≠ d
  | .mk cls cfg ins, l, hd, m => by
    intro hl hno hm hb n hn
    rw [nowhere, Bool.and_eq_true, Bool.not_eq_true'] at hno
    have hld : l.name ≠ d := by
      intro hld
      rcases match_at_b h2 hl hld hm with h | h
      · cases ins with
        | nil => simp [patHit] at h
        | cons q qs =>
          cases qs with
          | cons _ _ => simp [patHit] at h
          | nil =>
            obtain ⟨x, n1, hx, hxb, hn1, rfl⟩ := match_pair h2 hl hld hm
            refine hb n1 (.child (List.mem_singleton.2 rfl) (.root n1)) ?_
            rw [Node.name, matchTree_layer hn1]; exact hxb
      · rw [hno.1] at h; simp at h
    obtain ⟨-, -, ⟨-, rfl⟩ | ⟨hne, ns, hns, rfl⟩⟩ := matchTree_split hm
    · cases hn with
      | root => exact hld
      | child hc _ => simp at hc
    · cases hn with
      | root => exact hld
      | child hc hn =>
        exact no_thirds h2 ins _ ns (getLayers_subset g _) hno.2 hns (fun c hc n hn => hb n (.child hc hn)) _ hc n hn
theorem no_thirds (h2 : Two g b d clsB clsD lin) : ∀ (ps : List Pattern) (ls : List Layer) (ns : List (Node V M)),
    (∀ l ∈ ls, l ∈ g.layers) → nowheres (leafHit clsD) ps = true →
    matchTrees g ps ls = some ns → (∀ c ∈ ns, ∀ n, Spec.InTree n c → n.name ≠ b) →
    ∀ c ∈ ns, ∀ n, Spec.InTree n c → n.name ≠ d
  | [], [], ns => by
    intro _ _ h
    simp only [matchTrees, Option.some.injEq] at h
    subst h; simp
  | [], _ :: _, ns => by intro _ _ h; simp [matchTrees] at h
  | _ :: _, [], ns => by intro _ _ h; simp [matchTrees] at h
  | p :: ps, l :: ls, ns => by
    intro hls hno h hb c hc n hn
    rw [matchTrees] at h
    rw [nowheres, Bool.and_eq_true] at hno
    obtain ⟨n0, h0, h1⟩ := Option.bind_eq_some_iff.1 h
    obtain ⟨ns', h2', rfl⟩ := Option.map_eq_some_iff.1 h1
    rcases List.mem_cons.1 hc with rfl | hc
    · exact no_third h2 p l false c (hls l (by simp)) hno.1 h0 (hb c (by simp)) n hn
    · exact no_thirds h2 ps ls ns' (fun x hx => hls x (by simp [hx])) hno.2 h2'
        (fun c hc => hb c (by simp [hc])) c hc n hn
end

end Third

/-! ### The phases -/

section Phases
variable [DecidableEq U] [DecidableEq V] {c : Classes} {am : AModel V U}
  (hnd : (am.layers.map fun a => a.layer.name).Nodup)
  {auto : String → ℕ → String} {expand : V → V} {str1 str2 : String → String}
  {A B : ALayer U} (hA : A ∈ am.layers) (hB : B ∈ am.layers)

/-- What is known of the loops as far as the two layers are concerned. -/
structure Base (auto : String → ℕ → String) (am : AModel V U) (a b : String) (g : Graph V (Meta U)) (k : ℕ) :
    Prop where
  link : Link g a b
  candA : a ∈ g.candidates
  candB : b ∈ g.candidates
  seq : g.functional = false →
    SeqOk (unitSem (V := V)) auto (am.layers.map fun a => a.layer.name) (unwrap am) g k

/-- The first layer has a linear activation, and neither layer has a config. -/
structure FusedBefore (a b : String) (g : Graph V (Meta U)) : Prop where
  act : ∀ l ∈ g.layers, l.name = a → l.get "activation" = "linear"
  metaA : configOf g a = none
  metaB : configOf g b = none

/-- The first layer has a no-op activation and no config (and, if so asked, the second one the no-op config). -/
structure FusedAfter (a b : String) (noop : Prop) (g : Graph V (Meta U)) : Prop where
  act : ∀ l ∈ g.layers, l.name = a → l.get "activation" = noOpActivation
  metaA : configOf g a = none
  metaB : noop → ∃ q, configOf g b = some q ∧ q.kind = .noOp

theorem get_same {l l' : Layer} (h : Spec.SameLayer l l') (key : String) : l'.get key = l.get key := by
  rw [Layer.get, Layer.get, h.1, h.2.2]

include hnd hA hB in
theorem two_of {g : Graph V (Meta U)} (hok : ApplyInv c am g) (hl : Link g A.layer.name B.layer.name) {lin : Bool}
    (hact : lin = false → ∀ l ∈ g.layers, l.name = A.layer.name → l.get "activation" = noOpActivation) :
    Two g A.layer.name B.layer.name A.layer.cls B.layer.cls lin :=
  ⟨link_feeds hl, fun _ h hn => (apply_layer hnd hok h hA hn).1.symm,
    fun _ h hn => (apply_layer hnd hok h hB hn).1.symm, hact⟩

theorem seq_next {g g' : Graph V (Meta U)} {t : Transform V (Meta U)} {m r : Node V (Meta U)} {k k' : ℕ}
    {matched : List String} {names : List String} {g0 : Graph V (Meta U)}
    (hfresh : Spec.FreshNames auto names)
    (ht : t ∈ transforms auto c expand str1 str2) (hfind : findPattern g t.pattern matched = some m)
    (hrep : t.replacement k m = .ok (r, k')) (hg : replace g m r = .ok g') (hfun : g'.functional = g.functional)
    (hseq : g.functional = false → SeqOk (unitSem (V := V)) auto names g0 g k) :
    g'.functional = false → SeqOk (unitSem (V := V)) auto names g0 g' k' := by
  intro hf
  rw [hfun] at hf
  have := (seq_step8 (unitOps auto expand str1 str2) hfresh c (hseq hf) ht hfind hrep).2
  rw [replace, hf] at hg
  simp only [Bool.false_eq_true, if_false, Except.ok.injEq] at hg
  rw [← hg]; exact this

theorem cand_next {g g' : Graph V (Meta U)} {m r : Node V (Meta U)} (hok : ApplyInv c am g) (heff : Effect g m r g')
    {x : String} (h : x ∈ g.candidates) : x ∈ g'.candidates :=
  ((heff.candidates.2 hok.candidates).2 x).2 (Or.inl h)

/-- A step that touches neither layer. -/
theorem base_other {a b : String} {g g' : Graph V (Meta U)} {t : Transform V (Meta U)} {m r : Node V (Meta U)} {k k' : ℕ}
    {matched : List String} (hfresh : Spec.FreshNames auto (am.layers.map fun a => a.layer.name))
    (hok : ApplyInv c am g) (hbase : Base auto am a b g k)
    (hs : ReplaceStep c am auto expand str1 str2 g t m r k k' g')
    (hfind : findPattern g t.pattern matched = some m) (hg : replace g m r = .ok g')
    (ha : a ∈ am.layers.map fun a => a.layer.name) (hb : b ∈ am.layers.map fun a => a.layer.name)
    (hout : ∀ n, Spec.InTree n m → n.name ≠ a ∧ n.name ≠ b) : Base auto am a b g' k' :=
  ⟨link_other hfresh hs.mem hfind hs.replaced hg hbase.link hbase.seq hs.step ha hb hout,
    cand_next hok hs.effect hbase.candA, cand_next hok hs.effect hbase.candB,
    seq_next hfresh hs.mem hfind hs.replaced hg hs.effect.functional hbase.seq⟩

theorem base_same {a b : String} {g g' : Graph V (Meta U)} {t : Transform V (Meta U)} {m r : Node V (Meta U)} {k k' : ℕ}
    {matched : List String} (hfresh : Spec.FreshNames auto (am.layers.map fun a => a.layer.name))
    (hok : ApplyInv c am g) (hbase : Base auto am a b g k)
    (hs : ReplaceStep c am auto expand str1 str2 g t m r k k' g')
    (hfind : findPattern g t.pattern matched = some m) (hg : replace g m r = .ok g')
    (hn : t.name ∉ ["InputLayerQuantize", "SeparableConv1DQuantize", "SeparableConvQuantize"])
    (hca : (nodeNames m).count a ≤ 1) (hcb : (nodeNames m).count b ≤ 1) : Base auto am a b g' k' :=
  ⟨link_same hfresh hs.mem hfind hs.replaced hg hbase.link hbase.seq hn hca hcb,
    cand_next hok hs.effect hbase.candA, cand_next hok hs.effect hbase.candB,
    seq_next hfresh hs.mem hfind hs.replaced hg hs.effect.functional hbase.seq⟩

end Phases

end Aux
end Verif.Props
