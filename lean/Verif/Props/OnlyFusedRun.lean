import Verif.Props.OnlyFusedSteps

/-
C115, part 3: what holds of every layer without a quantizer of its output while the loops run.
-/
set_option linter.unusedSectionVars false
set_option linter.unusedSimpArgs false

namespace Verif.Props
open Verif.Quant.Regex Verif.Quant.Transformer Verif.Quant.Transforms8Bit Verif.Quant.Apply

variable {V U M Val : Type}

namespace Aux

mutual
theorem same_nodes (sem : Spec.Semantics V Val) {inb : Prop} : ∀ n n' : Node V M, Same sem inb n n' →
    (∀ x, Spec.InTree x n → ∃ x', Spec.InTree x' n' ∧ x'.name = x.name ∧ x'.layer.cls = x.layer.cls) ∧
    (∀ x, Spec.InTree x n' → ∃ x', Spec.InTree x' n ∧ x'.name = x.name ∧ x'.layer.cls = x.layer.cls)
  | .mk l w i ins, .mk l' w' i' ins' => by
    intro h
    rw [Same] at h
    obtain ⟨h1, h2⟩ := sameList_nodes sem ins ins' h.2
    refine ⟨?_, ?_⟩
    · intro x hx
      cases hx with
      | root => exact ⟨_, .root _, h.1.1.symm, h.1.2.1.symm⟩
      | child hc hx =>
        obtain ⟨c, hc', x', hx', e⟩ := h1 _ hc x hx
        exact ⟨x', .child hc' hx', e⟩
    · intro x hx
      cases hx with
      | root => exact ⟨_, .root _, h.1.1, h.1.2.1⟩
      | child hc hx =>
        obtain ⟨c, hc', x', hx', e⟩ := h2 _ hc x hx
        exact ⟨x', .child hc' hx', e⟩
theorem sameList_nodes (sem : Spec.Semantics V Val) {inb : Prop} : ∀ ns ns' : List (Node V M), SameList sem inb ns ns' →
    (∀ d ∈ ns, ∀ x, Spec.InTree x d → ∃ c ∈ ns', ∃ x', Spec.InTree x' c ∧ x'.name = x.name ∧ x'.layer.cls = x.layer.cls) ∧
    (∀ d ∈ ns', ∀ x, Spec.InTree x d → ∃ c ∈ ns, ∃ x', Spec.InTree x' c ∧ x'.name = x.name ∧ x'.layer.cls = x.layer.cls)
  | [], [] => by intro _; simp
  | [], _ :: _ => by intro h; rw [SameList] at h; exact h.elim
  | _ :: _, [] => by intro h; rw [SameList] at h; exact h.elim
  | n :: ns, n' :: ns' => by
    intro h
    rw [SameList] at h
    obtain ⟨a1, a2⟩ := same_nodes sem n n' h.1
    obtain ⟨b1, b2⟩ := sameList_nodes sem ns ns' h.2
    refine ⟨?_, ?_⟩
    · intro d hd x hx
      rcases List.mem_cons.1 hd with rfl | hd
      · obtain ⟨x', hx', e⟩ := a1 x hx
        exact ⟨n', by simp, x', hx', e⟩
      · obtain ⟨c, hc, x', hx', e⟩ := b1 d hd x hx
        exact ⟨c, by simp [hc], x', hx', e⟩
    · intro d hd x hx
      rcases List.mem_cons.1 hd with rfl | hd
      · obtain ⟨x', hx', e⟩ := a2 x hx
        exact ⟨n, by simp, x', hx', e⟩
      · obtain ⟨c, hc, x', hx', e⟩ := b2 d hd x hx
        exact ⟨c, by simp [hc], x', hx', e⟩
end

/-- The layers that the transforms make up. -/
def MadeUp (auto : String → ℕ → String) (names : List String) (name cls : String) : Prop :=
  (cls = "SeparableConv2D" ∧ ∃ x ∈ names, name = x ++ "_QAT_SepConv2D") ∨
  (cls ∈ ["QuantizeLayer", "Lambda", "DepthwiseConv2D", "Conv2D"] ∧ ∃ p j, name = auto p j)

theorem madeUp_fresh {auto : String → ℕ → String} {names : List String} (hfresh : Spec.FreshNames auto names)
    {name cls : String} (h : MadeUp auto names name cls) : name ∉ names := by
  rcases h with ⟨-, x, hx, rfl⟩ | ⟨-, p, j, rfl⟩
  · exact (hfresh.suffix x hx).1
  · exact hfresh.fresh p j

theorem sep1D_new {auto : String → ℕ → String} {expand : V → V} {str1 str2 : String → String} {names : List String}
    {k : ℕ} {m r : Node V (Meta U)} {k' : ℕ} (hm : m.name ∈ names)
    (h : replaceSepConv1D auto expand str1 str2 k m = .ok (r, k')) :
    r = m ∨ ∀ n', Spec.InTree n' r → MadeUp auto names n'.name n'.layer.cls := by
  rw [replaceSepConv1D] at h
  split at h
  · simp only [Except.ok.injEq, Prod.mk.injEq] at h
    exact Or.inl h.1.symm
  split at h
  · simp at h
  · right
    simp only [Except.ok.injEq, Prod.mk.injEq] at h
    rw [← h.1]
    intro n' hn'
    rcases inTree_cases.1 hn' with rfl | hn'
    · exact Or.inr ⟨by simp [Node.layer], _, _, rfl⟩
    rcases inTree_cases.1 hn' with rfl | hn'
    · exact Or.inl ⟨rfl, _, hm, rfl⟩
    · rw [inTree_single.1 hn']
      exact Or.inr ⟨by simp [Node.layer], _, _, rfl⟩

theorem sep2D_new {auto : String → ℕ → String} {names : List String}
    {k : ℕ} {m r : Node V (Meta U)} {k' : ℕ} (h : replaceSepConv auto k m = .ok (r, k')) :
    r = m ∨ ∀ n', Spec.InTree n' r → MadeUp auto names n'.name n'.layer.cls := by
  rw [replaceSepConv] at h
  split at h
  · simp only [Except.ok.injEq, Prod.mk.injEq] at h
    exact Or.inl h.1.symm
  · right
    simp only [Except.ok.injEq, Prod.mk.injEq] at h
    rw [← h.1]
    intro n' hn'
    rcases inTree_cases.1 hn' with rfl | hn'
    · exact Or.inr ⟨by simp [Node.layer], _, _, rfl⟩
    · rw [inTree_single.1 hn']
      exact Or.inr ⟨by simp [Node.layer], _, _, rfl⟩

/-- Classes that no layer has that absorbs the output of another one. -/
theorem absorbP_not {name cls : String} (h : AbsorbP name cls) :
    cls ∉ ["InputLayer", "SeparableConv1D", "SeparableConv2D", "QuantizeLayer", "DepthwiseConv2D", "Conv2D"] := by
  intro hc
  simp only [List.mem_cons, List.not_mem_nil, or_false] at hc
  rcases hc with rfl | rfl | rfl | rfl | rfl | rfl <;>
  · rcases h with h | h | h | h | h | ⟨h, -⟩
    · revert h; decide
    all_goals exact absurd h (by decide)

section
variable [DecidableEq U] [DecidableEq V] (auto : String → ℕ → String) (am : AModel V U)

/-- What is known of the layer that absorbs, whatever the loops do. -/
def Absorber (b : String) : Prop :=
  (∀ a0 ∈ am.layers, a0.layer.name = b → a0.annotation.isSome = true ∧ AbsorbP b a0.layer.cls ∧
    (a0.layer.cls = "Activation" → Spec.Absorbs a0.layer)) ∧
  (b ∉ am.layers.map (fun a => a.layer.name) → ∃ p j, b = auto p j)

/-- The output of `a` goes to a layer that absorbs it, and nowhere else. -/
def OnlyTo (g : Graph V (Meta U)) (a : String) : Prop :=
  ∃ b, (SoleF AbsorbP g a b ∨ (FeedsS g a b ∧ ∃ y ∈ g.layers, y.name = b ∧ AbsorbP b y.cls)) ∧ Absorber auto am b

/-- The output of the layer is not quantized, so far. -/
def OffL (g : Graph V (Meta U)) (l : Layer) : Prop :=
  l.get "activation" = noOpActivation ∨ ∃ q, configOf g l.name = some q ∧ (q.kind = .noOp ∨ q.outputOff = true)

/-- What holds while the loops run. -/
structure OnlyInv (g : Graph V (Meta U)) (k : ℕ) : Prop where
  functional : g.functional = am.functional
  seq : g.functional = false →
    SeqOk (unitSem (V := V)) auto (am.layers.map fun a => a.layer.name) (unwrap am) g k
  new : ∀ l ∈ g.layers, l.name ∉ am.layers.map (fun a => a.layer.name) →
    MadeUp auto (am.layers.map fun a => a.layer.name) l.name l.cls
  act : ∀ l ∈ g.layers, l.cls = "Activation" → ∃ a0 ∈ am.layers, a0.layer.name = l.name ∧ a0.layer.cls = l.cls ∧
    a0.layer.config = l.config
  off : ∀ l ∈ g.layers, ∀ a0 ∈ am.layers, a0.layer.name = l.name → a0.layer.cls ≠ "InputLayer" → OffL g l →
    a0.layer.get "activation" = noOpActivation ∨ OnlyTo auto am g l.name

end

section Step
variable [DecidableEq U] [DecidableEq V] {c : Classes} {am : AModel V U}
  (hnd : (am.layers.map fun a => a.layer.name).Nodup)
  {auto : String → ℕ → String} {expand : V → V} {str1 str2 : String → String}
  (hfresh : Spec.FreshNames auto (am.layers.map fun a => a.layer.name))
  {g g' : Graph V (Meta U)} {t : Transform V (Meta U)} {m r : Node V (Meta U)} {k k' : ℕ} {matched : List String}
  (hok : ApplyInv c am g) (hinv : OnlyInv auto am g k)
  (hs : ReplaceStep c am auto expand str1 str2 g t m r k k' g')
  (hfind : findPattern g t.pattern matched = some m) (hg : replace g m r = .ok g')
include hnd hfresh hok hinv hs hfind hg

theorem only_same (hsame : Same (unitSem (V := V)) False r m) {a : String} (ha : OnlyTo auto am g a) :
    OnlyTo auto am g' a := by
  obtain ⟨hml, -, hmt⟩ := findPattern_some hfind
  obtain ⟨b, hb, hst⟩ := ha
  refine ⟨b, ?_, hst⟩
  rcases hb with hb | ⟨hb, y, hy, hyb, hyc⟩
  · left
    have hg' := hg
    rw [replace, hb.functional] at hg'
    exact soleF_same hb (matched_of_find hb.functional hfind) unitSem hsame hg' hs.effect.functional
  · right
    obtain ⟨e, hseq⟩ := seq_step hfresh hs.mem hfind hs.replaced hg hb (hinv.seq hb.functional)
    obtain ⟨pre, post, hpp, -⟩ := seq_match g hb.functional hb.unique _ _ _ _ hml hmt
    refine ⟨?_, ?_⟩
    · rw [e]
      exact feedsS_same hb hpp unitSem hsame hseq.model.unique hseq.model.sequential
    · by_cases hym : y.name ∈ nodeNames m
      · obtain ⟨n, hn, hny⟩ := (mem_nodeNames _ _).1 hym
        obtain ⟨n', hn', e1, e2⟩ := (same_nodes _ _ _ hsame).2 n hn
        obtain ⟨y', hy', hs'⟩ := hs.effect.added n' hn'
        have : n.layer = y := nodup_map_inj hb.unique (hs.nodes n hn).1 hy hny
        refine ⟨y', hy', ?_, ?_⟩
        · rw [hs'.1]; exact (e1.trans hny).trans hyb
        · rw [hs'.2.1, e2, this]; exact hyc
      · obtain ⟨y', hy', hs'⟩ := hs.effect.kept y hy hym
        exact ⟨y', hy', hs'.1.trans hyb, by rw [hs'.2.1]; exact hyc⟩

theorem only_other {a : String} (hp : ∃ cls ∈ ["InputLayer", "SeparableConv1D", "SeparableConv2D"], t.pattern = .mk cls [] [])
    (han : a ∈ am.layers.map fun a => a.layer.name) (ham : a ∉ nodeNames m) (ha : OnlyTo auto am g a) :
    OnlyTo auto am g' a := by
  obtain ⟨hml, -, hmt⟩ := findPattern_some hfind
  obtain ⟨cls, hcls, hp⟩ := hp
  obtain ⟨b, hb, hst⟩ := ha
  have hmc : m.layer.cls = cls := by
    rw [hp] at hmt
    refine (C56_single _ _ ?_ (hok.newline _ hml)).1 (matchLayer_parts (matchTree_split hmt).1).1
    simp only [List.mem_cons, List.not_mem_nil, or_false] at hcls
    rcases hcls with rfl | rfl | rfl <;> decide +kernel
  have hleaf : ∃ l w i, m = .mk l w i [] := by
    rw [hp] at hmt
    exact ⟨_, _, _, leaf_match hmt⟩
  have hbm : m.name ≠ b := by
    intro he
    have hnot : ∀ {n}, ¬ AbsorbP n m.layer.cls := by
      intro n h
      have := absorbP_not h
      rw [hmc] at this
      simp only [List.mem_cons, List.not_mem_nil, or_false, not_or] at this hcls
      rcases hcls with rfl | rfl | rfl
      · exact this.1 rfl
      · exact this.2.1 rfl
      · exact this.2.2.1 rfl
    by_cases hbn : b ∈ am.layers.map fun a => a.layer.name
    · obtain ⟨a0, ha0, e⟩ := List.mem_map.1 hbn
      have h1 := (apply_layer hnd hok hml ha0 (he.trans e.symm)).1
      have h2 := (hst.1 a0 ha0 e).2.1
      rw [h1] at h2
      exact hnot h2
    · obtain ⟨p, j, hb'⟩ := hst.2 hbn
      have hne : m.layer.name = auto p j := he.trans hb'
      rcases hinv.new _ hml (by rw [show m.layer.name = b from he]; exact hbn) with ⟨-, x, hx, h⟩ | ⟨h, -⟩
      · exact (hfresh.suffix x hx).2 p j (h.symm.trans hne)
      · rw [hmc] at h
        simp only [List.mem_cons, List.not_mem_nil, or_false] at hcls
        rcases hcls with rfl | rfl | rfl <;> simp at h
  have hbm' : b ∉ nodeNames m := by
    obtain ⟨l, w, i, rfl⟩ := hleaf
    intro h
    obtain ⟨n, hn, he⟩ := (mem_nodeNames _ _).1 h
    rw [inTree_leaf hn] at he
    exact hbm he
  have hne : ∀ n, Spec.InTree n m → n.name ≠ a := fun n hn he => ham ((mem_nodeNames _ _).2 ⟨n, hn, he⟩)
  have har : a ∉ nodeNames r := by
    intro h
    obtain ⟨n, hn, he⟩ := (mem_nodeNames _ _).1 h
    exact keep_names hs.effect hs.step han hne n hn he
  refine ⟨b, ?_, hst⟩
  rcases hb with hb | ⟨hb, y, hy, hyb, hyc⟩
  · left
    have hg' := hg
    rw [replace, hb.functional] at hg'
    exact soleF_other hb (fun n hn => (hs.nodes n hn).1) hg' hs.effect.functional ham hbm' har
  · right
    obtain ⟨e, hseq⟩ := seq_step hfresh hs.mem hfind hs.replaced hg hb (hinv.seq hb.functional)
    obtain ⟨pre, post, hpp, -⟩ := seq_match g hb.functional hb.unique _ _ _ _ hml hmt
    refine ⟨?_, ?_⟩
    · rw [e]
      rw [e] at *
      obtain ⟨l, w, i, rfl⟩ := hleaf
      exact feedsS_other hb hpp (hne _ (.root _)) hbm hseq.model.unique hseq.model.sequential
    · obtain ⟨y', hy', hs'⟩ := hs.effect.kept y hy (by rw [hyb]; exact hbm')
      exact ⟨y', hy', hs'.1.trans hyb, by rw [hs'.2.1]; exact hyc⟩

/-- The three kinds of steps. -/
theorem step_kinds :
    (t.name ∉ ["InputLayerQuantize", "SeparableConv1DQuantize", "SeparableConvQuantize"] ∧
      Same (unitSem (V := V)) False r m) ∨ r = m ∨
    ((∃ cls ∈ ["InputLayer", "SeparableConv1D", "SeparableConv2D"], t.pattern = .mk cls [] []) ∧
      ∀ n', Spec.InTree n' r → n' = m ∧ m.layer.cls = "InputLayer" ∨
        MadeUp auto (am.layers.map fun a => a.layer.name) n'.name n'.layer.cls) := by
  obtain ⟨hml, -, hmt⟩ := findPattern_some hfind
  have hmc : ∀ cls ∈ ["InputLayer", "SeparableConv1D", "SeparableConv2D"], t.pattern = .mk cls [] [] →
      m.layer.cls = cls := by
    intro cls hcls hp
    rw [hp] at hmt
    refine (C56_single _ _ ?_ (hok.newline _ hml)).1 (matchLayer_parts (matchTree_split hmt).1).1
    simp only [List.mem_cons, List.not_mem_nil, or_false] at hcls
    rcases hcls with rfl | rfl | rfl <;> decide +kernel
  have hleaf : ∀ cls, t.pattern = .mk cls [] [] → ∃ l w i, m = .mk l w i [] := by
    intro cls hp
    rw [hp] at hmt
    exact ⟨_, _, _, leaf_match hmt⟩
  have hrep := hs.replaced
  rcases transforms_split auto c expand str1 str2 t hs.mem with ⟨hp, hr⟩ | ⟨hp, hr⟩ | ⟨hp, hr⟩ | ⟨hn, -⟩
  · right; right
    refine ⟨⟨_, by simp, hp⟩, ?_⟩
    rw [hr, replaceInput] at hrep
    simp only [Except.ok.injEq, Prod.mk.injEq] at hrep
    rw [← hrep.1]
    intro n' hn'
    have hcls := hmc _ (by simp) hp
    obtain ⟨l, w, i, rfl⟩ := hleaf _ hp
    rcases inTree_cases.1 hn' with rfl | hn'
    · exact Or.inr (Or.inr ⟨by simp [Node.layer], _, _, rfl⟩)
    · exact Or.inl ⟨inTree_single.1 hn', hcls⟩
  · right
    have hcls := hmc _ (by simp) hp
    have hmn : m.name ∈ am.layers.map fun a => a.layer.name := by
      rcases hok.layers _ hml with ⟨a, ha, e1, -⟩ | ⟨-, e2, -⟩
      · rw [Node.name, ← e1]; exact List.mem_map_of_mem ha
      · rw [hcls] at e2; simp at e2
    rw [hr] at hrep
    rcases sep1D_new hmn hrep with h | h
    · exact Or.inl h
    · exact Or.inr ⟨⟨_, by simp, hp⟩, fun n' hn' => Or.inr (h n' hn')⟩
  · right
    rw [hr] at hrep
    rcases sep2D_new (names := am.layers.map fun a => a.layer.name) hrep with h | h
    · exact Or.inl h
    · exact Or.inr ⟨⟨_, by simp, hp⟩, fun n' hn' => Or.inr (h n' hn')⟩
  · exact Or.inl ⟨hn, (pure_same (unitOps auto expand str1 str2) c t hs.mem hn g _ _ _ _ _ _ hmt hs.replaced).1⟩

theorem only_step : OnlyInv auto am g' k' := by
  obtain ⟨hml, -, hmt⟩ := findPattern_some hfind
  have hkinds := step_kinds hnd hfresh hok hinv hs hfind hg
  -- a layer of the match
  have hcls : ∀ {n : Node V (Meta U)}, Spec.InTree n m → ∀ a0 ∈ am.layers, a0.layer.name = n.name →
      a0.layer.cls = n.layer.cls :=
    fun hn a0 ha0 e => (apply_layer hnd hok (hs.nodes _ hn).1 ha0 e.symm).1
  refine ⟨hs.effect.functional.trans hinv.functional, seq_next hfresh hs.mem hfind hs.replaced hg hs.effect.functional hinv.seq, ?_, ?_, ?_⟩
  · intro l' hl' hnew
    rcases hs.effect.only l' hl' with ⟨l, hl, -, h1, h2, -⟩ | ⟨n', hn', h1, h2, -⟩
    · rw [h1] at hnew
      rw [h1, h2]
      exact hinv.new l hl hnew
    · rw [h1] at hnew
      rw [h1, h2]
      have old : ∀ n, Spec.InTree n m → n.name = n'.name → n.layer.cls = n'.layer.cls →
          MadeUp auto (am.layers.map fun a => a.layer.name) n'.layer.name n'.layer.cls := by
        intro n hn e1 e2
        have := hinv.new n.layer (hs.nodes n hn).1 (by rw [show n.layer.name = n'.layer.name from e1]; exact hnew)
        rw [show n.layer.name = n'.layer.name from e1, e2] at this
        exact this
      rcases hkinds with ⟨-, hsame⟩ | hrm | ⟨-, h⟩
      · obtain ⟨n, hn, e1, e2⟩ := (same_nodes _ _ _ hsame).1 n' hn'
        exact old n hn e1 e2
      · exact old n' (hrm ▸ hn') rfl rfl
      · rcases h n' hn' with ⟨h, -⟩ | h
        · exact old n' (by rw [h]; exact .root _) rfl rfl
        · exact h
  · intro l' hl' hc
    rcases hs.effect.only l' hl' with ⟨l, hl, -, h1, h2, h3⟩ | ⟨n', hn', h1, h2, h3⟩
    · rw [h1, h2, h3]
      exact hinv.act l hl (h2.symm.trans hc)
    · rw [h1, h2, h3]
      have hc' : n'.layer.cls = "Activation" := h2.symm.trans hc
      have hnot : ¬ NewNode (am.layers.map fun a => a.layer.name) n' := by
        intro h
        have := h.2.1
        rw [hc'] at this
        simp at this
      rcases hs.step with ⟨s1, -⟩ | ⟨s1, -⟩
      · rcases s1 n' hn' with ⟨n, hn, hst⟩ | ⟨h, -⟩
        · have hcn : n.layer.cls = "Activation" := hst.cls.symm.trans hc'
          obtain ⟨a0, ha0, e1, e2, e3⟩ := hinv.act n.layer (hs.nodes n hn).1 hcn
          refine ⟨a0, ha0, e1.trans hst.name.symm, e2.trans hst.cls.symm, e3.trans ?_⟩
          rcases hst.config with h | h | h
          · exact h.symm
          · rw [hcn] at h; exact absurd h (by decide +kernel)
          · rw [hcn] at h; exact absurd h (by decide +kernel)
        · exact absurd h hnot
      · exact absurd (s1 n' hn').1 hnot
  · intro l' hl' a0 ha0 hname hin hoff
    have hmem : l'.name ∈ am.layers.map fun a => a.layer.name := by
      rw [← hname]; exact List.mem_map_of_mem ha0
    -- whatever was so before stays
    have keep : OnlyTo auto am g l'.name → OnlyTo auto am g' l'.name := by
      intro ho
      rcases hkinds with ⟨-, hsame⟩ | hrm | ⟨hp, h⟩
      · exact only_same hnd hfresh hok hinv hs hfind hg hsame ho
      · exact only_same hnd hfresh hok hinv hs hfind hg (by rw [hrm]; exact same_refl _ _ _) ho
      · refine only_other hnd hfresh hok hinv hs hfind hg hp hmem ?_ ho
        intro hm
        rcases hs.effect.only l' hl' with ⟨l, hl, hn, h1, -⟩ | ⟨n', hn', h1, h2, -⟩
        · rw [h1] at hm; exact hn hm
        · rcases h n' hn' with ⟨e, hc⟩ | h'
          · have := hcls (.root m) a0 ha0 (by rw [hname, h1, e]; rfl)
            rw [hc] at this
            exact hin this
          · refine madeUp_fresh hfresh h' ?_
            rw [show n'.name = l'.name from h1.symm]
            exact hmem
    by_cases hm : ∀ n, Spec.InTree n m → n.name ≠ l'.name
    · obtain ⟨k1, k2⟩ := keep_other hs.effect hs.step hmem hm
      obtain ⟨l, hl, hsl⟩ := k1 l' hl' rfl
      have hoff' : OffL g l := by
        rcases hoff with h | h
        · left; rw [← get_same hsl]; exact h
        · right
          rw [configOf, k2] at h
          rw [configOf, ← hsl.1]
          exact h
      rcases hinv.off l hl a0 ha0 (hname.trans hsl.1) hin hoff' with h | h
      · exact Or.inl h
      · rw [← hsl.1] at h
        exact Or.inr (keep h)
    · -- some node of the replacement has that name and is not quantized
      have hex : ∃ n', Spec.InTree n' r ∧ n'.name = l'.name ∧ OffN n' := by
        rcases hoff with h | ⟨q, hq, hk⟩
        · rcases hs.effect.only l' hl' with ⟨l, hl, hn, h1, -⟩ | ⟨n', hn', hsl⟩
          · exfalso
            refine hm fun n hn' he => hn ?_
            rw [← h1, ← he]
            exact (mem_nodeNames _ _).2 ⟨n, hn', rfl⟩
          · exact ⟨n', hn', hsl.1.symm, Or.inl (by rw [← get_same hsl]; exact h)⟩
        · rcases hs.effect.info l'.name with ⟨n', hn', he, -, hi⟩ | ⟨-, hi⟩
          · refine ⟨n', hn', he, Or.inr ⟨q, ?_, hk⟩⟩
            rw [configOf, hi] at hq
            exact hq
          · exfalso
            rw [configOf, hi, if_pos] at hq
            · simp [get_default] at hq
            · by_contra hnot
              exact hm fun n hn he => hnot ((mem_nodeNames _ _).2 ⟨n, hn, he⟩)
      obtain ⟨n', hn', hen, hoff'⟩ := hex
      have back : ∀ n, Spec.InTree n m → n.name = n'.name → OffN n →
          a0.layer.get "activation" = noOpActivation ∨ OnlyTo auto am g' l'.name := by
        intro n hn he ho
        have hnl : n.layer.name = l'.name := he.trans hen
        have : OffL g n.layer := by
          rcases ho with h | ⟨q, hq, hk⟩
          · exact Or.inl h
          · refine Or.inr ⟨q, ?_, hk⟩
            rw [(hs.nodes n hn).2.2] at hq
            exact hq
        rcases hinv.off n.layer (hs.nodes n hn).1 a0 ha0 (hname.trans hnl.symm) hin this with h | h
        · exact Or.inl h
        · rw [hnl] at h
          exact Or.inr (keep h)
      rcases hkinds with ⟨hn, hsame⟩ | hrm | ⟨hp, h⟩
      · obtain ⟨n, hnm, he, ho⟩ := off_transform auto c expand str1 str2 t hs.mem hn _ _ m _ r _ hmt
          (fun n hn => hok.newline _ (hs.nodes n hn).1) hs.replaced n' hn'
        rcases ho hoff' with ho | ⟨b, hb, hnb, hab⟩
        · exact back n hnm he ho
        · right
          refine keep ⟨b.name, ?_, ?_, ?_⟩
          · rw [← hen, ← he]
            cases hf : g.functional with
            | true => exact Or.inl (soleF_create hf hml hmt hb hnb (absorbs_P hab))
            | false =>
              exact Or.inr ⟨feedsS_create hf (hinv.seq hf).model.unique hml hmt hb hnb, b.layer, (hs.nodes b hb).1, rfl,
                absorbs_P hab⟩
          · intro x hx hxb
            have hxc := hcls hb x hx hxb
            refine ⟨?_, ?_, ?_⟩
            · by_contra hnone
              refine hok.untouched x hx (by simpa using hnone) ?_ (by rw [hxb]; exact hs.candidates b hb)
              intro hxi
              exfalso
              have := absorbP_not (absorbs_P hab)
              rw [← hxc, hxi] at this
              simp at this
            · rw [hxc]; exact absorbs_P hab
            · intro hxa
              obtain ⟨z, hz, e1, e2, e3⟩ := hinv.act b.layer (hs.nodes b hb).1 (hxc.symm.trans hxa)
              have hzx : z = x := same_alayer hnd hz hx (e1.trans hxb.symm)
              subst hzx
              have : z.layer.get "activation" = b.layer.get "activation" := by
                rw [Layer.get, Layer.get, e3, if_neg (by decide), if_neg (by decide)]
              rcases hab with h | h | h | h | h | h
              · rw [← e2, hxa] at h; exact absurd h (by decide)
              · rw [← e2, hxa] at h; exact absurd h (by decide)
              · rw [← e2, hxa] at h; exact absurd h (by decide)
              · rw [← e2, hxa] at h; exact absurd h (by decide)
              · rw [← e2, ← e3] at h
                exact Or.inr (Or.inr (Or.inr (Or.inr (Or.inl h))))
              · rw [← e2, hxa] at h; exact absurd h.1 (by decide)
          · intro hbn
            rcases hinv.new b.layer (hs.nodes b hb).1 hbn with ⟨h, -⟩ | ⟨-, h⟩
            · have := absorbP_not (absorbs_P hab)
              rw [h] at this
              simp at this
            · exact h
      · exact back n' (hrm ▸ hn') rfl hoff'
      · rcases h n' hn' with ⟨e, hc⟩ | h'
        · have := hcls (.root m) a0 ha0 (by rw [hname, ← hen, e])
          rw [hc] at this
          exact absurd this hin
        · refine absurd ?_ (madeUp_fresh hfresh h')
          rw [hen]
          exact hmem

end Step

section Run
variable [DecidableEq U] [DecidableEq V] {c : Classes} {am : AModel V U}
  (hnd : (am.layers.map fun a => a.layer.name).Nodup)
  {auto : String → ℕ → String} {expand : V → V} {str1 str2 : String → String}
  (hfresh : Spec.FreshNames auto (am.layers.map fun a => a.layer.name))
include hnd hfresh

theorem only_start (hseq : am.functional = false → Spec.SequentialModel (unwrap am)) :
    OnlyInv auto am (unwrap am) 0 := by
  have hmap : ((unwrap am).layers.map (·.name)) = am.layers.map fun a => a.layer.name := by
    simp [unwrap, List.map_map, Function.comp_def]
  refine ⟨rfl, ?_, ?_, ?_, ?_⟩
  · intro hf
    refine ⟨hseq hf, ⟨fun l hl => Or.inl ?_, fun l hl _ => ?_⟩, fun _ => rfl⟩ <;>
      (rw [← hmap]; exact List.mem_map_of_mem hl)
  · intro l hl hn
    obtain ⟨a, ha, rfl⟩ := List.mem_map.1 hl
    exact absurd (List.mem_map_of_mem ha) hn
  · intro l hl _
    obtain ⟨a, ha, rfl⟩ := List.mem_map.1 hl
    exact ⟨a, ha, rfl, rfl, rfl⟩
  · intro l hl a0 ha0 hname hin hoff
    obtain ⟨a, ha, rfl⟩ := List.mem_map.1 hl
    obtain rfl := same_alayer hnd ha0 ha hname
    rcases hoff with h | ⟨q, hq, hk⟩
    · exact Or.inl h
    · exfalso
      rw [configOf, show (unwrap am).metadata a0.layer.name = quantizeMap am a0.layer.name from rfl,
        quantizeMap_eq hnd ha0, mapEntry] at hq
      cases hann : a0.annotation with
      | none =>
        rw [hann] at hq
        dsimp only at hq
        split at hq
        · simp [Meta.get] at hq
        · rw [Option.getD_none, get_default] at hq
          simp at hq
      | some cfg =>
        rw [hann] at hq
        cases cfg with
        | none => simp [Meta.get] at hq
        | some u =>
          simp only [Option.getD_some, Meta.get, Option.map_some, Option.some.injEq] at hq
          subst hq
          rcases hk with h | h <;> simp at h

theorem only_run (metaEq : Meta U → Meta U → Bool) (hseq : am.functional = false → Spec.SequentialModel (unwrap am))
    (hstart : ApplyInv c am (unwrap am)) (fuel : ℕ) (g' : Graph V (Meta U))
    (hrun : run metaEq (transforms auto c expand str1 str2) fuel
      (start (transforms auto c expand str1 str2) (unwrap am)) = some (.ok g')) :
    ApplyInv c am g' ∧ ∃ k, OnlyInv auto am g' k := by
  suffices h : ApplyInv c am g' ∧ ∃ s' : Loop V (Meta U), OnlyInv auto am s'.graph s'.supply ∧ s'.graph = g' ∧
      s'.rest = [] by
    obtain ⟨h1, s', h2, h3, -⟩ := h
    exact ⟨h1, s'.supply, h3 ▸ h2⟩
  refine loop_run hnd metaEq hfresh (fun s => OnlyInv auto am s.graph s.supply)
    (fun s _ h _ => h) (fun s t tl _ h _ _ => h) ?_ ?_ fuel
    (start (transforms auto c expand str1 str2) (unwrap am)) g' hstart (only_start hnd hfresh hseq) (fun t ht => ht) hrun
  · intro s s' t tl m r k hok h _ ht hfind hrep _ _ _ hk hgr
    rw [hk, hgr]
    exact ⟨h.functional, fun hf => seqOk_mono (seq_step8 (unitOps auto expand str1 str2) hfresh c (h.seq hf) ht hfind hrep).1 (h.seq hf),
      h.new, h.act, h.off⟩
  · intro s s' t tl m r k hok h _ hs hfind _ hg _ _ hk
    rw [hk]
    exact only_step hnd hfresh hok h hs hfind hg

end Run

end Aux
end Verif.Props
