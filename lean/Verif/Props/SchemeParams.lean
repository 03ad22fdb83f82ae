import Verif.Props.Apply
import Verif.Props.QuantRegistry
import Verif.Quant.SchemeConfig

/-!
# C91: the parameters of the default schemes

`Default8BitQuantizeScheme(disable_per_axis)` and `DefaultNBitQuantizeScheme(disable_per_axis,
num_bits_weight, num_bits_activation)`.
-/

set_option linter.unusedSectionVars false

namespace Verif.Props
open Verif.Quant.Regex Verif.Quant.Transformer Verif.Quant.Transforms8Bit Verif.Quant.Apply
open Verif.Quant.Config (Registry Config KLayer Err Quantizer)
open Verif.Quant.SchemeConfig

variable {V U : Type}

namespace Spec

/-- The numbers of bits of a scheme, for weights and for activations. -/
def schemeBits (p : Params) : ℕ × ℕ := p.bits.getD (8, 8)

/-- Some annotated layer is a `Concatenate`. -/
def AnnotatedConcat (m : AModel V U) : Prop :=
  ∃ a ∈ m.layers, a.annotation.isSome = true ∧ a.layer.cls = "Concatenate"

/-- The activation functions after which the output of an `Activation` layer is quantized. -/
def schemeRelus (p : Params) : List String :=
  if p.bits.isSome then ["relu", "relu6", "swish"] else ["relu", "swish", "gelu", "relu6"]

end Spec

namespace Aux

/-- The configs the library makes; `cat` allows those of the concat transform. -/
def Uniform (c : Classes) (cat : Prop) : Kind U → Prop
  | .custom _ => True
  | .noOp => True
  | .output b => b = c.params.bits
  | .default p _ => p = c.params ∨ (cat ∧ p = { bits := c.params.bits })

/-- A config after `_disable_output_quantize`. -/
def offConfig (b : Bits) (q : QConfig U) : QConfig U :=
  { q with outputOff := true, savedOff := q.savedOff || (b.isNone && q.kind.hasQuantizeOutput) }

/-- A property of the configs of all layers of a tree. -/
def AllGood (G : QConfig U → Prop) (m : Node V (Meta U)) : Prop :=
  ∀ n, Spec.InTree n m → ∀ q, n.info.get = some q → G q

section Good
variable {G : QConfig U → Prop}

theorem good_mk {l : Layer} {w} {i : Meta U} {ins : List (Node V (Meta U))} :
    AllGood G (.mk l w i ins) ↔ (∀ q, i.get = some q → G q) ∧ ∀ n ∈ ins, AllGood G n := by
  constructor
  · exact fun h => ⟨h _ (.root _), fun n hn x hx => h x (.child hn hx)⟩
  · rintro ⟨h1, h2⟩ n hn
    cases hn with
    | root => exact h1
    | child hc hn => exact h2 _ hc n hn

theorem good_setConfig {k : Kind U} (hk : G ⟨k, false, false⟩) {n : Node V (Meta U)} (h : AllGood G n) :
    AllGood G (setConfig k n) := by
  cases n
  rw [good_mk] at h
  rw [setConfig, good_mk]
  refine ⟨?_, h.2⟩
  intro q hq
  simp only [Meta.get, Meta.set, Option.getD_some, Option.some.injEq] at hq
  subst hq
  exact hk

theorem good_setNoOp {n : Node V (Meta U)} (h : AllGood G n) : AllGood G (setNoOp n) := by
  cases n
  rw [good_mk] at h
  rw [setNoOp, good_mk]
  exact h

theorem good_disableOutput {b : Bits} (hoff : ∀ q, G q → G (offConfig b q)) {n : Node V (Meta U)}
    (h : AllGood G n) : AllGood G (disableOutput b n) := by
  cases n with
  | mk l w i ins =>
    rw [good_mk] at h
    rw [disableOutput, good_mk]
    refine ⟨?_, h.2⟩
    intro q hq
    simp only [Meta.get] at hq
    cases hi : i.config with
    | none => rw [hi] at hq; simp at hq
    | some o =>
      cases o with
      | none => rw [hi] at hq; simp at hq
      | some q0 =>
        rw [hi] at hq
        simp only [Option.map_some, Option.getD_some, Option.some.injEq] at hq
        rw [← hq]
        exact hoff q0 (h.1 q0 (by rw [Meta.get, hi]; rfl))

theorem good_onInput {f : Node V (Meta U) → Node V (Meta U)} (hf : ∀ i, AllGood G i → AllGood G (f i))
    {n : Node V (Meta U)} (h : AllGood G n) : AllGood G (onInput f n) := by
  rw [onInput]
  split
  · exact h
  · rename_i i is hi
    cases n with
    | mk l w inf ins =>
      simp only [Node.inputs] at hi
      subst hi
      rw [good_mk] at h
      rw [withInputs, good_mk]
      refine ⟨h.1, ?_⟩
      intro x hx
      rcases List.mem_cons.1 hx with rfl | hx
      · exact hf i (h.2 i (by simp))
      · exact h.2 x (by simp [hx])

theorem good_feed {c : Classes} (h1 : G ⟨.noOp, false, false⟩)
    (h2 : ∀ cls, G ⟨.default { bits := c.params.bits } cls, false, false⟩)
    {n : Node V (Meta U)} (hn : AllGood G n) {e} (h : feed c n = some e) : AllGood G e.1 := by
  unfold feed at h
  split at h
  · simp only [Option.some.injEq] at h; rw [← h]; exact hn
  split at h
  · cases n
    cases hb : c.params.bits with
    | some b => rw [hb] at h; cases h
    | none =>
      rw [hb] at h
      simp only [Option.some.injEq] at h; rw [← h]
      rw [good_mk] at hn ⊢
      exact hn
  split at h
  · simp at h
  split at h
  · simp only [Option.some.injEq] at h; rw [← h]; exact good_setConfig h1 hn
  split at h
  · simp at h
  · simp only [Option.some.injEq] at h; rw [← h]; exact good_setConfig (h2 _) hn

theorem good_feeds {c : Classes} (h1 : G ⟨.noOp, false, false⟩)
    (h2 : ∀ cls, G ⟨.default { bits := c.params.bits } cls, false, false⟩)
    (ns : List (Node V (Meta U))) (hns : ∀ n ∈ ns, AllGood G n) :
    ∀ e ∈ (feeds c ns).1, AllGood G e.1 := by
  induction ns with
  | nil => simp [feeds]
  | cons x xs ih =>
    intro e he
    rw [feeds] at he
    split at he
    · obtain ⟨n, hn, rfl⟩ := List.mem_map.1 he
      exact hns n hn
    · rename_i e' he'
      rcases List.mem_cons.1 he with rfl | he
      · exact good_feed h1 h2 (hns x (by simp)) he'
      · exact ih (fun n hn => hns n (by simp [hn])) e he

theorem good_concat {c : Classes} (h1 : G ⟨.noOp, false, false⟩)
    (h2 : ∀ cls, G ⟨.default { bits := c.params.bits } cls, false, false⟩)
    (h3 : G ⟨.output c.params.bits, false, false⟩)
    (hoff : ∀ q, G q → G (offConfig c.params.bits q)) {n : Node V (Meta U)} (h : AllGood G n) :
    AllGood G (replaceConcat c n) := by
  cases n with
  | mk l w i ins =>
    rw [good_mk] at h
    have hfe := good_feeds h1 h2 ins h.2
    rw [replaceConcat]
    split
    · have h : AllGood G (withInputs (.mk l w i ins) ((feeds c ins).1.map fun e =>
          if e.2 then disableOutput c.params.bits e.1 else e.1)) := by
        rw [withInputs, good_mk]
        refine ⟨h.1, ?_⟩
        intro n' hn'
        obtain ⟨e, he, rfl⟩ := List.mem_map.1 hn'
        split
        · exact good_disableOutput hoff (hfe e he)
        · exact hfe e he
      dsimp only
      split
      · exact h
      · exact good_setConfig h3 h
    · rw [withInputs, good_mk]
      refine ⟨h.1, ?_⟩
      intro n' hn'
      obtain ⟨e, he, rfl⟩ := List.mem_map.1 hn'
      exact hfe e he

theorem good_pure {b : Bits} (h1 : G ⟨.noOp, false, false⟩) (h3 : G ⟨.output b, false, false⟩)
    {n : Node V (Meta U)} (h : AllGood G n) :
    AllGood G (replaceBN b n) ∧ AllGood G (replaceReshapeBN b n) ∧
    AllGood G (replaceBNReLU n) ∧ AllGood G (replaceReshapeBNReLU n) ∧
    AllGood G (replaceLayerReLU n) := by
  have in1 : ∀ n : Node V (Meta U), AllGood G n → AllGood G (onInput setNoOp n) := fun n h =>
    good_onInput (fun _ hi => good_setNoOp hi) h
  have in2 : ∀ n : Node V (Meta U), AllGood G n → AllGood G (onInput (onInput setNoOp) n) := fun n h =>
    good_onInput in1 h
  refine ⟨?_, ?_, ?_, ?_, ?_⟩
  · rw [replaceBN]
    split
    · exact h
    · exact good_setConfig h3 (in1 n h)
  · rw [replaceReshapeBN]
    split
    · exact h
    · exact good_setConfig h3 (in2 n h)
  · rw [replaceBNReLU]
    split
    · exact h
    · exact good_onInput (fun i hi => good_setConfig h1 (in1 i hi)) h
  · rw [replaceReshapeBNReLU]
    split
    · exact h
    · exact good_onInput (fun i hi => good_setConfig h1 (in2 i hi)) h
  · exact good_onInput (fun i hi => good_setConfig h1 hi) h

end Good

section Steps
variable {auto : String → ℕ → String} {expand : V → V} {str1 str2 : String → String}

/-- What a property of configs must satisfy to be kept by the transforms; `cat` says whether there are
concatenations. -/
structure Closed (c : Classes) (cat : Prop) (G : QConfig U → Prop) : Prop where
  noOp : G ⟨.noOp, false, false⟩
  output : G ⟨.output c.params.bits, false, false⟩
  concat : cat → ∀ cls, G ⟨.default { bits := c.params.bits } cls, false, false⟩
  off : cat → ∀ q, G q → G (offConfig c.params.bits q)

/-- The configs after a step of any transform. -/
theorem transforms_good (c : Classes) {t} (ht : t ∈ transforms (U := U) auto c expand str1 str2)
    {g : Graph V (Meta U)} {matched} {m r : Node V (Meta U)} {k k'}
    (hf : findPattern g t.pattern matched = some m) (hr : t.replacement k m = .ok (r, k'))
    {G : QConfig U → Prop} (hG : Closed c (matchPattern m.layer.cls "Concatenate" = true) G)
    (hm : AllGood G m) : AllGood G r := by
  have hmt := (findPattern_some hf).2.2
  have ok : ∀ (f : Node V (Meta U) → Node V (Meta U)) {k k' : ℕ} {r : Node V (Meta U)},
      (Except.ok (f m, k) : Except String _) = .ok (r, k') → f m = r := by
    intro f k k' r h
    simp only [Except.ok.injEq, Prod.mk.injEq] at h
    exact h.1
  have hp := good_pure (b := c.params.bits) hG.noOp hG.output hm
  have concat : matchPattern m.layer.cls "Concatenate" = true → AllGood G (replaceConcat c m) :=
    fun hc => good_concat hG.noOp (hG.concat hc) hG.output (hG.off hc) hm
  rw [mem_transforms] at ht
  simp only [listed, pureTransform, List.mem_cons, List.not_mem_nil, or_false] at ht
  rcases ht with rfl | rfl | rfl | rfl | rfl | rfl | rfl | rfl | rfl | rfl | rfl | rfl | rfl | rfl |
    rfl | rfl | rfl | rfl | rfl
  · simp only [replaceInput, Except.ok.injEq, Prod.mk.injEq] at hr
    rw [← hr.1, good_mk]
    refine ⟨fun q hq => (by cases hq), ?_⟩
    intro n hn
    rw [List.mem_singleton] at hn
    rw [hn]; exact hm
  · simp only [replaceSepConv1D] at hr
    split at hr
    · simp only [Except.ok.injEq, Prod.mk.injEq] at hr; rw [← hr.1]; exact hm
    split at hr
    · simp at hr
    simp only [Except.ok.injEq, Prod.mk.injEq] at hr
    rw [← hr.1]
    intro n hn q hq
    rcases inTree_chain hn with rfl | hn
    · simp only [Node.info, Meta.get, Option.getD_some, Option.some.injEq] at hq
      subst hq; exact hG.noOp
    rcases inTree_chain hn with rfl | hn
    · cases hq
    · rw [inTree_leaf hn] at hq
      simp only [Node.info, Meta.get, Option.getD_some, Option.some.injEq] at hq
      subst hq; exact hG.noOp
  · simp only [replaceSepConv] at hr
    split at hr
    · simp only [Except.ok.injEq, Prod.mk.injEq] at hr; rw [← hr.1]; exact hm
    simp only [Except.ok.injEq, Prod.mk.injEq] at hr
    rw [← hr.1]
    intro n hn q hq
    rcases inTree_chain hn with rfl | hn
    · cases hq
    · rw [inTree_leaf hn] at hq
      cases hq
  · rw [← ok _ hr]; exact hp.2.2.2.1
  · rw [← ok _ hr]; exact hp.2.2.2.1
  · rw [← ok _ hr]; exact hp.2.2.1
  · rw [← ok _ hr]; exact hp.2.2.1
  · rw [← ok _ hr]; exact hp.2.1
  · rw [← ok _ hr]; exact hp.1
  · rw [← ok _ hr]; exact concat (match_class hmt)
  · rw [← ok _ hr]; exact concat (match_class hmt)
  · rw [← ok _ hr]; exact concat (match_class hmt)
  · rw [← ok _ hr]; exact concat (match_class hmt)
  · rw [← ok _ hr]; exact concat (match_class hmt)
  · rw [← ok _ hr]; exact hp.1
  · rw [← ok _ hr]; exact hp.2.2.1
  · rw [← ok _ hr]; exact hp.2.2.1
  · rw [← ok _ hr]; exact hp.2.2.2.2
  · rw [← ok _ hr]; exact hp.2.2.2.2

/-- The `QuantizeLayer`s after a step of any transform. -/
theorem transforms_quantizeLayer (c : Classes) {t} (ht : t ∈ transforms (U := U) auto c expand str1 str2)
    {g : Graph V (Meta U)} {matched} {m r : Node V (Meta U)} {k k'}
    (hf : findPattern g t.pattern matched = some m) (hr : t.replacement k m = .ok (r, k')) :
    ∀ n', Spec.InTree n' r → n'.layer.cls = "QuantizeLayer" →
      (∃ n, Spec.InTree n m ∧ n.name = n'.name ∧ n.layer.cls = n'.layer.cls ∧
        n.layer.config = n'.layer.config) ∨
      n'.layer.config = [("quantizer", "AllValuesQuantizer"),
        ("num_bits", toString (activationBits c.params.bits))] := by
  have hmt := (findPattern_some hf).2.2
  intro n' hn' hcls
  rcases transforms_split auto c expand str1 str2 t ht with ⟨hp, hrep⟩ | ⟨hp, hrep⟩ | ⟨hp, hrep⟩ |
      ⟨hn, hp⟩
  · rw [hrep] at hr
    simp only [replaceInput, Except.ok.injEq, Prod.mk.injEq] at hr
    rw [← hr.1] at hn'
    rcases inTree_chain hn' with rfl | hn'
    · exact Or.inr rfl
    · exact Or.inl ⟨n', hn', rfl, rfl, rfl⟩
  · rw [hrep] at hr
    simp only [replaceSepConv1D] at hr
    split at hr
    · simp only [Except.ok.injEq, Prod.mk.injEq] at hr
      rw [← hr.1] at hn'
      exact Or.inl ⟨n', hn', rfl, rfl, rfl⟩
    split at hr
    · simp at hr
    simp only [Except.ok.injEq, Prod.mk.injEq] at hr
    rw [← hr.1] at hn'
    rcases inTree_chain hn' with rfl | hn'
    · simp [Node.layer] at hcls
    rcases inTree_chain hn' with rfl | hn'
    · simp [Node.layer] at hcls
    · rw [inTree_leaf hn'] at hcls
      simp [Node.layer] at hcls
  · rw [hrep] at hr
    simp only [replaceSepConv] at hr
    split at hr
    · simp only [Except.ok.injEq, Prod.mk.injEq] at hr
      rw [← hr.1] at hn'
      exact Or.inl ⟨n', hn', rfl, rfl, rfl⟩
    simp only [Except.ok.injEq, Prod.mk.injEq] at hr
    rw [← hr.1] at hn'
    rcases inTree_chain hn' with rfl | hn'
    · simp [Node.layer] at hcls
    · rw [inTree_leaf hn'] at hcls
      simp [Node.layer] at hcls
  · obtain ⟨hc, -⟩ := pure_corr c t ht hn g _ _ m k r k' hmt hr
    obtain ⟨n, hn, hs⟩ := hc.1 n' hn'
    refine Or.inl ⟨n, hn, hs.name.symm, hs.cls.symm, ?_⟩
    rcases hs.config with h | h | h
    · exact h.symm
    · rw [← hs.cls, hcls] at h; exact absurd h (by decide +kernel)
    · rw [← hs.cls, hcls] at h; exact absurd h (by decide +kernel)

end Steps

/-- The invariant of the loops. -/
structure ParamsInv (c : Classes) (am : AModel V U) (G : QConfig U → Prop) (g : Graph V (Meta U)) :
    Prop where
  configs : ∀ x i q, g.metadata x = some i → i.get = some q → G q
  inputs : ∀ l ∈ g.layers, l.cls = "QuantizeLayer" →
    (∃ a ∈ am.layers, a.layer.name = l.name ∧ a.layer.cls = l.cls) ∨
    l.config = [("quantizer", "AllValuesQuantizer"),
        ("num_bits", toString (activationBits c.params.bits))]

section Run
variable [DecidableEq U] [DecidableEq V] {metaEq : Meta U → Meta U → Bool}
  {auto : String → ℕ → String} {c : Classes} {expand : V → V} {str1 str2 : String → String}
  {fuel : ℕ} {am : AModel V U} {out : OModel V U} {G : QConfig U → Prop}
  (hG : Closed c (Spec.AnnotatedConcat am) G)
include hG

theorem params_step {g g' : Graph V (Meta U)} {t m r k k'} (hinv : ApplyInv c am g)
    (hj : ParamsInv c am G g) (h : ReplaceStep c am auto expand str1 str2 g t m r k k' g') :
    ParamsInv c am G g' := by
  obtain ⟨matched, hf⟩ := h.found
  have hml := (findPattern_some hf).1
  have hcat : matchPattern m.layer.cls "Concatenate" = true → Spec.AnnotatedConcat am := by
    intro hc
    rw [C56_single "Concatenate" _ (by decide +kernel) (hinv.newline _ hml)] at hc
    rcases hinv.layers _ hml with ⟨a, ha, e1, e2, e3, e4, e5⟩ | ⟨-, e2, -⟩
    · refine ⟨a, ha, ?_, by rw [e2]; exact hc⟩
      by_contra hnone
      refine hinv.untouched a ha (by simpa using hnone) ?_ ?_
      · rw [e2, hc]; intro hh; exact absurd hh (by decide)
      · rw [e1]; exact h.candidates m (Spec.InTree.root m)
    · exact absurd (by rw [hc]; simp) e2
  refine ⟨?_, ?_⟩
  · intro x i q hi hq
    rcases h.effect.info x with ⟨n', hn', hx, -, hm⟩ | ⟨-, hm⟩
    · rw [hm] at hi
      simp only [Option.some.injEq] at hi
      subst hi
      refine transforms_good c h.mem hf h.replaced
        ⟨hG.noOp, hG.output, fun hc => hG.concat (hcat hc), fun hc => hG.off (hcat hc)⟩ ?_ n' hn' q hq
      intro n hn q0 hq0
      rw [(h.nodes n hn).2.2] at hq0
      cases hg : g.metadata n.name with
      | none => rw [hg] at hq0; cases hq0
      | some i0 =>
        rw [hg] at hq0
        exact hj.configs _ _ _ hg hq0
    · rw [hm] at hi
      split at hi
      · simp at hi
      · exact hj.configs x i q hi hq
  · intro l' hl' hcls
    rcases h.effect.only l' hl' with ⟨l, hl, -, hs⟩ | ⟨n', hn', hs⟩
    · rw [hs.1, hs.2.1, hs.2.2]
      exact hj.inputs l hl (hs.2.1.symm.trans hcls)
    · rw [hs.1, hs.2.1, hs.2.2]
      rcases transforms_quantizeLayer c h.mem hf h.replaced n' hn' (hs.2.1.symm.trans hcls) with
        ⟨n, hn, e1, e2, e3⟩ | e
      · have := hj.inputs n.layer (h.nodes n hn).1 (e2.trans (hs.2.1.symm.trans hcls))
        rw [← e2, ← e3]
        rcases this with ⟨a, ha, a1, a2⟩ | this
        · exact Or.inl ⟨a, ha, a1.trans e1, a2⟩
        · exact Or.inr this
      · exact Or.inr e

omit hG [DecidableEq U] [DecidableEq V] in
theorem params_start (hcustom : ∀ a ∈ am.layers, ∀ u, a.annotation = some (some u) →
      G ⟨.custom u, false, false⟩) : ParamsInv c am G (unwrap am) := by
  refine ⟨?_, ?_⟩
  · intro x i q hi hq
    change quantizeMap am x = some i at hi
    rw [quantizeMap] at hi
    cases ha : am.layers.find? (fun a => a.layer.name = x) with
    | none => rw [ha] at hi; simp at hi
    | some a =>
      rw [ha] at hi
      simp only [Option.bind_some, mapEntry] at hi
      split at hi
      · rename_i cfg hcfg
        simp only [Option.some.injEq] at hi
        subst hi
        cases cfg with
        | none => cases hq
        | some u =>
          simp only [Meta.get, Option.map_some, Option.getD_some, Option.some.injEq] at hq
          subst hq
          exact hcustom a (List.mem_of_find?_eq_some ha) u hcfg
      · split at hi
        · simp only [Option.some.injEq] at hi
          subst hi
          cases hq
        · simp at hi
  · intro l hl _
    obtain ⟨a, ha, rfl⟩ := List.mem_map.1 hl
    exact Or.inl ⟨a, ha, rfl, rfl⟩

theorem params_inv (hcustom : ∀ a ∈ am.layers, ∀ u, a.annotation = some (some u) →
      G ⟨.custom u, false, false⟩)
    (hnl : ∀ a ∈ am.layers, '\n' ∉ a.layer.cls.toList)
    (hfresh : Spec.FreshNames auto (am.layers.map fun a => a.layer.name))
    (h : quantizeApply (defaultScheme metaEq auto c expand str1 str2 fuel) (.model am) = .ok out) :
    (am.layers.map fun a => a.layer.name).Nodup ∧ ∃ g, ParamsInv c am G g ∧ ApplyInv c am g ∧
      ∀ e ∈ out.layers, ∃ l ∈ g.layers, quantizeLayer
        (fun l => if c.supported l.cls then some ⟨.default c.params l.cls, false, false⟩ else none)
        (requiresOutput am) g l = .ok e := by
  have hstart : ParamsInv c am G (unwrap am) := params_start hcustom
  obtain ⟨hnd, g, ⟨_, hj⟩, hinv, -, -, hback⟩ := apply_inv_with hnl hfresh
    (fun g _ => ParamsInv c am G g) (fun g k t m k' hj _ r _ => hj)
    (fun g g' t m r k k' hinv hj hs => params_step hG hinv hj hs) (fun _ => hstart) h
  exact ⟨hnd, g, hj, hinv, hback⟩

/-- A property of all configs of the result. -/
theorem params_result (hcustom : ∀ a ∈ am.layers, ∀ u, a.annotation = some (some u) →
      G ⟨.custom u, false, false⟩)
    (hdefault : ∀ cls, G ⟨.default c.params cls, false, false⟩)
    (hnl : ∀ a ∈ am.layers, '\n' ∉ a.layer.cls.toList)
    (hfresh : Spec.FreshNames auto (am.layers.map fun a => a.layer.name))
    (h : quantizeApply (defaultScheme metaEq auto c expand str1 str2 fuel) (.model am) = .ok out)
    (e : OLayer U) (he : e ∈ out.layers) (q : QConfig U)
    (hq : e = .quantized e.layer q ∨ e = .outputOnly e.layer q) : G q := by
  obtain ⟨-, g, hj, -, hback⟩ := params_inv hG hcustom hnl hfresh h
  obtain ⟨l, hl, hl'⟩ := hback e he
  have hreg : ∀ q', (if c.supported l.cls = true then
      some (⟨.default c.params l.cls, false, false⟩ : QConfig U) else none) = some q' → G q' := by
    intro q' h'
    split at h'
    · simp only [Option.some.injEq] at h'
      rw [← h']; exact hdefault _
    · simp at h'
  have hplain : ∀ l', e = .plain l' → False := by
    intro l' h'
    rcases hq with hq | hq <;> rw [h'] at hq <;> cases hq
  rw [quantizeLayer] at hl'
  split at hl'
  · simp only [Except.ok.injEq] at hl'; exact (hplain _ hl'.symm).elim
  split at hl'
  · split at hl'
    · simp only [Except.ok.injEq] at hl'; exact (hplain _ hl'.symm).elim
    split at hl'
    · simp only [Except.ok.injEq] at hl'; exact (hplain _ hl'.symm).elim
    split at hl'
    · simp at hl'
    · simp only [Except.ok.injEq] at hl'; exact (hplain _ hl'.symm).elim
  split at hl'
  · simp only [Except.ok.injEq] at hl'; exact (hplain _ hl'.symm).elim
  split at hl'
  · split at hl'
    · simp only [Except.ok.injEq] at hl'; exact (hplain _ hl'.symm).elim
    · rename_i q' hr
      simp only [Except.ok.injEq] at hl'
      have : q' = q := by
        rcases hq with hq | hq <;> rw [← hl'] at hq <;> cases hq
        rfl
      rw [← this]; exact hreg _ hr
  split at hl'
  · rename_i q' hget
    simp only [Except.ok.injEq] at hl'
    have : q' = q := by
      rcases hq with hq | hq <;> rw [← hl'] at hq <;> cases hq
      rfl
    rw [← this]
    cases hg : g.metadata l.name with
    | none => rw [hg] at hget; cases hget
    | some i =>
      rw [hg] at hget
      exact hj.configs _ _ _ hg hget
  · split at hl'
    · rename_i q' hr
      simp only [Except.ok.injEq] at hl'
      have : q' = q := by
        rcases hq with hq | hq <;> rw [← hl'] at hq <;> cases hq
        rfl
      rw [← this]; exact hreg _ hr
    · simp at hl'

end Run

end Aux

section Main91
variable [DecidableEq U] [DecidableEq V] (metaEq : Meta U → Meta U → Bool)
  (auto : String → ℕ → String) (c : Classes) (expand : V → V) (str1 str2 : String → String)
  (fuel : ℕ) (m : AModel V U) (out : OModel V U)
  (hnl : ∀ a ∈ m.layers, '\n' ∉ a.layer.cls.toList)
  (hfresh : Spec.FreshNames auto (m.layers.map fun a => a.layer.name))
  (h : quantizeApply (defaultScheme metaEq auto c expand str1 str2 fuel) (.model m) = .ok out)
include hnl hfresh h

theorem Aux.uniform_result (e : OLayer U) (he : e ∈ out.layers) (q : QConfig U)
    (hq : e = .quantized e.layer q ∨ e = .outputOnly e.layer q) :
    Aux.Uniform c (Spec.AnnotatedConcat m) q.kind := by
  refine Aux.params_result (c := c) (am := m) (G := fun q => Aux.Uniform c (Spec.AnnotatedConcat m) q.kind)
    ⟨trivial, rfl, fun hc _ => Or.inr ⟨hc, rfl⟩, fun _ q hq => ?_⟩ (fun _ _ _ _ => trivial)
    (fun _ => Or.inl rfl) hnl hfresh h e he q hq
  cases q with
  | mk k a b => exact hq

/-- C91, the numbers of bits: whatever layers of the result the library has chosen the quantize config
for, its weight quantizers have the scheme's number of bits for weights, its quantizers for activations
and outputs the scheme's number of bits for activations, whatever registries were constructed before. -/
theorem C91_bits (e : OLayer U) (he : e ∈ out.layers) (q : QConfig U)
    (hq : e = .quantized e.layer q ∨ e = .outputOnly e.layer q)
    (history : List Registry) {W A : Type*} (l : KLayer W A) (o : Config)
    (ho : objectOf history l q.kind = some (.ok o)) :
    Spec.UsesBits (Spec.schemeBits c.params).1 (Spec.schemeBits c.params).2 o := by
  have hu := Aux.uniform_result metaEq auto c expand str1 str2 fuel m out hnl hfresh h e he q hq
  cases hk : q.kind with
  | custom u => rw [hk] at ho; cases ho
  | noOp =>
    rw [hk] at ho
    simp only [objectOf, Option.some.injEq, Except.ok.injEq] at ho
    subst ho
    intro W A name l
    refine ⟨?_, ?_, ?_⟩ <;> intro ws hw p hp <;>
      simp only [Config.getWeights, Config.getActivations, Config.getOutput, Except.ok.injEq] at hw <;>
      subst hw <;> simp at hp
  | output b =>
    rw [hk] at ho hu
    simp only [Aux.Uniform] at hu
    subst hu
    simp only [objectOf, Option.some.injEq, Except.ok.injEq] at ho
    subst ho
    have hb : activationBits c.params.bits = (Spec.schemeBits c.params).2 := by
      rw [Spec.schemeBits]; cases c.params.bits <;> rfl
    intro W A name l
    refine ⟨?_, ?_, ?_⟩ <;> intro ws hw p hp <;>
      simp only [Config.getWeights, Config.getActivations, Config.getOutput, Except.ok.injEq, if_true] at hw <;>
      subst hw
    · simp at hp
    · simp at hp
    · rw [List.mem_singleton] at hp
      rw [hp]; exact hb
  | default p cls =>
    rw [hk] at ho hu
    have hb : p.bits = c.params.bits := by
      rcases hu with rfl | ⟨-, rfl⟩ <;> rfl
    simp only [objectOf, Option.some.injEq] at ho
    have hbits : Spec.schemeBits c.params = ((registryOf p).bitsWeight, (registryOf p).bitsActivation) := by
      rw [Spec.schemeBits, ← hb]; rfl
    rw [hbits]
    cases hn : (registryOf p).nBit with
    | true =>
      exact C59_bits_partial history [] (registryOf p) hn (by simp) l o ho
    | false =>
      have := C59_eight _ (registryOf p) hn l o ho
      have h8 : p.bits = none := by simpa [registryOf] using hn
      simpa [registryOf, h8] using this

/-- C91, the new input quantizers: every `QuantizeLayer` that was not in the model has the scheme's number
of bits for activations. -/
theorem C91_inputs (e : OLayer U) (he : e ∈ out.layers) (hcls : e.layer.cls = "QuantizeLayer")
    (hnew : ∀ a ∈ m.layers, a.layer.name ≠ e.layer.name) :
    e.layer.config.lookup "num_bits" = some (toString (Spec.schemeBits c.params).2) := by
  obtain ⟨-, g, hj, -, hback⟩ := Aux.params_inv (c := c) (am := m) (G := fun _ => True)
    ⟨trivial, trivial, fun _ _ => trivial, fun _ _ _ => trivial⟩ (fun _ _ _ _ => trivial) hnl hfresh h
  obtain ⟨l, hl, hl'⟩ := hback e he
  obtain ⟨n1, n2, -⟩ := Aux.quantizeLayer_layer hl'
  have hlc : l.cls = "QuantizeLayer" := n2.symm.trans hcls
  have hcfg : l.config = [("quantizer", "AllValuesQuantizer"),
      ("num_bits", toString (activationBits c.params.bits))] := by
    rcases hj.inputs l hl hlc with ⟨a, ha, e1, -⟩ | h
    · exact absurd (e1.trans n1.symm) (hnew a ha)
    · exact h
  have hb : activationBits c.params.bits = (Spec.schemeBits c.params).2 := by
    rw [Spec.schemeBits]; cases c.params.bits <;> rfl
  have hval : l.config.lookup "num_bits" = some (toString (Spec.schemeBits c.params).2) := by
    rw [hcfg, hb]; rfl
  rw [quantizeLayer, if_neg (by rw [hlc]; decide), if_pos hlc] at hl'
  split at hl'
  · simp only [Except.ok.injEq] at hl'; subst hl'; exact hval
  split at hl'
  · simp only [Except.ok.injEq] at hl'; subst hl'; exact hval
  split at hl'
  · simp at hl'
  · simp only [Except.ok.injEq] at hl'
    subst hl'
    change List.lookup "num_bits" (if _ then _ else l : Layer).config = _
    split
    · rw [hcfg, hb]; rfl
    · exact hval

/-- C91, per-axis quantization.  Missing: with `disable_per_axis` it fails for a model with an annotated
`Concatenate`, see `C91_violated`.  Every config of the registry that is put on a layer treats the layers
of its class as documented (C82) for the scheme's numbers of bits and its `disable_per_axis`. -/
theorem C91_documented_partial (hcat : Spec.AnnotatedConcat m → c.params.disablePerAxis = false)
    (e : OLayer U) (he : e ∈ out.layers) (q : QConfig U)
    (hq : e = .quantized e.layer q ∨ e = .outputOnly e.layer q) (p : Params) (cls : String)
    (hk : q.kind = .default p cls) (history : List Registry) {W A : Type*} (l : KLayer W A)
    (hl : l.own.cls = cls) (hsup : Spec.SupportedClass cls) :
    ∃ o, objectOf history l q.kind = some (.ok o) ∧
      Spec.Documented (Spec.schemeBits c.params).1 (Spec.schemeBits c.params).2 c.params.disablePerAxis
        (Spec.schemeRelus c.params) cls o := by
  have hu := Aux.uniform_result metaEq auto c expand str1 str2 fuel m out hnl hfresh h e he q hq
  rw [hk] at hu
  have hp : p = c.params := by
    rcases hu with h | ⟨hc, h⟩
    · exact h
    · rw [h]
      have := hcat hc
      cases hpar : c.params with
      | mk b d => rw [hpar] at this; subst this; rfl
  subst hp
  rw [hk]
  subst hl
  obtain ⟨o, ho, hd⟩ := C82_documented
    (Verif.Quant.Config.Process.run (history ++ [registryOf c.params])).shared (registryOf c.params)
    (fun hn => Aux.shared_eq history [] _ hn (by simp)) l hsup
  refine ⟨o, by rw [objectOf, ho], ?_⟩
  cases hb : c.params.bits with
  | none => simpa [registryOf, hb, Spec.schemeBits, Spec.schemeRelus] using hd
  | some b => simpa [registryOf, hb, Spec.schemeBits, Spec.schemeRelus] using hd

end Main91

namespace Example

/-- The default schemes, 8-bit and n-bit. -/
def schemeOf (p : Params) : Scheme ℕ String :=
  defaultScheme metaEq8 autoName ⟨fun _ => true, supported8, p⟩ id id id 200

/-- The result of `quantize_apply` with a scheme, checked by `p`. -/
def schemeCheck (s : Params) (m : AModel ℕ String) (p : OModel ℕ String → Bool) : Bool :=
  match quantizeApply (schemeOf s) (.model m) with
  | .ok out => p out
  | .error _ => false

theorem schemeCheck_spec {s m p} (h : schemeCheck s m p = true) :
    ∃ out, quantizeApply (schemeOf s) (.model m) = .ok out ∧ p out = true := by
  rw [schemeCheck] at h
  split at h
  · rename_i out ho
    exact ⟨out, ho, h⟩
  · simp at h

/-- `in -> conv1, in -> conv2, [conv1, conv2] -> cat`, all annotated. -/
def concatModel (cls : String) : AModel ℕ String :=
  { functional := true
    built := true
    layers := [{ layer := ⟨"in", "InputLayer", [], []⟩ },
      { layer := ⟨"conv1", cls, [("activation", "linear")], [[⟨"in", 0, 0, []⟩]]⟩,
        annotation := some none },
      { layer := ⟨"conv2", cls, [("activation", "linear")], [[⟨"in", 0, 0, []⟩]]⟩,
        annotation := some none },
      { layer := ⟨"cat", "Concatenate", [], [[⟨"conv1", 0, 0, []⟩, ⟨"conv2", 0, 0, []⟩]]⟩,
        annotation := some none }]
    outputs := [("cat", 0, 0)]
    weights := fun n => if n = "conv1" then [("kernel", 5)] else
      if n = "conv2" then [("kernel", 7)] else [] }

end Example

open Example in
/-- C91 is violated: with `disable_per_axis` the kernels of the convolutions that feed an annotated
`Concatenate` are quantized per axis all the same. -/
theorem C91_violated : ∃ (m : AModel ℕ String) (out : OModel ℕ String) (l : Layer) (q : QConfig String),
    quantizeApply (schemeOf { disablePerAxis := true }) (.model m) = .ok out ∧
    .quantized l q ∈ out.layers ∧ l.name = "conv1" ∧ l.cls = "Conv2D" ∧
    ∀ (history : List Registry) (W A : Type) (k : KLayer W A), k.own.cls = "Conv2D" →
      ∀ w a, k.own.weight "kernel" = some w → k.own.activation "activation" = some a →
      ∃ o qw, objectOf history k q.kind = some (.ok o) ∧ o.getWeights k = .ok [(w, qw)] ∧
        qw.cfg.perAxis = true := by
  have h : schemeCheck { disablePerAxis := true } (concatModel "Conv2D") (fun out => decide (∃ e ∈ out.layers,
      e = .quantized e.layer ⟨.default {} "Conv2D", true, true⟩ ∧ e.layer.name = "conv1" ∧
      e.layer.cls = "Conv2D")) = true := by decide +kernel
  obtain ⟨out, h1, h2⟩ := schemeCheck_spec h
  obtain ⟨e, he, heq, hn, hc⟩ := of_decide_eq_true h2
  refine ⟨_, out, e.layer, _, h1, heq ▸ he, hn, hc, ?_⟩
  intro history W A k hk w a hw ha
  have hsup : Spec.SupportedClass k.own.cls := by rw [hk]; exact Or.inl (by decide)
  obtain ⟨o, ho, hd⟩ := C82_documented
    (Verif.Quant.Config.Process.run (history ++ [registryOf {}])).shared (registryOf {})
    (fun hn => by cases hn) k hsup
  obtain ⟨qw, qa, hqw, -, hg, -⟩ := (hd W A (fun _ => none) k rfl).1 (by rw [hk]; decide) w a
    (by rw [hk]; exact hw) ha
  refine ⟨o, qw, by rw [objectOf, ho], hg, ?_⟩
  exact hqw.2.2.2.2.2 ⟨Or.inl hk, rfl⟩

open Example in
/-- The hypotheses of C91 are met: with 4 bits for weights and 6 bits for activations, `annotatedModel`
gets n-bit configs and a `QuantizeLayer` of 6 bits, and no annotated layer is a `Concatenate`. -/
example : ¬ Spec.AnnotatedConcat (annotatedModel false) ∧
    ∃ out, quantizeApply (schemeOf { bits := some (4, 6), disablePerAxis := true })
        (.model (annotatedModel false)) = .ok out ∧
      out.layers.map summary = [("in", "plain", none), ("quantize_layer_0", "plain", none),
        ("conv", "quantized", some (.default { bits := some (4, 6), disablePerAxis := true } "Conv2D")),
        ("bn", "quantized", some .noOp),
        ("relu", "quantized", some (.default { bits := some (4, 6), disablePerAxis := true } "ReLU")),
        ("pool", "output", some (.default { bits := some (4, 6), disablePerAxis := true } "MaxPooling2D")),
        ("dense", "quantized", some (.custom "mine"))] ∧
      (∃ e ∈ out.layers, e.layer.cls = "QuantizeLayer" ∧ e.layer.config.lookup "num_bits" = some "6") := by
  refine ⟨?_, ?_⟩
  · rintro ⟨a, ha, -, hc⟩
    revert hc
    revert a
    decide +kernel
  have h : schemeCheck { bits := some (4, 6), disablePerAxis := true } (annotatedModel false)
      (fun out => decide (out.layers.map summary =
      [("in", "plain", none), ("quantize_layer_0", "plain", none),
        ("conv", "quantized", some (.default { bits := some (4, 6), disablePerAxis := true } "Conv2D")),
        ("bn", "quantized", some .noOp),
        ("relu", "quantized", some (.default { bits := some (4, 6), disablePerAxis := true } "ReLU")),
        ("pool", "output", some (.default { bits := some (4, 6), disablePerAxis := true } "MaxPooling2D")),
        ("dense", "quantized", some (.custom "mine"))] ∧
      ∃ e ∈ out.layers, e.layer.cls = "QuantizeLayer" ∧ e.layer.config.lookup "num_bits" = some "6")) = true := by
    decide +kernel
  obtain ⟨out, h1, h2⟩ := schemeCheck_spec h
  exact ⟨out, h1, of_decide_eq_true h2⟩

end Verif.Props
