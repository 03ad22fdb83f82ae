import Verif.Quant.CollabScheme
import Verif.Props.SchemeParams
import Verif.Props.PreserveRegistry
import Verif.Props.QuantizeModel

/-!
# C109: `quantize_apply` with the sparsity- and cluster-preserving schemes
-/

set_option linter.unusedSectionVars false

namespace Verif.Props
open Verif.Quant.Regex Verif.Quant.Transformer Verif.Quant.Transforms8Bit Verif.Quant.Apply
open Verif.Quant.CollabScheme
open Verif.Quant.Config (KLayer Registry)
open Verif.Quant.PreserveRegistry (Which PConfig WQuantizer weightQuantizerOf)

variable {V U : Type} {W A : Type*}

namespace Spec

/-- The config quantizes the kernel of a layer of the class `cls` with the preserving quantizer of the scheme, and is
otherwise the config of the default 8-bit registry (nothing of it is switched off). -/
def PreservingConfig (w : Which) (k : KLayer W A) (cls : String) (q : QConfig (CConfig U)) : Prop :=
  ∃ p, q = ⟨.custom (.registry p), false, false⟩ ∧
    (⟨false, false, 8, 8⟩ : Registry).getConfig (8, 8) k = .ok p.rest ∧
    p.weightQuantizer = .preserving w (decide (cls = "Conv2D")) (weightQuantizerOf p.rest).cfg

end Spec

namespace Aux

section Collab
variable [DecidableEq U] [DecidableEq V] {metaEq : Meta (CConfig U) → Meta (CConfig U) → Bool}
  {auto : String → ℕ → String} {c : Classes} {expand : V → V} {str1 str2 : String → String}
  {fuel : ℕ} {w : Which} {v : View W A} {am : AModel V (CConfig U)} {out : OModel V (CConfig U)}

/-- A config of the default registry only occurs with a concatenation. -/
def OnlyConcat (am : AModel V (CConfig U)) (q : QConfig (CConfig U)) : Prop :=
  ∀ p cls, q.kind = .default p cls → Spec.AnnotatedConcat am

theorem collab_inv (hnl : ∀ a ∈ am.layers, '\n' ∉ a.layer.cls.toList)
    (hfresh : Spec.FreshNames auto (am.layers.map fun a => a.layer.name))
    (h : collabApply metaEq auto c expand str1 str2 fuel w v am = .ok out) :
    (am.layers.map fun a => a.layer.name).Nodup ∧ ∃ g, ApplyInv c am g ∧
      (∀ x i q, g.metadata x = some i → i.get = some q → OnlyConcat am q) ∧ out.weights = g.weights ∧
      List.Forall₂ (fun l e => quantizeLayerE (registry w v) (requiresOutput am) g l = .ok e)
        g.layers out.layers := by
  rw [collabApply] at h
  split at h
  · simp at h
  rename_i hann
  split at h
  · simp at h
  split at h
  · simp at h
  rename_i hnd
  have hnd : (am.layers.map fun a => a.layer.name).Nodup := by simpa using hnd
  have hann : ∃ a ∈ am.layers, a.annotation.isSome = true := by
    simpa [Option.isSome_iff_ne_none] using hann
  refine ⟨hnd, ?_⟩
  split at h
  · simp at h
  · rename_i g hg
    split at h
    · simp at h
    · rename_i ls hls
      simp only [Except.ok.injEq] at h
      subst h
      have hG : Closed c (Spec.AnnotatedConcat am) (OnlyConcat am) :=
        ⟨fun _ _ h => (by cases h), fun _ _ h => (by cases h), fun hc _ _ _ _ => hc,
          fun hc _ _ _ _ _ => hc⟩
      have hrun : ApplyInv c am g ∧ ∃ _ : ℕ, ParamsInv c am (OnlyConcat am) g := by
        simp only [defaultScheme] at hg
        refine apply_run hnd metaEq hfresh (fun g _ => ParamsInv c am (OnlyConcat am) g)
          (fun g k t m k' hj _ r _ => hj)
          (fun g g' t m r k k' hinv hj hs => params_step hG hinv hj hs) fuel
          (start (transforms auto c expand str1 str2) (unwrap am)) g
          (apply_start hnd hann hnl) (params_start ?_) (fun t ht => ht) ?_
        · intro a _ u _ p cls h
          cases h
        · cases hr : run metaEq (transforms auto c expand str1 str2) fuel
              (start (transforms auto c expand str1 str2) (unwrap am)) with
          | none => rw [hr] at hg; simp at hg
          | some e => rw [hr] at hg; simp only [Option.getD_some] at hg; rw [hg]
      obtain ⟨hinv, -, hj⟩ := hrun
      exact ⟨g, hinv, hj.configs, rfl, (mapExcept_ok _ _ _).1 hls⟩

/-- What `_quantize` makes of a layer. -/
theorem quantizeLayerE_cases {reg} {req : List String} {g : Graph V (Meta (CConfig U))} {l : Layer}
    {e : OLayer (CConfig U)} (h : quantizeLayerE reg req g l = .ok e) :
    (∃ r, reg l = .ok r ∧ quantizeLayer (fun _ => r) req g l = .ok e) ∨
    (asked req g l = false ∧ ∃ r, reg l = .error r ∧ quantizeLayer (fun _ => none) req g l = .ok e) := by
  unfold quantizeLayerE at h
  cases hr : reg l with
  | ok r => rw [hr] at h; exact Or.inl ⟨r, rfl, h⟩
  | error r =>
    rw [hr] at h
    dsimp only at h
    split at h
    · cases h
    · rename_i ha
      exact Or.inr ⟨by simpa using ha, r, rfl, h⟩

theorem quantizeLayerE_layer {reg} {req : List String} {g : Graph V (Meta (CConfig U))} {l : Layer}
    {e : OLayer (CConfig U)} (h : quantizeLayerE reg req g l = .ok e) :
    e.layer.name = l.name ∧ e.layer.cls = l.cls ∧ (l.cls ≠ "QuantizeLayer" → e.layer = l) := by
  rcases quantizeLayerE_cases h with ⟨r, -, h⟩ | ⟨-, r, -, h⟩ <;> exact quantizeLayer_layer h

end Collab

end Aux

section Main109
variable [DecidableEq U] [DecidableEq V] (metaEq : Meta (CConfig U) → Meta (CConfig U) → Bool)
  (auto : String → ℕ → String) (c : Classes) (expand : V → V) (str1 str2 : String → String)
  (fuel : ℕ) (w : Which) (v : View W A) (m : AModel V (CConfig U)) (out : OModel V (CConfig U))
  (hnl : ∀ a ∈ m.layers, '\n' ∉ a.layer.cls.toList)
  (hfresh : Spec.FreshNames auto (m.layers.map fun a => a.layer.name))

/-- The cases for an annotated layer without a config of its own: what the layout transforms have set, or what the
registry gives. -/
theorem Aux.collab_annotated (h : collabApply metaEq auto c expand str1 str2 fuel w v m = .ok out)
    (hnl : ∀ a ∈ m.layers, '\n' ∉ a.layer.cls.toList)
    (hfresh : Spec.FreshNames auto (m.layers.map fun a => a.layer.name))
    (a : ALayer (CConfig U)) (ha : a ∈ m.layers) (hann : a.annotation = some none)
    (hex : ¬ Spec.Exempt a.layer.cls)
    (hsep : a.layer.cls ≠ "SeparableConv1D" ∧ a.layer.cls ≠ "SeparableConv2D") :
    (∃ e ∈ out.layers, e.layer.name = a.layer.name) ∧ out.weights a.layer.name = m.weights a.layer.name ∧
    ∀ e ∈ out.layers, e.layer.name = a.layer.name → e.layer.cls = a.layer.cls ∧
      ∃ q, e = .quantized e.layer q ∧
        ((Spec.LibraryConfig c (Spec.AnnotatedReLU m) a.layer.cls q.kind ∧ Aux.OnlyConcat m q) ∨
          registry w v e.layer = .ok (some q)) := by
  obtain ⟨hnd, g, hinv, hcat, hw, hall⟩ := Aux.collab_inv hnl hfresh h
  have hpres : ∃ l ∈ g.layers, l.name = a.layer.name := by
    rcases hinv.present a ha with h | ⟨-, hc⟩
    · exact h
    · simp only [List.mem_cons, List.not_mem_nil, or_false] at hc
      tauto
  obtain ⟨l, hl, hln⟩ := hpres
  refine ⟨?_, ?_, ?_⟩
  · obtain ⟨e, he, hr⟩ := Aux.forall₂_partner hall l hl
    exact ⟨e, he, (Aux.quantizeLayerE_layer hr).1.trans hln⟩
  · rw [hw, ← hln]
    exact (Aux.apply_layer hnd hinv hl ha hln).2.1
  · intro e he hen
    obtain ⟨l, hl, hq⟩ := Aux.forall₂_partner (List.Forall₂.flip hall) e he
    obtain ⟨q1, q2, q3⟩ := Aux.quantizeLayerE_layer hq
    have hln : l.name = a.layer.name := q1.symm.trans hen
    obtain ⟨e2, -, -, e5⟩ := Aux.apply_layer hnd hinv hl ha hln
    obtain ⟨i, hi, hk⟩ := e5 (by rw [hann]; rfl)
    refine ⟨q2.trans e2.symm, ?_⟩
    have hreq : l.name ∉ requiresOutput m := by
      rw [hln, Aux.mem_requires hnd, Aux.isAnnotated_eq hnd ha, hann]
      simp
    simp only [Spec.Exempt, List.mem_cons, List.not_mem_nil, or_false, not_or] at hex
    have hel : e.layer = l := q3 (by rw [← e2]; exact hex.2.1)
    have hstep : ∀ r, quantizeLayer (fun _ => r) (requiresOutput m) g l =
        match i.get with
        | some q => .ok (.quantized l q)
        | none => match r with
          | some q => .ok (.quantized l q)
          | none => .error "RuntimeError: the layer is not supported" := by
      intro r
      rw [quantizeLayer, ← e2, if_neg hex.1, if_neg hex.2.1, if_neg (by simp [hi, hex.2.2]),
        if_neg hreq, hi, Option.getD_some]
      cases i.get with
      | some q => rfl
      | none => cases r <;> rfl
    cases hget : i.get with
    | some q =>
      have hq' : e = .quantized l q := by
        rcases Aux.quantizeLayerE_cases hq with ⟨r, -, h⟩ | ⟨-, r, -, h⟩ <;>
          (rw [hstep, hget] at h; simp only [Except.ok.injEq] at h; exact h.symm)
      refine ⟨q, by rw [hq']; rfl, Or.inl ⟨?_, hcat _ _ _ hi hget⟩⟩
      rcases hk.2.2 hann with hn | ⟨q', h1, h2⟩
      · rw [hget] at hn; cases hn
      · rw [hget] at h1; cases h1; exact h2
    | none =>
      rcases Aux.quantizeLayerE_cases hq with ⟨r, hr, h⟩ | ⟨hask, -⟩
      · rw [hstep, hget] at h
        cases r with
        | none => cases h
        | some q =>
          simp only [Except.ok.injEq] at h
          refine ⟨q, by rw [← h]; rfl, Or.inr ?_⟩
          rw [hel]; exact hr
      · exfalso
        unfold asked at hask
        rw [hi, ← e2] at hask
        simp [hex.1, hex.2.1, hex.2.2, hget] at hask

/-- **C109.**  With a preserving scheme every annotated `Conv2D` or `Dense` layer with trainable weights and without a
config of its own is in the result, under its name and with its weights, and quantized by the preserving
quantizer of the scheme.

Partial: the exceptions, which can only occur in models with annotated `Concatenate`, `ReLU` or `Activation`
layers; see `C109_concat_violated` and `C109_relu_violated`. -/
theorem C109_preserving_partial (h : collabApply metaEq auto c expand str1 str2 fuel w v m = .ok out)
    (hnl : ∀ a ∈ m.layers, '\n' ∉ a.layer.cls.toList)
    (hfresh : Spec.FreshNames auto (m.layers.map fun a => a.layer.name))
    (hview : ∀ l, (v.klayer l).own.cls = l.cls)
    (a : ALayer (CConfig U)) (ha : a ∈ m.layers) (hann : a.annotation = some none)
    (hcls : a.layer.cls = "Conv2D" ∨ a.layer.cls = "Dense")
    (htrain : ∀ l, l.name = a.layer.name → v.trainable l ≠ []) :
    (∃ e ∈ out.layers, e.layer.name = a.layer.name) ∧ out.weights a.layer.name = m.weights a.layer.name ∧
    ∀ e ∈ out.layers, e.layer.name = a.layer.name → e.layer.cls = a.layer.cls ∧
      ∃ q, e = .quantized e.layer q ∧
        (Spec.PreservingConfig w (v.klayer e.layer) a.layer.cls q ∨
          (q.kind = .noOp ∧ Spec.AnnotatedReLU m) ∨
          ((∃ p cls, q.kind = .default p cls) ∧ Spec.AnnotatedConcat m)) := by
  have hex : ¬ Spec.Exempt a.layer.cls := by
    rcases hcls with h | h <;> rw [h] <;> simp [Spec.Exempt]
  have hsep : a.layer.cls ≠ "SeparableConv1D" ∧ a.layer.cls ≠ "SeparableConv2D" := by
    rcases hcls with h | h <;> rw [h] <;> simp
  obtain ⟨r1, r2, r3⟩ := Aux.collab_annotated metaEq auto c expand str1 str2 fuel w v m out h hnl hfresh a ha hann
    hex hsep
  refine ⟨r1, r2, fun e he hen => ?_⟩
  obtain ⟨r4, q, r5, r6⟩ := r3 e he hen
  refine ⟨r4, q, r5, ?_⟩
  rcases r6 with ⟨hlib, hc⟩ | hreg
  · rcases hlib with ⟨hd, -⟩ | ⟨-, hb⟩ | ⟨hk, hb⟩
    · rcases hd with hd | hd <;> exact Or.inr (Or.inr ⟨⟨_, _, hd⟩, hc _ _ hd⟩)
    · exfalso
      rcases hcls with hx | hx <;> rw [hx] at hb <;> rcases hb with hb | hb <;>
        exact absurd hb (by
          first | (unfold Spec.IsBatchNorm; decide +kernel) | (unfold Spec.IsConcat; decide +kernel))
    · rcases hb with hb | hb | hb
      · exfalso
        rcases hcls with hx | hx <;> rw [hx] at hb <;>
          exact absurd hb (by unfold Spec.IsBatchNorm; decide +kernel)
      · exfalso
        rcases hcls with hx | hx <;> rw [hx] at hb <;> exact absurd hb (by unfold Spec.IsConcat; decide +kernel)
      · exact Or.inr (Or.inl ⟨hk, hb.1⟩)
  · left
    unfold registry at hreg
    have hk : (v.klayer e.layer).own.cls = "Conv2D" ∨ (v.klayer e.layer).own.cls = "Dense" := by
      rw [hview, r4]; exact hcls
    obtain ⟨cfg, p, p1, p2, p3, -, p5⟩ := C75_default w (v.klayer e.layer) (v.trainable e.layer)
      (htrain _ hen) hk
    split at hreg
    · rw [p2] at hreg
      dsimp only at hreg
      simp only [Except.ok.injEq, Option.some.injEq] at hreg
      refine ⟨p, hreg.symm, by rw [p3]; exact p1, ?_⟩
      rw [p5, p3, hview, r4]
    · cases hreg

/-- **C109** (no exception).  Without annotated `Concatenate`, `ReLU` and `Activation` layers the preserving quantizer
reaches every annotated `Conv2D` and `Dense` layer. -/
theorem C109_preserving (h : collabApply metaEq auto c expand str1 str2 fuel w v m = .ok out)
    (hnl : ∀ a ∈ m.layers, '\n' ∉ a.layer.cls.toList)
    (hfresh : Spec.FreshNames auto (m.layers.map fun a => a.layer.name))
    (hview : ∀ l, (v.klayer l).own.cls = l.cls)
    (hrelu : ¬ Spec.AnnotatedReLU m) (hconcat : ¬ Spec.AnnotatedConcat m)
    (a : ALayer (CConfig U)) (ha : a ∈ m.layers) (hann : a.annotation = some none)
    (hcls : a.layer.cls = "Conv2D" ∨ a.layer.cls = "Dense")
    (htrain : ∀ l, l.name = a.layer.name → v.trainable l ≠ []) :
    (∃ e ∈ out.layers, e.layer.name = a.layer.name) ∧
    ∀ e ∈ out.layers, e.layer.name = a.layer.name →
      ∃ q, e = .quantized e.layer q ∧ Spec.PreservingConfig w (v.klayer e.layer) a.layer.cls q := by
  obtain ⟨r1, -, r3⟩ := C109_preserving_partial metaEq auto c expand str1 str2 fuel w v m out h hnl hfresh hview
    a ha hann hcls htrain
  refine ⟨r1, fun e he hen => ?_⟩
  obtain ⟨-, q, r5, r6⟩ := r3 e he hen
  refine ⟨q, r5, ?_⟩
  rcases r6 with r6 | ⟨-, r6⟩ | ⟨-, r6⟩
  · exact r6
  · exact absurd r6 hrelu
  · exact absurd r6 hconcat

/-- **C109** (rejection).  Any other annotated layer with trainable weights that the layout transforms have no config for
makes `quantize_apply` fail. -/
theorem C109_rejects (hnl : ∀ a ∈ m.layers, '\n' ∉ a.layer.cls.toList)
    (hfresh : Spec.FreshNames auto (m.layers.map fun a => a.layer.name))
    (hconcat : ¬ Spec.AnnotatedConcat m)
    (a : ALayer (CConfig U)) (ha : a ∈ m.layers) (hann : a.annotation = some none)
    (hex : ¬ Spec.Exempt a.layer.cls)
    (hsep : a.layer.cls ≠ "SeparableConv1D" ∧ a.layer.cls ≠ "SeparableConv2D")
    (hcls : a.layer.cls ∉ ["Conv2D", "Dense", "DepthwiseConv2D"])
    (hno : ¬ Spec.IsBatchNorm a.layer.cls ∧ ¬ Spec.IsConcat a.layer.cls ∧
      (Spec.AnnotatedReLU m → ¬ Spec.IsFused a.layer.cls))
    (htrain : ∀ l, l.name = a.layer.name → v.trainable l ≠ []) :
    ∃ e, collabApply metaEq auto c expand str1 str2 fuel w v m = .error e := by
  cases h : collabApply metaEq auto c expand str1 str2 fuel w v m with
  | error e => exact ⟨e, rfl⟩
  | ok out =>
    exfalso
    obtain ⟨⟨e, he, hen⟩, -, r3⟩ := Aux.collab_annotated metaEq auto c expand str1 str2 fuel w v m out h hnl hfresh
      a ha hann hex hsep
    obtain ⟨r4, q, -, ⟨hlib, hc⟩ | hreg⟩ := r3 e he hen
    · rcases hlib with ⟨hd, -⟩ | ⟨-, hb⟩ | ⟨hk, hb⟩
      · rcases hd with hd | hd <;> exact hconcat (hc _ _ hd)
      · tauto
      · tauto
    · unfold registry at hreg
      have : Verif.Quant.PreserveRegistry.supports ⟨e.layer.cls, v.trainable e.layer⟩ = false := by
        have ht := htrain _ hen
        rw [r4]
        cases hv : v.trainable e.layer with
        | nil => exact absurd hv ht
        | cons x xs =>
          simp only [List.mem_cons, List.not_mem_nil, or_false, not_or] at hcls
          simp [Verif.Quant.PreserveRegistry.supports, Verif.Quant.PreserveRegistry.noTrainableWeights,
            Verif.Quant.PreserveRegistry.layersConfigMap, List.lookup, hcls.1, hcls.2.1, hcls.2.2,
            beq_eq_false_iff_ne.2 hcls.1, beq_eq_false_iff_ne.2 hcls.2.1, beq_eq_false_iff_ne.2 hcls.2.2]
      rw [this] at hreg
      cases hreg

omit [DecidableEq U] [DecidableEq V] in
theorem Aux.quantizeLayer_same {reg reg' : Layer → Option (QConfig (CConfig U))} {req : List String}
    {g : Graph V (Meta (CConfig U))} {l : Layer} {e e' : OLayer (CConfig U)}
    (h : quantizeLayer reg req g l = .ok e) (h' : quantizeLayer reg' req g l = .ok e') :
    e.layer = e'.layer := by
  by_cases hq : l.cls = "QuantizeLayer"
  · have hi : ¬ l.cls = "InputLayer" := by rw [hq]; decide
    rw [quantizeLayer, if_neg hi, if_pos hq] at h h'
    rw [h] at h'
    injection h' with h'
    rw [h']
  · rw [(Aux.quantizeLayer_layer h).2.2 hq, (Aux.quantizeLayer_layer h').2.2 hq]

/-- **C109** (the same network).  Apart from the configs of the wrappers, the result is the one that the
default scheme gives: the same layers with the same connections in the same order, the same outputs and
the same weights.  (`reg` is any registry the default scheme may be used with.) -/
theorem C109_same_network (h : collabApply metaEq auto c expand str1 str2 fuel w v m = .ok out)
    (reg : Layer → Option (QConfig (CConfig U))) (out' : OModel V (CConfig U))
    (h' : quantizeApply { defaultScheme metaEq auto c expand str1 str2 fuel with registry := reg }
      (.model m) = .ok out') :
    out.layers.map (·.layer) = out'.layers.map (·.layer) ∧ out.outputs = out'.outputs ∧
      out.weights = out'.weights := by
  rw [collabApply] at h
  rw [quantizeApply] at h'
  split at h
  · cases h
  rename_i c1
  rw [if_neg c1] at h'
  split at h
  · cases h
  rename_i c2
  rw [if_neg c2] at h'
  split at h
  · cases h
  rename_i c3
  rw [if_neg c3] at h'
  dsimp only at h'
  cases hg : (defaultScheme metaEq auto c expand str1 str2 fuel).transform (unwrap m) with
  | error e => rw [hg] at h; cases h
  | ok g =>
    rw [hg] at h h'
    dsimp only at h h'
    cases h1 : mapExcept (quantizeLayerE (registry w v) (requiresOutput m) g) g.layers with
    | error e => rw [h1] at h; cases h
    | ok ls =>
      cases h2 : mapExcept (quantizeLayer reg (requiresOutput m) g) g.layers with
      | error e => rw [h2] at h'; cases h'
      | ok ls' =>
        rw [h1] at h
        rw [h2] at h'
        simp only [Except.ok.injEq] at h h'
        subst h
        subst h'
        refine ⟨?_, rfl, rfl⟩
        dsimp only
        have f1 := (Aux.mapExcept_ok _ _ _).1 h1
        have f2 := (Aux.mapExcept_ok _ _ _).1 h2
        clear h1 h2 hg
        revert f1 f2
        generalize g.layers = gl
        intro f1 f2
        induction f1 generalizing ls' with
        | nil => cases f2; rfl
        | cons a _ ih =>
          cases f2 with
          | cons b f2 =>
            rw [List.map_cons, List.map_cons, ih _ f2]
            congr 1
            rcases Aux.quantizeLayerE_cases a with ⟨r, -, ha⟩ | ⟨-, r, -, ha⟩ <;>
              exact Aux.quantizeLayer_same ha b

/-- **C109** (other layers).  Whatever layers the default scheme accepts with a registry that supports nothing but the
classes and layers without weights that the preserving registries support, `quantize_apply` accepts with the preserving
scheme, with the same result: layers with weights of other classes are not supported, which is no error unless they are
annotated.  (`reg` is the preserving registry where it raises no exception.) -/
theorem C109_other_layers (reg : Layer → Option (QConfig (CConfig U))) (out' : OModel V (CConfig U))
    (h' : quantizeApply { defaultScheme metaEq auto c expand str1 str2 fuel with registry := reg }
      (.model m) = .ok out')
    (hother : ∀ e ∈ out'.layers, e.layer.cls ∉ ["Conv2D", "Dense", "DepthwiseConv2D"] →
      v.trainable e.layer ≠ [] → reg e.layer = none)
    (hown : ∀ e ∈ out'.layers, e.layer.cls ≠ "InputLayer" → e.layer.cls ≠ "QuantizeLayer" →
      (e.layer.cls ∈ ["Conv2D", "Dense", "DepthwiseConv2D"] ∨ v.trainable e.layer = []) →
      ∃ p, Verif.Quant.PreserveRegistry.getConfig w (v.klayer e.layer) (v.trainable e.layer) = .ok p ∧
        reg e.layer = some ⟨.custom (.registry p), false, false⟩) :
    collabApply metaEq auto c expand str1 str2 fuel w v m = .ok out' := by
  rw [collabApply]
  rw [quantizeApply] at h'
  split at h'
  · cases h'
  rename_i c1
  rw [if_neg c1]
  split at h'
  · cases h'
  rename_i c2
  rw [if_neg c2]
  split at h'
  · cases h'
  rename_i c3
  rw [if_neg c3]
  dsimp only at h'
  cases hg : (defaultScheme metaEq auto c expand str1 str2 fuel).transform (unwrap m) with
  | error e => rw [hg] at h'; cases h'
  | ok g =>
    rw [hg] at h'
    dsimp only at h' ⊢
    cases h2 : mapExcept (quantizeLayer reg (requiresOutput m) g) g.layers with
    | error e => rw [h2] at h'; cases h'
    | ok ls' =>
      rw [h2] at h'
      simp only [Except.ok.injEq] at h'
      subst h'
      dsimp only at hother hown
      have f2 := (Aux.mapExcept_ok _ _ _).1 h2
      have f1 : mapExcept (quantizeLayerE (registry w v) (requiresOutput m) g) g.layers = .ok ls' := by
        rw [Aux.mapExcept_ok]
        clear h2 hg
        revert f2
        generalize g.layers = gl
        intro f2
        induction f2 with
        | nil => exact .nil
        | @cons l e gl ls a _ ih =>
          refine .cons ?_ (ih (fun e he => hother e (List.mem_cons_of_mem _ he))
            (fun e he => hown e (List.mem_cons_of_mem _ he)))
          by_cases hq : l.cls = "InputLayer" ∨ l.cls = "QuantizeLayer"
          · have hall : ∀ r, quantizeLayer r (requiresOutput m) g l = .ok e := by
              intro r
              rcases hq with hq | hq
              · rw [quantizeLayer, if_pos hq] at a ⊢
                exact a
              · have hi : ¬ l.cls = "InputLayer" := by rw [hq]; decide
                rw [quantizeLayer, if_neg hi, if_pos hq] at a ⊢
                exact a
            rw [quantizeLayerE]
            cases hr : registry w v l with
            | ok r => exact hall _
            | error e' =>
              dsimp only
              rw [if_neg (by rcases hq with hq | hq <;> simp [asked, hq])]
              exact hall _
          · rw [not_or] at hq
            obtain ⟨hi, hq⟩ := hq
            have he := (Aux.quantizeLayer_layer a).2.2 hq
            have ho := hother e List.mem_cons_self
            have hw := hown e List.mem_cons_self
            rw [he] at ho hw
            replace hw := hw hi hq
            have hreg : registry w v l = .ok (reg l) := by
              by_cases hs : l.cls ∈ ["Conv2D", "Dense", "DepthwiseConv2D"] ∨ v.trainable l = []
              · obtain ⟨p, hp, hr⟩ := hw hs
                rw [hr]
                have : Verif.Quant.PreserveRegistry.supports ⟨l.cls, v.trainable l⟩ = true := by
                  rw [Verif.Quant.PreserveRegistry.supports]
                  rcases hs with hs | hs
                  · simp only [List.mem_cons, List.not_mem_nil, or_false] at hs
                    rcases hs with hs | hs | hs <;>
                      simp [hs, Verif.Quant.PreserveRegistry.layersConfigMap, List.lookup]
                  · simp [Verif.Quant.PreserveRegistry.noTrainableWeights, hs]
                rw [registry, if_pos this, hp]
              · rw [not_or] at hs
                rw [ho hs.1 hs.2]
                have : Verif.Quant.PreserveRegistry.supports ⟨l.cls, v.trainable l⟩ = false := by
                  obtain ⟨hcls, ht⟩ := hs
                  cases hv : v.trainable l with
                  | nil => exact absurd hv ht
                  | cons x xs =>
                    simp only [List.mem_cons, List.not_mem_nil, or_false, not_or] at hcls
                    simp [Verif.Quant.PreserveRegistry.supports, Verif.Quant.PreserveRegistry.noTrainableWeights,
                      Verif.Quant.PreserveRegistry.layersConfigMap, List.lookup,
                      beq_eq_false_iff_ne.2 hcls.1, beq_eq_false_iff_ne.2 hcls.2.1, beq_eq_false_iff_ne.2 hcls.2.2]
                rw [registry, this]
                rfl
            rw [quantizeLayerE, hreg]
            dsimp only
            rw [quantizeLayer] at a ⊢
            exact a
      rw [f1]

end Main109

namespace Example

/-- Attributes and trainable weights of Keras layers. -/
def collabView : View ℕ String :=
  { klayer := fun l => ⟨⟨l.cls, fun _ => some 0, fun _ => some "linear"⟩, none⟩
    trainable := fun l => if l.cls ∈ ["Conv2D", "Dense", "Embedding"] then ["kernel", "bias"] else [] }

/-- `quantize_apply` with a preserving scheme. -/
def collab8 (w : Which) (m : AModel ℕ (CConfig String)) : Except String (OModel ℕ (CConfig String)) :=
  collabApply (fun a b => decide (a = b)) autoName ⟨fun _ => true, supported8, {}⟩ id id id 200 w collabView m

def collabCheck (w : Which) (m : AModel ℕ (CConfig String)) (p : OModel ℕ (CConfig String) → Bool) : Bool :=
  match collab8 w m with
  | .ok out => p out
  | .error _ => false

theorem collabCheck_spec {w m p} (h : collabCheck w m p = true) : ∃ out, collab8 w m = .ok out ∧ p out = true := by
  rw [collabCheck] at h
  split at h
  · rename_i out ho
    exact ⟨out, ho, h⟩
  · simp at h

/-- `in -> dense1, in -> dense2, [dense1, dense2] -> cat`, all annotated. -/
def collabConcat : AModel ℕ (CConfig String) :=
  { functional := true
    built := true
    layers := [{ layer := ⟨"in", "InputLayer", [], []⟩ },
      { layer := ⟨"dense1", "Dense", [("activation", "linear")], [[⟨"in", 0, 0, []⟩]]⟩, annotation := some none },
      { layer := ⟨"dense2", "Dense", [("activation", "linear")], [[⟨"in", 0, 0, []⟩]]⟩, annotation := some none },
      { layer := ⟨"cat", "Concatenate", [], [[⟨"dense1", 0, 0, []⟩, ⟨"dense2", 0, 0, []⟩]]⟩, annotation := some none }]
    outputs := [("cat", 0, 0)]
    weights := fun n => if n = "dense1" then [("kernel", 1), ("bias", 2)] else [] }

/-- A Sequential model with the given layers after the input, all annotated. -/
def collabSeq (classes : List (String × String)) : AModel ℕ (CConfig String) :=
  { functional := false
    built := true
    layers := { layer := ⟨"in", "InputLayer", [], []⟩ } ::
      classes.map fun e => { layer := ⟨e.1, e.2, [("activation", "linear")], []⟩, annotation := some none }
    outputs := []
    weights := fun n => if n = "conv" then [("kernel", 1), ("bias", 2)] else [] }

/-- Whether the layer `name` has a preserving weight quantizer. -/
def preserved (w : Which) (out : OModel ℕ (CConfig String)) (name : String) : Bool :=
  out.layers.any fun e => decide (e.layer.name = name) && (match e with
    | .quantized _ ⟨.custom (.registry p), _, _⟩ => (match p.weightQuantizer with
      | .preserving w' _ _ => decide (w' = w)
      | .ordinary _ => false)
    | _ => false)

end Example

open Example in
/-- **C109** is violated next to a concatenation: the layout transform gives an annotated `Dense` layer that feeds a
`Concatenate` the config of the *default* registry, so its kernel is quantized by the ordinary quantizer, and pruned
weights and clusters are lost in training. -/
theorem C109_concat_violated (w : Which) (hw : w ∈ [Which.prune, .cluster true, .cluster false]) :
    ∃ out, collab8 w collabConcat = .ok out ∧
      ∀ e ∈ out.layers, e.layer.name = "dense1" → e = .quantized e.layer ⟨.default {} "Dense", true, true⟩ := by
  have h : ∀ w ∈ [Which.prune, .cluster true, .cluster false], collabCheck w collabConcat (fun out =>
      decide (∀ e ∈ out.layers, e.layer.name = "dense1" →
        e = .quantized e.layer ⟨.default {} "Dense", true, true⟩)) = true := by decide +kernel
  obtain ⟨out, h1, h2⟩ := collabCheck_spec (h w hw)
  exact ⟨out, h1, of_decide_eq_true h2⟩

open Example in
/-- **C109** is violated before a `ReLU` layer: the layout transform gives the layer the config that quantizes
nothing. -/
theorem C109_relu_violated (w : Which) (hw : w ∈ [Which.prune, .cluster true, .cluster false]) :
    ∃ out, collab8 w (collabSeq [("conv", "Conv2D"), ("relu", "ReLU")]) = .ok out ∧
      ∀ e ∈ out.layers, e.layer.name = "conv" → e = .quantized e.layer ⟨.noOp, false, false⟩ := by
  have h : ∀ w ∈ [Which.prune, .cluster true, .cluster false],
      collabCheck w (collabSeq [("conv", "Conv2D"), ("relu", "ReLU")]) (fun out =>
      decide (∀ e ∈ out.layers, e.layer.name = "conv" → e = .quantized e.layer ⟨.noOp, false, false⟩)) = true := by
    decide +kernel
  obtain ⟨out, h1, h2⟩ := collabCheck_spec (h w hw)
  exact ⟨out, h1, of_decide_eq_true h2⟩

open Example in
/-- **C109** is violated for layers that are not annotated: a layer without weights of a class the default registry
does not support (here a `Lambda`) in front of an annotated layer makes `quantize_apply` fail with the preserving
schemes, which say they support every layer without weights and then raise an exception; with the default 8-bit
scheme the same layer is left alone. -/
theorem C109_unannotated_violated (w : Which) (hw : w ∈ [Which.prune, .cluster true, .cluster false]) :
    ∃ ls : List (ALayer (CConfig String)),
      ls.map (fun a => (a.layer.cls, a.annotation)) =
        [("InputLayer", none), ("Lambda", none), ("Dense", some none)] ∧
      collab8 w { collabSeq [] with layers := ls } = .error "ValueError" ∧
      ∃ out : OModel ℕ String,
        quantizeApply scheme8 (.model { functional := false, built := true, outputs := [], weights := fun _ => []
                                        layers := ls.map fun a => { layer := a.layer
                                                                    annotation := a.annotation.map fun _ => none } }) =
          .ok out ∧ ∃ e ∈ out.layers, e.layer.cls = "Lambda" ∧ e = .plain e.layer := by
  let ls : List (ALayer (CConfig String)) := [{ layer := ⟨"in", "InputLayer", [], []⟩ },
    { layer := ⟨"f", "Lambda", [], []⟩ },
    { layer := ⟨"fc", "Dense", [("activation", "linear")], []⟩, annotation := some none }]
  refine ⟨ls, by decide +kernel, ?_, ?_⟩
  · have h : ∀ w ∈ [Which.prune, .cluster true, .cluster false], (match collab8 w { collabSeq [] with layers := ls } with
      | .ok _ => false
      | .error e => decide (e = "ValueError")) = true := by decide +kernel
    have h := h w hw
    cases hc : collab8 w { collabSeq [] with layers := ls } with
    | ok out => rw [hc] at h; cases h
    | error e => rw [hc] at h; exact congrArg _ (of_decide_eq_true h)
  · have h : applyCheck { functional := false, built := true, outputs := [], weights := fun _ => []
                          layers := ls.map fun a => { layer := a.layer, annotation := a.annotation.map fun _ => none } }
        (fun out => decide (∃ e ∈ out.layers, e.layer.cls = "Lambda" ∧ e = .plain e.layer)) = true := by decide +kernel
    obtain ⟨out, h1, h2⟩ := applyCheck_spec h
    exact ⟨out, h1, of_decide_eq_true h2⟩

open Example in
/-- The hypotheses of C109_preserving are met, with batch normalization, and both kernels are preserved. -/
example : (∃ out, collab8 .prune (collabSeq [("conv", "Conv2D"), ("bn", "BatchNormalization"), ("fc", "Dense")]) =
      .ok out ∧ preserved .prune out "conv" = true ∧ preserved .prune out "fc" = true) ∧
    (∀ l, (collabView.klayer l).own.cls = l.cls) ∧
    ¬ Spec.AnnotatedConcat (collabSeq [("conv", "Conv2D"), ("bn", "BatchNormalization"), ("fc", "Dense")]) := by
  refine ⟨?_, fun _ => rfl, ?_⟩
  · have h : collabCheck .prune (collabSeq [("conv", "Conv2D"), ("bn", "BatchNormalization"), ("fc", "Dense")])
        (fun out => preserved .prune out "conv" && preserved .prune out "fc") = true := by decide +kernel
    obtain ⟨out, h1, h2⟩ := collabCheck_spec h
    exact ⟨out, h1, by simpa using h2⟩
  · rintro ⟨a, ha, -, hc⟩
    simp only [collabSeq, List.map_cons, List.map_nil, List.mem_cons, List.not_mem_nil, or_false] at ha
    rcases ha with rfl | rfl | rfl | rfl <;> exact absurd hc (by decide)

open Example in
/-- C109_rejects: an annotated `Embedding`. -/
example : ∃ e, collab8 .prune (collabSeq [("emb", "Embedding")]) = .error e := by
  have h : (match collab8 .prune (collabSeq [("emb", "Embedding")]) with
    | .ok _ => false
    | .error _ => true) = true := by decide +kernel
  cases hc : collab8 .prune (collabSeq [("emb", "Embedding")]) with
  | ok out => rw [hc] at h; cases h
  | error e => exact ⟨e, rfl⟩

/-- `C109_same_network` is not vacuous: both schemes accept this model. -/
example : Example.collabCheck .prune (Example.collabSeq [("conv", "Conv2D"), ("fc", "Dense")]) (fun out =>
      match quantizeApply { defaultScheme (fun a b => decide (a = b)) autoName
          ⟨fun _ => true, Example.supported8, {}⟩ id id id 200 with
          registry := fun _ => some ⟨.default {} "Dense", false, false⟩ } 
          (.model (Example.collabSeq [("conv", "Conv2D"), ("fc", "Dense")])) with
      | .ok out' => decide (out.layers ≠ out'.layers) &&
          decide (out.layers.map (·.layer) = out'.layers.map (·.layer))
      | .error _ => false) = true := by decide +kernel

open Example in
/-- An `Embedding` layer, which is not annotated and which the preserving registries do not support, in front of an
annotated `Dense` layer: it is left alone, with the registry that the hypotheses of `C109_other_layers` ask for. -/
example (w : Which) (hw : w ∈ [Which.prune, .cluster true, .cluster false]) :
    ∃ (out : OModel ℕ (CConfig String)) (reg : Layer → Option (QConfig (CConfig String))),
      collab8 w { collabSeq [] with layers := [{ layer := ⟨"in", "InputLayer", [], []⟩ },
        { layer := ⟨"emb", "Embedding", [], []⟩ },
        { layer := ⟨"fc", "Dense", [("activation", "linear")], []⟩, annotation := some none }] } = .ok out ∧
      (∃ e ∈ out.layers, e.layer.name = "emb" ∧ e = .plain e.layer) ∧ preserved w out "fc" = true ∧
      (∀ e ∈ out.layers, e.layer.cls ∉ ["Conv2D", "Dense", "DepthwiseConv2D"] →
        collabView.trainable e.layer ≠ [] → reg e.layer = none) ∧
      ∀ e ∈ out.layers, e.layer.cls ≠ "InputLayer" → e.layer.cls ≠ "QuantizeLayer" →
        (e.layer.cls ∈ ["Conv2D", "Dense", "DepthwiseConv2D"] ∨ collabView.trainable e.layer = []) →
        ∃ p, Verif.Quant.PreserveRegistry.getConfig w (collabView.klayer e.layer) (collabView.trainable e.layer) =
            .ok p ∧ reg e.layer = some (⟨.custom (.registry p), false, false⟩ : QConfig (CConfig String)) := by
  have h : ∀ w ∈ [Which.prune, .cluster true, .cluster false], collabCheck w { collabSeq [] with
        layers := [{ layer := ⟨"in", "InputLayer", [], []⟩ }, { layer := ⟨"emb", "Embedding", [], []⟩ },
          { layer := ⟨"fc", "Dense", [("activation", "linear")], []⟩, annotation := some none }] } (fun out =>
      decide (∃ e ∈ out.layers, e.layer.name = "emb" ∧ e = .plain e.layer) && preserved w out "fc" &&
      decide (∀ e ∈ out.layers, e.layer.cls ≠ "InputLayer" → e.layer.cls ≠ "QuantizeLayer" →
        (e.layer.cls ∈ ["Conv2D", "Dense", "DepthwiseConv2D"] ∨ collabView.trainable e.layer = []) →
        e.layer.cls = "Dense")) = true := by decide +kernel
  obtain ⟨out, h1, h2⟩ := collabCheck_spec (h w hw)
  simp only [Bool.and_eq_true, decide_eq_true_eq] at h2
  obtain ⟨⟨h2, h3⟩, h4⟩ := h2
  have hp : ∀ w ∈ [Which.prune, .cluster true, .cluster false], (Verif.Quant.PreserveRegistry.getConfig w
      (collabView.klayer ⟨"fc", "Dense", [], []⟩) ["kernel", "bias"]).isOk = true := by decide +kernel
  replace hp := hp w hw
  cases hc : Verif.Quant.PreserveRegistry.getConfig w (collabView.klayer ⟨"fc", "Dense", [], []⟩)
      ["kernel", "bias"] with
  | error e => rw [hc] at hp; cases hp
  | ok p =>
    refine ⟨out, fun l => if l.cls = "Dense" then some ⟨.custom (.registry p), false, false⟩ else none, h1, h2, h3,
      fun e _ hcls _ => if_neg fun hd => hcls (by rw [hd]; decide), fun e he hi hq hs => ⟨p, ?_, ?_⟩⟩
    · have hd := h4 e he hi hq hs
      have hk : collabView.klayer e.layer = collabView.klayer ⟨"fc", "Dense", [], []⟩ := by
        simp only [collabView, hd]
      have ht : collabView.trainable e.layer = ["kernel", "bias"] := by
        simp only [collabView, hd]; decide
      rw [hk, ht, hc]
    · exact if_pos (h4 e he hi hq hs)

end Verif.Props
