import Verif.Props.Apply
import Verif.Props.Annotate
import Verif.Props.FloatFunction

/-!
# Property C54 for `quantize_model`, and the treatment of `QuantizeLayer`s

`quantize_model` is `quantize_annotate_model` followed by `quantize_apply`.
-/

set_option linter.unusedSectionVars false

namespace Verif.Props
open Verif.Quant.Transformer Verif.Quant.Transforms8Bit Verif.Quant.Apply

variable {V U : Type}

/-- There is a layer of the class `ReLU` or `Activation`. -/
def Spec.HasReLU (m : AModel V U) : Prop :=
  ∃ a ∈ m.layers, a.layer.cls = "ReLU" ∨ a.layer.cls = "Activation"

section QuantizeModel
variable [DecidableEq U] [DecidableEq V] (metaEq : Meta U → Meta U → Bool)
  (auto : String → ℕ → String) (c : Classes) (expand : V → V) (str1 str2 : String → String)
  (fuel : ℕ) (m : AModel V U) (out : OModel V U)
  (hnl : ∀ a ∈ m.layers, '\n' ∉ a.layer.cls.toList)
  (hfresh : Spec.FreshNames auto (m.layers.map fun a => a.layer.name))
  (h : quantizeModel (defaultScheme metaEq auto c expand str1 str2 fuel) (.model m) = .ok out)

namespace Aux

omit [DecidableEq U] [DecidableEq V] in
theorem forall₂_partner {β γ : Type*} {R : β → γ → Prop} {l : List β} {l' : List γ} (h : List.Forall₂ R l l') :
    ∀ a ∈ l, ∃ b ∈ l', R a b := by
  induction h with
  | nil => simp
  | cons hab _ ih =>
    intro a ha
    rcases List.mem_cons.1 ha with rfl | ha
    · exact ⟨_, List.mem_cons_self, hab⟩
    · obtain ⟨b, hb, hr⟩ := ih a ha
      exact ⟨b, List.mem_cons_of_mem _ hb, hr⟩

include hnl hfresh h

/-- The model `quantize_model` has annotated, which meets the hypotheses of the theorems on `quantize_apply`. -/
theorem quantizeModel_annotated : ∃ m' : AModel V U, List.Forall₂ Spec.AnnotatedFrom m.layers m'.layers ∧
    m'.weights = m.weights ∧ (∀ a ∈ m'.layers, '\n' ∉ a.layer.cls.toList) ∧
    Spec.FreshNames auto (m'.layers.map fun a => a.layer.name) ∧
    quantizeApply (defaultScheme metaEq auto c expand str1 str2 fuel) (.model m') = .ok out := by
  unfold quantizeModel at h
  cases hm : annotateModel (.model m) with
  | error e => rw [hm] at h; cases h
  | ok m' =>
    rw [hm] at h
    obtain ⟨hl, -, -, -, hw⟩ := C55_annotates m m' hm
    have same : ∀ a b : ALayer U, Spec.AnnotatedFrom a b → b.layer = a.layer := by
      intro a b hab
      by_cases hla : Spec.LeftAlone a
      · rw [hab.1 hla]
      · exact (hab.2 hla).2.1
    have hnames : m'.layers.map (fun a => a.layer) = m.layers.map (fun a => a.layer) := by
      generalize m'.layers = ls' at hl
      generalize m.layers = ls at hl
      clear hnl hfresh h hm hw
      induction hl with
      | nil => rfl
      | cons hab _ ih => rw [List.map_cons, List.map_cons, ih, same _ _ hab]
    refine ⟨m', hl, hw, ?_, ?_, h⟩
    · intro b hb
      have : b.layer ∈ m.layers.map (fun a => a.layer) := by rw [← hnames]; exact List.mem_map_of_mem hb
      obtain ⟨a, ha, hab⟩ := List.mem_map.1 this
      rw [← hab]; exact hnl a ha
    · have e : m'.layers.map (fun a => a.layer.name) = m.layers.map (fun a => a.layer.name) := by
        have := congrArg (List.map Layer.name) hnames
        simpa [List.map_map, Function.comp_def] using this
      rw [e]; exact hfresh

end Aux

include hnl hfresh h

/-- C54 for `quantize_model`: every layer that was not annotated (and is not an input, a `Lambda`, a quantized layer of
the library or a separable convolution) is in the result, under its name, with its class and weights, wrapped with a
config the library has for its class. -/
theorem C54_quantize_model (a : ALayer U) (ha : a ∈ m.layers) (hann : a.annotation = none)
    (hlam : a.isLambda = false) (hex : ¬ Spec.Exempt a.layer.cls)
    (hsep : a.layer.cls ≠ "SeparableConv1D" ∧ a.layer.cls ≠ "SeparableConv2D") :
    (∃ e ∈ out.layers, e.layer.name = a.layer.name) ∧
    out.weights a.layer.name = m.weights a.layer.name ∧
    ∀ e ∈ out.layers, e.layer.name = a.layer.name → e.layer.cls = a.layer.cls ∧
      ∃ q, e = .quantized e.layer q ∧ Spec.LibraryConfig c (Spec.HasReLU m) a.layer.cls q.kind := by
  obtain ⟨m', hl, hw, h1, h2, h3⟩ :=
    Aux.quantizeModel_annotated metaEq auto c expand str1 str2 fuel m out hnl hfresh h
  obtain ⟨b, hb, hab⟩ := Aux.forall₂_partner hl a ha
  have hla : ¬ Spec.LeftAlone a := by
    rintro (h | h | h)
    · exact hex (by rw [Spec.Exempt, h]; simp)
    · rw [hlam] at h; cases h
    · exact h hann
  obtain ⟨e1, e2, -, -⟩ := hab.2 hla
  obtain ⟨r1, r2, r3⟩ := C54_annotated_partial metaEq auto c expand str1 str2 fuel m' out h1 h2 h3 b hb none e1
    (by rw [e2]; exact hex) (by rw [e2]; exact fun _ => hsep)
  rw [e2] at r1 r2 r3
  refine ⟨r1, by rw [r2, hw], fun e he hen => ?_⟩
  obtain ⟨r4, q, r5, -, r6⟩ := r3 e he hen
  refine ⟨r4, q, r5, (r6 rfl).imp id (Or.imp id fun h => ⟨h.1, h.2.imp id (Or.imp id fun h => ⟨?_, h.2⟩)⟩)⟩
  obtain ⟨b', hb', -, hcls⟩ := h.1
  obtain ⟨a', ha', hab'⟩ := Aux.forall₂_partner (List.Forall₂.flip hl) b' hb'
  by_cases hla' : Spec.LeftAlone a'
  · have := hab'.1 hla'
    subst this
    exact ⟨b', ha', hcls⟩
  · obtain ⟨-, e2', -, -⟩ := hab'.2 hla'
    rw [e2'] at hcls
    exact ⟨a', ha', hcls⟩

/-- C54 for `quantize_model`: `Lambda` layers and inputs keep class, configuration and weights, and none of their
weights is quantized. -/
theorem C54_quantize_model_left (a : ALayer U) (ha : a ∈ m.layers) (hann : a.annotation = none)
    (hla : a.layer.cls = "InputLayer" ∨ a.isLambda = true) :
    (∃ e ∈ out.layers, e.layer.name = a.layer.name) ∧
    out.weights a.layer.name = m.weights a.layer.name ∧
    ∀ e ∈ out.layers, e.layer.name = a.layer.name → Spec.SameLayer a.layer e.layer ∧
      (e = .plain e.layer ∨ e = .outputOnly e.layer ⟨.default c.params a.layer.cls, false, false⟩ ∧
        c.supported a.layer.cls = true) := by
  obtain ⟨m', hl, hw, h1, h2, h3⟩ :=
    Aux.quantizeModel_annotated metaEq auto c expand str1 str2 fuel m out hnl hfresh h
  obtain ⟨b, hb, hab⟩ := Aux.forall₂_partner hl a ha
  have hba : b = a := hab.1 (hla.elim Or.inl fun h => Or.inr (Or.inl h))
  subst hba
  obtain ⟨r1, r2, r3⟩ := C54_unannotated metaEq auto c expand str1 str2 fuel m' out h1 h2 h3 b hb hann
  refine ⟨r1, by rw [r2, hw], fun e he hen => ?_⟩
  obtain ⟨r4, r5⟩ := r3 e he hen
  exact ⟨r4, r5.imp (fun x => x.1) fun x => ⟨x.1, x.2.2.2⟩⟩

end QuantizeModel

/-- C54: `quantize_model` fails for everything `quantize_annotate_model` rejects. -/
theorem C54_quantize_model_rejects (scheme : Scheme V U) (arg : Arg (AModel V U))
    (h : (∀ m, arg ≠ .model m) ∨ ∃ m, arg = .model m ∧ ((∃ a ∈ m.layers, a.isModel = true ∧ ¬ Spec.LeftAlone a) ∨
      m.built = false)) : ∃ e, quantizeModel scheme arg = .error e := by
  unfold quantizeModel
  cases hm : annotateModel arg with
  | error e => exact ⟨e, rfl⟩
  | ok m' =>
    have hno : ¬ ∃ e, annotateModel arg = .error e := by rintro ⟨e, he⟩; rw [hm] at he; cases he
    rw [C55_rejects] at hno
    rcases h with h | ⟨m, rfl, h | h⟩
    · exact absurd (Or.inl h) hno
    · exact absurd (Or.inr ⟨m, rfl, h⟩) hno
    · obtain ⟨-, -, hb, -⟩ := C55_annotates m m' hm
      exact (C54_rejects scheme).2.2.2 m' (Or.inr (hb.trans h))

/-! ## `QuantizeLayer`s -/

theorem Aux.lookup_setKey_self (config : List (String × String)) (key val : String) :
    (setKey config key val).lookup key = some val := by
  rw [setKey]
  split
  · rename_i hany
    induction config with
    | nil => simp at hany
    | cons e config ih =>
      rw [List.map_cons]
      by_cases he : e.1 = key
      · rw [if_pos he, List.lookup_cons]; simp
      · have h2 : (key == e.1) = false := by simpa using fun h => he h.symm
        rw [if_neg he, List.lookup_cons, h2]
        refine ih ?_
        rw [List.any_cons] at hany
        simpa [he] using hany
  · rename_i hany
    rw [List.lookup_append]
    have : config.lookup key = none := by
      rw [List.lookup_eq_none_iff]
      intro e he
      by_contra h
      refine hany (List.any_eq_true.2 ⟨e, he, ?_⟩)
      simp at h
      simp [h]
    rw [this]; simp

namespace Example

/-- The result of `quantize_model`, checked by `p`. -/
def modelCheck (m : AModel ℕ String) (p : OModel ℕ String → Bool) : Bool :=
  match quantizeModel scheme8 (.model m) with
  | .ok out => p out
  | .error _ => false

theorem modelCheck_spec {m p} (h : modelCheck m p = true) :
    ∃ out, quantizeModel scheme8 (.model m) = .ok out ∧ p out = true := by
  rw [modelCheck] at h
  split at h
  · rename_i out ho
    exact ⟨out, ho, h⟩
  · simp at h

end Example

/-- C54: a `QuantizeLayer` whose output is used by two layers, or that the library has no entry for, stays as it is. -/
theorem C54_quantize_layer_kept (reg : Layer → Option (QConfig U)) (requires : List String)
    (g : Graph V (Meta U)) (l : Layer) (hl : l.cls = "QuantizeLayer")
    (h : (∃ (i j : ℕ) (b b' : Layer), i < j ∧ g.layers[i]? = some b ∧ g.layers[j]? = some b' ∧ l.name ∈ inboundNames b ∧
      l.name ∈ inboundNames b') ∨ g.metadata l.name = none) :
    quantizeLayer reg requires g l = .ok (.plain l) := by
  rw [quantizeLayer, hl, if_neg (by decide), if_pos rfl]
  rcases h with ⟨i, j, b, b', hij, hb, hb', h1, h2⟩ | h
  · rw [if_pos]
    unfold outboundCount
    have e1 := (List.getElem?_eq_some_iff.1 hb)
    have e2 := (List.getElem?_eq_some_iff.1 hb')
    obtain ⟨i1, i2⟩ := e1
    obtain ⟨j1, j2⟩ := e2
    have hs : g.layers = g.layers.take j ++ g.layers.drop j := (List.take_append_drop _ _).symm
    rw [hs, List.flatMap_append, List.count_append]
    have p1 : 0 < ((g.layers.take j).flatMap inboundNames).count l.name := by
      rw [List.count_pos_iff, List.mem_flatMap]
      refine ⟨b, ?_, h1⟩
      rw [← i2]
      exact List.mem_iff_getElem.2 ⟨i, by rw [List.length_take]; omega, List.getElem_take⟩
    have p2 : 0 < ((g.layers.drop j).flatMap inboundNames).count l.name := by
      rw [List.count_pos_iff, List.mem_flatMap]
      refine ⟨b', ?_, h2⟩
      rw [← j2]
      exact List.mem_iff_getElem.2 ⟨0, by rw [List.length_drop]; omega, by rw [List.getElem_drop]; rfl⟩
    omega
  · split
    · rfl
    · rw [h]

/-- C54: a `QuantizeLayer` whose output is used at most once loses its quantizer if the transforms have said so. -/
theorem C54_quantize_layer_off (reg : Layer → Option (QConfig U)) (requires : List String)
    (g : Graph V (Meta U)) (l : Layer) (hl : l.cls = "QuantizeLayer")
    (h : ((g.layers.flatMap inboundNames).filter fun n => n = l.name).length ≤ 1)
    (i : Meta U) (hi : g.metadata l.name = some i) (hc : i.config = none) (hq : i.quantizer = true) :
    ∃ l', quantizeLayer reg requires g l = .ok (.plain l') ∧ l'.name = l.name ∧ l'.cls = l.cls ∧
      l'.inbound = l.inbound ∧ l'.config.lookup "quantizer" = some "None" ∧
      ∀ k, k ≠ "quantizer" → l'.config.lookup k = l.config.lookup k := by
  refine ⟨{ l with config := setKey l.config "quantizer" "None" }, ?_, rfl, rfl, rfl, ?_, ?_⟩
  · rw [quantizeLayer, hl, if_neg (by decide), if_pos rfl, if_neg, hi]
    · dsimp only
      rw [if_neg (by rw [hc]; simp), if_pos hq, ← hl]
    · unfold outboundCount
      rw [List.count_eq_length_filter, not_lt]
      refine le_trans (le_of_eq ?_) h
      congr 2
  · exact Aux.lookup_setKey_self _ _ _
  · exact fun k hk => Aux.lookup_setKey _ _ _ _ hk

open Example in
/-- `quantize_model` on `in -> conv -> lambda -> dense`, where `dense` has a config of its own. -/
example : ∃ out, quantizeModel scheme8 (.model { annotatedModel false with
    layers := [{ layer := ⟨"in", "InputLayer", [], []⟩ },
      { layer := ⟨"conv", "Conv2D", [("activation", "linear")], []⟩ },
      { layer := ⟨"f", "Lambda", [], []⟩, isLambda := true },
      { layer := ⟨"dense", "Dense", [], []⟩, annotation := some (some "mine") }] }) = .ok out ∧
    out.layers.map summary = [("in", "plain", none), ("quantize_layer_0", "plain", none),
      ("conv", "quantized", some (.default {} "Conv2D")), ("f", "plain", none),
      ("dense", "quantized", some (.custom "mine"))] := by
  have h : modelCheck { annotatedModel false with
    layers := [{ layer := ⟨"in", "InputLayer", [], []⟩ },
      { layer := ⟨"conv", "Conv2D", [("activation", "linear")], []⟩ },
      { layer := ⟨"f", "Lambda", [], []⟩, isLambda := true },
      { layer := ⟨"dense", "Dense", [], []⟩, annotation := some (some "mine") }] }
      (fun out => decide (out.layers.map summary = [("in", "plain", none), ("quantize_layer_0", "plain", none),
      ("conv", "quantized", some (.default {} "Conv2D")), ("f", "plain", none),
      ("dense", "quantized", some (.custom "mine"))])) = true := by decide +kernel
  obtain ⟨out, h1, h2⟩ := modelCheck_spec h
  exact ⟨out, h1, by simpa using h2⟩

open Example in
/-- A `QuantizeLayer` that feeds two layers, and one that feeds one. -/
example : ∃ g : Graph ℕ (Meta String), ∃ l : Layer, l.cls = "QuantizeLayer" ∧
    (∃ (i j : ℕ) (b b' : Layer), i < j ∧ g.layers[i]? = some b ∧ g.layers[j]? = some b' ∧ l.name ∈ inboundNames b ∧
      l.name ∈ inboundNames b') ∧ ((({ g with layers := g.layers.take 2 } : Graph ℕ (Meta String)).layers.flatMap
        inboundNames).filter fun n => n = l.name).length ≤ 1 :=
  ⟨{ functional := true
     layers := [⟨"q", "QuantizeLayer", [], []⟩, ⟨"a", "Dense", [], [[⟨"q", 0, 0, []⟩]]⟩,
        ⟨"b", "Dense", [], [[⟨"q", 0, 0, []⟩]]⟩]
     outputs := []
     weights := fun _ => []
     metadata := fun _ => none
     candidates := [] }, ⟨"q", "QuantizeLayer", [], []⟩, rfl,
    ⟨1, 2, _, _, by decide, rfl, rfl, by decide, by decide⟩, by decide⟩

end Verif.Props
