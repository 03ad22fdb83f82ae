import Verif.Quant.Apply
import Mathlib.Data.List.Forall2

/-
C55: `quantize_annotate_model` annotates every layer once.
-/
set_option linter.unusedSectionVars false

namespace Verif.Props
open Verif.Quant.Transformer Verif.Quant.Transforms8Bit Verif.Quant.Apply

variable {V U : Type}

namespace Spec

/-- The layers `quantize_annotate_model` leaves alone: inputs, `Lambda` layers and layers that are
annotated already. -/
def LeftAlone (a : ALayer U) : Prop :=
  a.layer.cls = "InputLayer" ∨ a.isLambda = true ∨ a.annotation ≠ none

/-- `b` is what the annotated model has in the place of `a`. -/
def AnnotatedFrom (a b : ALayer U) : Prop :=
  (LeftAlone a → b = a) ∧
  (¬ LeftAlone a → b.annotation = some none ∧ b.layer = a.layer ∧ b.isLambda = a.isLambda ∧
    b.isModel = a.isModel)

end Spec

namespace Aux

theorem mapExcept_ok {α β : Type} (f : α → Except String β) : ∀ (xs : List α) (ys : List β),
    mapExcept f xs = .ok ys ↔ List.Forall₂ (fun x y => f x = .ok y) xs ys
  | [], ys => by
    simp only [mapExcept, Except.ok.injEq, List.forall₂_nil_left_iff]
    exact eq_comm
  | x :: xs, ys => by
    rw [mapExcept, List.forall₂_cons_left_iff]
    cases hx : f x with
    | error e => simp
    | ok y =>
      cases hxs : mapExcept f xs with
      | error e =>
        simp only [reduceCtorEq, false_iff, not_exists, not_and]
        rintro y' ys' - h -
        exact absurd ((mapExcept_ok f xs ys').2 h) (by simp [hxs])
      | ok zs =>
        have := mapExcept_ok f xs zs
        simp only [hxs, true_iff] at this
        simp only [Except.ok.injEq]
        constructor
        · rintro rfl; exact ⟨y, zs, rfl, this, rfl⟩
        · rintro ⟨y', ys', rfl, h, rfl⟩
          have h2 := (mapExcept_ok f xs ys').2 h
          rw [hxs] at h2
          simp only [Except.ok.injEq] at h2
          rw [h2]

theorem mapExcept_error {α β : Type} (f : α → Except String β) : ∀ (xs : List α) (e : String),
    mapExcept f xs = .error e → ∃ x ∈ xs, f x = .error e
  | [], e => by simp [mapExcept]
  | x :: xs, e => by
    rw [mapExcept]
    cases hx : f x with
    | error e' =>
      simp only [Except.error.injEq]
      rintro rfl
      exact ⟨x, by simp, hx⟩
    | ok y =>
      cases hxs : mapExcept f xs with
      | error e' =>
        simp only [Except.error.injEq]
        rintro rfl
        obtain ⟨z, hz, he⟩ := mapExcept_error f xs e' hxs
        exact ⟨z, by simp [hz], he⟩
      | ok zs => simp

theorem addWrapper_ok (a b : ALayer U) (h : addWrapper a = .ok b) : Spec.AnnotatedFrom a b := by
  rw [addWrapper] at h
  unfold Spec.AnnotatedFrom Spec.LeftAlone
  split at h
  · rename_i h1
    simp only [Except.ok.injEq] at h
    subst h
    simp [h1]
  split at h
  · rename_i h1 h2
    simp only [Except.ok.injEq] at h
    have : a.annotation ≠ none := by rw [← Option.isSome_iff_ne_none]; exact h2
    subst h
    simp [this]
  split at h
  · rename_i h3
    simp only [Except.ok.injEq] at h
    subst h
    simp [h3]
  split at h
  · simp at h
  · rename_i h1 h2 h3 h4
    simp only [Except.ok.injEq] at h
    have h2' : a.annotation = none := by simpa using h2
    refine ⟨fun h5 => ?_, fun _ => ?_⟩
    · rcases h5 with h5 | h5 | h5
      · exact absurd h5 h1
      · exact absurd h5 h3
      · exact absurd h2' h5
    · subst h; exact ⟨rfl, rfl, rfl, rfl⟩

theorem addWrapper_error (a : ALayer U) :
    (∃ e, addWrapper a = .error e) ↔ a.isModel = true ∧ ¬ Spec.LeftAlone a := by
  unfold Spec.LeftAlone addWrapper
  by_cases h1 : a.layer.cls = "InputLayer"
  · simp [h1]
  by_cases h2 : a.annotation = none
  · by_cases h3 : a.isLambda = true
    · simp [h1, h2, h3]
    · by_cases h4 : a.isModel = true
      · simp [h1, h2, h3, h4]
      · simp [h1, h2, h3, h4]
  · have : a.annotation.isSome = true := by rw [Option.isSome_iff_ne_none]; exact h2
    simp [h1, h2, this]

end Aux

/-- **C55.**  If `quantize_annotate_model` succeeds, the new model has the same weights, outputs and
layers in the same order; inputs, `Lambda` layers and layers that were annotated before are as they
were (with their own quantize config), and every other layer is annotated, without a config. -/
theorem C55_annotates (m m' : AModel V U) (h : annotateModel (.model m) = .ok m') :
    List.Forall₂ Spec.AnnotatedFrom m.layers m'.layers ∧
    m'.functional = m.functional ∧ m'.built = m.built ∧ m'.outputs = m.outputs ∧
    m'.weights = m.weights := by
  rw [annotateModel] at h
  split at h
  · simp at h
  · rename_i ls hls
    simp only [Except.ok.injEq] at h
    subst h
    exact ⟨((Aux.mapExcept_ok _ _ _).1 hls).imp fun a b hab => Aux.addWrapper_ok a b hab,
      rfl, rfl, rfl, rfl⟩

/-- **C55**, rejections: `quantize_annotate_model` fails exactly for `None`, for things that are not
Sequential or functional models, and for models with another model among the layers it would have
to annotate. -/
theorem C55_rejects (arg : Arg (AModel V U)) :
    (∃ e, annotateModel arg = .error e) ↔
      (∀ m, arg ≠ .model m) ∨
      ∃ m, arg = .model m ∧ ∃ a ∈ m.layers, a.isModel = true ∧ ¬ Spec.LeftAlone a := by
  cases arg with
  | none => simp [annotateModel]
  | other => simp [annotateModel]
  | subclassed => simp [annotateModel]
  | model m =>
    rw [annotateModel]
    have key : (∃ e, mapExcept addWrapper m.layers = .error e) ↔
        ∃ a ∈ m.layers, a.isModel = true ∧ ¬ Spec.LeftAlone a := by
      constructor
      · rintro ⟨e, he⟩
        obtain ⟨a, ha, hae⟩ := Aux.mapExcept_error _ _ _ he
        exact ⟨a, ha, (Aux.addWrapper_error a).1 ⟨e, hae⟩⟩
      · rintro ⟨a, ha, hb⟩
        obtain ⟨e, hae⟩ := (Aux.addWrapper_error a).2 hb
        cases hm : mapExcept addWrapper m.layers with
        | error e' => exact ⟨e', rfl⟩
        | ok ls =>
          exfalso
          have hf := (Aux.mapExcept_ok _ _ _).1 hm
          obtain ⟨i, hi, rfl⟩ := List.mem_iff_getElem.1 ha
          have := List.Forall₂.get hf hi (by rw [← hf.length_eq]; exact hi)
          simp only [List.get_eq_getElem] at this
          rw [hae] at this
          simp at this
    constructor
    · rintro ⟨e, he⟩
      right
      refine ⟨m, rfl, key.1 ?_⟩
      split at he
      · rename_i e' he'; exact ⟨e', he'⟩
      · simp at he
    · rintro (h | ⟨m', hm', h⟩)
      · exact absurd rfl (h m)
      · obtain rfl : m = m' := by simpa using hm'
        obtain ⟨e, he⟩ := key.2 h
        exact ⟨e, by rw [he]⟩

/-- **C55**: the error is always a `ValueError`. -/
theorem C55_value_error (arg : Arg (AModel V U)) (e : String) (h : annotateModel arg = .error e) :
    ∃ msg, e = "ValueError: " ++ msg := by
  cases arg with
  | none => cases h; exact ⟨"`to_annotate` cannot be None", by decide⟩
  | other => cases h; exact ⟨"`to_annotate` can only be a `keras.Model` instance.", by decide⟩
  | subclassed =>
    cases h; exact ⟨"`to_annotate` can only either be a keras Sequential or Functional model.", by decide⟩
  | model m =>
    rw [annotateModel] at h
    cases hm : mapExcept addWrapper m.layers with
    | ok ls => rw [hm] at h; cases h
    | error e' =>
      rw [hm] at h; cases h
      obtain ⟨a, -, hae⟩ := Aux.mapExcept_error _ _ _ hm
      unfold addWrapper at hae
      split at hae
      · cases hae
      split at hae
      · cases hae
      split at hae
      · cases hae
      split at hae
      · cases hae
        exact ⟨"Quantizing a keras Model inside another keras Model is not supported.", by decide⟩
      · cases hae

/-- **C55**, idempotence: annotating an annotated model changes nothing. -/
theorem C55_idempotent (arg : Arg (AModel V U)) (m' : AModel V U) (h : annotateModel arg = .ok m') :
    annotateModel (.model m') = .ok m' := by
  cases arg with
  | none => simp [annotateModel] at h
  | other => simp [annotateModel] at h
  | subclassed => simp [annotateModel] at h
  | model m =>
    obtain ⟨hl, -⟩ := C55_annotates m m' h
    have key : mapExcept addWrapper m'.layers = .ok m'.layers := by
      rw [Aux.mapExcept_ok]
      rw [annotateModel] at h
      split at h
      · simp at h
      rename_i ls hls
      simp only [Except.ok.injEq] at h
      subst h
      have hf := (Aux.mapExcept_ok _ _ _).1 hls
      rw [List.forall₂_iff_get]
      refine ⟨rfl, fun i hi hi' => ?_⟩
      have hlt : i < m.layers.length := by rw [hf.length_eq]; exact hi
      have h1 := List.Forall₂.get hf hlt hi
      have h2 := List.Forall₂.get hl hlt hi
      simp only [List.get_eq_getElem] at h1 h2 ⊢
      by_cases hla : Spec.LeftAlone m.layers[i]
      · rw [h2.1 hla]; rw [h2.1 hla] at h1; exact h1
      · rw [addWrapper, if_neg, if_pos]
        · rw [(h2.2 hla).1]; rfl
        · rw [(h2.2 hla).2.1]
          exact fun he => hla (Or.inl he)
    rw [annotateModel, key]

/-! ### Examples -/

namespace Example

def annLayer (name cls : String) (ann : Option (Option Nat)) (lambda nested : Bool) : ALayer Nat :=
  { layer := ⟨name, cls, [], []⟩, isLambda := lambda, isModel := nested, annotation := ann }

def annModel (nested : Bool) : AModel Nat Nat :=
  { functional := false, built := true, outputs := [], weights := fun _ => []
    layers := [annLayer "in" "InputLayer" none false false, annLayer "d1" "Dense" none false false,
      annLayer "f" "Lambda" none true false, annLayer "d2" "Dense" (some (some 7)) false false,
      annLayer "n" "Sequential" none false nested] }

example : ((annotateModel (.model (annModel false))).toOption.map fun m =>
    m.layers.map (·.annotation)) = some [none, some none, none, some (some 7), some none] := by decide

example : (annotateModel (.model (annModel true))).toOption.isNone = true := by decide

end Example

end Verif.Props
