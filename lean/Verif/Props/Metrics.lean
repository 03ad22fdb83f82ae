import Verif.Metrics
import Mathlib.Tactic.SplitIfs
import Mathlib.Tactic.Tauto

/-!
# C106: usage monitoring does not change what a function does, and records what happened
-/
set_option linter.unusedSectionVars false
namespace Verif.Props
open Verif.Metrics

variable {σ α β ε : Type}

namespace Spec

/-- A program: calls of a function, each after some change of the rest of the state; it stops at an
interrupt but goes on after an exception. -/
def outcomes (f : Func σ α β ε) : σ → Cells → List ((σ → σ) × α) → List (Outcome β ε) × σ × Cells
  | s, c, [] => ([], s, c)
  | s, c, (g, a) :: rest =>
    match f (g s) c a with
    | (.interrupted e, s', c') => ([.interrupted e], s', c')
    | (o, s', c') =>
      let r := outcomes f s' c' rest
      (o :: r.1, r.2)

/-- A function that does not look at the cells. -/
def IgnoresCells (f : Func σ α β ε) : Prop :=
  ∀ s c c' a, (f s c a).1 = (f s c' a).1 ∧ (f s c a).2.1 = (f s c' a).2.1

/-- A function that leaves the cells of one gauge alone. -/
def Leaves (gauge : String) (f : Func σ α β ε) : Prop :=
  ∀ s c a label, value (f s c a).2.2 gauge label = value c gauge label

end Spec

namespace Aux

theorem value_set (c : Cells) (g l g' l' : String) (v : Bool) :
    value (setCell c g l v) g' l' = if g' = g ∧ l' = l then v else value c g' l' := by
  unfold value setCell
  rw [List.lookup_cons]
  by_cases h : g' = g ∧ l' = l
  · obtain ⟨rfl, rfl⟩ := h
    simp
  · rw [if_neg h]
    have : ((g', l') == (g, l)) = false := by
      rw [beq_eq_false_iff_ne]
      intro he
      exact h (by simpa using he)
    rw [this]

end Aux

/-- **C106** (one call).  A monitored function returns the same result, raises the same error and
leaves the program in the same state as the function itself. -/
theorem C106_transparent (gauge : String) (f : Func σ α β ε) (s : σ) (c : Cells) (a : α) :
    (monitored gauge f s c a).1 = (f s c a).1 ∧ (monitored gauge f s c a).2.1 = (f s c a).2.1 := by
  unfold monitored
  rcases h : f s c a with ⟨o, s', c'⟩
  cases o <;> exact ⟨rfl, rfl⟩

/-- **C106** (histories).  A program in which the function is monitored has the same results, errors
and states as the program in which it is not. -/
theorem C106_history (gauge : String) (f : Func σ α β ε) (hf : Spec.IgnoresCells f)
    (calls : List ((σ → σ) × α)) (s : σ) (c c' : Cells) :
    (Spec.outcomes (monitored gauge f) s c calls).1 = (Spec.outcomes f s c' calls).1 ∧
    (Spec.outcomes (monitored gauge f) s c calls).2.1 = (Spec.outcomes f s c' calls).2.1 := by
  induction calls generalizing s c c' with
  | nil => exact ⟨rfl, rfl⟩
  | cons e rest ih =>
    obtain ⟨g, a⟩ := e
    have ht := C106_transparent gauge f (g s) c a
    have hi := hf (g s) c c' a
    unfold Spec.outcomes
    rcases h1 : monitored gauge f (g s) c a with ⟨o1, s1, c1⟩
    rcases h2 : f (g s) c' a with ⟨o2, s2, c2⟩
    rw [h1] at ht
    rw [h2] at hi
    dsimp only at ht hi
    have ho : o1 = o2 := by rw [ht.1, hi.1]
    have hs : s1 = s2 := by rw [ht.2, hi.2]
    subst ho hs
    cases o1 with
    | returned b => exact ⟨by dsimp only; rw [(ih s1 c1 c2).1], (ih s1 c1 c2).2⟩
    | raised e => exact ⟨by dsimp only; rw [(ih s1 c1 c2).1], (ih s1 c1 c2).2⟩
    | interrupted e => exact ⟨rfl, rfl⟩

/-- **C106** (what is recorded).  After any history the cell `success` is set if it was before or some
call returned, `failure` if it was before or some call raised an exception, and no other cell of the
gauge changes; an interrupt is not recorded. -/
theorem C106_recorded (gauge : String) (f : Func σ α β ε) (hf : Spec.Leaves gauge f)
    (calls : List ((σ → σ) × α)) (s : σ) (c : Cells) (label : String) :
    value (Spec.outcomes (monitored gauge f) s c calls).2.2 gauge label = true ↔
      value c gauge label = true ∨
      (label = "success" ∧
        ∃ b, .returned b ∈ (Spec.outcomes (monitored gauge f) s c calls).1) ∨
      (label = "failure" ∧
        ∃ e, .raised e ∈ (Spec.outcomes (monitored gauge f) s c calls).1) := by
  induction calls generalizing s c with
  | nil => simp [Spec.outcomes]
  | cons e rest ih =>
    obtain ⟨g, a⟩ := e
    have hl := hf (g s) c a
    unfold Spec.outcomes monitored
    rcases h1 : f (g s) c a with ⟨o, s', c'⟩
    rw [h1] at hl
    dsimp only at hl
    cases o with
    | returned b =>
      dsimp only
      have := ih s' (setCell c' gauge "success" true)
      unfold monitored at this
      rw [this, Aux.value_set]
      rw [hl label]
      by_cases h : label = "success"
      · subst h
        simp
      · simp [h]
    | raised e =>
      dsimp only
      have := ih s' (setCell c' gauge "failure" true)
      unfold monitored at this
      rw [this, Aux.value_set]
      rw [hl label]
      by_cases h : label = "failure"
      · subst h
        simp
      · simp [h]
    | interrupted e =>
      dsimp only
      rw [hl label]
      simp

/-- **C106** (a new process).  If nothing has been recorded before, the success cell is set exactly if a call
returned, and the failure cell exactly if one raised an exception. -/
theorem C106_recorded_new (gauge : String) (f : Func σ α β ε) (hf : Spec.Leaves gauge f)
    (calls : List ((σ → σ) × α)) (s : σ) :
    (value (Spec.outcomes (monitored gauge f) s [] calls).2.2 gauge "success" = true ↔
      ∃ b, .returned b ∈ (Spec.outcomes (monitored gauge f) s [] calls).1) ∧
    (value (Spec.outcomes (monitored gauge f) s [] calls).2.2 gauge "failure" = true ↔
      ∃ e, .raised e ∈ (Spec.outcomes (monitored gauge f) s [] calls).1) := by
  refine ⟨(C106_recorded gauge f hf calls s [] _).trans ?_, (C106_recorded gauge f hf calls s [] _).trans ?_⟩ <;>
    simp [value]

/-- **C106** (other gauges).  A call of a monitored function changes no cell of another gauge that
the function itself does not change. -/
theorem C106_other_gauges (gauge other : String) (h : other ≠ gauge) (f : Func σ α β ε) (s : σ)
    (c : Cells) (a : α) (label : String) :
    value (monitored gauge f s c a).2.2 other label = value (f s c a).2.2 other label := by
  unfold monitored
  rcases h1 : f s c a with ⟨o, s', c'⟩
  cases o <;> simp [Aux.value_set, h]

/-- **C106** (names).  Exactly five names are accepted, and different names have different gauges. -/
theorem C106_gauge_names :
    (∀ name, (∃ g, usageGauge name = .ok g) ↔ name ∈ ["prune_for_benchmark_usage",
      "prune_low_magnitude_usage", "prune_low_magnitude_wrapper_usage", "quantize_apply_usage",
      "quantize_wrapper_usage"]) ∧
    ∀ n n' g, usageGauge n = .ok g → usageGauge n' = .ok g → n = n' := by
  have key : ∀ name g, usageGauge name = .ok g →
      (name, g) ∈ [("prune_for_benchmark_usage", "/tfmot/api/sparsity/prune_for_benchmark"),
        ("prune_low_magnitude_usage", "/tfmot/api/sparsity/prune_low_magnitude"),
        ("prune_low_magnitude_wrapper_usage", "/tfmot/api/sparsity/pruning_wrapper"),
        ("quantize_apply_usage", "/tfmot/api/quantization/quantize_apply"),
        ("quantize_wrapper_usage", "/tfmot/api/quantization/quantize_wrapper")] := by
    intro name g h
    unfold usageGauge at h
    split_ifs at h <;> cases h <;> simp_all
  refine ⟨fun name => ⟨?_, ?_⟩, ?_⟩
  · rintro ⟨g, h⟩
    have := key name g h
    simp only [List.mem_cons, Prod.mk.injEq, List.not_mem_nil, or_false] at this ⊢
    tauto
  · intro h
    simp only [List.mem_cons, List.not_mem_nil, or_false] at h
    rcases h with rfl | rfl | rfl | rfl | rfl <;> exact ⟨_, rfl⟩
  · intro n n' g h h'
    have h1 := key n g h
    have h2 := key n' g h'
    simp only [List.mem_cons, Prod.mk.injEq, List.not_mem_nil, or_false] at h1 h2
    rcases h1 with ⟨rfl, rfl⟩ | ⟨rfl, rfl⟩ | ⟨rfl, rfl⟩ | ⟨rfl, rfl⟩ | ⟨rfl, rfl⟩ <;>
      rcases h2 with ⟨rfl, h2⟩ | ⟨rfl, h2⟩ | ⟨rfl, h2⟩ | ⟨rfl, h2⟩ | ⟨rfl, h2⟩ <;>
      first | rfl | (exfalso; revert h2; decide)

namespace Example

/-- A function that counts its calls and raises on odd arguments. -/
def countOdd : Func Nat Nat Nat String := fun s c a =>
  if a = 13 then (.interrupted "KeyboardInterrupt", s, c)
  else if a % 2 = 0 then (.returned (a + s), s + 1, c) else (.raised "ValueError", s + 1, c)

example : Spec.IgnoresCells countOdd ∧ Spec.Leaves "g" countOdd := by
  refine ⟨fun s c c' a => ?_, fun s c a l => ?_⟩
  · unfold countOdd; split_ifs <;> exact ⟨rfl, rfl⟩
  · unfold countOdd; split_ifs <;> rfl

example : (Spec.outcomes (monitored "g" countOdd) 0 [] [(id, 2), (id, 3), (id, 13), (id, 4)]) =
    ([.returned 2, .raised "ValueError", .interrupted "KeyboardInterrupt"], 2,
      [(("g", "failure"), true), (("g", "success"), true)]) := by decide

end Example

end Verif.Props
