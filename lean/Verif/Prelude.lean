import Mathlib.Algebra.Order.Floor.Ring
import Mathlib.Algebra.Order.Field.Basic
import Mathlib.Data.List.Sort
import Mathlib.Data.Rat.Floor
import Mathlib.Tactic.Linarith
import Mathlib.Tactic.Ring
import Mathlib.Tactic.NormNum

/-!
# Shared primitives: TensorFlow operations used by several modelled functions

Numbers are elements of an arbitrary linearly ordered field with a floor function (so both `ℚ`,
where everything is executable, and `ℝ`).  Floating point rounding is not modelled.
-/

namespace Verif

variable {α : Type*} [Field α] [LinearOrder α] [IsStrictOrderedRing α] [FloorRing α]

/-- `tf.math.round`: round to the nearest integer, halves to the even one.  Library operation used
at `sparsity/keras/pruning_impl.py` line 94 and elsewhere. -/
def roundHalfEven (x : α) : ℤ :=
  let f := ⌊x⌋
  let d := x - f
  if d < 1 / 2 then f
  else if 1 / 2 < d then f + 1
  else if f % 2 = 0 then f else f + 1

/-- Order used by `tf.math.top_k` on indices: larger value first, ties by smaller index. -/
def topKBefore (v : List α) (i j : ℕ) : Prop :=
  v.getD j 0 < v.getD i 0 ∨ (v.getD i 0 = v.getD j 0 ∧ i ≤ j)

instance (v : List α) : DecidableRel (topKBefore v) := fun i j => by
  unfold topKBefore; infer_instance

/-- `indices` of `tf.math.top_k(v, k=len(v))`: all positions sorted by decreasing value, ties by
increasing position (documented behaviour of `tf.math.top_k`). -/
def topKIndices (v : List α) : List ℕ :=
  (List.range v.length).insertionSort (topKBefore v)

end Verif
