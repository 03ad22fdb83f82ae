import Verif.Floats.Rounding
import Verif.Sparsity.Mask
import Mathlib.Data.Real.Archimedean

/-!
# The magnitude mask and the pruning schedule in rounded arithmetic

`sparsity/keras/pruning_impl.py` lines 71-124 and `sparsity/keras/pruning_schedule.py` lines 222-246, as in
`Verif/Sparsity/Mask.lean` and `Schedule.lean`, with a rounding after every operation.  Paths are relative to
`/repo/tensorflow_model_optimization/python/core/`.
-/

namespace Verif.Floats
open Verif Verif.Sparsity

section Mask
variable {α : Type*} [Field α] [LinearOrder α] [IsStrictOrderedRing α] [FloorRing α]

/-- The number of weights to keep, `pruning_impl.py` lines 92-99:
`max(round(cast(size, float32) * (1 - sparsity)), 1)`.  `tf.math.round` and `tf.math.maximum` are exact. -/
def keepCountF (R : Rounding α) (s : α) (n : ℕ) : ℕ :=
  (max (roundHalfEven (R.rnd (R.rnd n * R.rnd (1 - s)))) 1).toNat

/-- `Pruning._update_mask`, `pruning_impl.py` lines 71-124.  Absolute values, sorting and comparisons are
exact in floating-point arithmetic; only the number of weights to keep is rounded. -/
def updateMaskF (R : Rounding α) (sparsity : α) (weights : List α) : Except MaskError (α × List α) :=
  let absW := weights.map abs
  let k := keepCountF R sparsity weights.length
  let indices := topKIndices absW
  match indices[k - 1]? with
  | none => .error .gatherOutOfRange
  | some pos =>
    let thr := absW.getD pos 0
    .ok (thr, (List.range weights.length).map fun i =>
      if absW.getD i 0 ≥ thr ∨ i = pos then 1 else 0)

end Mask

/-- The progress `p`, `pruning_schedule.py` lines 231-237, in `float32` (`S`): the number of steps and
`end_step - begin_step` are converted, divided and clamped.  (`end_step = begin_step` is left out.) -/
noncomputable def progressF (S : Rounding ℝ) (b e step : ℤ) : ℝ :=
  min 1 (max 0 (S.rnd (S.rnd ((step - b : ℤ) : ℝ) / S.rnd ((e - b : ℤ) : ℝ))))

/-- The sparsity of `PolynomialDecay.__call__`, `pruning_schedule.py` lines 238-242.
`initial_sparsity - final_sparsity` is a Python subtraction (`D`, `float64`) whose result is converted to
`float32`; `pow` is the platform's `tf.math.pow(·, power)`. -/
noncomputable def sparsityF (S D : Rounding ℝ) (pow : ℝ → ℝ) (i f : ℝ) (b e step : ℤ) : ℝ :=
  S.rnd (S.rnd (S.rnd (D.rnd (i - f)) * pow (S.rnd (1 - progressF S b e step))) + S.rnd f)

end Verif.Floats
