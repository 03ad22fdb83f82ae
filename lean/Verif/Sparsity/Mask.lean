import Verif.Prelude

/-!
# Model of the magnitude mask, `sparsity/keras/pruning_impl.py`

Paths are relative to `/repo/tensorflow_model_optimization/python/core/`.
-/

namespace Verif.Sparsity

variable {α : Type*} [Field α] [LinearOrder α] [IsStrictOrderedRing α] [FloorRing α]

/-- Ways in which computing a mask can fail. -/
inductive MaskError
  | gatherOutOfRange   -- `tf.gather(values, k-1)` with `k-1` not below the size
  | poolRank           -- `factorized_pool() accepts tensors of rank 2 only`, pruning_utils.py l.133
  | expandRank         -- `Input tensor must be rank 2`, pruning_utils.py l.72
  | badRank            -- `weight tensor with shape ... is not supported`, pruning_utils.py l.226/273
  | mNotLessThanN      -- `m be must smaller than n`, pruning_utils.py l.300
  deriving DecidableEq, Repr

/-- The number `k` of weights to keep, `sparsity/keras/pruning_impl.py` lines 92-99:
`max(round(size * (1 - sparsity)), 1)` cast to an integer. -/
def keepCount (s : α) (n : ℕ) : ℕ :=
  (max (roundHalfEven ((n : α) * (1 - s))) 1).toNat

/-- `Pruning._update_mask`, `sparsity/keras/pruning_impl.py` lines 71-124, on the flattened weight
tensor.  `sparsity` is the second component of the schedule's answer (line 90).  Returns the
threshold and the 0/1 mask. -/
def updateMask (sparsity : α) (weights : List α) : Except MaskError (α × List α) :=
  let absW := weights.map abs
  let k := keepCount sparsity weights.length
  let indices := topKIndices absW
  match indices[k - 1]? with
  | none => .error .gatherOutOfRange
  | some pos =>
    let thr := absW.getD pos 0
    .ok (thr, (List.range weights.length).map fun i =>
      if absW.getD i 0 ≥ thr ∨ i = pos then 1 else 0)

end Verif.Sparsity
