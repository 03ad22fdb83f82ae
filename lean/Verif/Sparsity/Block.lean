import Verif.Sparsity.Mask
import Mathlib.Algebra.BigOperators.Group.Finset.Basic
import Mathlib.Data.Finset.Lattice.Fold

/-!
# Model of block-sparse masks: `sparsity/keras/pruning_impl.py` lines 64-69, 149-202 and
`sparsity/keras/pruning_utils.py` lines 46-159

Paths are relative to `/repo/tensorflow_model_optimization/python/core/`.
-/

namespace Verif.Sparsity

variable {α : Type*} [Field α] [LinearOrder α] [IsStrictOrderedRing α] [FloorRing α]

/-- A rank-2 tensor: a shape and the entries (only indices inside the shape are meaningful). -/
structure Mat (α : Type*) where
  rows : ℕ
  cols : ℕ
  at_ : ℕ → ℕ → α

/-- Row-major flattening, `tf.reshape(x, [-1])`. -/
def Mat.flat (m : Mat α) : List α :=
  (List.range (m.rows * m.cols)).map fun p => m.at_ (p / m.cols) (p % m.cols)

/-- Inverse of flattening, `tf.reshape(l, [rows, cols])`. -/
def Mat.ofFlat (rows cols : ℕ) (l : List α) : Mat α :=
  ⟨rows, cols, fun i j => l.getD (i * cols + j) 0⟩

/-- `tf.transpose` of a rank-2 tensor. -/
def Mat.transpose (m : Mat α) : Mat α := ⟨m.cols, m.rows, fun i j => m.at_ j i⟩

/-- The two pooling types, validated in `sparsity/keras/pruning_wrapper.py` lines 160-163. -/
inductive PoolType | AVG | MAX
  deriving DecidableEq, Repr

/-- Output length of `tf.nn.pool` with stride `b` and `SAME` padding: `ceil(h / b)`. -/
def sameOut (h b : ℕ) : ℕ := (h + b - 1) / b

/-- Number of padding elements `SAME` puts *before* the data when window = stride = `b`:
half (rounded down) of `max(out*b - h, 0)`. -/
def samePadBefore (h b : ℕ) : ℕ := (sameOut h b * b - h) / 2

/-- Data positions covered by pooling window `o` (window = stride = `b`, `SAME` padding). -/
def window (h b o : ℕ) : Finset ℕ :=
  (Finset.range h).filter fun r => o * b ≤ r + samePadBefore h b ∧ r + samePadBefore h b < (o + 1) * b

/-- One-dimensional pooling of the entries `f` over a window.  Padding takes part neither in the
average nor in the maximum (documented behaviour of `tf.nn.pool`). -/
def pool1 (t : PoolType) (win : Finset ℕ) (f : ℕ → α) : α :=
  match t with
  | .AVG => (∑ r ∈ win, f r) / (win.card : α)
  | .MAX => if h : win.Nonempty then win.sup' h f else 0

/-- `factorized_pool` with `strides = window_shape` and `SAME` padding,
`sparsity/keras/pruning_utils.py` lines 113-159 (pooling along the height, transpose, pooling along
the width, transpose).  The final `tf.squeeze` (line 159) is in `blockMaskPath`. -/
def factorizedPool (t : PoolType) (bh bw : ℕ) (m : Mat α) : Mat α :=
  let heightPooled : Mat α :=
    ⟨sameOut m.rows bh, m.cols, fun o j => pool1 t (window m.rows bh o) (fun r => m.at_ r j)⟩
  let swapped := heightPooled.transpose
  let widthPooled : Mat α :=
    ⟨sameOut swapped.rows bw, swapped.cols,
      fun o i => pool1 t (window swapped.rows bw o) (fun c => swapped.at_ c i)⟩
  widthPooled.transpose

/-- `_generate_indices`, `pruning_utils.py` lines 83-88: entry `k*num_rows + r` is
`r*block_dim + k`. -/
def generateIndices (numRows blockDim p : ℕ) : ℕ := (p % numRows) * blockDim + p / numRows

/-- `_replicate_rows`, `pruning_utils.py` lines 90-94: tile the rows `multiple` times and
`tf.scatter_nd` (which adds) them to the generated positions. -/
def replicateRows (m : Mat α) (multiple : ℕ) : Mat α :=
  ⟨m.rows * multiple, m.cols, fun q j =>
    ∑ p ∈ Finset.range (m.rows * multiple),
      if generateIndices m.rows multiple p = q then m.at_ (p % m.rows) j else 0⟩

/-- `expand_tensor` on a rank-2 tensor, `pruning_utils.py` lines 46-110 (rank check at call site). -/
def expandTensor (m : Mat α) (bh bw : ℕ) : Mat α :=
  let e := if bh > 1 then replicateRows m bh else m
  if bw > 1 then (replicateRows e.transpose bw).transpose else e

/-- The block branch of `Pruning._maybe_update_block_mask`, `pruning_impl.py` lines 184-202.
`tf.squeeze(weights)` drops dimensions of size one, after which `factorized_pool` insists on rank 2;
likewise the pooled tensor is squeezed (`pruning_utils.py` line 159, `pruning_impl.py` line 193) and
`expand_tensor` insists on rank 2. -/
def blockMaskPath (sparsity : α) (bh bw : ℕ) (t : PoolType) (w : Mat α) :
    Except MaskError (α × Mat α) :=
  if w.rows = 1 ∨ w.cols = 1 then .error .poolRank
  else
    let absW : Mat α := ⟨w.rows, w.cols, fun i j => |w.at_ i j|⟩
    let pooled := factorizedPool t bh bw absW
    match updateMask sparsity pooled.flat with
    | .error e => .error e
    | .ok (thr, newMask) =>
      if pooled.rows = 1 ∨ pooled.cols = 1 then .error .expandRank
      else
        let updated := expandTensor (Mat.ofFlat pooled.rows pooled.cols newMask) bh bw
        .ok (thr, ⟨w.rows, w.cols, updated.at_⟩)

/-- `Pruning._maybe_update_block_mask` for a rank-2 weight and no m-by-n request,
`pruning_impl.py` lines 149-202. -/
def maybeUpdateBlockMask (sparsity : α) (bh bw : ℕ) (t : PoolType) (w : Mat α) :
    Except MaskError (α × Mat α) :=
  if bh = 1 ∧ bw = 1 then
    match updateMask sparsity w.flat with
    | .error e => .error e
    | .ok (thr, m) => .ok (thr, Mat.ofFlat w.rows w.cols m)
  else blockMaskPath sparsity bh bw t w

/-- `Pruning._validate_block`, `pruning_impl.py` lines 64-69: `true` when accepted. -/
def validateBlock (bh bw : ℕ) (ranks : List ℕ) : Bool :=
  if bh = 1 ∧ bw = 1 then true else ranks.all (· == 2)

end Verif.Sparsity
