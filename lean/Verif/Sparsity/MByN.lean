import Verif.Sparsity.Block

/-!
# Model of m-by-n sparsity: `sparsity/keras/pruning_utils.py` lines 193-377 and
`sparsity/keras/pruning_impl.py` lines 126-147

Paths are relative to `/repo/tensorflow_model_optimization/python/core/`.
-/

namespace Verif.Sparsity

variable {α : Type*} [Field α] [LinearOrder α] [IsStrictOrderedRing α] [FloorRing α]

/-- A tensor of any rank: shape and entries by multi-index (only indices inside the shape are
meaningful). -/
structure Tensor (α : Type*) where
  shape : List ℕ
  get : List ℕ → α

/-- Element-wise product, `tf.math.multiply`. -/
def Tensor.mul (a b : Tensor α) : Tensor α := ⟨a.shape, fun ix => a.get ix * b.get ix⟩

/-- `weights_rearrange`, `pruning_utils.py` lines 193-230.  Rank 2: transpose.  Rank 4: transpose
with `perm=[3,0,1,2]` and row-major reshape to `[prod(shape[:-1]), -1]`. -/
def weightsRearrange (w : Tensor α) : Except MaskError (Mat α) :=
  match w.shape with
  | [r, c] => .ok ⟨c, r, fun i j => w.get [j, i]⟩
  | [h, wd, ci, co] =>
    .ok ⟨co * h * wd, ci, fun row i => w.get [row / wd % h, row % wd, i, row / wd / h]⟩
  | _ => .error .badRank

/-- Errors of `m_by_n_sparsity_mask_prepare`. -/
inductive PrepareError
  | sizeMismatch | badRank | shapeMismatch
  deriving DecidableEq, Repr

/-- `m_by_n_sparsity_mask_prepare`, `pruning_utils.py` lines 233-281.  The rank-2 check of the mask
(lines 257-258) holds by typing; the final shape assertion (lines 276-279) is kept for rank 2, for
rank 4 it holds because the mask was reshaped to the permuted weight shape. -/
def maskPrepare (mask : Mat α) (shape : List ℕ) : Except PrepareError (Tensor α) :=
  if mask.rows * mask.cols ≠ shape.prod then .error .sizeMismatch
  else match shape with
  | [r, c] =>
    if mask.cols = r ∧ mask.rows = c then
      .ok ⟨[r, c], fun ix => match ix with | [i, j] => mask.at_ j i | _ => 0⟩
    else .error .shapeMismatch
  | [h, wd, ci, co] =>
    .ok ⟨[h, wd, ci, co], fun ix => match ix with
      | [a, b, c, d] =>
        let p := ((d * h + a) * wd + b) * ci + c
        mask.at_ (p / mask.cols) (p % mask.cols)
      | _ => 0⟩
  | _ => .error .badRank

/-- Width after zero padding, `pruning_utils.py` line 307: `pad_after = n - C % n` (a whole extra
block when `n` divides `C`). -/
def paddedWidth (c n : ℕ) : ℕ := c + (n - c % n)

/-- Entries of block number `b` of the padded magnitudes, `pruning_utils.py` lines 308-312. -/
def mByNBlock (w : Mat α) (n b : ℕ) : List α :=
  let c' := paddedWidth w.cols n
  (List.range n).map fun o =>
    let p := b * n + o
    if p % c' < w.cols then |w.at_ (p / c') (p % c')| else 0

/-- `generate_m_by_n_mask`, `pruning_utils.py` lines 284-330: in each block of the padded rows the
`n-m` entries selected by `tf.math.top_k` (ties by lower index) get mask 1; the padding is sliced
off. -/
def generateMByNMask (w : Mat α) (m n : ℕ) : Except MaskError (Mat α) :=
  if m < n then
    .ok ⟨w.rows, w.cols, fun r c =>
      let p := r * paddedWidth w.cols n + c
      if p % n ∈ (topKIndices (mByNBlock w n (p / n))).take (n - m) then 1 else 0⟩
  else .error .mNotLessThanN

/-- `Pruning._update_mask_sparsity_m_by_n`, `pruning_impl.py` lines 126-147.  `none` stands for any
exception. -/
def updateMaskMByN (w : Tensor α) (m n : ℕ) : Option (Tensor α) :=
  match weightsRearrange w with
  | .error _ => none
  | .ok p =>
    match generateMByNMask p m n with
    | .error _ => none
    | .ok mask => (maskPrepare mask w.shape).toOption

/-- The loop of `is_pruned_m_by_n`, `pruning_utils.py` lines 370-377, on the prepared 2-D weights:
every slice `[row, col:col+n]` starting at a multiple of `n` has at most `n-m` non-zero entries. -/
def isPrunedMat (w : Mat α) (m n : ℕ) : Bool :=
  (List.range w.rows).all fun row =>
    (List.range ((w.cols + n - 1) / n)).all fun g =>
      decide ((((List.range n).map fun o => g * n + o).filter fun c => decide (c < w.cols)).countP
        (fun c => decide (w.at_ row c ≠ 0)) ≤ n - m)

/-- `is_pruned_m_by_n(weights, (m, n), 'C_OUT')`, `pruning_utils.py` lines 333-377. -/
def isPrunedMByN (w : Tensor α) (m n : ℕ) : Except MaskError Bool :=
  if m > n then .error .mNotLessThanN
  else match weightsRearrange w with
    | .error e => .error e
    | .ok p => .ok (isPrunedMat p m n)

end Verif.Sparsity
