import Verif.Prelude
import Mathlib.Analysis.Real.Sqrt
import Mathlib.Data.Nat.Log

/-!
# Fast Walsh-Hadamard transform, Hadamard and Kashin stages

`internal/tensor_encoding/utils/tf_utils.py` 27-114, `stages/stages_impl.py` 116-233,
`stages/research/kashin.py`.

A batch `[b, dim]` is a list of rows.  The code reshapes the whole batch; since every row has `dim`
entries (an even number, or `dim = 1`) the pairs never cross a row, so everything acts row by row.
-/

namespace Verif.Encoding

/-- `tf.reshape(x, [-1, 2])` of a row. -/
def pairs : List ℝ → List (ℝ × ℝ)
  | a :: b :: rest => (a, b) :: pairs rest
  | _ => []

/-- `_hadamard_step`, `tf_utils.py` 84-92, on one row: every pair `(a, b)` is multiplied by
`[[1, 1], [1, -1]]`, and the transposition puts all first components before all second ones. -/
def hadamardStep (x : List ℝ) : List ℝ :=
  (pairs x).map (fun p => p.1 + p.2) ++ (pairs x).map (fun p => p.1 - p.2)

/-- `fast_walsh_hadamard_transform`, `tf_utils.py` 27-114, on one row with a static dimension;
`none` = the `ValueError` for a dimension that is not a power of two. -/
noncomputable def fwht (x : List ℝ) : Option (List ℝ) :=
  let dim := x.length
  if dim ≠ 0 ∧ dim &&& (dim - 1) = 0 then
    if dim = 1 then some x
    else some (((hadamardStep^[Nat.clog 2 dim]) x).map fun v => v / Real.sqrt dim)
  else none

/-- `_pad`, `stages_impl.py` 222-228: zeros up to the next power of two.  (`np.log2(0)` is `-inf`, so an
empty row is an error: `none`.) -/
def padPow2 (x : List ℝ) : Option (List ℝ) :=
  if x.length = 0 then none
  else some (x ++ List.replicate (2 ^ Nat.clog 2 x.length - x.length) 0)

/-- Entry-wise product with the signs. -/
def applySigns (x signs : List ℝ) : List ℝ := List.zipWith (· * ·) x signs

/-- `HadamardEncodingStage.encode`, `stages_impl.py` 176-185, on one row; `signs` is
`random_signs(dim, seed)`. -/
noncomputable def hadamardEncode (signs x : List ℝ) : Option (List ℝ) :=
  (padPow2 (applySigns x signs)).bind fwht

/-- `HadamardEncodingStage.decode`, `stages_impl.py` 187-207, on one row of an input of dimension
`dim`; `signs` is `random_signs(dim, seed)` again. -/
noncomputable def hadamardDecode (signs : List ℝ) (dim : ℕ) (y : List ℝ) : Option (List ℝ) :=
  (fwht y).map fun z => applySigns (z.take dim) signs

/-- `tf.sign`. -/
noncomputable def realSign (v : ℝ) : ℝ := if 0 < v then 1 else if v < 0 then -1 else 0

/-- `random_signs`, `tf_utils.py` 226-245: the sign of `u - 0.5` for uniform draws `u`. -/
noncomputable def randomSigns (u : List ℝ) : List ℝ := u.map fun v => realSign (v - 1 / 2)

/-! ## Kashin representation -/

/-- The parameters of `KashinHadamardEncodingStage`, `kashin.py` 90-153. -/
structure Kashin where
  numIters : ℕ
  eta : ℝ
  delta : ℝ
  lastIterClip : Bool
  padThreshold : ℝ

/-- The checks in `__init__`, `kashin.py` 122-153 (Python arguments). -/
def Kashin.Valid (k : Kashin) : Prop := 0 < k.numIters ∧ 0 < k.eta ∧ k.eta < 1 ∧ 0 < k.delta

/-- `_get_pad_dim`, `kashin.py` 275-280. -/
noncomputable def Kashin.padDim (k : Kashin) (dim : ℕ) : ℕ :=
  let p : ℕ := 2 ^ Nat.clog 2 dim
  if (dim : ℝ) / (p : ℝ) > k.padThreshold then p * 2 else p

/-- `_pad`, `kashin.py` 282-288. -/
noncomputable def Kashin.pad (k : Kashin) (x : List ℝ) : List ℝ :=
  x ++ List.replicate (k.padDim x.length - x.length) 0

/-- `tf.clip_by_value(x, -level, level)`. -/
noncomputable def clipLevel (level : ℝ) (x : List ℝ) : List ℝ := x.map fun v => max (min v level) (-level)

/-- `_kashin_forward`, `kashin.py` 232-239. -/
noncomputable def Kashin.forward (k : Kashin) (x signs : List ℝ) (level : ℝ) (clip : Bool) :
    Option (List ℝ) :=
  (fwht (k.pad (applySigns x signs))).map fun y => if clip then clipLevel level y else y

/-- `_kashin_backward`, `kashin.py` 241-250, with signs. -/
noncomputable def kashinBackward (y : List ℝ) (dim : ℕ) (signs : List ℝ) : Option (List ℝ) :=
  (fwht y).map fun z => applySigns (z.take dim) signs

/-- The loop of `encode`, `kashin.py` 201-205 (`_kashin_iter`, 252-261): residual, coefficients and clip
level after `n` iterations. -/
noncomputable def Kashin.iterate (k : Kashin) (signs : List ℝ) (dim : ℕ) :
    ℕ → List ℝ → List ℝ → ℝ → Option (List ℝ × List ℝ × ℝ)
  | 0, residual, coeffs, level => some (residual, coeffs, level)
  | n + 1, residual, coeffs, level =>
    (k.forward residual signs level true).bind fun y =>
      (kashinBackward y dim signs).bind fun back =>
        k.iterate signs dim n (List.zipWith (· - ·) residual back) (List.zipWith (· + ·) coeffs y)
          (level * k.eta)

/-- The Euclidean norm of a row. -/
noncomputable def rowNorm (x : List ℝ) : ℝ := Real.sqrt ((x.map fun v => v * v).sum)

/-- `tf.compat.v1.div_no_nan` on the reals. -/
noncomputable def divNoNan (a b : ℝ) : ℝ := if b = 0 then 0 else a / b

/-- `encode`, `kashin.py` 180-218, on one row. -/
noncomputable def Kashin.encode (k : Kashin) (signs x : List ℝ) : Option (List ℝ) :=
  if x.length = 0 then none
  else
    let level := rowNorm x / Real.sqrt (k.delta * (x.length : ℝ))
    (k.iterate signs x.length (k.numIters - 1) x (List.replicate (k.padDim x.length) 0) level).bind
      fun r =>
        (k.forward r.1 signs r.2.2 k.lastIterClip).map fun y =>
          let c := List.zipWith (· + ·) r.2.1 y
          if k.lastIterClip then c.map fun v => v * divNoNan (rowNorm x) (rowNorm c) else c

/-- `decode`, `kashin.py` 220-230, on one row. -/
noncomputable def Kashin.decode (_k : Kashin) (signs : List ℝ) (dim : ℕ) (y : List ℝ) :
    Option (List ℝ) := kashinBackward y dim signs

end Verif.Encoding
