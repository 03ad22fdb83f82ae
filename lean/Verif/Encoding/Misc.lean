import Verif.Encoding.Uniform
import Mathlib.Analysis.Real.Sqrt

/-!
# Research stages: differences, splitting, clipping; the CMWC generator

`internal/tensor_encoding/stages/research/misc.py`, `stages/research/clipping.py`,
`utils/tf_utils.py` 117-223 and 226-275.
-/

namespace Verif.Encoding

/-! ## `DifferenceBetweenIntegersEncodingStage` -/

/-- `encode`, `misc.py` 153-164: `x - concat([0], x[:-1])`.  `β` is any additive group: the integers, or
the wrap-around arithmetic of a machine integer type. -/
def diffEncode {β : Type*} [AddCommGroup β] (x : List β) : List β :=
  List.zipWith (· - ·) x (0 :: x.dropLast)

/-- `tf.cumsum`. -/
def cumsum {β : Type*} [AddCommGroup β] : β → List β → List β
  | _, [] => []
  | acc, v :: vs => (acc + v) :: cumsum (acc + v) vs

/-- `decode`, `misc.py` 166-173. -/
def diffDecode {β : Type*} [AddCommGroup β] (y : List β) : List β := cumsum 0 y

/-! ## `SplitBySmallValueEncodingStage` -/

variable {α : Type*} [Field α] [LinearOrder α] [IsStrictOrderedRing α]

/-- `encode`, `misc.py` 73-85, on a rank 1 tensor: the positions (in increasing order, `tf.where`) of
the entries with `|x| > threshold`, and these entries. -/
def splitEncode (threshold : α) (x : List α) : List ℕ × List α :=
  let indices := (List.range x.length).filter fun i => decide (threshold < |x.getD i 0|)
  (indices, indices.map fun i => x.getD i 0)

/-- `decode`, `misc.py` 87-108: `tf.sparse.to_dense` of the sparse tensor with these indices and
values, for an input of `n` entries. -/
def splitDecode (n : ℕ) (enc : List ℕ × List α) : List α :=
  (List.range n).map fun i => ((enc.1.zip enc.2).lookup i).getD 0

/-! ## Clipping -/

/-- `tf.clip_by_norm` (used by `ClipByNormEncodingStage.encode`, `clipping.py` 66-70):
`x * clip_norm / max(norm, clip_norm)`. -/
noncomputable def clipByNorm (clipNorm : ℝ) (x : List ℝ) : List ℝ :=
  let norm := Real.sqrt ((x.map fun v => v * v).sum)
  x.map fun v => v * clipNorm / max norm clipNorm

/-- `ClipByValueEncodingStage.encode`, `clipping.py` 131-137. -/
def clipValues (lo hi : α) (x : List α) : List α := x.map (clipByValue lo hi)

/-! ## Complementary multiply with carry -/

/-- `parallelism`, `tf_utils.py` 152: `ceil(sqrt(n) / 10)`, i.e. the least `p` with `n ≤ (10 p)²`. -/
def cmwcParallelism (n : ℕ) : ℕ := Nat.sqrt (n - 1) / 10 + 1

/-- `num_iters`, `tf_utils.py` 153. -/
def cmwcNumIters (n : ℕ) : ℕ := n / cmwcParallelism n + 1

/-- The starting seeds, `tf_utils.py` 176-187 (int64 arithmetic wraps around). -/
def cmwcSeeds : ℕ → BitVec 64 → List (BitVec 64)
  | 0, _ => []
  | n + 1, v =>
    let v' := v ^ 7 + v ^ 6 + 1
    v' :: cmwcSeeds n v'

/-- The loop variables that exist per sequence. -/
structure CmwcLane where
  f : BitVec 64
  q : BitVec 64
  c : BitVec 64

/-- The arithmetic of `cmwc_step` on one lane, `tf_utils.py` 192-196.  `right_shift` of int64 is
arithmetic. -/
def CmwcLane.advance (l : CmwcLane) : CmwcLane :=
  let t := 3636507990#64 * l.q + l.c
  let x := t &&& (4294967295#64)
  { f := (l.f <<< 32) ||| x, q := x, c := 4294967295#64 - t.sshiftRight 32 }

/-- `new_val`, `tf_utils.py` 201-203, as a rational number. -/
def CmwcLane.value (l : CmwcLane) : ℚ := ((l.f &&& (9007199254740991#64)).toNat : ℚ) / 2 ^ 53

/-- `f += right_shift(f, 53)`, `tf_utils.py` 205. -/
def CmwcLane.consume (l : CmwcLane) : CmwcLane := { l with f := l.f + l.f.sshiftRight 53 }

/-- The lane arithmetic of `cmwc_step` on all lanes. -/
def cmwcAdvanceAll (lanes : List CmwcLane) : List CmwcLane := lanes.map CmwcLane.advance

/-- `tf_utils.py` 205 on all lanes. -/
def cmwcConsumeAll (lanes : List CmwcLane) : List CmwcLane := lanes.map CmwcLane.consume

/-- The loop `tf.while_loop(condition, cmwc_step, ...)`, `tf_utils.py` 189-221; `bits < 53` holds
initially and after every step.  Each row of the result is one `values.write`. -/
def cmwcLoop (numIters num : ℕ) (bits : Fin 53) (lanes : List CmwcLane) : List (List ℚ) :=
  if num < numIters then
    let lanes' := cmwcAdvanceAll lanes
    if h : 53 ≤ bits.val + 32 then
      (lanes'.map CmwcLane.value) ::
        cmwcLoop numIters (num + 1) ⟨bits.val + 32 - 53, by omega⟩ (cmwcConsumeAll lanes')
    else
      cmwcLoop numIters num ⟨bits.val + 32, by omega⟩ lanes'
  else []
termination_by 53 * (numIters - num) + 53 - bits.val
decreasing_by
  all_goals simp_wf
  all_goals omega

/-- `_cmwc_random_sequence`, `tf_utils.py` 117-223; `none` = the `ValueError` for a non-positive
number of elements. -/
def cmwcRandomSequence (numElements : ℤ) (seed : BitVec 64) : Option (List ℚ) :=
  if numElements ≤ 0 then none
  else
    let n := numElements.toNat
    let seeds := cmwcSeeds (cmwcParallelism n) seed
    let values := cmwcLoop (cmwcNumIters n) 0 ⟨0, by norm_num⟩ (seeds.map fun s => ⟨0, s, s⟩)
    some (values.flatten.take n)

/-- `random_signs_cmwc`, `tf_utils.py` 259-262. -/
def randomSignsCmwc (numElements : ℤ) (seed : BitVec 64) : Option (List ℚ) :=
  (cmwcRandomSequence numElements seed).map fun l => l.map fun v => Clustering.sgn (v - 1 / 2)

end Verif.Encoding
