import Verif.Clustering.Centroids

/-!
# Uniform quantization stages

`internal/tensor_encoding/stages/stages_impl.py` 237-398 (`UniformQuantizationEncodingStage`) and
`stages/research/quantization.py` (`PRNGUniformQuantizationEncodingStage`,
`PerChannelUniformQuantizationEncodingStage`, `PerChannelPRNGUniformQuantizationEncodingStage`).

A tensor is the list of its entries in row-major order.  The random draws are an argument
`u : ℕ → α`, one per entry.
-/

namespace Verif.Encoding
open Verif Verif.Clustering

variable {α : Type*} [Field α] [LinearOrder α] [IsStrictOrderedRing α] [FloorRing α]

/-- The fields of `UniformQuantizationEncodingStage`, `stages_impl.py` 281-302. -/
structure UQ (α : Type*) where
  bits : ℕ
  minMax : Option (α × α)
  stochastic : Bool

inductive UQErr where
  | bits
  | minMaxLength
  | minMaxOrder
  deriving DecidableEq, Repr

/-- `UniformQuantizationEncodingStage.__init__`, `stages_impl.py` 262-306, for Python arguments
(`bits` an integer, `min_max` `None` or a list). -/
def UQ.new (bits : ℤ) (minMax : Option (List α)) (stochastic : Bool) : Except UQErr (UQ α) :=
  if ¬ (1 ≤ bits ∧ bits ≤ 16) then .error .bits
  else
    match minMax with
    | none => .ok ⟨bits.toNat, none, stochastic⟩
    | some [a, b] =>
      if b ≤ a then .error .minMaxOrder else .ok ⟨bits.toNat, some (a, b), stochastic⟩
    | some _ => .error .minMaxLength

/-- The parameter dictionary, `get_params`, `stages_impl.py` 330-337: `max_value` and, if given,
`min_max`. -/
structure UQParams (α : Type*) where
  maxValue : ℕ
  minMax : Option (α × α)

/-- `get_params`, `stages_impl.py` 330-337. -/
def UQ.getParams (s : UQ α) : UQParams α := ⟨2 ^ s.bits - 1, s.minMax⟩

/-- `commutes_with_sum`, `stages_impl.py` 318-325. -/
def UQ.commutes (s : UQ α) : Bool := s.minMax.isSome

/-- `tf.clip_by_value`. -/
def clipByValue (lo hi x : α) : α := max (min x hi) lo

/-- Shift to `[0, max_value]`, `stages_impl.py` 350-353. -/
def uqScale (lo hi : α) (maxValue : ℕ) (x : α) : α :=
  divideNoNan (x - lo) (hi - lo) * (maxValue : α)

/-- Rounding, `stages_impl.py` 354-371: with a uniform draw `u`, or deterministic. -/
def uqRound (stochastic : Bool) (u y : α) : α :=
  if stochastic then (⌊y⌋ : α) + (if u < y - (⌊y⌋ : α) then 1 else 0)
  else (roundHalfEven y : α)

/-- `encode`, `stages_impl.py` 339-377: quantized values, and the `min_max` tensor unless it is a
parameter. -/
def UQ.encode (s : UQ α) (p : UQParams α) (u : ℕ → α) (x : List α) : List α × Option (α × α) :=
  match p.minMax with
  | some (lo, hi) =>
    (x.mapIdx fun i v => uqRound s.stochastic (u i) (uqScale lo hi p.maxValue (clipByValue lo hi v)), none)
  | none =>
    let lo := reduceMin x
    let hi := reduceMax x
    (x.mapIdx fun i v => uqRound s.stochastic (u i) (uqScale lo hi p.maxValue v), some (lo, hi))

/-- One entry of `decode`, `stages_impl.py` 394-398. -/
def uqDecodeEntry (lo hi : α) (maxValue : ℕ) (shift q : α) : α :=
  q / (maxValue : α) * (hi - lo) + shift

/-- `decode`, `stages_impl.py` 379-398; `none` = `KeyError` (no `min_max` anywhere). -/
def UQ.decode (s : UQ α) (enc : List α × Option (α × α)) (p : UQParams α) (numSummands : Option ℕ) :
    Option (List α) :=
  (p.minMax.or enc.2).map fun mm =>
    let shift := if s.commutes then mm.1 * ((numSummands.getD 1 : ℕ) : α) else mm.1
    enc.1.map (uqDecodeEntry mm.1 mm.2 p.maxValue shift)

/-! ## Research variants -/

/-- `PRNGUniformQuantizationEncodingStage.encode`, `research/quantization.py` 97-125: always stochastic,
the draws `u` come from a seed that is part of the encoding (so `decode` sees the same `u`). -/
def prngEncode (bits : ℕ) (u : ℕ → α) (x : List α) : List α × α × α :=
  let lo := reduceMin x
  let hi := reduceMax x
  (x.mapIdx fun i v => uqRound true (u i) (uqScale lo hi (2 ^ bits - 1) v), lo, hi)

/-- `decode`, `research/quantization.py` 127-162. -/
def prngDecode (bits : ℕ) (u : ℕ → α) (enc : List α × α × α) : List α :=
  enc.1.mapIdx fun i q =>
    (q + u i - 1 / 2) / ((2 ^ bits - 1 : ℕ) : α) * (enc.2.2 - enc.2.1) + enc.2.1

/-- Column `c` of a `[rows, dim]` matrix stored row-major: `reduce_min(x, axis=0)` runs over it. -/
def column (dim : ℕ) (x : List α) (c : ℕ) : List α :=
  (List.range (x.length / dim)).map fun r => x.getD (r * dim + c) 0

/-- `PerChannelUniformQuantizationEncodingStage.encode`, `research/quantization.py` 232-261, on a
tensor whose last dimension is `dim`: minimum and maximum per channel `i % dim`. -/
def perChannelEncode (stochastic : Bool) (bits dim : ℕ) (u : ℕ → α) (x : List α) :
    List α × (ℕ → α) × (ℕ → α) :=
  let lo := fun c => reduceMin (column dim x c)
  let hi := fun c => reduceMax (column dim x c)
  (x.mapIdx fun i v => uqRound stochastic (u i) (uqScale (lo (i % dim)) (hi (i % dim)) (2 ^ bits - 1) v),
    lo, hi)

/-- `decode`, `research/quantization.py` 263-286 (the final `reshape` keeps row-major order). -/
def perChannelDecode (bits dim : ℕ) (enc : List α × (ℕ → α) × (ℕ → α)) : List α :=
  enc.1.mapIdx fun i q =>
    uqDecodeEntry (enc.2.1 (i % dim)) (enc.2.2 (i % dim)) (2 ^ bits - 1) (enc.2.1 (i % dim)) q

/-- `decode` of `PerChannelPRNGUniformQuantizationEncodingStage`, `research/quantization.py` 398-438
(its `encode`, 364-396, is `perChannelEncode true`, with the seed added). -/
def perChannelPrngDecode (bits dim : ℕ) (u : ℕ → α) (enc : List α × (ℕ → α) × (ℕ → α)) : List α :=
  enc.1.mapIdx fun i q =>
    (q + u i - 1 / 2) / ((2 ^ bits - 1 : ℕ) : α) * (enc.2.2 (i % dim) - enc.2.1 (i % dim)) +
      enc.2.1 (i % dim)

end Verif.Encoding
