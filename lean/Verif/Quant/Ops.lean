import Verif.Encoding.Uniform

/-!
# Quantizers

`quantization/keras/quant_ops.py` and `quantization/keras/quantizers.py`, together with the documented
semantics of TensorFlow's `fake_quant_with_min_max_*` kernels
(`tensorflow/core/kernels/fake_quant_ops_functor.h`), which are not part of the repository.

Exceptions are `none`.  A tensor is its shape and its entries in row-major order; entries of channel
`c` are those at positions `i` with `i % dim = c`, where `dim` is the last dimension.
-/

namespace Verif.Quant
open Verif Verif.Clustering Verif.Encoding

variable {α : Type*} [Field α] [LinearOrder α] [IsStrictOrderedRing α] [FloorRing α]

/-- A tensor: shape and row-major entries. -/
structure QTensor (α : Type*) where
  shape : List ℕ
  data : List α
  deriving DecidableEq

/-- The last dimension (the quantization axis, `quantizers.py` 135). -/
def QTensor.dim (t : QTensor α) : ℕ := t.shape.getLast?.getD 1

/-! ## TensorFlow's fake quantization kernels -/

/-- `quant_min`: 1 with narrow range, else 0. -/
def quantMin (narrow : Bool) : ℕ := if narrow then 1 else 0

/-- `quant_max = 2^num_bits - 1`. -/
def quantMax (bits : ℕ) : ℕ := 2 ^ bits - 1

/-- `scale` in the kernel's `Nudge`. -/
def fqScale (bits : ℕ) (narrow : Bool) (lo hi : α) : α :=
  (hi - lo) / ((quantMax bits : α) - (quantMin narrow : α))

/-- `nudged_zero_point` in `Nudge` (`std::round` of a non-negative number). -/
def fqZeroPoint (bits : ℕ) (narrow : Bool) (lo hi : α) : α :=
  let zp := (quantMin narrow : α) - lo / fqScale bits narrow lo hi
  if zp < quantMin narrow then quantMin narrow
  else if (quantMax bits : α) < zp then quantMax bits
  else (⌊zp + 1 / 2⌋ : α)

/-- The kernel on one entry: clamp to the nudged interval, shift, round, scale; a range `[0, 0]`
gives zeros. -/
def fakeQuant (bits : ℕ) (narrow : Bool) (lo hi x : α) : α :=
  if lo = 0 ∧ hi = 0 then 0
  else
    let scale := fqScale bits narrow lo hi
    let zp := fqZeroPoint bits narrow lo hi
    let nudgedMin := ((quantMin narrow : α) - zp) * scale
    let nudgedMax := ((quantMax bits : α) - zp) * scale
    let quantZero : α := (⌊-nudgedMin * (1 / scale) + 1 / 2⌋ : α)
    let clamped := max (min x nudgedMax) nudgedMin
    (⌊(clamped - nudgedMin) * (1 / scale) - quantZero + 1 / 2⌋ : α) * scale

/-! ## Range variables -/

/-- A variable made by `add_weight`: scalar (`shape=None`) or of shape `[d]`. -/
inductive RangeVar (α : Type*) where
  | scalar (a : α)
  | vector (l : List α)
  deriving DecidableEq

/-- The weights a quantizer builds: `min_var` and `max_var`. -/
structure RangeVars (α : Type*) where
  lo : RangeVar α
  hi : RangeVar α
  deriving DecidableEq

/-- The constructor arguments shared by three quantizers, `quantizers.py` 156-174, 227-245, 299-317. -/
structure QCfg where
  numBits : ℕ
  perAxis : Bool
  symmetric : Bool
  narrow : Bool
  deriving DecidableEq

/-- The three quantizers with range variables. -/
inductive QKind where
  | lastValue
  | movingAverage
  | allValues
  deriving DecidableEq

/-- `_add_range_weights`, `quantizers.py` 131-148.  `shape` is the `tensor_shape` argument, `none` when
it is `None`. -/
def addRangeWeights (perAxis : Bool) (shape : Option (List ℕ)) : RangeVars α :=
  match perAxis, shape with
  | true, some s => ⟨.vector (List.replicate (s.getLast?.getD 1) (-6)),
      .vector (List.replicate (s.getLast?.getD 1) 6)⟩
  | _, _ => ⟨.scalar (-6), .scalar 6⟩

/-- `build` of the three quantizers, `quantizers.py` 176-177, 247-248 (no `per_axis` passed), 319-328. -/
def QKind.build (k : QKind) (cfg : QCfg) (shape : Option (List ℕ)) : RangeVars α :=
  match k with
  | .lastValue => addRangeWeights cfg.perAxis shape
  | .movingAverage => addRangeWeights false none
  | .allValues => ⟨.scalar 0, .scalar 0⟩

/-! ## The range of a batch -/

/-- `min_max_ratio`, `quant_ops.py` 89-94, 185-190, 282-287. -/
def minMaxRatio (cfg : QCfg) : α :=
  if cfg.narrow then -1 else -((2 : α) ^ cfg.numBits - 2) / (2 : α) ^ cfg.numBits

/-- `range_min`, `range_max` of LastValue and MovingAvg from the extremes of a batch, `quant_ops.py`
184-199 and 281-296. -/
def batchRange (cfg : QCfg) (bmin bmax : α) : α × α :=
  if cfg.symmetric then (min bmin (bmax / minMaxRatio cfg), max bmax (bmin * minMaxRatio cfg))
  else (min bmin 0, max bmax 0)

/-- `range_min`, `range_max` of AllValues, `quant_ops.py` 88-103. -/
def allValuesRange (cfg : QCfg) (lo hi bmin bmax : α) : α × α :=
  let bmin' := if cfg.symmetric then min bmin (bmax / minMaxRatio cfg) else bmin
  let bmax' := if cfg.symmetric then max bmax (bmin' * minMaxRatio cfg) else bmax
  (min (min lo bmin') 0, max (max hi bmax') 0)

/-- Extremes of channel `c`, `quant_ops.py` 160-182 and 257-279. -/
def channelMin (t : QTensor α) (c : ℕ) : α := reduceMin (column t.dim t.data c)
/-- See `channelMin`. -/
def channelMax (t : QTensor α) (c : ℕ) : α := reduceMax (column t.dim t.data c)

/-- Ranks for which `reduce_dims` is defined or not needed, `quant_ops.py` 160-171: other ranks
raise `UnboundLocalError`. -/
def perChannelRank (t : QTensor α) : Bool := t.shape.length = 1 || t.shape.length = 2 || t.shape.length = 4

/-- `_FakeQuantWithMinMaxVars`, `quant_ops.py` 312-344, with its assertions on the ranks of the
variables; the per-channel kernel requires one range per channel. -/
def fakeQuantVars (cfg : QCfg) (perChannel : Bool) (v : RangeVars α) (t : QTensor α) :
    Option (QTensor α) :=
  match perChannel, v.lo, v.hi with
  | false, .scalar lo, .scalar hi => some ⟨t.shape, t.data.map (fakeQuant cfg.numBits cfg.narrow lo hi)⟩
  | true, .vector lo, .vector hi =>
    if t.shape ≠ [] ∧ lo.length = t.dim ∧ hi.length = t.dim then
      some ⟨t.shape, t.data.mapIdx fun i x =>
        fakeQuant cfg.numBits cfg.narrow (lo.getD (i % t.dim) 0) (hi.getD (i % t.dim) 0) x⟩
    else none
  | _, _, _ => none

/-- The decay 0.999 passed at `quantizers.py` 267. -/
def emaDecay : α := 999 / 1000

/-- `assign_moving_average(variable, value, decay, zero_debias=False)`. -/
def ema (var value : α) : α := var - (var - value) * (1 - emaDecay)

/-- The update of the variables by a training call: `LastValueQuantize` 160-202, `MovingAvgQuantize`
257-301, `AllValuesQuantize` 85-106 in `quant_ops.py`.  Assigning a value of another shape is an
error. -/
def QKind.update (k : QKind) (cfg : QCfg) (v : RangeVars α) (t : QTensor α) : Option (RangeVars α) :=
  match k with
  | .allValues =>
    match v.lo, v.hi with
    | .scalar lo, .scalar hi =>
      let r := allValuesRange cfg lo hi (reduceMin t.data) (reduceMax t.data)
      some ⟨.scalar r.1, .scalar r.2⟩
    | _, _ => none
  | _ =>
    if cfg.perAxis then
      if perChannelRank t then
        match v.lo, v.hi with
        | .vector lo, .vector hi =>
          if lo.length = t.dim ∧ hi.length = t.dim then
            let r := fun c => batchRange cfg (channelMin t c) (channelMax t c)
            match k with
            | .lastValue =>
              some ⟨.vector ((List.range t.dim).map fun c => (r c).1),
                .vector ((List.range t.dim).map fun c => (r c).2)⟩
            | _ =>
              some ⟨.vector ((List.range t.dim).map fun c => ema (lo.getD c 0) (r c).1),
                .vector ((List.range t.dim).map fun c => ema (hi.getD c 0) (r c).2)⟩
          else none
        | _, _ => none
      else none
    else
      match v.lo, v.hi with
      | .scalar lo, .scalar hi =>
        let r := batchRange cfg (reduceMin t.data) (reduceMax t.data)
        match k with
        | .lastValue => some ⟨.scalar r.1, .scalar r.2⟩
        | _ => some ⟨.scalar (ema lo r.1), .scalar (ema hi r.2)⟩
      | _, _ => none

/-- `__call__` of the three quantizers, `quantizers.py` 179-201, 250-273, 330-351: with `training` the
variables are updated first and the updated ones are used.  AllValues never quantizes per channel. -/
def QKind.call (k : QKind) (cfg : QCfg) (v : RangeVars α) (training : Bool) (t : QTensor α) :
    Option (QTensor α × RangeVars α) :=
  let perChannel := cfg.perAxis && (k != .allValues)
  if training then
    (k.update cfg v t).bind fun v' => (fakeQuantVars cfg perChannel v' t).map fun o => (o, v')
  else (fakeQuantVars cfg perChannel v t).map fun o => (o, v)

/-- A history of calls; the result is the list of outputs and the final variables. -/
def QKind.run (k : QKind) (cfg : QCfg) : RangeVars α → List (Bool × QTensor α) →
    Option (List (QTensor α) × RangeVars α)
  | v, [] => some ([], v)
  | v, (training, t) :: rest =>
    (k.call cfg v training t).bind fun r => (k.run cfg r.2 rest).map fun s => (r.1 :: s.1, s.2)

/-! ## FixedQuantizer -/

/-- `FixedQuantizer`, `quantizers.py` 374-393. -/
structure FixedQ (α : Type*) where
  numBits : ℕ
  initMin : α
  initMax : α
  narrow : Bool

/-- `__call__` → `FixedQuantize`, `quantizers.py` 398-416, `quant_ops.py` 26-45: `num_bits` is not
passed on, so the op's default of 8 applies.  The op rejects `min >= max`. -/
def FixedQ.call (q : FixedQ α) (t : QTensor α) : Option (QTensor α) :=
  if q.initMin < q.initMax then
    some ⟨t.shape, t.data.map (fakeQuant 8 q.narrow q.initMin q.initMax)⟩
  else none

end Verif.Quant
