import Verif.Floats.Rounding
import Verif.Quant.Ops

/-!
# Range tracking and fake quantization in rounded arithmetic

`quantization/keras/quant_ops.py` lines 85-106, 184-202, 281-301 and TensorFlow's kernel
(`tensorflow/core/kernels/fake_quant_ops_functor.h`, not in the repository), as in `Verif/Quant/Ops.lean`, with a
rounding after every operation, for one range (the tensor's, or one channel's).  Minimum, maximum, clamping and
`floor` are exact.
-/

namespace Verif.Floats
open Verif Verif.Clustering Verif.Quant

variable {α : Type*} [Field α] [LinearOrder α] [IsStrictOrderedRing α] [FloorRing α]

/-- `range_min`, `range_max` of LastValue and MovingAvg, `quant_ops.py` 184-199 and 281-296.  The ratio
`-(2^b - 2) / 2^b` is a dyadic fraction of at most `b` digits, so it is exact. -/
def batchRangeF (R : Rounding α) (cfg : QCfg) (bmin bmax : α) : α × α :=
  if cfg.symmetric then
    (min bmin (R.rnd (bmax / minMaxRatio cfg)), max bmax (R.rnd (bmin * minMaxRatio cfg)))
  else (min bmin 0, max bmax 0)

/-- `range_min`, `range_max` of AllValues, `quant_ops.py` 88-103. -/
def allValuesRangeF (R : Rounding α) (cfg : QCfg) (lo hi bmin bmax : α) : α × α :=
  let bmin' := if cfg.symmetric then min bmin (R.rnd (bmax / minMaxRatio cfg)) else bmin
  let bmax' := if cfg.symmetric then max bmax (R.rnd (bmin' * minMaxRatio cfg)) else bmax
  (min (min lo bmin') 0, max (max hi bmax') 0)

/-- `assign_moving_average`: `variable -= (variable - value) * d`, where `d` is `1 - 0.999` in `float32`. -/
def emaF (R : Rounding α) (d var value : α) : α := R.rnd (var - R.rnd (R.rnd (var - value) * d))

/-- The update of one range by a training call on a batch with the given entries, `quant_ops.py` 85-106,
184-202, 281-301. -/
def updateF (R : Rounding α) (d : α) (k : QKind) (cfg : QCfg) (v : α × α) (batch : List α) : α × α :=
  match k with
  | .allValues => allValuesRangeF R cfg v.1 v.2 (reduceMin batch) (reduceMax batch)
  | .lastValue => batchRangeF R cfg (reduceMin batch) (reduceMax batch)
  | .movingAverage =>
    let r := batchRangeF R cfg (reduceMin batch) (reduceMax batch)
    (emaF R d v.1 r.1, emaF R d v.2 r.2)

/-- The initial range, `quantizers.py` 131-148 and 319-328. -/
def initF (k : QKind) : α × α :=
  match k with
  | .allValues => (0, 0)
  | _ => (-6, 6)

/-- A history of training batches (inference does not change the range). -/
def runF (R : Rounding α) (d : α) (k : QKind) (cfg : QCfg) (hist : List (List α)) : α × α :=
  hist.foldl (updateF R d k cfg) (initF k)

/-- `quant_max - quant_min`, exact. -/
def fqSteps (bits : ℕ) (narrow : Bool) : ℕ := quantMax bits - quantMin narrow

/-- `scale` in `Nudge`. -/
def fqScaleF (R : Rounding α) (bits : ℕ) (narrow : Bool) (lo hi : α) : α :=
  R.rnd (R.rnd (hi - lo) / (fqSteps bits narrow : α))

/-- `inv_scale` in `Nudge`. -/
def fqInvF (R : Rounding α) (bits : ℕ) (narrow : Bool) (lo hi : α) : α :=
  R.rnd ((fqSteps bits narrow : α) / R.rnd (hi - lo))

/-- `nudged_zero_point` in `Nudge`. -/
def fqZeroPointF (R : Rounding α) (bits : ℕ) (narrow : Bool) (lo hi : α) : α :=
  let zp := R.rnd ((quantMin narrow : α) - R.rnd (lo / fqScaleF R bits narrow lo hi))
  if zp < quantMin narrow then quantMin narrow
  else if (quantMax bits : α) < zp then quantMax bits
  else (⌊zp + 1 / 2⌋ : α)

/-- The kernel on one entry. -/
def fakeQuantF (R : Rounding α) (bits : ℕ) (narrow : Bool) (lo hi x : α) : α :=
  if lo = 0 ∧ hi = 0 then 0
  else
    let scale := fqScaleF R bits narrow lo hi
    let inv := fqInvF R bits narrow lo hi
    let zp := fqZeroPointF R bits narrow lo hi
    let nudgedMin := R.rnd (R.rnd ((quantMin narrow : α) - zp) * scale)
    let nudgedMax := R.rnd (R.rnd ((quantMax bits : α) - zp) * scale)
    let quantZero : α := (⌊R.rnd (R.rnd (-nudgedMin * inv) + 1 / 2)⌋ : α)
    let clamped := max (min x nudgedMax) nudgedMin
    R.rnd ((⌊R.rnd (R.rnd (R.rnd (R.rnd (clamped - nudgedMin) * inv) - quantZero) + 1 / 2)⌋ : α) * scale)

end Verif.Floats
