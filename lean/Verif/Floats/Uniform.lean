import Verif.Floats.Rounding
import Verif.Encoding.Uniform

/-!
# Uniform quantization in rounded arithmetic

`internal/tensor_encoding/stages/stages_impl.py` lines 339-398, as in `Verif/Encoding/Uniform.lean`, with a
rounding after every operation.  The entries of the input are numbers of the format.
-/

namespace Verif.Floats
open Verif Verif.Clustering Verif.Encoding

variable {α : Type*} [Field α] [LinearOrder α] [IsStrictOrderedRing α] [FloorRing α]

/-- Shift to `[0, max_value]`, `stages_impl.py` 350-353: two subtractions, a division, a product. -/
def uqScaleF (R : Rounding α) (lo hi : α) (maxValue : ℕ) (x : α) : α :=
  R.rnd (R.rnd (divideNoNan (R.rnd (x - lo)) (R.rnd (hi - lo))) * R.rnd maxValue)

/-- Rounding, `stages_impl.py` 354-371.  `floor` and `round` are exact. -/
def uqRoundF (R : Rounding α) (stochastic : Bool) (u y : α) : α :=
  if stochastic then R.rnd ((⌊y⌋ : α) + (if u < R.rnd (y - (⌊y⌋ : α)) then 1 else 0))
  else (roundHalfEven y : α)

/-- `encode`, `stages_impl.py` 339-377; a given `min_max` is converted to the type of `x`. -/
def uqEncodeF (R : Rounding α) (s : UQ α) (p : UQParams α) (u : ℕ → α) (x : List α) :
    List α × Option (α × α) :=
  match p.minMax with
  | some (a, b) =>
    (x.mapIdx fun i v => uqRoundF R s.stochastic (u i)
      (uqScaleF R (R.rnd a) (R.rnd b) p.maxValue (clipByValue (R.rnd a) (R.rnd b) v)), none)
  | none =>
    let lo := reduceMin x
    let hi := reduceMax x
    (x.mapIdx fun i v => uqRoundF R s.stochastic (u i) (uqScaleF R lo hi p.maxValue v), some (lo, hi))

/-- One entry of `decode`, `stages_impl.py` 394-398. -/
def uqDecodeEntryF (R : Rounding α) (lo hi : α) (maxValue : ℕ) (shift q : α) : α :=
  R.rnd (R.rnd (R.rnd (q / R.rnd maxValue) * R.rnd (hi - lo)) + shift)

/-- `decode`, `stages_impl.py` 379-398. -/
def uqDecodeF (R : Rounding α) (s : UQ α) (enc : List α × Option (α × α)) (p : UQParams α)
    (numSummands : Option ℕ) : Option (List α) :=
  ((p.minMax.map fun mm => (R.rnd mm.1, R.rnd mm.2)).or enc.2).map fun mm =>
    let shift := match numSummands with
      | some n => if s.commutes then R.rnd (mm.1 * R.rnd n) else mm.1
      | none => mm.1
    enc.1.map (uqDecodeEntryF R mm.1 mm.2 p.maxValue shift)

end Verif.Floats
