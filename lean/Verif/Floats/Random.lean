import Verif.Floats.Rounding
import Verif.Encoding.Misc

/-!
# `random_floats_cmwc` and `random_signs_cmwc` with the cast to the requested type
-/

namespace Verif.Floats
open Verif.Encoding

/-- `random_floats_cmwc`, `tf_utils.py` 278-284: the `float64` values are cast to the requested type (`float32` by
default); the cast rounds. -/
def randomFloatsCmwc (R : Rounding ℚ) (numElements : ℤ) (seed : BitVec 64) : Option (List ℚ) :=
  (cmwcRandomSequence numElements seed).map fun l => l.map R.rnd

end Verif.Floats
