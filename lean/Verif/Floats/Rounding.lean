import Verif.Prelude
import Mathlib.Data.Int.Log
import Mathlib.Order.Monotone.Basic

/-!
# Rounded arithmetic

The rest of the model computes with exact numbers.  The modules in this directory repeat some of the
computations with a rounding after every operation, as floating-point hardware does.  Nothing here is code of
the repository; IEEE 754 arithmetic is part of the platform.
-/

namespace Verif.Floats

variable {α : Type*} [Field α] [LinearOrder α] [IsStrictOrderedRing α] [FloorRing α]

/-- What is assumed of the rounding of `float32` (and of every wider format): it is monotone, symmetric,
leaves rounded numbers alone, and is exact for integers up to 2^24.  True of round-to-nearest and of round-towards-zero, with gradual or abrupt
underflow, as long as nothing overflows. -/
structure Rounding (α : Type*) [Field α] [LinearOrder α] where
  rnd : α → α
  mono : Monotone rnd
  neg : ∀ x, rnd (-x) = -rnd x
  idem : ∀ x, rnd (rnd x) = rnd x
  nat : ∀ n : ℕ, n ≤ 2 ^ 24 → rnd n = n

/-- Relative error of one rounding (no underflow). -/
def Rounding.Accurate (R : Rounding α) (u : α) : Prop := ∀ x, |R.rnd x - x| ≤ u * |x|

/-- The distance of neighbouring numbers with `p` significant binary digits around `x`. -/
def ulp (p : ℕ) (x : α) : α := (2 : α) ^ (Int.log 2 |x| + 1 - p)

/-- Rounding to `p` significant binary digits, to nearest, ties to even, with unbounded exponents:
IEEE 754 `binary32` for `p = 24` and `binary64` for `p = 53`, as long as there is neither overflow nor
underflow. -/
def binary (p : ℕ) (x : α) : α := (roundHalfEven (x / ulp p x) : α) * ulp p x

end Verif.Floats
