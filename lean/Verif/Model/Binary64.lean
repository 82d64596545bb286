import Verif.Model.Api
import Verif.Model.Stats
import Mathlib.Data.Int.Log
import Mathlib.Data.Rat.Floor
import Verif.Spec.Binary64

/-! Arithmetic of `double`, which is `distance_t` and the type of stabilities and scores unless the library is configured otherwise (/repo/config.h.in 11-20). The C
    standard leaves rounding to the implementation; this is the one of IEEE 754 (binary64): every operation returns the double nearest to the exact result, and of two equally near
    doubles the one with the even last digit. Simplifications: there is no largest exponent, so results never become infinite; dividing by zero gives zero here; zeros carry no sign.
    The theorems that use this file keep away from overflow and from division by zero. -/

namespace Verif.Binary64
open Verif.Spec

section
variable {K : Type} [Field K] [LinearOrder K] [FloorRing K]

/-- The nearest integer, in a tie the even one. -/
def roundEven (x : K) : ℤ :=
  if x < ⌊x⌋ + 1 / 2 then ⌊x⌋ else if ⌊x⌋ + 1 / 2 < x then ⌊x⌋ + 1 else if ⌊x⌋ % 2 = 0 then ⌊x⌋ else ⌊x⌋ + 1

variable [IsStrictOrderedRing K]

/-- The exponent of the last digit of a number of the format near `x`. -/
def lastDigit (f : Format) (x : K) : ℤ := max (Int.log 2 |x| - f.digits) f.least

/-- The number of the format nearest to `x`. -/
def round (f : Format) (x : K) : K := roundEven (x / 2 ^ lastDigit f x) * 2 ^ lastDigit f x

/-- The double nearest to `x`. -/
def fl (x : K) : K := round binary64 x
end

/-- The integer nearest to the square root of `y`, in a tie the even one. -/
def roundSqrt (y : ℚ) : ℤ :=
  let f := Nat.sqrt ⌊y⌋₊
  if y < (f + 1 / 2) ^ 2 then f else if (f + 1 / 2 : ℚ) ^ 2 < y then f + 1 else if f % 2 = 0 then f else f + 1

/-- The exponent of the last digit of a number of the format near the square root of `x`. -/
def lastDigitSqrt (f : Format) (x : ℚ) : ℤ := max (Int.log 2 x / 2 - f.digits) f.least

/-- The number of the format nearest to the square root of `x`. -/
def root (f : Format) (x : ℚ) : ℚ := roundSqrt (x / 4 ^ lastDigitSqrt f x) * 2 ^ lastDigitSqrt f x

/-- `sqrt` of math.h: the double nearest to the square root. -/
def flSqrt (x : ℚ) : ℚ := root binary64 x

end Verif.Binary64
