import Mathlib.Algebra.Order.Field.Basic
import Mathlib.Algebra.Order.Field.Power

namespace Verif.Spec

/-- A binary format: the digits after the first one, the exponent of the lowest digit of all, and the exponent of the first number that is too large. -/
structure Format where
  digits : ℕ
  least : ℤ
  top : ℤ
  least_le : least ≤ 0

/-- `double`. -/
def binary64 : Format := ⟨52, -1074, 1024, by decide⟩

/-- `float`. -/
def binary32 : Format := ⟨23, -149, 128, by decide⟩

/-- `x` is a number of the format, except that it may be too large. -/
def IsBinary {K : Type} [Field K] (f : Format) (x : K) : Prop := ∃ m e : ℤ, |m| < 2 ^ (f.digits + 1) ∧ f.least ≤ e ∧ x = m * 2 ^ e

/-- `y` is a number of the format, and none of them is nearer to `x`. -/
def NearestBinary {K : Type} [Field K] [LinearOrder K] (f : Format) (x y : K) : Prop := IsBinary f y ∧ ∀ z, IsBinary f z → |y - x| ≤ |z - x|

/-- `x` is the value of a finite double: an integer of at most 53 binary digits times a power of two, none of whose digits lies below 2 ^ -1074. There is no largest exponent here. -/
def IsDouble {K : Type} [Field K] (x : K) : Prop := ∃ m e : ℤ, |m| < 2 ^ 53 ∧ -1074 ≤ e ∧ x = m * 2 ^ e

/-- `y` is a double nearest to `x`. -/
def NearestDouble {K : Type} [Field K] [LinearOrder K] (x y : K) : Prop := IsDouble y ∧ ∀ z, IsDouble z → |y - x| ≤ |z - x|

end Verif.Spec
