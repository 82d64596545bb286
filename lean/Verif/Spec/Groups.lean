import Verif.Model.Num
import Verif.Spec.Hierarchy
import Verif.Spec.Invariance
/-
Vocabulary of C103.
-/
namespace Verif.Spec

/-- A data set of `double`s whose values have absolute value at most `2 ^ 400` (about 1e120). -/
structure Sized (data : List (Fin754 binary64)) (rows cols : Nat) : Prop where
  few : rows ≤ 65536
  narrow : cols < 2 ^ 32
  cells : data.length = rows * cols
  large : ∀ x ∈ data, |x.1| ≤ 2 ^ (400 : ℤ)

/-- A data set of `double`s whose values have absolute value at most `2 ^ 400` and differ by at least `2 ^ -500` (about 3e-151) where they differ. -/
structure Moderate (data : List (Fin754 binary64)) (rows cols : Nat) : Prop extends Sized data rows cols where
  apart : ∀ x ∈ data, ∀ y ∈ data, x ≠ y → (2 : ℚ) ^ (-500 : ℤ) ≤ |x.1 - y.1|

/-- At least `m` of the rows, including row `p` itself, hold the same values as row `p`. -/
def Repeated {D : Type} (data : List D) (rows cols m p : Nat) : Prop := AtLeast m fun i => i < rows ∧ SameRow data data cols p i

end Verif.Spec
