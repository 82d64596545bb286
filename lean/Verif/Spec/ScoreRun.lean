import Verif.Spec.Outlier
import Verif.Spec.Groups
/-
Vocabulary of C105.
-/
namespace Verif.Spec

/-- The last line in which point `p` carries a label other than 0 has the level `eps`, and the label is `l`. -/
def LastAt (H : Lines (Num754 binary64)) (p l : Nat) (eps : Fin754 binary64) : Prop :=
  ∃ i, 1 ≤ i ∧ l ≠ 0 ∧ Carries H i p l ∧ HasWeight H i (.fin eps) ∧ ∀ j x, i < j → Carries H j p x → x = 0

/-- `s` is `1 - epsmax / eps` up to rounding, or 0 if `eps` is 0. -/
def IsScore (epsmax eps : Fin754 binary64) (s : Num754 binary64) : Prop :=
  ∃ x : Fin754 binary64, s = .fin x ∧ 0 ≤ x.1 ∧ x.1 ≤ 1 ∧ (eps.1 = 0 → x.1 = 0) ∧ (0 < eps.1 → |x.1 - (1 - epsmax.1 / eps.1)| ≤ 2 ^ (-52 : ℤ))

/-- `s` is very small. -/
def FarBelow (s : Num754 binary64) : Prop := s = .ninf ∨ ∃ x : Fin754 binary64, s = .fin x ∧ x.1 < -2 ^ (500 : ℤ)

end Verif.Spec
