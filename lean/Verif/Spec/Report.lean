import Verif.Model.Report
import Verif.Spec.ClusterMap
import Verif.Spec.Ieee
/-
Vocabulary of property C79: the arithmetic of IEEE 754 as far as the report on a clustering depends on it. All laws hold for `double` with rounding in any mode.
-/
namespace Verif.Spec
variable {V : Type}

/-- Division, subtraction and multiplication by 100 where they yield numbers. `zero` and `inf` are 0 and the positive infinity. -/
structure NumLaws [LinearOrder V] (o : Stat.Ops (Ieee V)) (zero inf : V) : Prop where
  top : ∀ x, x ≤ inf
  pos : zero < inf
  div : ∀ a b, zero ≤ a → zero < b → b < inf → ∃ r, o.div (.num a) (.num b) = .num r ∧ zero ≤ r ∧ (b ≤ a → zero < r)
  sub : ∀ a b, zero ≤ b → b ≤ a → a < inf → ∃ r, o.sub (.num a) (.num b) = .num r ∧ zero ≤ r
  mul : ∀ a, ∃ r, o.mul (.num a) (o.ofNat 100) = .num r

/-- Division by zero, operations on infinity and on NaN. -/
structure SpecialLaws [LinearOrder V] (o : Stat.Ops (Ieee V)) (zero inf : V) : Prop where
  top : ∀ x, x ≤ inf
  pos_zero : ∀ a, zero < a → o.div (.num a) (.num zero) = .num inf
  zero_zero : o.div (.num zero) (.num zero) = .nan
  inf_inf : o.div (.num inf) (.num inf) = .nan
  inf_sub : ∀ x, x < inf → o.sub (.num inf) (.num x) = .num inf
  inf_sub_inf : o.sub (.num inf) (.num inf) = .nan
  zero_sub : o.sub (.num zero) (.num zero) = .num zero
  nan_div : ∀ x, o.div .nan x = .nan
  nan_sub : ∀ x, o.sub .nan x = .nan
  sub_nan : ∀ x, o.sub x .nan = .nan
  nan_mul : ∀ x, o.mul .nan x = .nan

end Verif.Spec
