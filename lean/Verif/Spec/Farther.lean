import Verif.Spec.Hierarchy
import Verif.Model.Outlier
import Mathlib.Order.Defs.LinearOrder
/-
Words for C121.
-/
namespace Verif.Spec
variable {W T : Type}

/-- Line `i` is the last line in which row `p` is not noise; it carries label `l` there. -/
def LastSeen (H : Lines W) (p i l : Nat) : Prop := 1 ≤ i ∧ l ≠ 0 ∧ Carries H i p l ∧ ∀ j x, i < j → Carries H j p x → x = 0

/-- What the computation of `1 - a / e` has in common with the exact one: for `a ≥ 0` it does not decrease when `e > 0` grows, and it is not negative for `a ≤ e`. -/
structure MonotoneScore [LinearOrder W] [LinearOrder T] (zero : W) (ops : Outlier.Ops W T) : Prop where
  mono : ∀ a e e', zero ≤ a → zero < e → e ≤ e' → ops.ratio a e ≤ ops.ratio a e'
  nonneg : ∀ a e, zero ≤ a → a ≤ e → zero < e → ops.zero ≤ ops.ratio a e

end Verif.Spec
