import Verif.Spec.Graph
import Verif.Spec.Hierarchy
import Verif.Model.Outlier
/-
Rows far from all others, and computed scores that fall with the density (C126).
-/
namespace Verif.Spec
variable {W T : Type}

/-- The rows below `n`, with distances `d`, form at least two groups (`grp i` is the group of row `i`) and fewer than `m` scattered rows (`grp i = none`), such that:
    rows of one group are linked by steps of at most `δ`, rows of different groups are at least `Δ` apart, and so is a scattered row from every other row, with `δ < Δ`;
    within distance `δ` of each row of a group there are at least `m` rows and within less than `ε` fewer than `m` (each time with the row itself). -/
structure Outlying [LinearOrder W] (n m : Nat) (d : Nat → Nat → W) (grp : Nat → Option Nat) (ε δ Δ : W) : Prop where
  gap : δ < Δ
  few : ¬ AtLeast m (fun i => i < n ∧ grp i = none)
  two : ∃ i j, i < n ∧ j < n ∧ grp i ≠ none ∧ grp j ≠ none ∧ grp i ≠ grp j
  link : ∀ i j, i < n → j < n → grp i ≠ none → grp i = grp j → Reachable n d δ i j
  far : ∀ i j, i < n → j < n → i ≠ j → grp i = none ∨ grp i ≠ grp j → Δ ≤ d i j
  dense : ∀ i, i < n → grp i ≠ none → AtLeast m (fun j => j < n ∧ d i j ≤ δ)
  sparse : ∀ i, i < n → grp i ≠ none → ¬ AtLeast m (fun j => j < n ∧ d i j < ε)

/-- What the computation of `1 - a / e` has in common with the exact one: for `a > 0` and `e > 0` it does not increase when `a` grows, and does not decrease when `e` grows. -/
def FallingScore [LinearOrder W] [LinearOrder T] (zero : W) (ops : Outlier.Ops W T) : Prop :=
  ∀ a a' e e', zero < a' → a' ≤ a → zero < e → e ≤ e' → ops.ratio a e ≤ ops.ratio a' e'

end Verif.Spec
