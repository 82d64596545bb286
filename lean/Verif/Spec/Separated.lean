import Mathlib.Algebra.Order.Field.Basic
import Verif.Spec.Graph
import Verif.Spec.Hierarchy
/-
What it means that the rows of a data set form well separated groups (C124).
-/
namespace Verif.Spec

/-- The rows below `n`, with distances `d`, form at least two groups (`grp i` is the group of row `i`), such that, for `0 < ε` and `2δ < Δ`:
    rows of one group are linked by steps of at most `δ`, rows of different groups are at least `Δ` apart,
    within distance `δ` of each row there are at least `m` rows and within less than `ε` fewer than `m` (each time with the row itself), and `1/ε + 1/Δ < 2/δ`, that is, the density is much the same everywhere. -/
structure WellSeparated {K : Type} [Field K] [LinearOrder K] (n m : Nat) (d : Nat → Nat → K) (grp : Nat → Nat) (ε δ Δ : K) : Prop where
  pos : 0 < ε
  gap : 2 * δ < Δ
  even : 1 / ε + 1 / Δ < 2 / δ
  two : ∃ i j, i < n ∧ j < n ∧ grp i ≠ grp j
  link : ∀ i j, i < n → j < n → grp i = grp j → Reachable n d δ i j
  far : ∀ i j, i < n → j < n → grp i ≠ grp j → Δ ≤ d i j
  dense : ∀ i, i < n → AtLeast m (fun j => j < n ∧ d i j ≤ δ)
  sparse : ∀ i, i < n → ¬ AtLeast m (fun j => j < n ∧ d i j < ε)

/-- The labels are those of the groups: every row has a label other than 0, and two rows have the same exactly when they are in the same group. -/
def LabelsGroups (n : Nat) (grp : Nat → Nat) (labels : List Nat) : Prop :=
  labels.length = n ∧ ∀ p q lp lq, labels[p]? = some lp → labels[q]? = some lq → lp ≠ 0 ∧ (lp = lq ↔ grp p = grp q)

end Verif.Spec
