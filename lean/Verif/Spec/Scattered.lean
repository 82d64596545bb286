import Mathlib.Algebra.Order.Field.Basic
import Verif.Spec.Graph
import Verif.Spec.Hierarchy
/-
What it means that the rows of a data set form well separated groups, but for some scattered rows (C125).
-/
namespace Verif.Spec

/-- The rows below `n`, with distances `d`, form at least two groups (`grp i` is the group of row `i`) and at most `N` scattered rows (`grp i = none`), such that:
    rows of one group are linked by steps of at most `δ`, rows of different groups are at least `Δ` apart, and so is a scattered row from every other row,
    within distance `δ` of each row of a group there are at least `m` rows and within less than `ε` fewer than `m` (each time with the row itself),
    and the scattered rows are few or far: `N/Δ` is less than `m` times `1/δ - 2/Δ` and than `m` times `2/δ - 1/Δ - 1/ε`. -/
structure Scattered {K : Type} [Field K] [LinearOrder K] (n m N : Nat) (d : Nat → Nat → K) (grp : Nat → Option Nat) (ε δ Δ : K) : Prop where
  pos : 0 < ε
  gap : δ < Δ
  few : ∀ l : List Nat, l.Nodup → (∀ i ∈ l, i < n ∧ grp i = none) → l.length ≤ N
  light : N / Δ < m * (1 / δ - 2 / Δ)
  even : N / Δ < m * (2 / δ - 1 / Δ - 1 / ε)
  two : ∃ i j, i < n ∧ j < n ∧ grp i ≠ none ∧ grp j ≠ none ∧ grp i ≠ grp j
  link : ∀ i j, i < n → j < n → grp i ≠ none → grp i = grp j → Reachable n d δ i j
  far : ∀ i j, i < n → j < n → i ≠ j → grp i = none ∨ grp i ≠ grp j → Δ ≤ d i j
  dense : ∀ i, i < n → grp i ≠ none → AtLeast m (fun j => j < n ∧ d i j ≤ δ)
  sparse : ∀ i, i < n → grp i ≠ none → ¬ AtLeast m (fun j => j < n ∧ d i j < ε)

/-- The labels tell the groups: every row of a group has a label other than 0, and two such rows have the same exactly when they are in the same group. -/
def LabelsTell (n : Nat) (grp : Nat → Option Nat) (labels : List Nat) : Prop :=
  labels.length = n ∧ ∀ p q lp lq, labels[p]? = some lp → labels[q]? = some lq → grp p ≠ none → grp q ≠ none → lp ≠ 0 ∧ (lp = lq ↔ grp p = grp q)

end Verif.Spec
