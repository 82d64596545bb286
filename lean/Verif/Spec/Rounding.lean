import Verif.Model.Double
import Verif.Spec.Hierarchy
import Verif.Spec.Tree
/-
What the properties of rounded stabilities talk about: the exact stabilities of the clusters of a hierarchy.
-/
namespace Verif.Spec

/-- Weights that are positive and not extremely large. -/
def Weights (ws : List F64) : Prop := ∀ w ∈ ws, 0 < w.1 ∧ w.1 ≤ 2 ^ (1000 : ℤ)

/-- `members` are the points that ever carry label `l`, and each of them carries it for the last time in a line of weight `leave p`. -/
structure Life (H : Lines F64) (l : Nat) (members : List Nat) (leave : Nat → F64) : Prop where
  nodup : members.Nodup
  mem : ∀ p, p ∈ members ↔ ∃ i, Carries H i p l
  leaves : ∀ p ∈ members, LeavesAt H l p (leave p)

/-- The stability of a cluster born at level `b`, without rounding: the sum of `1 / leave - 1 / b` over its points. -/
def exactStability (b : F64) (members : List Nat) (leave : Nat → F64) : ℚ := (members.map fun p => 1 / (leave p).1 - 1 / b.1).sum

/-- The part of it that does not depend on the birth level. -/
def massOf (members : List Nat) (leave : Nat → F64) : ℚ := (members.map fun p => 1 / (leave p).1).sum

/-- `E` and `M` are the exact stabilities and the masses of the clusters of a result. -/
def Exact (H : Lines F64) (cs : List (Option (Cl F64 F64))) (E M : Nat → ℚ) : Prop :=
  ∀ (l : Nat) (c : Cl F64 F64), cs[l]? = some (some c) → l ≠ 1 → ∃ (b : F64) (members : List Nat) (leave : Nat → F64),
    c.birth = some b ∧ Life H l members leave ∧ E l = exactStability b members leave ∧ M l = massOf members leave

/-- Stabilities are added as `double`s. -/
def AddsDouble {W : Type} (ar : Arith W F64) : Prop := (∀ a b : F64, ar.add a b = F64.of (a.1 + b.1)) ∧ ar.zeroS = F64.of 0

/-- The total of the recorded stabilities of some clusters, without rounding. -/
def stabilitySum {W : Type} (cs : List (Option (Cl W F64))) (T : List Nat) : ℚ := (T.map fun l => (stabilityOf (F64.of 0) cs l).1).sum

end Verif.Spec
