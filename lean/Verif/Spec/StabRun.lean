import Verif.Spec.Rounding
import Verif.Spec.Groups
/-
Vocabulary of C104.
-/
namespace Verif.Spec

/-- `members` are the points that ever carry label `l` in the hierarchy, and each of them carries it for the last time in a line whose weight is the number `leave p`. -/
structure Lives (H : Lines (Num754 binary64)) (l : Nat) (members : List Nat) (leave : Nat → Fin754 binary64) : Prop where
  some : members ≠ []
  nodup : members.Nodup
  mem : ∀ p, p ∈ members ↔ ∃ i, Carries H i p l
  leaves : ∀ p ∈ members, LeavesAt H l p (.fin (leave p))

/-- The sum of `1 / leave p - 1 / b` over the members, without rounding. -/
def ideal (b : Fin754 binary64) (members : List Nat) (leave : Nat → Fin754 binary64) : ℚ := (members.map fun p => 1 / (leave p).1 - 1 / b.1).sum

/-- The sum of `1 / leave p` over the members, without rounding. -/
def reciprocals (members : List Nat) (leave : Nat → Fin754 binary64) : ℚ := (members.map fun p => 1 / (leave p).1).sum

/-- `s` is the stability of a cluster that is born at level `b`, up to rounding: `+inf` if a member leaves at level 0, otherwise a number that is not negative and close to the ideal one. -/
def Stability (b : Fin754 binary64) (members : List Nat) (leave : Nat → Fin754 binary64) (s : Dbl) : Prop :=
  ((∃ p ∈ members, (leave p).1 = 0) → s = .num .pinf) ∧
  ((∀ p ∈ members, 0 < (leave p).1) → ∃ x : Fin754 binary64, s = .num (.fin x) ∧ 0 ≤ x.1 ∧ 0 < ideal b members leave ∧
    |x.1 - ideal b members leave| ≤ (2 * members.length + 6) * 2 ^ (-53 : ℤ) * reciprocals members leave)

/-- The stabilities of the clusters `cs` of a run with the hierarchy `H`: cluster 1, which has no birth level, has stability 0 or NaN; every other cluster is born at a positive level, all its members leave at lower
    levels, and its stability is the one of its members. -/
structure Stabilities (H : Lines (Num754 binary64)) (cs : List (Option (Cl (Num754 binary64) Dbl))) : Prop where
  first : ∀ c, cs[1]? = some (some c) → c.birth = none ∧ (c.stability = Fp.of 0 ∨ c.stability = .nan)
  others : ∀ l c, cs[l]? = some (some c) → l ≠ 1 → ∃ (b : Fin754 binary64) (members : List Nat) (leave : Nat → Fin754 binary64), c.birth = some (.fin b) ∧ 0 < b.1 ∧
    Lives H l members leave ∧ (∀ p ∈ members, 0 ≤ (leave p).1 ∧ (leave p).1 < b.1) ∧ Stability b members leave c.stability

end Verif.Spec
