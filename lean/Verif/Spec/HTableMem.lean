import Verif.Model.HTable
import Mathlib.Data.Finset.Card
/-
Specification for C118: the memory of hash tables.
-/
namespace Verif.Spec

/-- `k` entries of the heap have been allocated and not given back. -/
def EntriesLeft {K : Type} (heap : Nat → Option (HTable.Entry K)) (k : Nat) : Prop := ∃ D : Finset Nat, (∀ a, a ∈ D ↔ heap a ≠ none) ∧ D.card = k

end Verif.Spec
