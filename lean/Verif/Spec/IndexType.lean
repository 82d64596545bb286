import Verif.Model.IndexType
/-
Vocabulary of C117.
-/
namespace Verif.Spec
open Verif

/-- The largest value of the type. -/
def largest : IndexType → Nat
  | .short => 2 ^ 16 - 1
  | .int => 2 ^ 32 - 1
  | .long => 2 ^ 64 - 1

/-- The largest number of rows for which the distance matrix is right. -/
def rowLimit : IndexType → Nat
  | .short => 46340
  | _ => 65536

/-- The distance matrix works for this number of rows: there is one cell for each pair of rows, and reading and writing agree on it. -/
structure Addresses (t : IndexType) (rows : Nat) : Prop where
  cells : t.cells rows = .ok (rows * (rows - 1) / 2)
  agree : ∀ i j, i < j → j < rows → t.cell rows i j = .ok (cellSet rows i j)
  inside : ∀ i j, i < j → j < rows → cellSet rows i j < rows * (rows - 1) / 2
  own : ∀ i j i' j', i < j → j < rows → i' < j' → j' < rows → cellSet rows i j = cellSet rows i' j' → i = i' ∧ j = j'

end Verif.Spec
