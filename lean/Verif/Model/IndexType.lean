import Verif.Model.Distance

/-! The computations with `index_t` in src/distance.c for every type that the build offers for it. `Verif.Model.Distance` has the default, `unsigned int`. -/

namespace Verif

/-- The types that can be chosen for `index_t`, /repo/CMakeLists.txt 36-37: `unsigned short`, `unsigned int` (default), `unsigned long`. -/
inductive IndexType
  | short
  | int
  | long

/-- The result of an operation on two operands of the type, given its exact value. Operands of type `unsigned short` are promoted to `int`, which must not overflow; the other types wrap around (64-bit machine). -/
def IndexType.arith : IndexType → Int → Outcome Int
  | .short, z => if -2 ^ 31 ≤ z ∧ z < 2 ^ 31 then .ok z else .ub "signed overflow"
  | .int, z => .ok (z % 2 ^ 32)
  | .long, z => .ok (z % 2 ^ 64)

/-- The number of cells of the distance matrix, distance.c 142: `(size_t)(rows * rows - rows) / 2`. -/
def IndexType.cells (t : IndexType) (rows : Nat) : Outcome Nat := do
  let a ← t.arith (rows * rows : Nat)
  let b ← t.arith (a - (rows : Int))
  return (b % 2 ^ 64).toNat / 2

/-- The cell that `distance_get` reads for `row < col`, distance.c 117: `(size_t)(dis->rows * row + col) - (size_t)TRIANGULAR_H((uint)(row + 1))`. The cell that `distance_compute` writes,
    distance.c 194-196, is computed with `size_t` and does not depend on the type (`cellSet`). -/
def IndexType.cell (t : IndexType) (rows row col : Nat) : Outcome Nat := do
  let a ← t.arith (rows * row : Nat)
  let b ← t.arith (a + (col : Int))
  let c ← t.arith (row + 1 : Nat)
  return subSize (b % 2 ^ 64).toNat (triangularH (c % 2 ^ 32).toNat)

/-- The width of the type. -/
def IndexType.bits : IndexType → Nat
  | .short => 16
  | .int => 32
  | .long => 64

/-- A value of the type read through a pointer to the signed type of the same width. -/
def IndexType.signed (t : IndexType) (n : Nat) : Int := if n < 2 ^ (t.bits - 1) then (n : Int) else (n : Int) - 2 ^ t.bits

/-- The comparison function that is chosen for indices or labels of the type, hdbscan.c 389-405 and everywhere else: `short_compare`, `int_compare` or `long_compare`, utils.c 131-145, 51-65 and 171-184. -/
def IndexType.compare (t : IndexType) (a b : Nat) : Int := intCompare (t.signed a) (t.signed b)

end Verif
