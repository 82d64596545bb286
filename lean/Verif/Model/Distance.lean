import Verif.Model.Outcome
import Verif.Model.Utils
/-
Model of /repo/src/distance.c: packed Euclidean distance matrix and core distances.
`index_t` is `unsigned int`; wrap-around is explicit in the index computations.
-/
namespace Verif

/-- `TRIANGULAR_H`, /repo/modules/utils/include/hdbscan/utils.h 165-167: `(n * n + n) / 2` in `unsigned int`. -/
def triangularH (n : Nat) : Nat := (n * n + n) % 2 ^ 32 / 2

/-- Subtraction in `size_t`. -/
def subSize (a b : Nat) : Nat := (a + 2 ^ 64 - b % 2 ^ 64) % 2 ^ 64

/-- The index `distance_get` computes for `row < col`, distance.c 117: the products are `unsigned int`. -/
def cellGet (rows row col : Nat) : Nat :=
  subSize ((rows * row + col) % 2 ^ 32) (triangularH ((row + 1) % 2 ^ 32))

/-- The index `distance_compute` writes to, distance.c 194-196: the product is `size_t`, the triangular number `uint`. -/
def cellSet (rows i j : Nat) : Nat :=
  subSize ((i * rows + j) % 2 ^ 64) (triangularH ((i + 1) % 2 ^ 32))

/-- Number of cells allocated, distance.c 142: `(size_t)(rows * rows - rows) / 2` with `unsigned int` operands. -/
def subCells (rows : Nat) : Nat := ((rows * rows) % 2 ^ 32 + 2 ^ 32 - rows) % 2 ^ 32 / 2

/-- What `distance_compute` needs of the data type `D` and of `distance_t` = `W`.
    `diff` may be undefined (signed overflow for `int` and `long` data). -/
structure DistOps (D W : Type) where
  diff : D → D → Outcome W
  add : W → W → W
  mul : W → W → W
  sqrt : W → W
  zero : W

/-- `distance`, /repo/include/hdbscan/distance.h; `none` is an uninitialised cell. -/
structure Distance (W : Type) where
  rows : Nat
  cols : Nat
  numNeighbors : Nat
  distances : List (Option W)
  coreDistances : List (Option W)

/-- Read a cell that may be uninitialised. -/
def rdInit {W : Type} (a : List (Option W)) (i : Nat) : Outcome W := do
  match ← rd a i with
  | some x => return x
  | none => .ub "read of an indeterminate value"

namespace Distance
variable {D W : Type}

/-- `distance_get`, distance.c 114-125; `zero` is the literal `0`. -/
def get (zero : W) (dis : Distance W) (row col : Nat) : Outcome W :=
  if row < col then rdInit dis.distances (cellGet dis.rows row col)
  else if row = col then .ok zero
  else rdInit dis.distances (cellGet dis.rows col row)

/-- The inner loop of `distance_compute` over the columns from `k` on, distance.c 155-188; `n` columns remain. -/
def sumFrom (ops : DistOps D W) (data : List D) (cols i j : Nat) : (n : Nat) → (k : Nat) → W → Outcome W
  | 0, _, sum => .ok sum
  | n + 1, k, sum => do
    let a ← rd data (i * cols + k)
    let b ← rd data (j * cols + k)
    let diff ← ops.diff a b
    sumFrom ops data cols i j n (k + 1) (ops.add sum (ops.mul diff diff))

/-- One iteration `(i, j)` of the loops of `distance_compute`, distance.c 151-197. -/
def computeCell (ops : DistOps D W) (data : List D) (cols rows : Nat) (m : List (Option W)) (i j : Nat) :
    Outcome (List (Option W)) := do
  let sum ← sumFrom ops data cols i j cols 0 ops.zero
  wr m (cellSet rows i j) (some (ops.sqrt sum))

/-- The iterations `(i, j)` of the double loop, in sequential order, distance.c 149-150. -/
def pairs (rows : Nat) : List (Nat × Nat) :=
  (List.range rows).flatMap fun i => ((List.range rows).filter (fun j => i < j)).map fun j => (i, j)

/-- The double loop of `distance_compute`, distance.c 146-199, executing the iterations in the given order: the `omp
    parallel for` allows any interleaving of the rows, `sum` and `diff` being private. -/
def computeLoop (ops : DistOps D W) (data : List D) (cols rows : Nat) :
    List (Nat × Nat) → List (Option W) → Outcome (List (Option W))
  | [], m => .ok m
  | (i, j) :: r, m => do
    let m' ← computeCell ops data cols rows m i j
    computeLoop ops data cols rows r m'

/-- The `do ... while` search of `distance_get_core_distances`, distance.c 241-252. -/
def searchPos [CCmp W] (sd : List W) (t : W) : (fuel low high : Nat) → Outcome Nat
  | 0, _, _ => .diverge
  | fuel + 1, low, high => do
    let mid := low + (high - low) / 2
    let x ← rd sd mid
    if CCmp.lt t x then
      if low < mid then searchPos sd t fuel low mid else return low
    else if CCmp.eq x t then return low
    else if mid + 1 < high then searchPos sd t fuel (mid + 1) high else return mid + 1

/-- Body of the inner loop, distance.c 231-265: offer distance `t` to the array of `numNeighbors + 1` distances. -/
def offer [CCmp W] (nn : Nat) (sd : List W) (t : W) : Outcome (List W) := do
  let last ← rd sd nn
  if CCmp.lt last t then return sd
  else do
    let low ← searchPos sd t (nn + 2) 0 (nn + 1)
    if low < nn + 1 ∧ CCmp.eq last t = false then
      return sd.take low ++ t :: ((sd.drop low).take (nn + 1 - low - 1))
    else return sd

/-- The loop over `j` for one point, distance.c 230-266; the list is what remains of `0, ..., rows - 1`. -/
def coreLoop [CCmp W] (zero : W) (dis : Distance W) (i : Nat) : List Nat → List W → Outcome (List W)
  | [], sd => .ok sd
  | j :: r, sd => do
    let t ← dis.get zero i j
    let sd' ← offer dis.numNeighbors sd t
    coreLoop zero dis i r sd'

/-- The core distance of one point, distance.c 223-267. -/
def coreOf [CCmp W] (zero dmax : W) (dis : Distance W) (i : Nat) : Outcome W := do
  let sd ← coreLoop zero dis i (List.range dis.rows) (List.replicate (dis.numNeighbors + 1) dmax)
  rd sd dis.numNeighbors

/-- The loop of `distance_get_core_distances`, distance.c 223-268, over the points in the given order (the loop is `omp
    parallel for`; `sortedDistance` is private). -/
def coreAll [CCmp W] (zero dmax : W) (dis : Distance W) : List Nat → List (Option W) → Outcome (List (Option W))
  | [], c => .ok c
  | i :: r, c => do
    let x ← coreOf zero dmax dis i
    let c' ← wr c i (some x)
    coreAll zero dmax dis r c'

/-- `distance_get_core_distances`, distance.c 216-270.
    Simplification: `numNeighbors + 1` does not wrap (it does for `hdbscan_rerun(sc, 0)`). -/
def getCoreDistances [CCmp W] (zero dmax : W) (order : List Nat) (dis : Distance W) : Outcome (Distance W) := do
  let c ← coreAll zero dmax dis order dis.coreDistances
  return { dis with coreDistances := c }

/-- `distance_compute`, distance.c 137-200, with the orders in which the parallel loops run. -/
def compute [CCmp W] (ops : DistOps D W) (dmax : W) (order : List (Nat × Nat)) (corder : List Nat)
    (data : List D) (rows cols numNeighbors : Nat) : Outcome (Distance W) := do
  let m ← computeLoop ops data cols rows order (List.replicate (subCells rows) none)
  getCoreDistances ops.zero dmax corder
    { rows := rows, cols := cols, numNeighbors := numNeighbors, distances := m,
      coreDistances := List.replicate rows none }

end Distance
end Verif
