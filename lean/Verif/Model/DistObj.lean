import Verif.Model.Distance
/-
Model of the life of a `distance` object, /repo/src/distance.c and /repo/src/distance.cpp: the calls a program can make on
it one after the other, with the blocks of memory the object points to. What is computed is `Verif.Distance`
(Model/Distance.lean).

Simplifications: memory is always granted (property C93 is about the other case), and `malloc(0)` returns a block of its
own; if it returned a null pointer, `distance_clean` would skip it and nothing else would change, since no cell of it is
looked at. `internalRows`, `internalCols` and `cal` are never read. `numNeighbors + 1` does not wrap.
-/
namespace Verif

/-- The blocks that are allocated, with their address and contents; `next` is the next address. -/
structure DistMem (W : Type) where
  live : List (Nat × List (Option W))
  next : Nat

namespace DistMem
variable {W : Type}

/-- Follow a pointer (`none` is `NULL`) to the contents of its block. -/
def deref (m : DistMem W) : Option Nat → Outcome (List (Option W))
  | none => .ub "null pointer"
  | some a => match m.live.lookup a with
    | some b => .ok b
    | none => .ub "dangling pointer"

/-- `malloc`, with the contents the caller stores in the block. -/
def alloc (m : DistMem W) (b : List (Option W)) : DistMem W × Nat :=
  ({ live := (m.next, b) :: m.live, next := m.next + 1 }, m.next)

/-- `if (p != NULL) free(p)`. -/
def free (m : DistMem W) : Option Nat → Outcome (DistMem W)
  | none => .ok m
  | some a => if m.live.lookup a = none then .ub "free of a block that is not allocated"
    else .ok { m with live := m.live.filter (fun b => b.1 != a) }

/-- Store new contents in the block at `a`. -/
def store (m : DistMem W) (a : Nat) (c : List (Option W)) : DistMem W :=
  { m with live := m.live.map (fun b => if b.1 = a then (a, c) else b) }

end DistMem

/-- `struct Distance`, /repo/include/hdbscan/distance.h 66-73: `rows` and `cols` are `none` until they are assigned, the
    pointers are `none` when they are `NULL`. -/
structure DistStruct where
  dims : Option (Nat × Nat)
  numNeighbors : Nat
  distances : Option Nat
  coreDistances : Option Nat
  deriving DecidableEq

/-- What a program can do with a distance object. `getCore` is `d.coreDistances[i]`; `setCores` is
    `Distance::getCoreDistances` (distance.cpp 62-65), in C an assignment to `numNeighbors` and
    `distance_get_core_distances`. The lists are the orders in which the parallel loops run. -/
inductive DistCall (D : Type) where
  | compute (data : List D) (rows cols nn : Nat) (order : List (Nat × Nat)) (corder : List Nat)
  | get (row col : Nat)
  | getCore (i : Nat)
  | setCores (nn : Nat) (order : List Nat)
  | clean

namespace DistStruct
variable {D W : Type}

/-- `distance_init`, distance.c 58-74, also the constructors `Distance()`, distance.cpp 46-56: `rows` and `cols` are not
    assigned. -/
def init : DistStruct := { dims := none, numNeighbors := 2, distances := none, coreDistances := none }

/-- Read `dis->rows` and `dis->cols`. -/
def readDims (d : DistStruct) : Outcome (Nat × Nat) :=
  match d.dims with
  | some r => .ok r
  | none => .ub "read of an indeterminate value"

/-- `distance_compute`, distance.c 137-200: the pointers are overwritten. -/
def compute [CCmp W] (ops : DistOps D W) (dmax : W) (m : DistMem W) (data : List D) (rows cols nn : Nat)
    (order : List (Nat × Nat)) (corder : List Nat) : Outcome (DistMem W × DistStruct) := do
  let dis ← Distance.compute ops dmax order corder data rows cols nn
  let (m1, a) := m.alloc dis.distances
  let (m2, b) := m1.alloc dis.coreDistances
  return (m2, { dims := some (rows, cols), numNeighbors := nn, distances := some a, coreDistances := some b })

/-- `distance_get`, distance.c 114-125: with `row == col` nothing of the object is read. -/
def get (zero : W) (m : DistMem W) (d : DistStruct) (row col : Nat) : Outcome W :=
  if row = col then .ok zero
  else do
    let (rows, cols) ← d.readDims
    let b ← m.deref d.distances
    Distance.get zero { rows := rows, cols := cols, numNeighbors := d.numNeighbors, distances := b, coreDistances := [] } row col

/-- `d.coreDistances[i]`. -/
def getCore (m : DistMem W) (d : DistStruct) (i : Nat) : Outcome W := do
  let b ← m.deref d.coreDistances
  rdInit b i

/-- The matrix as far as `distance_get_core_distances` looks at it: with at most one row no cell is read. -/
def matrix (m : DistMem W) (d : DistStruct) (rows : Nat) : Outcome (List (Option W)) :=
  if rows ≤ 1 then .ok [] else m.deref d.distances

/-- `Distance::getCoreDistances`, distance.cpp 62-65, and `distance_get_core_distances`, distance.c 216-270: without rows
    the loop has no iteration and no pointer is followed. -/
def setCores [CCmp W] (zero dmax : W) (m : DistMem W) (d : DistStruct) (nn : Nat) (order : List Nat) :
    Outcome (DistMem W × DistStruct) := do
  let (rows, cols) ← d.readDims
  if rows = 0 then return (m, { d with numNeighbors := nn })
  else do
    let b ← d.matrix m rows
    let c ← m.deref d.coreDistances
    let dis ← Distance.getCoreDistances zero dmax order
      { rows := rows, cols := cols, numNeighbors := nn, distances := b, coreDistances := c }
    match d.coreDistances with
    | some a => return (m.store a dis.coreDistances, { d with numNeighbors := nn })
    | none => .ub "null pointer"

/-- `distance_clean`, distance.c 91-101, also the destructor `~Distance()`, distance.cpp 58-60. -/
def clean (m : DistMem W) (d : DistStruct) : Outcome (DistMem W × DistStruct) := do
  let m1 ← m.free d.distances
  let m2 ← m1.free d.coreDistances
  return (m2, { d with distances := none, coreDistances := none })

/-- `distance_destroy`, distance.c 81-85, what it does to the blocks of the object (the struct itself is freed last): the
    object is cleaned before the pointer is compared with `NULL`. -/
def destroy (m : DistMem W) : Option DistStruct → Outcome (DistMem W)
  | none => .ub "null pointer"
  | some d => do
    let r ← d.clean m
    return r.1

/-- One call; the answer is the number it returns. -/
def step [CCmp W] (ops : DistOps D W) (dmax : W) (m : DistMem W) (d : DistStruct) :
    DistCall D → Outcome (DistMem W × DistStruct × Option W)
  | .compute data rows cols nn order corder => do
    let r ← compute ops dmax m data rows cols nn order corder
    return (r.1, r.2, none)
  | .get row col => do
    let x ← d.get ops.zero m row col
    return (m, d, some x)
  | .getCore i => do
    let x ← d.getCore m i
    return (m, d, some x)
  | .setCores nn order => do
    let r ← d.setCores ops.zero dmax m nn order
    return (r.1, r.2, none)
  | .clean => do
    let r ← d.clean m
    return (r.1, r.2, none)

/-- The calls of a program on one object, in order, with the answers. -/
def run [CCmp W] (ops : DistOps D W) (dmax : W) : DistMem W → DistStruct → List (DistCall D) →
    Outcome (DistMem W × DistStruct × List (Option W))
  | m, d, [] => .ok (m, d, [])
  | m, d, c :: r => do
    let s ← step ops dmax m d c
    let t ← run ops dmax s.1 s.2.1 r
    return (t.1, t.2.1, s.2.2 :: t.2.2)

end DistStruct
end Verif
