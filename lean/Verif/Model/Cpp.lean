import Verif.Model.Heap
/-
Model of what C++ objects of the class `clustering::hdbscan` allocate and release: /repo/src/hdbscan.cpp 45-55, 57-71 and 87-89, /repo/include/hdbscan/hdbscan.h 128-247,
/repo/src/distance.cpp 45-59. The class declares no copy constructor and no assignment operator, so the compiler supplies the ones that copy member by member.

Simplifications: those of Model/Heap.lean. The storage of an object is a block like those of `malloc` (in favour of the code: `clean()` gives the storage to `free`, which for an
object on the stack is undefined behaviour at once).
-/
namespace Verif.Mem

/-- `hdbscan::hdbscan(minPts)`, hdbscan.cpp 45-51: the constructor of the member `distanceFunction` (distance.cpp 45-47) assigns null to its pointers, `hdbscan_init` leaves
    `mst` and `numPoints` unassigned. -/
def construct : M Obj := do
  let self ← alloc
  return { self := self, distances := .null, core := .null, mst := .indet, constraints := .null, clusters := .null, outliers := .null, labels := .null,
           hierarchy := .null, stabilities := .null, points := none }

/-- Read a pointer in order to copy it. -/
def readPtr {α : Type} (p : Ptr α) : M Unit :=
  match p with
  | .indet => fail (.ub "read of an indeterminate pointer")
  | _ => return ()

/-- The copy constructor supplied by the compiler: every member is copied, so both objects point to the same blocks. -/
def copy (o : Obj) : M Obj := do
  use o.self
  readPtr o.mst
  let self ← alloc
  return { o with self := self }

/-- `hdbscan::~hdbscan`, hdbscan.cpp 53-55, then the destructor of the member `distanceFunction`, distance.cpp 57-59, then the storage is given back. -/
def leave (o : Obj) : M Unit := do
  let o1 ← clean o
  whenSet o1.distances free
  whenSet o1.core free
  free o1.self

/-- What a program does with its objects, which are numbered in the order of their declaration. -/
inductive Act where
  /-- `hdbscan x(minPts);` -/
  | make
  /-- `hdbscan y = x;` -/
  | copyOf (x : Nat)
  /-- `x.run(...)` on `n` points -/
  | run (x : Nat) (s : Shape) (n : Nat)
  /-- `x.reRun(...)` -/
  | reRun (x : Nat) (s : Shape)
  /-- `x.clean()` -/
  | clean (x : Nat)
  /-- the life of `x` ends -/
  | leave (x : Nat)

/-- Refer to an object. -/
def var (vs : List (Option Obj)) (x : Nat) : M Obj :=
  match vs[x]? with
  | some (some o) => return o
  | _ => fail (.ub "use of an object outside its life")

def act (vs : List (Option Obj)) : Act → M (List (Option Obj))
  | .make => do
    let o ← construct
    return vs ++ [some o]
  | .copyOf x => do
    let o ← var vs x
    let o' ← copy o
    return vs ++ [some o']
  | .run x s n => do
    let o ← var vs x
    let o' ← run s n o
    return vs.set x (some o')
  | .reRun x s => do
    let o ← var vs x
    let o' ← rerun s o
    return vs.set x (some o')
  | .clean x => do
    let o ← var vs x
    let o' ← destroy o
    return vs.set x (some o')
  | .leave x => do
    let o ← var vs x
    leave o
    return vs.set x none

def acts : List Act → List (Option Obj) → M (List (Option Obj))
  | [], vs => return vs
  | a :: r, vs => do
    let vs' ← act vs a
    acts r vs'

/-- A program that starts without objects. -/
def program (as : List Act) : M (List (Option Obj)) := acts as []

end Verif.Mem
