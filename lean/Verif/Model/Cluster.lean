import Verif.Model.Outcome
import Verif.Model.Utils
/-
Model of /repo/src/cluster.c.

Simplifications: a `cluster*` is the label of the cluster, which is its index in `sc->clusters` (property C28); a `set_t` of
labels or point numbers is the increasing list of its elements (property C05; labels and point numbers are below 2^31, so
that `int_compare` orders them as numbers); an `ArrayList` is a list (property C01).
Distances have type `W`, stabilities type `S`.
-/
namespace Verif

/-- `set_insert` on the increasing list of elements, /repo/modules/collections/src/set.c. -/
def sInsert (xs : List Nat) (x : Nat) : List Nat :=
  if x ∈ xs then xs else xs.filter (fun y => decide (y < x)) ++ x :: xs.filter (fun y => decide (x < y))

/-- `set_remove` on the increasing list of elements, /repo/modules/collections/src/set.c. -/
def sRemove (xs : List Nat) (x : Nat) : List Nat := xs.filter (fun y => decide (y ≠ x))

/-- Subtraction of two numbers below 2^32 in `index_t` (`unsigned int`): it wraps around. -/
def subIndex (a b : Nat) : Nat := if b ≤ a then a - b else 2 ^ 32 - (b - a)

/-- The floating point operations used for stabilities: `0`, `D_MAX`, `+`, and `k * (1 / level - 1 / birth)`, where the birth
    level `none` is `NAN` (root). -/
structure Arith (W S : Type) where
  zeroW : W
  dmax : W
  zeroS : S
  add : S → S → S
  term : Nat → W → Option W → S

/-- `cluster`, /repo/include/hdbscan/cluster.h 53-69. -/
structure Cl (W S : Type) where
  label : Nat
  birth : Option W
  death : W
  numPoints : Nat
  offset : Nat
  stability : S
  propStability : S
  propLowest : W
  ncs : Nat
  pncs : Nat
  vchild : List Nat
  parent : Option Nat
  desc : List Nat
  hasChildren : Bool
  deriving DecidableEq

namespace Cl
variable {W S : Type}

/-- `cluster_init`, cluster.c 54-90, for a successful allocation; setting the parent's `hasChildren` is done by the caller. -/
def init (ar : Arith W S) (label : Nat) (parent : Option Nat) (birth : Option W) (numPoints : Nat) : Cl W S :=
  { label := label, birth := birth, death := ar.zeroW, numPoints := numPoints, offset := 0, stability := ar.zeroS,
    propStability := ar.zeroS, propLowest := ar.dmax, ncs := 0, pncs := 0, vchild := [], parent := parent, desc := [],
    hasChildren := false }

/-- `cluster_detach_points` after the subtraction, cluster.c 124-137; `np` is the new number of points. The return value is
    `CLUSTER_SUCCESS` (1) or `CLUSTER_ERROR` (0). The second branch compares an unsigned number with `< 0`, so it is never taken. -/
def detachTo (ar : Arith W S) (cl : Cl W S) (np numPoints : Nat) (level : W) : Cl W S × Int :=
  let st := ar.add cl.stability (ar.term numPoints level cl.birth)
  if np = 0 then ({ cl with numPoints := np, stability := st, death := level }, 1)
  else if (np : Int) < 0 then ({ cl with numPoints := np, stability := st }, 0)
  else ({ cl with numPoints := np, stability := st }, 1)

/-- `cluster_detach_points`, cluster.c 122-138. -/
def detach (ar : Arith W S) (cl : Cl W S) (numPoints : Nat) (level : W) : Cl W S × Int :=
  detachTo ar cl (subIndex cl.numPoints numPoints) numPoints level

/-- `cluster_add_points_to_virtual_child_cluster`, cluster.c 202-211. -/
def addVirtual (cl : Cl W S) (points : List Nat) : Cl W S := { cl with vchild := points.foldl sInsert cl.vchild }

/-- `cluster_virtual_child_contains_point`, cluster.c 213-218. -/
def containsPoint (cl : Cl W S) (p : Nat) : Bool := decide (p ∈ cl.vchild)

end Cl

/-- Dereferencing the entry of `sc->clusters` at index `l`; the entry 0 is a null pointer. -/
def getCl {C : Type} (cs : List (Option C)) (l : Nat) : Outcome C := do
  match ← rd cs l with
  | some c => return c
  | none => .ub "null pointer"

end Verif
