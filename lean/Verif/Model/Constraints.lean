import Verif.Model.Propagate
/-
Model of the functions that record constraints, /repo/src/cluster.c 220-228. Nothing in the library calls them; a program can, between the construction of the cluster tree and
`hdbscan_propagate_tree`.
-/
namespace Verif

/-- A call of one of the two functions for the cluster with a label. -/
structure ConstraintCall where
  label : Nat
  /-- `cluster_add_virtual_child_constraints_satisfied` instead of `cluster_add_constraints_satisfied` -/
  virtual : Bool
  count : Nat
  deriving DecidableEq

namespace Cl
variable {W S : Type}

/-- `cluster_add_constraints_satisfied`, cluster.c 225-228. -/
def addConstraints (k : Nat) (c : Cl W S) : Cl W S := { c with ncs := addIndex c.ncs k }

/-- `cluster_add_virtual_child_constraints_satisfied`, cluster.c 220-223. -/
def addVirtualConstraints (k : Nat) (c : Cl W S) : Cl W S := { c with pncs := addIndex c.pncs k }

/-- One call. -/
def record (v : Bool) (k : Nat) (c : Cl W S) : Cl W S := if v then c.addVirtualConstraints k else c.addConstraints k

end Cl

/-- A sequence of calls. -/
def recordAll {W S : Type} : List ConstraintCall → List (Option (Cl W S)) → Outcome (List (Option (Cl W S)))
  | [], cs => .ok cs
  | x :: r, cs => do
    let c ← getCl cs x.label
    let cs' ← wr cs x.label (some (c.record x.virtual x.count))
    recordAll r cs'

end Verif
