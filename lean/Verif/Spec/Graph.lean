import Mathlib.Data.List.Basic
import Mathlib.Logic.Relation
import Mathlib.Order.Lattice
import Mathlib.Order.MinMax
/-
What the graph properties talk about: edges as pairs and triples, adjacency, connectivity below a threshold.
-/
namespace Verif.Spec

/-- The edge `e` joins `v` and `w`, in either direction. -/
def joins (v w : Nat) (e : Nat × Nat) : Bool := (e.1 == v && e.2 == w) || (e.1 == w && e.2 == v)

/-- Parallel arrays read as a list of edges. -/
def triples {W : Type} (va vb : List Nat) (wt : List W) : List (Nat × Nat × W) := va.zip (vb.zip wt)

/-- The neighbour lists `adj` describe exactly the multiset of edges `E`: `w` occurs among the neighbours of `v` as often
    as `E` has edges joining them. -/
def Describes (n : Nat) (adj : List (List Nat)) (E : List (Nat × Nat)) : Prop :=
  adj.length = n ∧ ∀ v w, v < n → (adj[v]?.getD []).count w = E.countP (joins v w)

/-- Mutual reachability distance: the largest of the distance and the two core distances. -/
def mutualReach {W : Type} [LinearOrder W] (d : Nat → Nat → W) (core : Nat → W) (i j : Nat) : W :=
  max (max (d i j) (core i)) (core j)

/-- `u` and `v` are connected by edges of the list `E` whose weight is at most `M`. -/
def ConnectedBy {W : Type} [LinearOrder W] (E : List (Nat × Nat × W)) (M : W) (u v : Nat) : Prop :=
  Relation.EqvGen (fun a b => ∃ w, (a, b, w) ∈ E ∧ w ≤ M) u v

/-- `u` and `v` are connected by pairs of different points below `n` whose mutual reachability `m` is at most `M`. -/
def Reachable {W : Type} [LinearOrder W] (n : Nat) (m : Nat → Nat → W) (M : W) (u v : Nat) : Prop :=
  Relation.EqvGen (fun a b => a < n ∧ b < n ∧ a ≠ b ∧ m a b ≤ M) u v

/-- `w` is the smallest level at which the different points `u` and `v` are connected. -/
def MeetAt {W : Type} [LinearOrder W] (n : Nat) (m : Nat → Nat → W) (w : W) (u v : Nat) : Prop :=
  u ≠ v ∧ Reachable n m w u v ∧ ∀ w', w' < w → ¬ Reachable n m w' u v

/-- The edges `E` connect all points below `n`. -/
def Spans (n : Nat) (E : List (Nat × Nat)) : Prop :=
  ∀ u v, u < n → v < n → Relation.EqvGen (fun a b => (a, b) ∈ E) u v

end Verif.Spec
