import Verif.Model.GraphObj
import Verif.Spec.Graph
import Mathlib.Data.List.Perm.Basic
import Mathlib.Order.Defs.LinearOrder
/-
What a program may do with a graph, and what it should be told. Nothing here mentions memory.
-/
namespace Verif.Spec
variable {W : Type}

/-- How many vertices and edges a graph has after one more call; `none` when it holds nothing. -/
def shapeAfter (h : Option (Nat × Nat)) : GCall W → Option (Nat × Nat)
  | .init n _ _ wt => some (n, wt.length)
  | .clean => none
  | _ => h

/-- A call that makes sense on a graph with `h` vertices and edges: lists of one length with vertices of the graph; vertices and edges that exist. -/
def GSensible (h : Option (Nat × Nat)) : GCall W → Prop
  | .init n va vb wt => va.length = wt.length ∧ vb.length = wt.length ∧ (∀ a ∈ va, a < n) ∧ ∀ b ∈ vb, b < n
  | .sort => h ≠ none
  | .remove a b => ∃ n e, h = some (n, e) ∧ a < n ∧ b < n
  | .neighbours v => ∃ n e, h = some (n, e) ∧ v < n
  | .edge i => ∃ n e, h = some (n, e) ∧ i < e
  | .clean => True

/-- Every call makes sense when it is made. -/
def AllGSensible : Option (Nat × Nat) → List (GCall W) → Prop
  | _, [] => True
  | h, c :: r => GSensible h c ∧ AllGSensible (shapeAfter h c) r

/-- What a graph holds: the number of vertices, the edges in their order, and the edges as they were created, without those removed since. -/
structure GHeld (W : Type) where
  n : Nat
  edges : List (Nat × Nat × W)
  made : List (Nat × Nat)
  removed : List (Nat × Nat)

/-- What a call does and tells: sorting leaves the same edges in ascending order; the neighbours of `v` contain `w` once for every edge between them, less one for every removal of such an edge (two, if
    it is an edge from a vertex to itself); the edges are those of the three lists. -/
inductive GDoes [LinearOrder W] : Option (GHeld W) → GCall W → GAnswer W → Option (GHeld W) → Prop
  | init (h) (n : Nat) (va vb : List Nat) (wt : List W) : GDoes h (.init n va vb wt) .nothing (some ⟨n, triples va vb wt, va.zip vb, []⟩)
  | sort (h : GHeld W) (es : List (Nat × Nat × W)) : es.Perm h.edges → es.Pairwise (fun x y => x.2.2 ≤ y.2.2) → GDoes (some h) .sort .nothing (some { h with edges := es })
  | remove (h : GHeld W) (a b : Nat) : GDoes (some h) (.remove a b) .nothing (some { h with removed := (a, b) :: h.removed })
  | neighbours (h : GHeld W) (v : Nat) (l : List Nat) :
      (∀ w, l.count w = h.made.countP (joins v w) - (if v = w then 2 else 1) * h.removed.countP (joins v w)) → GDoes (some h) (.neighbours v) (.neighbours l) (some h)
  | edge (h : GHeld W) (i : Nat) (e : Nat × Nat × W) : h.edges[i]? = some e → GDoes (some h) (.edge i) (.edge e) (some h)
  | clean (h) : GDoes h .clean .nothing none

/-- The same for a sequence of calls. -/
inductive GRuns [LinearOrder W] : Option (GHeld W) → List (GCall W) → List (GAnswer W) → Option (GHeld W) → Prop
  | nil (h) : GRuns h [] [] h
  | cons {h h1 h2} {c : GCall W} {r : List (GCall W)} {x : GAnswer W} {xs : List (GAnswer W)} : GDoes h c x h1 → GRuns h1 r xs h2 → GRuns h (c :: r) (x :: xs) h2

/-- The blocks of graphs that are overwritten by another `graph_init`: three lists of edges, the table of neighbours and one list for every vertex. -/
def lostBlocks : Option (Nat × Nat) → List (GCall W) → Nat
  | _, [] => 0
  | h, c :: r =>
    (match h, c with
      | some (n, _), .init .. => n + 4
      | _, _ => 0) + lostBlocks (shapeAfter h c) r

end Verif.Spec
