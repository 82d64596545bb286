import Verif.Spec.Collections
/-
Specification for property C93: which requests for memory there are, and which of them the library looks at.
-/
namespace Verif.Spec

/-- The `k`-th request is the first one that is refused; requests are counted from `base`. -/
def FirstRefused (refuses : Nat → Bool) (base k : Nat) : Prop := (∀ j < k, refuses (base + j) = false) ∧ refuses (base + k) = true

/-- The requests of `hdbscan_init` and of `hdbscan_run` up to the spanning tree are, in this order: the object (0), the distances (1), the core distances
    (2), the cluster list (3, 4), the table of stabilities (5-8), the table of the hierarchy (9-12), the lists of neighbours (13, 14), of other vertices
    (15, 16) and of weights (17, 18), the graph (19), its array of adjacency lists (20), and two for each adjacency list (from 21 on).
    These are the ones whose refusal is reported. -/
def reportedRequests : List Nat := [0, 13, 14, 15, 16, 19, 20]

end Verif.Spec
