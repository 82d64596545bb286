import Verif.Model.Mst
import Verif.Model.Hierarchy
import Verif.Model.Propagate
/-
Model of the composition of the stages in `hdbscan_do_run`, /repo/src/hdbscan.c 236-268.
-/
namespace Verif.Run
variable {W S : Type}

/-- The first three stages of `hdbscan_do_run`, hdbscan.c 244-260: spanning tree (with self edges, `sc->selfEdges` is TRUE unless the
    caller changes it), sorting, hierarchy. -/
def hierarchy [CCmp W] (ar : Arith W S) (minPoints : Nat) (dis : Distance W) (n : Nat) : Outcome (Hier.Result W S) := do
  let g ← Mst.construct ar.zeroW ar.dmax true dis n
  let g' ← Graph.sortByWeight g
  Hier.compute ar minPoints false g'

/-- The order in which the iterations of the parallel loops after the hierarchy construction are executed: the leaf loop and the grouping
    loop (given the number of iterations), the labelling loop (given its steps). -/
structure Schedule where
  leaf : Nat → List Nat
  group : Nat → List Nat
  steps : List (Nat × Nat) → List (Nat × Nat)

/-- Every iteration is executed exactly once. -/
structure Schedule.Complete (sch : Schedule) : Prop where
  leaf : ∀ N, (sch.leaf N).Perm (List.range N)
  group : ∀ N, (sch.group N).Perm (List.range N)
  steps : ∀ l, (sch.steps l).Perm l

/-- What a run leaves behind (without the outlier scores). -/
structure Out (W S : Type) where
  clusters : List (Option (Cl W S))
  hierarchy : List (Nat × W × List Nat)
  noise : List (Option W)
  last : List (Option Nat)
  infinite : Bool
  labels : List Nat

/-- The stages of `hdbscan_do_run` from the sorted spanning tree to the labels, hdbscan.c 249-263. -/
def fromTree [CCmp W] [CCmp S] (ar : Arith W S) (smax : S) (sch : Schedule) (minPoints : Nat) (g : Graph W) : Outcome (Out W S) := do
  let res ← Hier.compute ar minPoints false g
  let s ← Sel.propagateTree ar smax (sch.leaf res.clusters.length) res.clusters
  let labels ← Sel.prominent s.clusters res.hierarchy g.numVertices sch.group sch.steps
  return { clusters := s.clusters, hierarchy := res.hierarchy, noise := res.noise, last := res.last, infinite := s.infinite, labels := labels }

/-- `hdbscan_do_run`, hdbscan.c 236-268, up to the outlier scores. -/
def doRun [CCmp W] [CCmp S] (ar : Arith W S) (smax : S) (sch : Schedule) (minPoints : Nat) (dis : Distance W) (n : Nat) : Outcome (Out W S) := do
  let g ← Mst.construct ar.zeroW ar.dmax true dis n
  let g' ← Graph.sortByWeight g
  fromTree ar smax sch minPoints g'

end Verif.Run
