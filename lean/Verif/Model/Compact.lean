import Verif.Model.Outlier
/-
Model of the stages run one by one with the option `compactHierarchy`, /repo/include/hdbscan/hdbscan.h 335 and /repo/src/hdbscan.c 236-268.

`hdbscan_do_run` calls `hdbscan_compute_hierarchy_and_cluster_tree` with `compactHierarchy = FALSE`; the stages are public functions and a caller may
pass TRUE. Simplifications: as in the models of the stages.
-/
namespace Verif.Compact
variable {W S T : Type}

/-- The calls of hdbscan.c 244-264 with a choice of the option: spanning tree, sorting, hierarchy, propagation, labels, outlier scores. -/
def stages [CCmp W] [CCmp S] [CCmp T] (compact : Bool) (qsort : (OScore W T → OScore W T → Int) → List (OScore W T) → List (OScore W T)) (ar : Arith W S) (smax : S)
    (ops : Outlier.Ops W T) (sch : Run.Schedule) (order : List Nat) (minPoints : Nat) (dis : Distance W) (n : Nat) : Outcome (Run.Full W S T) := do
  let g ← Mst.construct ar.zeroW ar.dmax true dis n
  let g' ← Graph.sortByWeight g
  let res ← Hier.compute ar minPoints compact g'
  let s ← Sel.propagateTree ar smax (sch.leaf res.clusters.length) res.clusters
  let labels ← Sel.prominent s.clusters res.hierarchy g'.numVertices sch.group sch.steps
  let o ← Outlier.scores qsort ar.zeroW ops order s.clusters res.noise res.last dis.coreDistances n
  return { clusters := s.clusters, hierarchy := res.hierarchy, noise := res.noise, last := res.last, infinite := s.infinite, labels := labels, outliers := o }

end Verif.Compact
