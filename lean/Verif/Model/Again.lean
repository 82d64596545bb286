import Verif.Model.Api
/-
Model of calls of the public functions `hdbscan_propagate_tree` and `hdbscan_find_prominent_clusters` (/repo/src/hdbscan.c 988-1144,
declared in /repo/include/hdbscan/hdbscan.h; C++ members `propagateTree` and `findProminentClusters`, /repo/src/hdbscan.cpp 75-81) on an object
that has been run already. The functions themselves are modelled in Verif/Model/Propagate.lean.
-/
namespace Verif.Api
variable {D W S T : Type}

/-- `hdbscan_find_prominent_clusters(sc, hdbscan_propagate_tree(sc))`, hdbscan.c 988-1144, on the object `o`. The flag returned by the
    first call takes the place of the one of the run; the outlier scores are not touched. The label array of the run is not released (line 1119
    overwrites the pointer); that leak is not part of this model. -/
def again [CCmp W] [CCmp S] (env : Env D W S T) (sch : Run.Schedule) (o : Obj W S T) : Outcome (Obj W S T) := do
  let s ← Sel.propagateTree env.ar env.smax (sch.leaf o.results.clusters.length) o.results.clusters
  let labels ← Sel.prominent s.clusters o.results.hierarchy o.numPoints sch.group sch.steps
  return { o with results := { o.results with clusters := s.clusters, infinite := s.infinite, labels := labels } }

/-- Any number of such pairs of calls, each with its own schedule. -/
def agains [CCmp W] [CCmp S] (env : Env D W S T) : List Run.Schedule → Obj W S T → Outcome (Obj W S T)
  | [], o => .ok o
  | sch :: r, o => do
    let o' ← again env sch o
    agains env r o'

end Verif.Api
