import Verif.Model.Api
/-
Model of runs with a limited stack, /repo/src/hdbscan.c 236-330, distance.c 137-270, undirected_graph.c 140-172: the arrays of variable length that the functions of a run
put on the stack.

Simplifications: the sizes are those of the default types (`boolean`, `label_t`, `index_t` 4 bytes, `distance_t` 8 bytes); everything else on the stack (frames, scalars, the C
library, a constant amount per call, no recursion) is taken from the limit beforehand; an array that does not fit is undefined behaviour; alignment is ignored. A thread of the
team other than the calling one has its own stack. The rest is as in Verif/Model/Api.lean.
-/
namespace Verif.Stack
variable {D W S T : Type}

/-- Bytes available for arrays on the stack of the calling thread and on that of every other thread. -/
structure Limits where
  main : Nat
  worker : Nat

/-- An array of the given number of bytes is put on a stack of `cap` bytes of which `used` are taken; the result is how many are taken then. -/
def reserve (cap used bytes : Nat) : Outcome Nat := if used + bytes ≤ cap then .ok (used + bytes) else .ub "stack overflow"

/-- `distance_get_core_distances`, distance.c 216-270: `sortedDistance` (219) and the private copy that each thread of the team gets (221). -/
def coreDistances [CCmp W] (lim : Limits) (zero dmax : W) (order : List Nat) (dis : Distance W) : Outcome (Distance W) := do
  let u ← reserve lim.main 0 (8 * addIndex dis.numNeighbors 1)
  let _ ← reserve lim.main u (8 * addIndex dis.numNeighbors 1)
  let _ ← reserve lim.worker 0 (8 * addIndex dis.numNeighbors 1)
  Distance.getCoreDistances zero dmax order dis

/-- `distance_compute`, distance.c 137-200. -/
def compute [CCmp W] (lim : Limits) (ops : DistOps D W) (dmax : W) (order : List (Nat × Nat)) (corder : List Nat) (data : List D) (rows cols numNeighbors : Nat) :
    Outcome (Distance W) := do
  let m ← Distance.computeLoop ops data cols rows order (List.replicate (subCells rows) none)
  coreDistances lim ops.zero dmax corder { rows := rows, cols := cols, numNeighbors := numNeighbors, distances := m, coreDistances := List.replicate rows none }

/-- `hdbscan_construct_mst`, hdbscan.c 810-980: `attachedPoints` (820). -/
def mst [CCmp W] (lim : Limits) (zero dmax : W) (dis : Distance W) (n : Nat) : Outcome (Graph W) := do
  let _ ← reserve lim.main 0 (4 * n)
  Mst.construct zero dmax true dis n

/-- `graph_quicksort_by_edge_weight`, undirected_graph.c 140-172: `startIndexStack` and `endIndexStack` (145-146). -/
def sort [CCmp W] (lim : Limits) (g : Graph W) : Outcome (Graph W) :=
  if g.wt.length ≤ 1 then .ok g
  else do
    let u ← reserve lim.main 0 (4 * (g.wt.length / 2))
    let _ ← reserve lim.main u (4 * (g.wt.length / 2))
    Graph.sortByWeight g

/-- `hdbscan_compute_hierarchy_and_cluster_tree`, hdbscan.c 356-719, called with `used` bytes taken: `previousClusterLabels` and `currentClusterLabels` (368-369). -/
def hierarchy [CCmp W] (lim : Limits) (used : Nat) (ar : Arith W S) (m : Nat) (g : Graph W) : Outcome (Hier.Result W S) := do
  let u ← reserve lim.main used (4 * g.numVertices)
  let _ ← reserve lim.main u (4 * g.numVertices)
  Hier.compute ar m false g

/-- `hdbscan_propagate_tree`, hdbscan.c 988-1069, called with `used` bytes taken: `addedToExaminationList` (1000). -/
def propagateTree [CCmp W] [CCmp S] (lim : Limits) (used : Nat) (ar : Arith W S) (smax : S) (order : List Nat) (cs : List (Option (Cl W S))) : Outcome (Sel.St W S) := do
  let _ ← reserve lim.main used (4 * cs.length)
  Sel.propagateTree ar smax order cs

/-- `hdbscan_do_run`, hdbscan.c 236-268: `pointNoiseLevels` and `pointLastClusters` (258-259) are there until it returns. -/
def doRun [CCmp W] [CCmp S] [CCmp T] (lim : Limits) (env : Api.Env D W S T) (par : Api.Par) (m : Nat) (dis : Distance W) (n : Nat) : Outcome (Api.Obj W S T) := do
  let _ ← (HTable.init (Api.csize n) .long .ptr : Outcome (HTable.Table Int))
  let g ← mst lim env.ar.zeroW env.ar.dmax dis n
  let g' ← sort lim g
  let u ← reserve lim.main 0 (8 * n)
  let used ← reserve lim.main u (4 * n)
  let res ← hierarchy lim used env.ar m g'
  let s ← propagateTree lim used env.ar env.smax (par.sch.leaf res.clusters.length) res.clusters
  let labels ← Sel.prominent s.clusters res.hierarchy g'.numVertices par.sch.group par.sch.steps
  let o ← Outlier.scores env.qsort env.ar.zeroW env.oops par.scores s.clusters res.noise res.last dis.coreDistances n
  return { minPoints := m, numPoints := n, dis := dis,
           results := { clusters := s.clusters, hierarchy := res.hierarchy, noise := res.noise, last := res.last, infinite := s.infinite, labels := labels, outliers := o } }

/-- `hdbscan_init` and `hdbscan_run`, hdbscan.c 109-133 and 304-330. -/
def fresh [CCmp W] [CCmp S] [CCmp T] (lim : Limits) (env : Api.Env D W S T) (par : Api.Par) (minPoints : Nat) (data : List D) (rows cols : Nat) (rowwise : Bool) :
    Outcome (Api.Obj W S T) := do
  let m ← Api.initObj minPoints
  let dis ← compute lim env.dops env.ar.dmax par.pairs par.cores data rows cols (subIndex m 1)
  let _ ← (AList.init (Api.csize (Api.datasetSize rows cols rowwise)) : Outcome (AList Nat))
  let _ ← (HTable.init (Api.csize (Api.datasetSize rows cols rowwise)) .int .ptr : Outcome (HTable.Table Int))
  doRun lim env par m dis (Api.datasetSize rows cols rowwise)

/-- `hdbscan_rerun`, hdbscan.c 277-291. -/
def rerun [CCmp W] [CCmp S] [CCmp T] (lim : Limits) (env : Api.Env D W S T) (par : Api.Par) (minPts : Nat) (o : Api.Obj W S T) : Outcome (Api.Obj W S T) :=
  if minPts = 0 then .ub "array of length 0"
  else do
    let dis ← coreDistances lim env.dops.zero env.ar.dmax par.cores { o.dis with numNeighbors := subIndex minPts 1 }
    doRun lim env par minPts dis o.numPoints

/-- A sequence of reruns. -/
def reruns [CCmp W] [CCmp S] [CCmp T] (lim : Limits) (env : Api.Env D W S T) : List (Nat × Api.Par) → Api.Obj W S T → Outcome (Api.Obj W S T)
  | [], o => .ok o
  | (m, par) :: r, o => do
    let o' ← rerun lim env par m o
    reruns lim env r o'

end Verif.Stack
