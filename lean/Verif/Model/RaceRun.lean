import Verif.Model.Race
import Verif.Model.Api
/-
Model of whole runs in which the loop of /repo/src/hdbscan.c 669-679 is executed by several threads. The definitions repeat those of
Verif/Model/Hierarchy.lean, Run.lean, Outlier.lean and Api.lean with that one loop replaced by `Race.offsets`; the simplification is that of
Verif/Model/Race.lean (accesses are atomic and interleaved).
-/
namespace Verif.Race
open Hier
variable {D W S T : Type}

/-- The interleaving chosen for the loop, given the line number and the labels of the new clusters of the level. -/
abbrev Threads := Nat → List Nat → List Access

/-- The end of one level, hdbscan.c 652-696. -/
def endLevel (th : Threads) (compact : Bool) (w : W) (st : St W S) : Outcome (St W S) := do
  let write := !compact || st.significant || !st.wk.fresh.isEmpty
  let lc := if write then st.lineCount + 1 else st.lineCount
  let lines := if write then st.lines ++ [(lc, w, st.prev)] else st.lines
  let cs ← offsets lc st.wk.fresh (th lc st.wk.fresh) st.wk.clusters
  return { st with
    wk := { st.wk with clusters := cs, fresh := [] }
    prev := st.wk.cur
    lines := lines
    lineCount := lc
    significant := !st.wk.fresh.isEmpty }

/-- One iteration of the main loop, hdbscan.c 399-697. -/
def level [CCmp W] (th : Threads) (ar : Arith W S) (minPoints : Nat) (compact : Bool) (va vb : List Nat) (wt : List W) (k : Nat) (st : St W S) :
    Outcome (Nat × St W S) := do
  let w ← rd wt k
  let r ← removeTied va vb wt st.wk.cur w (k + 1) { k := k + 1, adj := st.adj, affV := st.affV, affL := [] }
  if r.affL = [] then return (r.k, { st with adj := r.adj, wk := { st.wk with fresh := [] }, affV := r.affV })
  else do
    let (affV', wk') ← clustersLoop ar r.adj minPoints w r.affL.length r.affL r.affV { st.wk with fresh := [] }
    let st' ← endLevel th compact w { st with adj := r.adj, wk := wk', affV := affV' }
    return (r.k, st')

/-- The main loop, hdbscan.c 399-697. -/
def mainLoop [CCmp W] (th : Threads) (ar : Arith W S) (minPoints : Nat) (compact : Bool) (va vb : List Nat) (wt : List W) :
    (fuel k : Nat) → St W S → Outcome (St W S)
  | _, 0, st => .ok st
  | 0, _ + 1, _ => .diverge
  | fuel + 1, k + 1, st => do
    let (k', st') ← level th ar minPoints compact va vb wt k st
    mainLoop th ar minPoints compact va vb wt fuel k' st'

/-- `hdbscan_compute_hierarchy_and_cluster_tree`, hdbscan.c 356-719. -/
def compute [CCmp W] (th : Threads) (ar : Arith W S) (minPoints : Nat) (compact : Bool) (g : Graph W) : Outcome (Result W S) := do
  let st ← mainLoop th ar minPoints compact g.va g.vb g.wt g.wt.length g.wt.length (initial ar g)
  return { adj := st.adj, clusters := st.wk.clusters, hierarchy := st.lines ++ [(0, ar.zeroW, List.replicate g.numVertices 0)],
           noise := st.wk.noise, last := st.wk.last, cur := st.wk.cur }

/-- `hdbscan_do_run`, hdbscan.c 236-268. -/
def full [CCmp W] [CCmp S] [CCmp T] (th : Threads) (qsort : (OScore W T → OScore W T → Int) → List (OScore W T) → List (OScore W T)) (ar : Arith W S) (smax : S)
    (ops : Outlier.Ops W T) (sch : Run.Schedule) (order : List Nat) (minPoints : Nat) (dis : Distance W) (n : Nat) : Outcome (Run.Full W S T) := do
  let g ← Mst.construct ar.zeroW ar.dmax true dis n
  let g' ← Graph.sortByWeight g
  let res ← compute th ar minPoints false g'
  let s ← Sel.propagateTree ar smax (sch.leaf res.clusters.length) res.clusters
  let labels ← Sel.prominent s.clusters res.hierarchy g'.numVertices sch.group sch.steps
  let o ← Outlier.scores qsort ar.zeroW ops order s.clusters res.noise res.last dis.coreDistances n
  return { clusters := s.clusters, hierarchy := res.hierarchy, noise := res.noise, last := res.last, infinite := s.infinite, labels := labels, outliers := o }

/-- `hdbscan_do_run`, hdbscan.c 236-268, with the table it creates. -/
def doRun [CCmp W] [CCmp S] [CCmp T] (th : Threads) (env : Api.Env D W S T) (par : Api.Par) (minPoints : Nat) (dis : Distance W) (n : Nat) : Outcome (Api.Obj W S T) := do
  let _ ← (HTable.init (Api.csize n) .long .ptr : Outcome (HTable.Table Int))
  let r ← full th env.qsort env.ar env.smax env.oops par.sch par.scores minPoints dis n
  return { minPoints := minPoints, numPoints := n, dis := dis, results := r }

/-- `hdbscan_init` followed by `hdbscan_run`, hdbscan.c 109-133 and 304-330. -/
def fresh [CCmp W] [CCmp S] [CCmp T] (th : Threads) (env : Api.Env D W S T) (par : Api.Par) (minPoints : Nat) (data : List D) (rows cols : Nat) (rowwise : Bool) :
    Outcome (Api.Obj W S T) := do
  let m ← Api.initObj minPoints
  let dis ← Distance.compute env.dops env.ar.dmax par.pairs par.cores data rows cols (subIndex m 1)
  let _ ← (AList.init (Api.csize (Api.datasetSize rows cols rowwise)) : Outcome (AList Nat))
  let _ ← (HTable.init (Api.csize (Api.datasetSize rows cols rowwise)) .int .ptr : Outcome (HTable.Table Int))
  doRun th env par m dis (Api.datasetSize rows cols rowwise)

/-- `hdbscan_rerun`, hdbscan.c 277-291. -/
def rerun [CCmp W] [CCmp S] [CCmp T] (th : Threads) (env : Api.Env D W S T) (par : Api.Par) (minPts : Nat) (o : Api.Obj W S T) : Outcome (Api.Obj W S T) :=
  if minPts = 0 then .ub "array of length 0"
  else do
    let dis ← Distance.getCoreDistances env.dops.zero env.ar.dmax par.cores { o.dis with numNeighbors := subIndex minPts 1 }
    doRun th env par minPts dis o.numPoints

/-- A sequence of reruns. -/
def reruns [CCmp W] [CCmp S] [CCmp T] (env : Api.Env D W S T) : List (Nat × Api.Par × Threads) → Api.Obj W S T → Outcome (Api.Obj W S T)
  | [], o => .ok o
  | (m, par, th) :: r, o => do
    let o' ← rerun th env par m o
    reruns env r o'

end Verif.Race
