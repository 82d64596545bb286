import Verif.Model.Concrete
import Verif.Model.Api
/-
Container-level model of the stages after the hierarchy, /repo/src/hdbscan.c 988-1195 and /repo/src/cluster.c 149-199, and of the
functions a user calls, hdbscan.c 109-133 and 236-330: the same code as in `Verif.Model.Propagate`, `Verif.Model.Outlier` and
`Verif.Model.Api`, on the library's own containers and with clusters reached through pointers.

Simplifications: as in `Verif.Model.Concrete`; moreover a cluster is not its own parent (`cluster_init` is never called with the new cluster).
-/
namespace Verif.Conc
variable {D W S T : Type}

/-! ### Propagation -/

/-- `if (cl->propagatedLowestChildDeathLevel == D_MAX) ...`, cluster.c 153-155. -/
def ownLowest [CCmp W] (ar : Arith W S) (c : CCl W S) : CCl W S :=
  { c with propLowest := if CCmp.eq c.propLowest ar.dmax then c.death else c.propLowest }

/-- The parent `p` takes over the lowest death level of `c`, cluster.c 157-159. -/
def passLowest [CCmp W] (c p : CCl W S) : CCl W S :=
  { p with propLowest := if CCmp.lt c.propLowest p.propLowest then c.propLowest else p.propLowest }

/-- The cluster `c` at address `a` is itself handed to its parent `p`, cluster.c 162-164 and 180-182. -/
def passSelf (ar : Arith W S) (a : Nat) (c p : CCl W S) : Outcome (CCl W S) := do
  let d ← p.desc.append a
  return { p with pncs := addIndex p.pncs c.ncs, propStability := ar.add p.propStability c.stability, desc := d }

/-- The descendants selected below `c` are handed to its parent `p`, cluster.c 168-176 and 186-194. -/
def passDesc (ar : Arith W S) (c p : CCl W S) : Outcome (CCl W S) := do
  let d ← forEach c.desc (fun b l => l.append b) p.desc
  return { p with pncs := addIndex p.pncs c.pncs, propStability := ar.add p.propStability c.propStability, desc := d }

/-- The choice between the two, cluster.c 161-196. -/
def choose [CCmp S] (ar : Arith W S) (a : Nat) (c p : CCl W S) : Outcome (CCl W S) :=
  if c.hasChildren = false ∨ c.ncs > c.pncs then passSelf ar a c p
  else if c.ncs < c.pncs then passDesc ar c p
  else if CCmp.le c.propStability c.stability then passSelf ar a c p
  else passDesc ar c p

/-- `cluster_propagate` for the cluster at address `a`, cluster.c 149-199. -/
def propagate [CCmp W] [CCmp S] (ar : Arith W S) (heap : List (CCl W S)) (a : Nat) : Outcome (List (CCl W S)) := do
  let c ← deref heap a
  match c.parent with
  | none => return heap
  | some q => do
    let heap1 ← wr heap a (ownLowest ar c)
    let p ← deref heap1 q
    let p' ← choose ar a (ownLowest ar c) (passLowest (ownLowest ar c) p)
    wr heap1 q p'

/-- One iteration of the loop collecting the leaves, hdbscan.c 1013-1027; the state is (`clustersToExamine`, `addedToExaminationList`). -/
def leafStep (heap : List (CCl W S)) (clusters : AList (Option Nat)) (i : Nat) (s : AList Nat × List Bool) : Outcome (AList Nat × List Bool) := do
  match ← clusters.readSlot i with
  | none => return s
  | some a => do
    let c ← deref heap a
    if c.hasChildren = false then do
      let ex ← put c.label s.1
      let added ← wr s.2 c.label true
      return (ex, added)
    else return s

/-- The loop collecting the leaves in the given order. -/
def leaves (heap : List (CCl W S)) (clusters : AList (Option Nat)) : (order : List Nat) → AList Nat × List Bool → Outcome (AList Nat × List Bool)
  | [], s => .ok s
  | i :: r, s => do
    let s' ← leafStep heap clusters i s
    leaves heap clusters r s'

/-- State of the examination loop. -/
structure PSt (W S : Type) where
  heap : List (CCl W S)
  /-- `clustersToExamine` -/
  ex : AList Nat
  /-- `addedToExaminationList` -/
  added : List Bool
  /-- `infiniteStability` -/
  infinite : Bool

/-- Queue the parent of a processed cluster unless it was queued before, hdbscan.c 1039-1046. -/
def queueParent (heap : List (CCl W S)) (parent : Option Nat) (ex : AList Nat) (added : List Bool) : Outcome (AList Nat × List Bool) :=
  match parent with
  | none => .ok (ex, added)
  | some q => do
    let p ← deref heap q
    let a ← rd added p.label
    if a = false then do
      let ex' ← put p.label ex
      let added' ← wr added p.label true
      return (ex', added')
    else return (ex, added)

/-- The examination loop, hdbscan.c 1029-1047. -/
def examine [CCmp W] [CCmp S] (ar : Arith W S) (smax : S) (clusters : AList (Option Nat)) : (fuel : Nat) → PSt W S → Outcome (PSt W S)
  | 0, s => if s.ex.size = 0 then .ok s else .diverge
  | fuel + 1, s =>
    if s.ex.size = 0 then .ok s
    else do
      let r ← SetT.removeAt s.ex (s.ex.size - 1)
      let (x, ex) ← got r
      let a ← pick clusters x
      let heap ← propagate ar s.heap a
      let c ← deref heap a
      let (ex', added) ← queueParent heap c.parent ex s.added
      examine ar smax clusters fuel { heap := heap, ex := ex', added := added, infinite := s.infinite || CCmp.eq c.stability smax }

/-- `hdbscan_propagate_tree`, hdbscan.c 988-1069. -/
def propagateTree [CCmp W] [CCmp S] (ar : Arith W S) (smax : S) (order : List Nat) (heap : List (CCl W S)) (clusters : AList (Option Nat)) :
    Outcome (PSt W S) := do
  let ex0 ← SetT.init
  let (ex, added) ← leaves heap clusters order (ex0, List.replicate clusters.size false)
  examine ar smax clusters clusters.size { heap := heap, ex := ex, added := added, infinite := false }

/-! ### Selection -/

/-- `significant`, a hash table of pointers, and the lists they point to. -/
structure Groups where
  table : HTable.Table Int
  lists : List (AList Nat)

/-- One iteration of the loop grouping the selected clusters, hdbscan.c 1095-1119, for the cluster at address `a`. -/
def groupStep (heap : List (CCl W S)) (a : Nat) (g : Groups) : Outcome Groups := do
  let c ← deref heap a
  match ← tableLookup g.table (c.offset : Int) with
  | none => do
    let l0 ← AList.init 16
    let t ← tableInsert g.table (c.offset : Int) g.lists.length
    let l ← l0.append c.label
    return { table := t, lists := g.lists ++ [l] }
  | some p => do
    let l0 ← rd g.lists p
    let l ← l0.append c.label
    let ls ← wr g.lists p l
    return { g with lists := ls }

/-- The loop grouping the selected clusters, hdbscan.c 1087-1120; `array_list_value_at` leaves `c` unset, and the body is skipped, when
    the position is outside the list. -/
def groupAll (heap : List (CCl W S)) (solution : AList Nat) : (order : List Nat) → Groups → Outcome Groups
  | [], g => .ok g
  | i :: r, g => do
    match ← solution.valueAt i with
    | none => groupAll heap solution r g
    | some a => do
      let g' ← groupStep heap a g
      groupAll heap solution r g'

/-- One step of the labelling loop, hdbscan.c 1127-1141: key `key`, point `j`. -/
def labelStep (g : Groups) (table : HTable.Table Int) (entries : List (W × List Nat)) (key j : Nat) (labels : List Nat) : Outcome (List Nat) := do
  match ← tableLookup g.table (key : Int) with
  | none => .ub "null pointer"
  | some p => do
    match ← tableLookup table ((key + 1 : Nat) : Int) with
    | none => .ub "uninitialised pointer hpSecond"
    | some e => do
      let en ← rd entries e
      let l ← rd en.2 j
      let list ← rd g.lists p
      let it ← list.find indexCompare l false
      if it ≠ -1 then wr labels j l else return labels

/-- The labelling loop in the order of the schedule. -/
def labelAll (g : Groups) (table : HTable.Table Int) (entries : List (W × List Nat)) : (steps : List (Nat × Nat)) → List Nat → Outcome (List Nat)
  | [], labels => .ok labels
  | (k, j) :: r, labels => do
    let labels' ← labelStep g table entries k j labels
    labelAll g table entries r labels'

/-- The keys of a table in the order of its set of keys (all of them are offsets, hence not negative). -/
def keysOf (t : HTable.Table Int) : Outcome (List Nat) := forEach t.keys (fun k l => .ok (l ++ [k.toNat])) []

/-- `hdbscan_find_prominent_clusters`, hdbscan.c 1077-1144, for `n` points. -/
def prominent (heap : List (CCl W S)) (clusters : AList (Option Nat)) (table : HTable.Table Int) (entries : List (W × List Nat)) (n : Nat)
    (order : Nat → List Nat) (sched : List (Nat × Nat) → List (Nat × Nat)) : Outcome (List Nat) := do
  let a ← pick clusters 1
  let root ← deref heap a
  let t ← (HTable.init root.desc.size .long .ptr : Outcome (HTable.Table Int))
  let g ← groupAll heap root.desc (order root.desc.size) { table := t, lists := [] }
  let keys ← keysOf g.table
  labelAll g table entries (sched (keys.flatMap (fun k => (List.range n).map (fun j => (k, j))))) (List.replicate n 0)

/-! ### Outlier scores -/

/-- The score of point `i`, hdbscan.c 1176-1184. -/
def scoreOf [CCmp W] (zeroW : W) (ops : Outlier.Ops W T) (heap : List (CCl W S)) (clusters : AList (Option Nat)) (noise : List (Option W))
    (last : List (Option Nat)) (i : Nat) : Outcome T := do
  let l ← rdInit last i
  let a ← pick clusters l
  let c ← deref heap a
  let eps ← rdInit noise i
  return if CCmp.eq eps zeroW then ops.zero else ops.ratio c.propLowest eps

/-- The loop filling `outlierScores`, hdbscan.c 1172-1189. -/
def fill [CCmp W] (zeroW : W) (ops : Outlier.Ops W T) (heap : List (CCl W S)) (clusters : AList (Option Nat)) (noise : List (Option W))
    (last : List (Option Nat)) (core : List (Option W)) : (order : List Nat) → List (Option (OScore W T)) → Outcome (List (Option (OScore W T)))
  | [], a => .ok a
  | i :: r, a => do
    let s ← scoreOf zeroW ops heap clusters noise last i
    let c ← rdInit core i
    let a' ← wr a i (some { score := s, core := c, id := i })
    fill zeroW ops heap clusters noise last core r a'

/-- `hdbscsan_calculate_outlier_scores`, hdbscan.c 1155-1195, for `n` points. -/
def scores [CCmp W] [CCmp T] (qsort : (OScore W T → OScore W T → Int) → List (OScore W T) → List (OScore W T)) (zeroW : W) (ops : Outlier.Ops W T)
    (order : List Nat) (heap : List (CCl W S)) (clusters : AList (Option Nat)) (noise : List (Option W)) (last : List (Option Nat))
    (core : List (Option W)) (n : Nat) : Outcome (List (OScore W T)) := do
  let a ← fill zeroW ops heap clusters noise last core order (List.replicate n none)
  let xs ← Outlier.initialised a
  return qsort outlierCompare xs

/-! ### Whole runs -/

/-- An `hdbscan` object after a run. -/
structure Obj (W S T : Type) where
  minPoints : Nat
  numPoints : Nat
  dis : Distance W
  /-- the clusters in memory -/
  heap : List (CCl W S)
  /-- `sc->clusters` -/
  clusters : AList (Option Nat)
  /-- `sc->hierarchy` -/
  hierarchy : HTable.Table Int
  /-- the hierarchy entries in memory -/
  entries : List (W × List Nat)
  /-- `sc->clusterLabels` -/
  labels : List Nat
  /-- `sc->outlierScores` -/
  outliers : List (OScore W T)

/-- `hdbscan_do_run`, hdbscan.c 236-268; `clusters` is `sc->clusters` on entry. -/
def doRun [CCmp W] [CCmp S] [CCmp T] (env : Api.Env D W S T) (par : Api.Par) (minPoints : Nat) (dis : Distance W) (n : Nat) (clusters : AList (Option Nat)) :
    Outcome (Obj W S T) := do
  let table ← (HTable.init (Api.csize n) .long .ptr : Outcome (HTable.Table Int))
  let g ← Mst.construct env.ar.zeroW env.ar.dmax true dis n
  let adj ← adjacency n g.va g.vb
  let g' ← Graph.sortByWeight g
  let r ← compute env.ar minPoints false g' adj clusters table
  let s ← propagateTree env.ar env.smax (par.sch.leaf r.clusters.size) r.heap r.clusters
  let labels ← prominent s.heap r.clusters r.table r.entries n par.sch.group par.sch.steps
  let o ← scores env.qsort env.ar.zeroW env.oops par.scores s.heap r.clusters r.noise r.last dis.coreDistances n
  return { minPoints := minPoints, numPoints := n, dis := dis, heap := s.heap, clusters := r.clusters, hierarchy := r.table, entries := r.entries,
           labels := labels, outliers := o }

/-- `hdbscan_run`, hdbscan.c 304-330, on an initialised object. -/
def run [CCmp W] [CCmp S] [CCmp T] (env : Api.Env D W S T) (par : Api.Par) (minPoints : Nat) (data : List D) (rows cols : Nat) (rowwise : Bool) :
    Outcome (Obj W S T) := do
  let dis ← Distance.compute env.dops env.ar.dmax par.pairs par.cores data rows cols (subIndex minPoints 1)
  let clusters ← AList.init (Api.csize (Api.datasetSize rows cols rowwise))
  let _ ← (HTable.init (Api.csize (Api.datasetSize rows cols rowwise)) .int .ptr : Outcome (HTable.Table Int))
  doRun env par minPoints dis (Api.datasetSize rows cols rowwise) clusters

/-- `hdbscan_init` followed by `hdbscan_run`. -/
def fresh [CCmp W] [CCmp S] [CCmp T] (env : Api.Env D W S T) (par : Api.Par) (minPoints : Nat) (data : List D) (rows cols : Nat) (rowwise : Bool) :
    Outcome (Obj W S T) := do
  let m ← Api.initObj minPoints
  run env par m data rows cols rowwise

/-- `hdbscan_rerun`, hdbscan.c 277-291; `hdbscan_minimal_clean` (142-191) empties the list of clusters and keeps its array, and the
    new hierarchy table is created by `hdbscan_do_run`. -/
def rerun [CCmp W] [CCmp S] [CCmp T] (env : Api.Env D W S T) (par : Api.Par) (minPts : Nat) (o : Obj W S T) : Outcome (Obj W S T) :=
  if minPts = 0 then .ub "array of length 0"
  else do
    let dis ← Distance.getCoreDistances env.dops.zero env.ar.dmax par.cores { o.dis with numNeighbors := subIndex minPts 1 }
    doRun env par minPts dis o.numPoints (o.clusters.clear false)

/-- A sequence of reruns. -/
def reruns [CCmp W] [CCmp S] [CCmp T] (env : Api.Env D W S T) : List (Nat × Api.Par) → Obj W S T → Outcome (Obj W S T)
  | [], o => .ok o
  | (m, par) :: r, o => do
    let o' ← rerun env par m o
    reruns env r o'

end Verif.Conc
