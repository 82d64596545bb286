import Verif.Model.Hierarchy
import Verif.Model.Primes
/-
Container-level model of `hdbscan_compute_hierarchy_and_cluster_tree`, `hdbscan_create_new_cluster`, `graph_init`, `graph_remove_edge`
and of the parts of cluster.c they use: the same code as in `Verif.Model.Hierarchy`, but every list, set and hash table is the library's
own container in memory (growing arrays, binary search, hash chains) and clusters are reached through pointers.

Simplifications: allocation succeeds and never hands out an address twice; `int`, `int64_t`, `index_t` and `label_t` variables other than
the elements of sets do not overflow; parallel loops whose iterations write different cells are executed in index order; the three arrays
of edges, whose size never changes after `hdbscan_construct_mst`, are plain arrays; releasing memory is in `Verif.Model.Heap`.
-/
namespace Verif.Conc
variable {W S α σ : Type}

/-- `for (i = 0; i < v->size; i++) { x = ((T*)v->data)[i]; ... }` with a body that does not change `v`: `k` rounds remain. -/
def forFrom (v : AList α) (body : α → σ → Outcome σ) : (k i : Nat) → σ → Outcome σ
  | 0, _, s => .ok s
  | k + 1, i, s => do
    let x ← v.readSlot i
    let s' ← body x s
    forFrom v body k (i + 1) s'

/-- The whole loop over a list. -/
def forEach (v : AList α) (body : α → σ → Outcome σ) (s : σ) : Outcome σ := forFrom v body v.size 0 s

/-- `set_insert(s, &x)` with the return value ignored; `indexCompare` is `int_compare` on `unsigned int`s. -/
def put (x : Nat) (s : AList Nat) : Outcome (AList Nat) := do
  let (_, s') ← SetT.insert indexCompare s x
  return s'

/-- `set_remove_at(s, s->size - 1, &x)` and its like: what was copied to `x`. -/
def got (r : Option α × AList α) : Outcome (α × AList α) :=
  match r.1 with
  | some x => .ok (x, r.2)
  | none => .ub "use of an uninitialised variable"

/-- `cluster`, /repo/include/hdbscan/cluster.h 53-69, with its containers; `parent` and the elements of `desc` are addresses. -/
structure CCl (W S : Type) where
  label : Nat
  birth : Option W
  death : W
  numPoints : Nat
  offset : Nat
  stability : S
  propStability : S
  propLowest : W
  ncs : Nat
  pncs : Nat
  vchild : AList Nat
  parent : Option Nat
  desc : AList Nat
  hasChildren : Bool

/-- `cluster_init`, cluster.c 54-90, without the assignment to the parent (line 72). -/
def CCl.init (ar : Arith W S) (label : Nat) (parent : Option Nat) (birth : Option W) (numPoints : Nat) : Outcome (CCl W S) := do
  let v ← SetT.init
  let d ← AList.init 1
  return { label := label, birth := birth, death := ar.zeroW, numPoints := numPoints, offset := 0, stability := ar.zeroS,
           propStability := ar.zeroS, propLowest := ar.dmax, ncs := 0, pncs := 0, vchild := v, parent := parent, desc := d, hasChildren := false }

/-- `cluster_detach_points`, cluster.c 122-138 (its return value is not used by the callers; the test `< 0` of an unsigned number fails). -/
def CCl.detach (ar : Arith W S) (cl : CCl W S) (numPoints : Nat) (level : W) : CCl W S :=
  let np := subIndex cl.numPoints numPoints
  let st := ar.add cl.stability (ar.term numPoints level cl.birth)
  { cl with numPoints := np, stability := st, death := if np = 0 then level else cl.death }

/-- `cluster_add_points_to_virtual_child_cluster`, cluster.c 202-211. -/
def CCl.addVirtual (cl : CCl W S) (points : AList Nat) : Outcome (CCl W S) := do
  let v ← forEach points put cl.vchild
  return { cl with vchild := v }

/-- Follow a `cluster*`. -/
def deref (heap : List (CCl W S)) (a : Nat) : Outcome (CCl W S) := rd heap a

/-- `((cluster**)sc->clusters->data)[l]`, which must not be NULL because it is dereferenced by the callers. -/
def pick (clusters : AList (Option Nat)) (l : Nat) : Outcome Nat := do
  match ← clusters.readSlot l with
  | some a => return a
  | none => .ub "null pointer"

/-- The part of the state that `hdbscan_create_new_cluster` and its callers change. -/
structure Work (W S : Type) where
  /-- `currentClusterLabels` -/
  cur : List Nat
  /-- the clusters in memory -/
  heap : List (CCl W S)
  /-- `sc->clusters`: addresses, `none` is NULL -/
  clusters : AList (Option Nat)
  /-- `nextClusterLabel` -/
  next : Nat
  /-- `newClusters`: addresses -/
  fresh : AList Nat
  /-- `pointNoiseLevels` -/
  noise : List (Option W)
  /-- `pointLastClusters` -/
  last : List (Option Nat)

/-- `hdbscan_create_new_cluster` with a label other than 0, hdbscan.c 79-100, called with the cluster at index `label` as parent, and
    the lines around the call, hdbscan.c 579-586 and 632-640. -/
def newCluster (ar : Arith W S) (points : AList Nat) (label : Nat) (level : W) (wk : Work W S) : Outcome (Work W S) := do
  let a ← pick wk.clusters label
  let cur' ← forEach points (fun d cur => wr cur d wk.next) wk.cur
  let c ← deref wk.heap a
  let heap1 ← wr wk.heap a (c.detach ar points.size level)
  let new ← CCl.init ar wk.next (some a) (some level) points.size
  let p ← deref heap1 a
  let heap2 ← wr heap1 a { p with hasChildren := true }
  let fresh ← wk.fresh.append heap2.length
  let clusters ← wk.clusters.append (some heap2.length)
  return { wk with cur := cur', heap := heap2 ++ [new], clusters := clusters, next := wk.next + 1, fresh := fresh }

/-- `hdbscan_create_new_cluster` with label 0, hdbscan.c 79-100, and the lines around the call, hdbscan.c 590-605. -/
def newNoise (ar : Arith W S) (points : AList Nat) (label : Nat) (level : W) (wk : Work W S) : Outcome (Work W S) := do
  let a ← pick wk.clusters label
  let cur' ← forEach points (fun d cur => wr cur d 0) wk.cur
  let c ← deref wk.heap a
  let heap1 ← wr wk.heap a (c.detach ar points.size level)
  let p ← deref heap1 a
  let p' ← p.addVirtual points
  let heap2 ← wr heap1 a p'
  let noise' ← forEach points (fun d ns => wr ns d (some level)) wk.noise
  let last' ← forEach points (fun d ls => wr ls d (some label)) wk.last
  return { wk with cur := cur', heap := heap2, noise := noise', last := last' }

/-- The variables of the exploration, hdbscan.c 455-461, 504, 514-515. -/
structure Ex where
  /-- `constructingSubCluster` -/
  constr : AList Nat
  /-- `unexploredSubClusterPoints` -/
  unexpl : AList Nat
  /-- `examinedVertices` -/
  examined : AList Nat
  anyEdges : Bool
  /-- `incrementedChildCount` -/
  inc : Bool
  numChild : Nat
  /-- `firstChildCluster` -/
  first : AList Nat
  /-- `unexploredFirstChildClusterPoints` -/
  unexplFirst : AList Nat

/-- One neighbour of the explored vertex, hdbscan.c 532-540. -/
def visitOne (nb : Nat) (e : Ex) : Outcome Ex := do
  let (p, c) ← SetT.insert indexCompare e.constr nb
  if p ≠ 0 then do
    let u ← e.unexpl.append nb
    let (_, x) ← SetT.remove indexCompare e.examined nb
    return { e with anyEdges := true, constr := c, unexpl := u, examined := x }
  else return { e with anyEdges := true, constr := c }

/-- The first valid child cluster is put aside, hdbscan.c 544-558. -/
def putAside (e : Ex) : Outcome Ex := do
  let f ← forEach e.constr put e.first
  let u ← forEach e.unexpl put e.unexplFirst
  return { e with inc := true, numChild := e.numChild + 1, first := f, unexplFirst := u }

/-- The exploration loop, hdbscan.c 523-561. -/
def explore (adj : List (AList Nat)) (minPoints : Nat) : (fuel : Nat) → Ex → Outcome Ex
  | 0, e => if e.unexpl.size = 0 then .ok e else .diverge
  | fuel + 1, e =>
    if e.unexpl.size = 0 then .ok e
    else do
      let r ← e.unexpl.pop
      let (v, u) ← got r
      let nbrs ← rd adj v
      let e1 ← forEach nbrs visitOne { e with unexpl := u }
      if e1.inc = false ∧ minPoints ≤ e1.constr.size ∧ e1.anyEdges = true then
        if e1.first.size = 0 then putAside e1
        else explore adj minPoints fuel { e1 with inc := true, numChild := e1.numChild + 1 }
      else explore adj minPoints fuel e1

/-- `((index_t*)firstChildCluster->data)[firstChildCluster->size-1]`, hdbscan.c 569. -/
def lastOf (s : AList Nat) : Outcome Nat := if s.size = 0 then .ub "read before the start of firstChildCluster" else s.readSlot (s.size - 1)

/-- What happens to an explored component, hdbscan.c 563-606. -/
def settle (ar : Arith W S) (minPoints label : Nat) (level : W) (e : Ex) (wk : Work W S) : Outcome (Ex × Work W S) :=
  if 2 ≤ e.numChild ∧ minPoints ≤ e.constr.size ∧ e.anyEdges = true then do
    let m ← lastOf e.first
    let pos ← SetT.find indexCompare e.constr m
    if pos > -1 then return ({ e with numChild := e.numChild - 1 }, wk)
    else do
      let wk' ← newCluster ar e.constr label level wk
      return (e, wk')
  else if e.constr.size < minPoints ∨ e.anyEdges = false then do
    let wk' ← newNoise ar e.constr label level wk
    return (e, wk')
  else .ok (e, wk)

/-- The loop over the vertices of one affected cluster, hdbscan.c 512-612. -/
def roots (ar : Arith W S) (adj : List (AList Nat)) (minPoints label : Nat) (level : W) :
    (fuel : Nat) → Ex → Work W S → Outcome (Ex × Work W S)
  | 0, e, wk => if e.examined.size = 0 then .ok (e, wk) else .diverge
  | fuel + 1, e, wk =>
    if e.examined.size = 0 then .ok (e, wk)
    else do
      let r ← SetT.removeAt e.examined (e.examined.size - 1)
      let (root, x) ← got r
      let c ← put root e.constr
      let u ← e.unexpl.append root
      let e1 ← explore adj minPoints (adj.length + 1) { e with examined := x, constr := c, unexpl := u, anyEdges := false, inc := false }
      let (e2, wk') ← settle ar minPoints label level e1 wk
      roots ar adj minPoints label level fuel { e2 with constr := e2.constr.clear false, unexpl := e2.unexpl.clear false } wk'

/-- One neighbour in the completion of the first child cluster, hdbscan.c 625-628. -/
def growOne (nb : Nat) (r : AList Nat × AList Nat) : Outcome (AList Nat × AList Nat) := do
  let (p, f) ← SetT.insert indexCompare r.1 nb
  if p ≠ 0 then do
    let u ← put nb r.2
    return (f, u)
  else return (f, r.2)

/-- The loop that completes the first child cluster, hdbscan.c 619-630. -/
def growFirst (adj : List (AList Nat)) : (fuel : Nat) → AList Nat × AList Nat → Outcome (AList Nat × AList Nat)
  | 0, (first, unexpl) => if unexpl.size = 0 then .ok (first, unexpl) else .diverge
  | fuel + 1, (first, unexpl) =>
    if unexpl.size = 0 then .ok (first, unexpl)
    else do
      let r ← SetT.removeAt unexpl (unexpl.size - 1)
      let (v, u) ← got r
      let nbrs ← rd adj v
      let p ← forEach nbrs growOne (first, u)
      growFirst adj fuel p

/-- `index_t dd = ((index_t*)firstChildCluster->data)[0]`, hdbscan.c 615: inside the block, but possibly a slot nothing was stored in. -/
def peekFirst (s : AList Nat) : Outcome (Option Nat) :=
  match s.buf[0]? with
  | some x => .ok x
  | none => .ub "read outside the allocation"

/-- The test of hdbscan.c 619 with its short-circuit evaluation: the second half reads `currentClusterLabels[dd]`. -/
def splitPending (label numChild : Nat) (dd : Option Nat) (cur : List Nat) : Outcome Bool :=
  if 2 ≤ numChild then
    match dd with
    | none => .ub "use of an indeterminate value"
    | some d => do
      let l ← rd cur d
      return decide (l = label)
  else .ok false

/-- The end of the examination of one cluster, hdbscan.c 614-640. -/
def finish (ar : Arith W S) (adj : List (AList Nat)) (label : Nat) (level : W) (e : Ex) (wk : Work W S) : Outcome (Ex × Work W S) := do
  let dd ← peekFirst e.first
  let b ← splitPending label e.numChild dd wk.cur
  if b then do
    let r ← growFirst adj (adj.length + 1) (e.first, e.unexplFirst)
    let wk' ← newCluster ar r.1 label level wk
    return ({ e with first := r.1, unexplFirst := r.2 }, wk')
  else return (e, wk)

/-- The loop that moves the affected vertices of one cluster to `examinedVertices`, hdbscan.c 489-502: `it` is the loop variable; the
    result is (`examinedVertices`, `affectedVertices`). -/
def collect (cur : List Nat) (label : Nat) : (fuel it : Nat) → AList Nat → AList Nat → Outcome (AList Nat × AList Nat)
  | 0, it, ex, affV => if it < affV.size then .diverge else .ok (ex, affV)
  | fuel + 1, it, ex, affV =>
    if it < affV.size then do
      let n ← affV.readSlot it
      let l ← rd cur n
      if l = label then do
        let ex' ← put n ex
        let (_, affV') ← SetT.remove indexCompare affV n
        collect cur label fuel it ex' affV'
      else collect cur label fuel (it + 1) ex affV
    else .ok (ex, affV)

/-- The loop over the affected clusters, hdbscan.c 484-645; the sets of `e` are empty at the start of every round. The result is
    (`affectedClusterLabels`, `affectedVertices`, the rest of the state). -/
def clustersLoop (ar : Arith W S) (adj : List (AList Nat)) (minPoints : Nat) (level : W) :
    (fuel : Nat) → Ex → (affL affV : AList Nat) → Work W S → Outcome (AList Nat × AList Nat × Work W S)
  | 0, _, affL, affV, wk => if affL.size = 0 then .ok (affL, affV, wk) else .diverge
  | fuel + 1, e, affL, affV, wk =>
    if affL.size = 0 then .ok (affL, affV, wk)
    else do
      let r ← SetT.removeAt affL (affL.size - 1)
      let (label, affL') ← got r
      let (ex, affV') ← collect wk.cur label affV.size 0 e.examined affV
      let (e1, wk1) ← roots ar adj minPoints label level ex.size { e with examined := ex, anyEdges := false, inc := false, numChild := 0 } wk
      let (e2, wk2) ← finish ar adj label level e1 wk1
      clustersLoop ar adj minPoints level fuel
        { e2 with first := e2.first.clear false, unexplFirst := e2.unexplFirst.clear false, examined := e2.examined.clear false } affL' affV' wk2

/-- The containers of the exploration as they are allocated for every level, hdbscan.c 456-461. -/
def newSets : Outcome Ex := do
  let examined ← SetT.init
  let first ← SetT.init
  let unexplFirst ← SetT.init
  let constr ← SetT.init
  let unexpl ← AList.init examined.maxSize
  return { constr := constr, unexpl := unexpl, examined := examined, anyEdges := false, inc := false, numChild := 0, first := first,
           unexplFirst := unexplFirst }

/-- `graph_remove_edge`, undirected_graph.c 253-264. -/
def removeEdge (adj : List (AList Nat)) (a b : Nat) : Outcome (List (AList Nat)) := do
  let la ← rd adj a
  let (_, la') ← la.remove indexCompare b
  let adj1 ← wr adj a la'
  let lb ← rd adj1 b
  let (_, lb') ← lb.remove indexCompare a
  wr adj1 b lb'

/-- State of the removal of the edges of one weight. -/
structure Removal where
  /-- number of edges left (`currentEdgeIndex + 1`) -/
  k : Nat
  adj : List (AList Nat)
  affV : AList Nat
  affL : AList Nat

/-- The body of the loop removing one edge, hdbscan.c 423-437. -/
def removeOne (va vb cur : List Nat) (k : Nat) (r : Removal) : Outcome Removal := do
  let a ← rd va k
  let b ← rd vb k
  let adj ← removeEdge r.adj a b
  let la ← rd cur a
  if la = 0 then return { r with k := k, adj := adj }
  else do
    let v1 ← put a r.affV
    let v2 ← put b v1
    let l ← put la r.affL
    return { k := k, adj := adj, affV := v2, affL := l }

/-- The loop removing all edges of weight `w`, hdbscan.c 421-445; `k` edges are left. -/
def removeTied [CCmp W] (va vb : List Nat) (wt : List W) (cur : List Nat) (w : W) : (k : Nat) → Removal → Outcome Removal
  | 0, r => .ok r
  | k + 1, r => do
    let t ← rd wt k
    if CCmp.eq t w then do
      let r' ← removeOne va vb cur k r
      removeTied va vb wt cur w k r'
    else .ok r

/-- The eight bytes of an address, least significant first. -/
def ptrBytes (a : Nat) : Bytes := (List.range 8).map (fun i => UInt8.ofNat (a / 256 ^ i % 256))

/-- The address in eight bytes. -/
def ptrOf (b : Bytes) : Nat := b.foldr (fun x acc => x.toNat + 256 * acc) 0

/-- `long_hash` with the number of buckets of the table, utils.c 323-328. -/
def longHash (t : HTable.Table Int) (k : Int) : Nat := toSizeT k % t.table.length

/-- `hashtable_insert` of a pointer under a `long` key. -/
def tableInsert (t : HTable.Table Int) (key : Int) (a : Nat) : Outcome (HTable.Table Int) := do
  let (_, _, t') ← HTable.insert intCompare (longHash t) t key (ptrBytes a)
  return t'

/-- `hashtable_lookup` of a pointer under a `long` key, `none` when the caller's variable keeps its old value. -/
def tableLookup (t : HTable.Table Int) (key : Int) : Outcome (Option Nat) := do
  let (r, b) ← HTable.lookup intCompare (longHash t) t key (ptrBytes 0)
  return if r = 0 then none else some (ptrOf b)

/-- State of the main loop. -/
structure St (W S : Type) where
  adj : List (AList Nat)
  wk : Work W S
  /-- `previousClusterLabels` -/
  prev : List Nat
  /-- `sc->hierarchy` -/
  table : HTable.Table Int
  /-- the `hierarchy_entry`s in memory: edge weight and labels -/
  entries : List (W × List Nat)
  lineCount : Nat
  /-- `nextLevelSignificant` -/
  significant : Bool
  affV : AList Nat
  affL : AList Nat

/-- Write a line of the hierarchy, hdbscan.c 653-668 and 700-712. -/
def writeLine (table : HTable.Table Int) (entries : List (W × List Nat)) (key : Int) (w : W) (labels : List Nat) :
    Outcome (HTable.Table Int × List (W × List Nat)) := do
  let t ← tableInsert table key entries.length
  return (t, entries ++ [(w, labels)])

/-- `newCluster->offset = lineCount` for one new cluster, hdbscan.c 677-678. -/
def setOffset (lineCount : Nat) (a : Nat) (heap : List (CCl W S)) : Outcome (List (CCl W S)) := do
  let c ← deref heap a
  wr heap a { c with offset := lineCount }

/-- The line written at the end of a level, if any, hdbscan.c 652-672. -/
def maybeLine (write : Bool) (table : HTable.Table Int) (entries : List (W × List Nat)) (key : Int) (w : W) (labels : List Nat) :
    Outcome (HTable.Table Int × List (W × List Nat)) :=
  if write then writeLine table entries key w labels else .ok (table, entries)

/-- The end of one level, hdbscan.c 652-695. -/
def endLevel (compact : Bool) (w : W) (st : St W S) : Outcome (St W S) := do
  let write := !compact || st.significant || decide (st.wk.fresh.size > 0)
  let lc := if write then st.lineCount + 1 else st.lineCount
  let (table, entries) ← maybeLine write st.table st.entries (lc : Int) w st.prev
  let heap ← forEach st.wk.fresh (setOffset lc) st.wk.heap
  return { st with
    wk := { st.wk with heap := heap, fresh := st.wk.fresh.clear false }
    prev := st.wk.cur
    table := table
    entries := entries
    lineCount := lc
    significant := decide (st.wk.fresh.size ≠ 0) }

/-- `if(!array_list_empty(newClusters)) array_list_clear(newClusters, 0)`, hdbscan.c 415-418. -/
def emptied (l : AList Nat) : AList Nat := if l.isEmpty then l else l.clear false

/-- One iteration of the main loop, hdbscan.c 411-695; `k + 1` edges are left before it. -/
def level [CCmp W] (ar : Arith W S) (minPoints : Nat) (compact : Bool) (va vb : List Nat) (wt : List W) (k : Nat) (st : St W S) :
    Outcome (Nat × St W S) := do
  let w ← rd wt k
  let wk := { st.wk with fresh := emptied st.wk.fresh }
  let r ← removeTied va vb wt wk.cur w (k + 1) { k := k + 1, adj := st.adj, affV := st.affV, affL := st.affL }
  if r.affL.size < 1 then return (r.k, { st with adj := r.adj, wk := wk, affV := r.affV, affL := r.affL })
  else do
    let e ← newSets
    let (affL', affV', wk') ← clustersLoop ar r.adj minPoints w r.affL.size e r.affL r.affV wk
    let st' ← endLevel compact w { st with adj := r.adj, wk := wk', affV := affV', affL := affL' }
    return (r.k, st')

/-- The main loop, hdbscan.c 411-697; `k` edges are left. -/
def mainLoop [CCmp W] (ar : Arith W S) (minPoints : Nat) (compact : Bool) (va vb : List Nat) (wt : List W) :
    (fuel k : Nat) → St W S → Outcome (St W S)
  | _, 0, st => .ok st
  | 0, _ + 1, _ => .diverge
  | fuel + 1, k + 1, st => do
    let (k', st') ← level ar minPoints compact va vb wt k st
    mainLoop ar minPoints compact va vb wt fuel k' st'

/-- One iteration of the loop of `graph_init`, undirected_graph.c 88-98. -/
def addEdge (adj : List (AList Nat)) (a b : Nat) : Outcome (List (AList Nat)) := do
  let la ← rd adj a
  let la' ← la.append b
  let adj1 ← wr adj a la'
  if a ≠ b then do
    let lb ← rd adj1 b
    let lb' ← lb.append a
    wr adj1 b lb'
  else return adj1

/-- The loop of `graph_init`, undirected_graph.c 88-98, from edge `i` on; `n` edges remain. -/
def addEdges (va vb : List Nat) : (n i : Nat) → List (AList Nat) → Outcome (List (AList Nat))
  | 0, _, adj => .ok adj
  | n + 1, i, adj => do
    let a ← rd va i
    let b ← rd vb i
    let adj' ← addEdge adj a b
    addEdges va vb n (i + 1) adj'

/-- The adjacency lists made by `graph_init`, undirected_graph.c 46-101: capacity 16 each. -/
def adjacency (numVertices : Nat) (va vb : List Nat) : Outcome (List (AList Nat)) := do
  let l ← AList.init 16
  addEdges va vb va.length 0 (List.replicate numVertices l)

/-- What the construction leaves behind. -/
structure Result (W S : Type) where
  adj : List (AList Nat)
  heap : List (CCl W S)
  clusters : AList (Option Nat)
  table : HTable.Table Int
  entries : List (W × List Nat)
  noise : List (Option W)
  last : List (Option Nat)
  /-- the final `currentClusterLabels` (local in C, kept for the statements) -/
  cur : List Nat

/-- The state before the main loop, hdbscan.c 358-409. `adj` are the adjacency lists, `clusters` is the empty `sc->clusters`, `table` the
    empty `sc->hierarchy`. -/
def initial (ar : Arith W S) (n : Nat) (adj : List (AList Nat)) (clusters : AList (Option Nat)) (table : HTable.Table Int) : Outcome (St W S) := do
  let cs1 ← clusters.append none
  let root ← CCl.init ar 1 none none n
  let cs2 ← cs1.append (some 0)
  let affL ← SetT.init
  let affV ← SetT.init
  let fresh ← AList.init 2
  return { adj := adj
           wk := { cur := List.replicate n 1, heap := [root], clusters := cs2, next := 2, fresh := fresh,
                   noise := List.replicate n none, last := List.replicate n none }
           prev := List.replicate n 1, table := table, entries := [], lineCount := 0, significant := true, affV := affV, affL := affL }

/-- `hdbscan_compute_hierarchy_and_cluster_tree`, hdbscan.c 356-719; the last line is written at 698-713. `clusters` and `table` are
    `sc->clusters` and `sc->hierarchy` on entry. -/
def compute [CCmp W] (ar : Arith W S) (minPoints : Nat) (compact : Bool) (g : Graph W) (adj : List (AList Nat))
    (clusters : AList (Option Nat)) (table : HTable.Table Int) : Outcome (Result W S) := do
  let st0 ← initial ar g.numVertices adj clusters table
  let st ← mainLoop ar minPoints compact g.va g.vb g.wt g.wt.length g.wt.length st0
  let (t, es) ← writeLine st.table st.entries 0 ar.zeroW (List.replicate g.numVertices 0)
  return { adj := st.adj, heap := st.wk.heap, clusters := st.wk.clusters, table := t, entries := es, noise := st.wk.noise,
           last := st.wk.last, cur := st.wk.cur }

end Verif.Conc
