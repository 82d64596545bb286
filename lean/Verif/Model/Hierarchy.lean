import Verif.Model.Cluster
import Verif.Model.Graph
/-
Model of `hdbscan_compute_hierarchy_and_cluster_tree` and `hdbscan_create_new_cluster`, /repo/src/hdbscan.c 79-100 and 356-731.

Simplifications: as in `Verif.Model.Cluster`; allocation succeeds; parallel loops whose iterations write different cells are
executed in index order; the loop assigning offsets (a data race, see property C37) is executed as written, one cluster
after the other; the hierarchy hash table is the list of its entries in the order of insertion (keys are inserted once
each, property C06); the read of `firstChildCluster->data[0]` when the set is empty, whose value is not used, is left out.
-/
namespace Verif.Hier
variable {W S : Type}

/-- The part of the state that `hdbscan_create_new_cluster` and its callers change. -/
structure Work (W S : Type) where
  /-- `currentClusterLabels` -/
  cur : List Nat
  /-- `sc->clusters` -/
  clusters : List (Option (Cl W S))
  /-- `nextClusterLabel` -/
  next : Nat
  /-- `newClusters` -/
  fresh : List Nat
  /-- `pointNoiseLevels`, `none` is uninitialised -/
  noise : List (Option W)
  /-- `pointLastClusters`, `none` is uninitialised -/
  last : List (Option Nat)

/-- `clusterLabels[d] = clusterLabel` for all points, hdbscan.c 85-89; also used for the two arrays at 599-600. -/
def setAll {α : Type} (x : α) : List Nat → List α → Outcome (List α)
  | [], a => .ok a
  | p :: r, a => do
    let a' ← wr a p x
    setAll x r a'

/-- `hdbscan_create_new_cluster` with label `label ≠ 0`, hdbscan.c 79-100, followed by the three lines that record the new
    cluster, hdbscan.c 580-582 and 636-638. -/
def newCluster (ar : Arith W S) (points : List Nat) (parent : Nat) (level : W) (wk : Work W S) : Outcome (Work W S) := do
  let cur' ← setAll wk.next points wk.cur
  let c ← getCl wk.clusters parent
  let c1 := (c.detach ar points.length level).1
  let cs ← wr wk.clusters parent (some { c1 with hasChildren := true })
  return { wk with
    cur := cur'
    clusters := cs ++ [some (Cl.init ar wk.next (some parent) (some level) points.length)]
    next := wk.next + 1
    fresh := wk.fresh ++ [wk.next] }

/-- `hdbscan_create_new_cluster` with label 0, hdbscan.c 79-100, followed by the loop recording noise levels, hdbscan.c 592-601. -/
def newNoise (ar : Arith W S) (points : List Nat) (parent : Nat) (level : W) (wk : Work W S) : Outcome (Work W S) := do
  let cur' ← setAll 0 points wk.cur
  let c ← getCl wk.clusters parent
  let c1 := (c.detach ar points.length level).1
  let cs ← wr wk.clusters parent (some (c1.addVirtual points))
  let noise' ← setAll (some level) points wk.noise
  let last' ← setAll (some parent) points wk.last
  return { wk with cur := cur', clusters := cs, noise := noise', last := last' }

/-- State of the exploration for one affected cluster. -/
structure Ex where
  /-- `constructingSubCluster` -/
  constr : List Nat
  /-- `unexploredSubClusterPoints` -/
  unexpl : List Nat
  /-- `examinedVertices` -/
  examined : List Nat
  anyEdges : Bool
  /-- `incrementedChildCount` -/
  inc : Bool
  numChild : Nat
  /-- `firstChildCluster` -/
  first : List Nat
  /-- `unexploredFirstChildClusterPoints` -/
  unexplFirst : List Nat

/-- The loop over the neighbours of the explored vertex, hdbscan.c 530-541. -/
def visitNbrs : List Nat → Ex → Ex
  | [], e => e
  | v :: r, e =>
    if v ∈ e.constr then visitNbrs r { e with anyEdges := true }
    else visitNbrs r { e with
      constr := sInsert e.constr v
      unexpl := e.unexpl ++ [v]
      examined := sRemove e.examined v
      anyEdges := true }

/-- The exploration loop, hdbscan.c 523-562. -/
def explore (adj : List (List Nat)) (minPoints : Nat) : (fuel : Nat) → Ex → Outcome Ex
  | 0, e => if e.unexpl = [] then .ok e else .diverge
  | fuel + 1, e =>
    match e.unexpl.getLast? with
    | none => .ok e
    | some v => do
      let nb ← rd adj v
      let e1 := visitNbrs nb { e with unexpl := e.unexpl.dropLast }
      if e1.inc = false ∧ minPoints ≤ e1.constr.length ∧ e1.anyEdges = true then
        if e1.first = [] then
          return { e1 with
            inc := true
            numChild := e1.numChild + 1
            first := e1.constr.foldl sInsert e1.first
            unexplFirst := e1.unexpl.foldl sInsert e1.unexplFirst }
        else explore adj minPoints fuel { e1 with inc := true, numChild := e1.numChild + 1 }
      else explore adj minPoints fuel e1

/-- What happens to an explored component, hdbscan.c 564-606. -/
def settle (ar : Arith W S) (minPoints label : Nat) (level : W) (e : Ex) (wk : Work W S) : Outcome (Ex × Work W S) :=
  if 2 ≤ e.numChild ∧ minPoints ≤ e.constr.length ∧ e.anyEdges = true then
    match e.first.getLast? with
    | none => .ub "read before the start of firstChildCluster"
    | some m =>
      if m ∈ e.constr then .ok ({ e with numChild := e.numChild - 1 }, wk)
      else do
        let wk' ← newCluster ar e.constr label level wk
        return (e, wk')
  else if e.constr.length < minPoints ∨ e.anyEdges = false then do
    let wk' ← newNoise ar e.constr label level wk
    return (e, wk')
  else .ok (e, wk)

/-- The loop over the vertices of one affected cluster, hdbscan.c 512-612. -/
def roots (ar : Arith W S) (adj : List (List Nat)) (minPoints label : Nat) (level : W) :
    (fuel : Nat) → Ex → Work W S → Outcome (Ex × Work W S)
  | 0, e, wk => if e.examined = [] then .ok (e, wk) else .diverge
  | fuel + 1, e, wk =>
    match e.examined.getLast? with
    | none => .ok (e, wk)
    | some root => do
      let e1 ← explore adj minPoints (adj.length + 1) { e with
        examined := e.examined.dropLast
        constr := sInsert e.constr root
        unexpl := e.unexpl ++ [root]
        anyEdges := false
        inc := false }
      let (e2, wk') ← settle ar minPoints label level e1 wk
      roots ar adj minPoints label level fuel { e2 with constr := [], unexpl := [] } wk'

/-- The loop that completes the first child cluster over the neighbours of one vertex, hdbscan.c 624-629. -/
def growNbrs : List Nat → List Nat × List Nat → List Nat × List Nat
  | [], r => r
  | v :: r, (first, unexpl) =>
    if v ∈ first then growNbrs r (first, unexpl) else growNbrs r (sInsert first v, sInsert unexpl v)

/-- The loop that completes the first child cluster, hdbscan.c 619-630. -/
def growFirst (adj : List (List Nat)) : (fuel : Nat) → List Nat × List Nat → Outcome (List Nat)
  | 0, (first, unexpl) => if unexpl = [] then .ok first else .diverge
  | fuel + 1, (first, unexpl) =>
    match unexpl.getLast? with
    | none => .ok first
    | some v => do
      let nb ← rd adj v
      growFirst adj fuel (growNbrs nb (first, unexpl.dropLast))

/-- `if (numChildClusters >= 2 && currentClusterLabels[dd] == examinedClusterLabel) ...`, hdbscan.c 614-640. -/
def finish (ar : Arith W S) (adj : List (List Nat)) (label : Nat) (level : W) (e : Ex) (wk : Work W S) : Outcome (Work W S) :=
  if 2 ≤ e.numChild then do
    let dd ← rd e.first 0
    let l ← rd wk.cur dd
    if l = label then do
      let first ← growFirst adj (adj.length + 1) (e.first, e.unexplFirst)
      newCluster ar first label level wk
    else return wk
  else .ok wk

/-- The loop that moves the affected vertices of one cluster to `examinedVertices`, hdbscan.c 489-502; the result is
    (`examinedVertices`, `affectedVertices`). -/
def collect (cur : List Nat) (label : Nat) : List Nat → List Nat → List Nat → Outcome (List Nat × List Nat)
  | [], ex, rest => .ok (ex, rest)
  | v :: r, ex, rest => do
    let l ← rd cur v
    if l = label then collect cur label r (sInsert ex v) rest else collect cur label r ex (rest ++ [v])

/-- The loop over the affected clusters, hdbscan.c 484-645. -/
def clustersLoop (ar : Arith W S) (adj : List (List Nat)) (minPoints : Nat) (level : W) :
    (fuel : Nat) → (affL affV : List Nat) → Work W S → Outcome (List Nat × Work W S)
  | 0, affL, affV, wk => if affL = [] then .ok (affV, wk) else .diverge
  | fuel + 1, affL, affV, wk =>
    match affL.getLast? with
    | none => .ok (affV, wk)
    | some label => do
      let (ex, affV') ← collect wk.cur label affV [] []
      let (e, wk1) ← roots ar adj minPoints label level ex.length
        { constr := [], unexpl := [], examined := ex, anyEdges := false, inc := false, numChild := 0, first := [], unexplFirst := [] } wk
      let wk2 ← finish ar adj label level e wk1
      clustersLoop ar adj minPoints level fuel affL.dropLast affV' wk2

/-- State of the removal of the edges of one weight. -/
structure Removal where
  /-- number of edges left (`currentEdgeIndex + 1`) -/
  k : Nat
  adj : List (List Nat)
  affV : List Nat
  affL : List Nat

/-- The body of the loop removing one edge, hdbscan.c 413-438. -/
def removeOne (va vb cur : List Nat) (k : Nat) (r : Removal) : Outcome Removal := do
  let a ← rd va k
  let b ← rd vb k
  let g ← Graph.removeEdge { numVertices := 0, va := va, vb := vb, wt := ([] : List Unit), edges := r.adj } a b
  let la ← rd cur a
  if la = 0 then return { r with k := k, adj := g.edges }
  else return { k := k, adj := g.edges, affV := sInsert (sInsert r.affV a) b, affL := sInsert r.affL la }

/-- The loop removing all edges of weight `w`, hdbscan.c 409-440; `k` edges are left. -/
def removeTied [CCmp W] (va vb : List Nat) (wt : List W) (cur : List Nat) (w : W) : (k : Nat) → Removal → Outcome Removal
  | 0, r => .ok r
  | k + 1, r => do
    let t ← rd wt k
    if CCmp.eq t w then do
      let r' ← removeOne va vb cur k r
      removeTied va vb wt cur w k r'
    else .ok r

/-- State of the main loop. -/
structure St (W S : Type) where
  adj : List (List Nat)
  wk : Work W S
  /-- `previousClusterLabels` -/
  prev : List Nat
  /-- `sc->hierarchy`: line number, edge weight, labels -/
  lines : List (Nat × W × List Nat)
  lineCount : Nat
  /-- `nextLevelSignificant` -/
  significant : Bool
  affV : List Nat

/-- `newCluster->offset = lineCount` for all new clusters, hdbscan.c 672-679. -/
def setOffsets (lineCount : Nat) : List Nat → List (Option (Cl W S)) → Outcome (List (Option (Cl W S)))
  | [], cs => .ok cs
  | l :: r, cs => do
    let c ← getCl cs l
    let cs' ← wr cs l (some { c with offset := lineCount })
    setOffsets lineCount r cs'

/-- The end of one level, hdbscan.c 652-696: write a line, set offsets, remember the labels. -/
def endLevel (compact : Bool) (w : W) (st : St W S) : Outcome (St W S) := do
  let write := !compact || st.significant || !st.wk.fresh.isEmpty
  let lc := if write then st.lineCount + 1 else st.lineCount
  let lines := if write then st.lines ++ [(lc, w, st.prev)] else st.lines
  let cs ← setOffsets lc st.wk.fresh st.wk.clusters
  return { st with
    wk := { st.wk with clusters := cs, fresh := [] }
    prev := st.wk.cur
    lines := lines
    lineCount := lc
    significant := !st.wk.fresh.isEmpty }

/-- One iteration of the main loop, hdbscan.c 399-697; `k + 1` edges are left before it. Returns the number of edges left. -/
def level [CCmp W] (ar : Arith W S) (minPoints : Nat) (compact : Bool) (va vb : List Nat) (wt : List W) (k : Nat) (st : St W S) :
    Outcome (Nat × St W S) := do
  let w ← rd wt k
  let r ← removeTied va vb wt st.wk.cur w (k + 1) { k := k + 1, adj := st.adj, affV := st.affV, affL := [] }
  if r.affL = [] then return (r.k, { st with adj := r.adj, wk := { st.wk with fresh := [] }, affV := r.affV })
  else do
    let (affV', wk') ← clustersLoop ar r.adj minPoints w r.affL.length r.affL r.affV { st.wk with fresh := [] }
    let st' ← endLevel compact w { st with adj := r.adj, wk := wk', affV := affV' }
    return (r.k, st')

/-- The main loop, hdbscan.c 399-697; `k` edges are left. -/
def mainLoop [CCmp W] (ar : Arith W S) (minPoints : Nat) (compact : Bool) (va vb : List Nat) (wt : List W) :
    (fuel k : Nat) → St W S → Outcome (St W S)
  | _, 0, st => .ok st
  | 0, _ + 1, _ => .diverge
  | fuel + 1, k + 1, st => do
    let (k', st') ← level ar minPoints compact va vb wt k st
    mainLoop ar minPoints compact va vb wt fuel k' st'

/-- What the construction leaves behind. -/
structure Result (W S : Type) where
  adj : List (List Nat)
  clusters : List (Option (Cl W S))
  hierarchy : List (Nat × W × List Nat)
  noise : List (Option W)
  last : List (Option Nat)
  /-- the final `currentClusterLabels` (local in C, kept for the statements) -/
  cur : List Nat

/-- The state before the main loop, hdbscan.c 358-395, on an initially empty `sc->clusters` and `sc->hierarchy`. -/
def initial (ar : Arith W S) (g : Graph W) : St W S :=
  { adj := g.edges
    wk := { cur := List.replicate g.numVertices 1, clusters := [none, some (Cl.init ar 1 none none g.numVertices)], next := 2, fresh := [],
            noise := List.replicate g.numVertices none, last := List.replicate g.numVertices none }
    prev := List.replicate g.numVertices 1, lines := [], lineCount := 0, significant := true, affV := [] }

/-- One iteration of the main loop as a step between states (number of edges left, state). -/
def Step [CCmp W] (ar : Arith W S) (minPoints : Nat) (compact : Bool) (va vb : List Nat) (wt : List W) (x y : Nat × St W S) : Prop :=
  ∃ k, x.1 = k + 1 ∧ level ar minPoints compact va vb wt k x.2 = .ok y

/-- `hdbscan_compute_hierarchy_and_cluster_tree`, hdbscan.c 356-719; the last line is written at 698-713. -/
def compute [CCmp W] (ar : Arith W S) (minPoints : Nat) (compact : Bool) (g : Graph W) : Outcome (Result W S) := do
  let st ← mainLoop ar minPoints compact g.va g.vb g.wt g.wt.length g.wt.length (initial ar g)
  return { adj := st.adj, clusters := st.wk.clusters, hierarchy := st.lines ++ [(0, ar.zeroW, List.replicate g.numVertices 0)],
           noise := st.wk.noise, last := st.wk.last, cur := st.wk.cur }

end Verif.Hier
