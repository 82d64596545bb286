import Verif.Model.Hierarchy
/-
Model of `cluster_propagate`, /repo/src/cluster.c 149-199, and of `hdbscan_propagate_tree` and
`hdbscan_find_prominent_clusters`, /repo/src/hdbscan.c 988-1144.

Simplifications: as in `Verif.Model.Cluster`. The iterations of a parallel loop are executed in the order given by a
schedule; loops whose iterations are not protected by a critical section are cut into steps that access one array cell.
-/
namespace Verif

/-- Addition in `index_t` (`unsigned int`) of two numbers below 2^32: it wraps around. -/
def addIndex (a b : Nat) : Nat := if a + b < 2 ^ 32 then a + b else a + b - 2 ^ 32

namespace Cl
variable {W S : Type}

/-- `if (cl->propagatedLowestChildDeathLevel == D_MAX) ...`, cluster.c 153-155. -/
def ownLowest [CCmp W] (ar : Arith W S) (c : Cl W S) : Cl W S :=
  { c with propLowest := if CCmp.eq c.propLowest ar.dmax then c.death else c.propLowest }

/-- The parent `p` takes over the lowest death level of `c`, cluster.c 157-159. -/
def passLowest [CCmp W] (c p : Cl W S) : Cl W S :=
  { p with propLowest := if CCmp.lt c.propLowest p.propLowest then c.propLowest else p.propLowest }

/-- `c` itself is handed to its parent `p`, cluster.c 162-164 and 180-182. -/
def passSelf (ar : Arith W S) (c p : Cl W S) : Cl W S :=
  { p with pncs := addIndex p.pncs c.ncs, propStability := ar.add p.propStability c.stability, desc := p.desc ++ [c.label] }

/-- The descendants selected below `c` are handed to its parent `p`, cluster.c 168-176 and 186-194. -/
def passDesc (ar : Arith W S) (c p : Cl W S) : Cl W S :=
  { p with pncs := addIndex p.pncs c.pncs, propStability := ar.add p.propStability c.propStability, desc := p.desc ++ c.desc }

/-- The choice between the two, cluster.c 161-196. -/
def choose [CCmp S] (ar : Arith W S) (c p : Cl W S) : Cl W S :=
  if c.hasChildren = false ∨ c.ncs > c.pncs then passSelf ar c p
  else if c.ncs < c.pncs then passDesc ar c p
  else if CCmp.le c.propStability c.stability then passSelf ar c p
  else passDesc ar c p

end Cl

namespace Sel
variable {W S : Type}

/-- `cluster_propagate` for the cluster with index `x`, cluster.c 149-199. -/
def propagate [CCmp W] [CCmp S] (ar : Arith W S) (cs : List (Option (Cl W S))) (x : Nat) : Outcome (List (Option (Cl W S))) := do
  let c ← getCl cs x
  match c.parent with
  | none => return cs
  | some q => do
    let c1 := c.ownLowest ar
    let cs1 ← wr cs x (some c1)
    let p ← getCl cs1 q
    wr cs1 q (some (Cl.choose ar c1 (Cl.passLowest c1 p)))

/-- The loop collecting the leaves, hdbscan.c 1012-1027, its iterations executed in the given order; the state is
    (`clustersToExamine`, `addedToExaminationList`). -/
def leaves (cs : List (Option (Cl W S))) : (order : List Nat) → List Nat × List Bool → Outcome (List Nat × List Bool)
  | [], s => .ok s
  | i :: r, (ex, added) => do
    match ← rd cs i with
    | none => leaves cs r (ex, added)
    | some c =>
      if c.hasChildren = false then do
        let added' ← wr added c.label true
        leaves cs r (sInsert ex c.label, added')
      else leaves cs r (ex, added)

/-- State of the examination loop. -/
structure St (W S : Type) where
  clusters : List (Option (Cl W S))
  /-- `clustersToExamine` -/
  ex : List Nat
  /-- `addedToExaminationList` -/
  added : List Bool
  /-- `infiniteStability` -/
  infinite : Bool
  /-- the clusters processed so far, in order (not in C, kept for the statements) -/
  trace : List Nat

/-- Queue the parent of a processed cluster unless it was queued before, hdbscan.c 1039-1046. -/
def queueParent (clusters : List (Option (Cl W S))) (parent : Option Nat) (ex : List Nat) (added : List Bool) : Outcome (List Nat × List Bool) :=
  match parent with
  | none => .ok (ex, added)
  | some q => do
    let p ← getCl clusters q
    let a ← rd added p.label
    if a = false then do
      let added' ← wr added p.label true
      return (sInsert ex p.label, added')
    else return (ex, added)

/-- The examination loop, hdbscan.c 1029-1047; `smax` is `D_MAX`. -/
def examine [CCmp W] [CCmp S] (ar : Arith W S) (smax : S) : (fuel : Nat) → St W S → Outcome (St W S)
  | 0, s => if s.ex = [] then .ok s else .diverge
  | fuel + 1, s =>
    match s.ex.getLast? with
    | none => .ok s
    | some x => do
      let cs ← propagate ar s.clusters x
      let c ← getCl cs x
      let (ex, added) ← queueParent cs c.parent s.ex.dropLast s.added
      examine ar smax fuel
        { clusters := cs, ex := ex, added := added, infinite := s.infinite || CCmp.eq c.stability smax, trace := s.trace ++ [x] }

/-- `hdbscan_propagate_tree`, hdbscan.c 988-1069; `order` is the order in which the parallel loop visits the clusters. The
    return value of the C function is `infinite` of the final state. -/
def propagateTree [CCmp W] [CCmp S] (ar : Arith W S) (smax : S) (order : List Nat) (cs : List (Option (Cl W S))) : Outcome (St W S) := do
  let (ex, added) ← leaves cs order ([], List.replicate cs.length false)
  examine ar smax cs.length { clusters := cs, ex := ex, added := added, infinite := false, trace := [] }

/-- Append `label` to the list stored under `key`, creating it if there is none, hdbscan.c 1101-1117; the hash table is the list of
    its entries (property C06). -/
def addTo (key label : Nat) : List (Nat × List Nat) → List (Nat × List Nat)
  | [] => [(key, [label])]
  | (k, ls) :: r => if k = key then (k, ls ++ [label]) :: r else (k, ls) :: addTo key label r

/-- The loop grouping the selected clusters by offset, hdbscan.c 1087-1120, in the order of the schedule (the body is a critical section). -/
def group (cs : List (Option (Cl W S))) (solution : List Nat) : (order : List Nat) → List (Nat × List Nat) → Outcome (List (Nat × List Nat))
  | [], m => .ok m
  | i :: r, m => do
    let l ← rd solution i
    let c ← getCl cs l
    group cs solution r (addTo c.offset c.label m)

/-- One step of the labelling loop, hdbscan.c 1129-1140: key `k`, point `j`. -/
def labelStep (lines : List (Nat × W × List Nat)) (m : List (Nat × List Nat)) (k j : Nat) (labels : List Nat) : Outcome (List Nat) :=
  match m.find? (fun e => e.1 = k) with
  | none => .ub "null pointer"
  | some e =>
    match lines.find? (fun h => h.1 = k + 1) with
    | none => .ub "uninitialised pointer hpSecond"
    | some h => do
      let l ← rd h.2.2 j
      if l ∈ e.2 then wr labels j l else return labels

/-- The labelling loop in the order of the schedule, hdbscan.c 1127-1142. -/
def labelAll (lines : List (Nat × W × List Nat)) (m : List (Nat × List Nat)) : (steps : List (Nat × Nat)) → List Nat → Outcome (List Nat)
  | [], labels => .ok labels
  | (k, j) :: r, labels => do
    let labels' ← labelStep lines m k j labels
    labelAll lines m r labels'

/-- All steps of the labelling loop: a key and a point number. -/
def labelSteps (m : List (Nat × List Nat)) (n : Nat) : List (Nat × Nat) := (m.map (·.1)).flatMap (fun k => (List.range n).map (fun j => (k, j)))

/-- `hdbscan_find_prominent_clusters`, hdbscan.c 1077-1144, for `n` points. `order` gives the schedule of the grouping loop for
    the number of its iterations, `sched` maps the steps of the labelling loop to the order in which they are executed. -/
def prominent (cs : List (Option (Cl W S))) (lines : List (Nat × W × List Nat)) (n : Nat) (order : Nat → List Nat)
    (sched : List (Nat × Nat) → List (Nat × Nat)) : Outcome (List Nat) := do
  let root ← getCl cs 1
  let m ← group cs root.desc (order root.desc.length) []
  labelAll lines m (sched (labelSteps m n)) (List.replicate n 0)

end Sel
end Verif
