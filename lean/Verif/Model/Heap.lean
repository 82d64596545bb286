import Verif.Model.Outcome
import Mathlib.Data.Multiset.AddSub
/-
Model of what the API functions allocate and release: /repo/src/hdbscan.c 109-330 and the allocations of the functions they call.

A block is a number; the heap is the collection of the live blocks. Releasing a block that is not live, using a released block and reading a pointer
that was never assigned are undefined behaviour. The contents of blocks other than pointers that own memory do not occur; pointers that do not own what
they point to (`parent`, `propagatedDescendants`, `newClusters`) are left out.

Simplifications: allocation succeeds; `realloc` keeps the identity of a block; the arrays on the stack (variable length arrays) are left out; iterations of
parallel loops are executed in order. How many clusters, hierarchy lines and so on a run creates is a parameter (`Shape`).
-/
namespace Verif.Mem

/-- The live blocks and the next unused name. -/
structure Heap where
  live : Multiset Nat
  fresh : Nat

/-- A computation on the heap. -/
abbrev M := StateT Heap Outcome

/-- `malloc`, `calloc`. -/
def alloc : M Nat := fun h => .ok (h.fresh, { live := h.fresh ::ₘ h.live, fresh := h.fresh + 1 })

/-- `free` of a pointer that is not null. -/
def free (b : Nat) : M Unit := fun h =>
  if b ∈ h.live then .ok ((), { h with live := h.live.erase b }) else .ub "free of a block that is not allocated"

/-- Any access to a block. -/
def use (b : Nat) : M Unit := fun h => if b ∈ h.live then .ok ((), h) else .ub "use of a block that is not allocated"

def fail {α : Type} (o : Outcome (α × Heap)) : M α := fun _ => o

/-- Repeat an allocation. -/
def times {α : Type} (m : M α) : Nat → M (List α)
  | 0 => return []
  | k + 1 => do
    let a ← m
    let r ← times m k
    return a :: r

/-- Release everything in a list. -/
def each {α : Type} (m : α → M Unit) : List α → M Unit
  | [] => return ()
  | a :: r => do
    m a
    each m r

/-! ### Collections -/

/-- `ArrayList`. -/
structure ListB where
  self : Nat
  data : Nat

/-- `array_list_init`, /repo/modules/collections/src/list.c 54-75. -/
def listInit : M ListB := do
  let self ← alloc
  let data ← alloc
  return ⟨self, data⟩

/-- `array_list_delete`, list.c 139-150. -/
def listDelete (l : ListB) : M Unit := do
  free l.data
  free l.self

/-- `hashtable_entry` with the value stored in it. -/
structure NodeB (V : Type) where
  self : Nat
  data : Nat
  key : Nat
  value : V

/-- `hashtable`: the entries of all buckets. -/
structure TableB (V : Type) where
  self : Nat
  table : Nat
  keys : ListB
  nodes : List (NodeB V)

/-- `hashtable_init`, /repo/modules/collections/src/hashtable.c 102-160. -/
def tableInit {V : Type} : M (TableB V) := do
  let self ← alloc
  let table ← alloc
  let keys ← listInit
  return ⟨self, table, keys, []⟩

/-- `hashtable_insert` of a new key: the entry made by `hashtable_entry_init`, hashtable.c 412-430. -/
def tableInsert {V : Type} (t : TableB V) (v : V) : M (TableB V) := do
  let self ← alloc
  let data ← alloc
  let key ← alloc
  return { t with nodes := ⟨self, data, key, v⟩ :: t.nodes }

/-- `hashtable_entry_destroy` followed by the destructor of the value, hashtable.c 445-455 and 363-373. -/
def nodeDestroy {V : Type} (del : V → M Unit) (n : NodeB V) : M Unit := do
  free n.key
  free n.data
  free n.self
  del n.value

/-- `hashtable_clear` without key destructor, hashtable.c 337-383. That the loop over the keys reaches every entry exactly once is property C10. -/
def tableClear {V : Type} (del : V → M Unit) (t : TableB V) : M (TableB V) := do
  let key ← alloc
  let data ← alloc
  each (nodeDestroy del) t.nodes
  free key
  free data
  return { t with nodes := [] }

/-- `hashtable_destroy`, hashtable.c 390-402. -/
def tableDestroy {V : Type} (del : V → M Unit) (t : TableB V) : M Unit := do
  let t' ← tableClear del t
  listDelete t'.keys
  free t'.table
  free t'.self

/-! ### Parts of an `hdbscan` object -/

/-- `cluster`. -/
structure ClusterB where
  self : Nat
  vchild : ListB
  desc : ListB

/-- `cluster_init`, /repo/src/cluster.c 54-90. -/
def clusterInit : M ClusterB := do
  let self ← alloc
  let vchild ← listInit
  let desc ← listInit
  return ⟨self, vchild, desc⟩

/-- `cluster_destroy`, cluster.c 97-110. -/
def clusterDestroy (c : ClusterB) : M Unit := do
  listDelete c.vchild
  listDelete c.desc
  free c.self

/-- `hierarchy_entry`. -/
structure EntryB where
  self : Nat
  labels : Nat

/-- `hdbscan_create_hierarchy_entry` and the allocation of the labels, /repo/src/hdbscan.c 654-656 and 698-700. -/
def entryInit : M EntryB := do
  let self ← alloc
  let labels ← alloc
  return ⟨self, labels⟩

/-- `hdbscan_destroy_hierarchical_entry`, hdbscan.c 1987-1994. -/
def entryDestroy (e : EntryB) : M Unit := do
  free e.labels
  free e.self

/-- `UndirectedGraph`. -/
structure GraphB where
  self : Nat
  va : ListB
  vb : ListB
  wt : ListB
  edges : Nat
  adj : List ListB

/-- The allocations of `hdbscan_construct_mst` and `graph_init`, hdbscan.c 834-870 and 967, /repo/src/undirected_graph.c 46-100. -/
def graphInit (n : Nat) : M GraphB := do
  let va ← listInit
  let vb ← listInit
  let wt ← listInit
  let self ← alloc
  let edges ← alloc
  let adj ← times listInit n
  return ⟨self, va, vb, wt, edges, adj⟩

/-- `graph_destroy`, undirected_graph.c 103-137. -/
def graphDestroy (g : GraphB) : M Unit := do
  listDelete g.va
  listDelete g.vb
  listDelete g.wt
  each listDelete g.adj
  free g.edges
  free g.self

/-- The list of clusters with the clusters in it (its entry 0 is a null pointer). -/
structure ClustersB where
  list : ListB
  items : List ClusterB

/-- A pointer variable: never assigned, null, or pointing to something. -/
inductive Ptr (α : Type) where
  | indet
  | null
  | at (a : α)

/-- `hdbscan`, /repo/include/hdbscan/hdbscan.h 128-139. `constraints` stays null as long as the caller does not set it; `coreDistances` is never used. -/
structure Obj where
  self : Nat
  distances : Ptr Nat
  core : Ptr Nat
  mst : Ptr GraphB
  constraints : Ptr ListB
  clusters : Ptr ClustersB
  outliers : Ptr Nat
  labels : Ptr Nat
  hierarchy : Ptr (TableB EntryB)
  stabilities : Ptr (TableB Unit)
  /-- `numPoints` -/
  points : Option Nat

/-- `if (p != NULL) { ... }`. -/
def whenSet {α : Type} (p : Ptr α) (m : α → M Unit) : M Unit :=
  match p with
  | .indet => fail (.ub "read of an indeterminate pointer")
  | .null => return ()
  | .at a => m a

/-- Follow a pointer. -/
def deref {α : Type} (p : Ptr α) : M α :=
  match p with
  | .indet => fail (.ub "read of an indeterminate pointer")
  | .null => fail (.ub "null pointer")
  | .at a => return a

/-- `hdbscan_init(NULL, minPoints)`, hdbscan.c 109-133: `mst`, `distanceFunction` and `numPoints` are not assigned. -/
def init : M Obj := do
  let self ← alloc
  return { self := self, distances := .indet, core := .indet, mst := .indet, constraints := .null, clusters := .null, outliers := .null, labels := .null,
           hierarchy := .null, stabilities := .null, points := none }

/-- The part of `hdbscan_minimal_clean` about the cluster list, hdbscan.c 175-185: the clusters are released, the list is kept. -/
def clearClusters (p : Ptr ClustersB) : M (Ptr ClustersB) :=
  match p with
  | .indet => fail (.ub "read of an indeterminate pointer")
  | .null => return .null
  | .at c => do
    each clusterDestroy c.items
    return .at { c with items := [] }

/-- The part of `hdbscan_minimal_clean` about the stabilities, hdbscan.c 187-190: the table is kept. -/
def clearStabilities (p : Ptr (TableB Unit)) : M (Ptr (TableB Unit)) :=
  match p with
  | .indet => fail (.ub "read of an indeterminate pointer")
  | .null => return .null
  | .at t => do
    let t' ← tableClear (fun _ => return ()) t
    return .at t'

/-- `hdbscan_minimal_clean`, hdbscan.c 140-191. -/
def minimalClean (o : Obj) : M Obj := do
  use o.self
  whenSet o.labels free
  whenSet o.outliers free
  whenSet o.mst graphDestroy
  whenSet o.constraints listDelete
  whenSet o.hierarchy (tableDestroy entryDestroy)
  let clusters ← clearClusters o.clusters
  let stabilities ← clearStabilities o.stabilities
  return { o with labels := .null, outliers := .null, mst := .null, constraints := .null, hierarchy := .null, clusters := clusters, stabilities := stabilities }

/-- `hdbscan_clean`, hdbscan.c 198-214, with `distance_clean`, /repo/src/distance.c 92-103. -/
def clean (o : Obj) : M Obj := do
  use o.self
  whenSet o.distances free
  whenSet o.core free
  let o1 ← minimalClean { o with distances := .null, core := .null }
  whenSet o1.clusters (fun c => listDelete c.list)
  whenSet o1.stabilities (tableDestroy (fun _ => return ()))
  return { o1 with clusters := .null, stabilities := .null }

/-- `hdbscan_destroy`, hdbscan.c 221-228; the caller's pointer dangles afterwards. -/
def destroy (o : Obj) : M Obj := do
  let o1 ← clean o
  free o1.self
  return o1

/-- What one run creates: clusters (with the root), levels with affected clusters, hierarchy lines, groups of selected clusters. -/
structure Shape where
  clusters : Nat
  levels : Nat
  lines : Nat
  groups : Nat

/-- The sets of one level, hdbscan.c 457-461 and 646-650. -/
def level : M Unit := do
  let examined ← listInit
  let first ← listInit
  let unexplored ← listInit
  let sub ← listInit
  let todo ← listInit
  listDelete sub
  listDelete todo
  listDelete examined
  listDelete first
  listDelete unexplored

/-- Write hierarchy lines, hdbscan.c 652-666 and 698-712. -/
def addLines : Nat → TableB EntryB → M (TableB EntryB)
  | 0, t => return t
  | k + 1, t => do
    let e ← entryInit
    let t' ← tableInsert t e
    addLines k t'

/-- The allocations of `hdbscan_compute_hierarchy_and_cluster_tree`, hdbscan.c 356-719. -/
def hierarchyStage (s : Shape) (c : ClustersB) (t : TableB EntryB) : M (ClustersB × TableB EntryB) := do
  use c.list.self
  let affected ← listInit
  let vertices ← listInit
  let newClusters ← listInit
  let items ← times clusterInit s.clusters
  let _ ← times level s.levels
  let t' ← addLines s.lines t
  listDelete newClusters
  listDelete affected
  listDelete vertices
  return ({ c with items := items ++ c.items }, t')

/-- The set of `hdbscan_propagate_tree`, hdbscan.c 990 and 1066. -/
def propagateStage : M Unit := do
  let todo ← listInit
  listDelete todo

/-- One list per group in the table `significant`, hdbscan.c 1102-1114. -/
def addGroups : Nat → TableB ListB → M (TableB ListB)
  | 0, t => return t
  | k + 1, t => do
    let l ← listInit
    let t' ← tableInsert t l
    addGroups k t'

/-- `hdbscan_find_prominent_clusters`, hdbscan.c 1077-1144. -/
def prominentStage (s : Shape) : M Nat := do
  let t ← tableInit
  let t' ← addGroups s.groups t
  let labels ← alloc
  tableDestroy listDelete t'
  return labels

/-- `hdbscan_do_run`, hdbscan.c 236-268. -/
def doRun (s : Shape) (n : Nat) (o : Obj) : M Obj := do
  use o.self
  let t ← tableInit
  let g ← graphInit n
  let c ← deref o.clusters
  let (c', t') ← hierarchyStage s c t
  propagateStage
  let labels ← prominentStage s
  let outliers ← alloc
  return { o with hierarchy := .at t', mst := .at g, clusters := .at c', labels := .at labels, outliers := .at outliers }

/-- `assert(initial_size > 0)` of `array_list_init` for the cluster list, hdbscan.c 321-326. -/
def assertSize (n : Nat) : M Unit := if n < 5 then fail (.abort "initial_size > 0") else return ()

/-- `hdbscan_run`, hdbscan.c 304-330, on `n` points: `distance_init` assigns null to the pointers of the distance matrix, and nothing that the object held is
    released. -/
def run (s : Shape) (n : Nat) (o : Obj) : M Obj := do
  use o.self
  let distances ← alloc
  let core ← alloc
  assertSize n
  let list ← listInit
  let stabilities ← tableInit
  doRun s n { o with distances := .at distances, core := .at core, clusters := .at ⟨list, []⟩, stabilities := .at stabilities, points := some n }

/-- Read the distances and write the core distances, distance.c 216-270. -/
def coreStage (o : Obj) : M Unit := do
  let d ← deref o.distances
  use d
  let c ← deref o.core
  use c

/-- The number of points of the object. -/
def numPoints (o : Obj) : M Nat :=
  match o.points with
  | none => fail (.ub "read of an indeterminate value")
  | some n => return n

/-- `hdbscan_rerun`, hdbscan.c 277-291. -/
def rerun (s : Shape) (o : Obj) : M Obj := do
  let o1 ← minimalClean o
  coreStage o1
  let n ← numPoints o1
  doRun s n o1

/-- The calls on an object. -/
inductive Call where
  | run (s : Shape) (n : Nat)
  | rerun (s : Shape)
  | clean
  | destroy

def step (o : Obj) : Call → M Obj
  | .run s n => run s n o
  | .rerun s => rerun s o
  | .clean => clean o
  | .destroy => destroy o

/-- A sequence of calls on one object. -/
def steps : List Call → Obj → M Obj
  | [], o => return o
  | c :: r, o => do
    let o' ← step o c
    steps r o'

/-- `hdbscan_init(NULL, ...)` and a sequence of calls on the object. -/
def life (cs : List Call) : M Obj := do
  let o ← init
  steps cs o

/-- The life of a C++ object on which the member function `clean()` is called: the constructor calls `hdbscan_init`, `clean()` calls `hdbscan_destroy` (which
    releases the object itself), the destructor calls `hdbscan_clean`, /repo/src/hdbscan.cpp 45-55 and 87-89. Simplification in favour of the code: the object
    is in storage from `malloc`. -/
def cppLife (s : Shape) (n : Nat) : M Obj := do
  let o ← init
  let o1 ← run s n o
  let o2 ← destroy o1
  clean o2

end Verif.Mem
