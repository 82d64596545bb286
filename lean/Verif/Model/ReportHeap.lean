import Verif.Model.Heap
import Mathlib.Data.List.Dedup
/-
Model of what the functions that report on a clustering allocate and release: /repo/src/hdbscan.c 1205-1240 (`hdbscan_create_cluster_map`), 1249-1316
(`hdbscan_get_min_max_distances`), 1323-1327 (`hdbscan_destroy_distance_map`), 1412-1540 (`hdbscan_calculate_stats`), 1628-1708 (`hdbscan_sort_by_similarity`),
1717-1775 (`hdbscan_sort_by_length`), 1782-1787 (`hdbscan_destroy_cluster_map`) and 1794-1870 (printing), as a program calls them on any number of tables and lists.

Simplifications: those of Model/Heap.lean. Of the contents only the labels that the tables and lists hold are kept; sorting permutes the labels of a list, which
makes no difference here, so they are left in place. A pointer to the wrong kind of thing is undefined behaviour. The `hdbscan` object that
`hdbscan_get_min_max_distances` reads is left out (it exists throughout; its own life is Model/Heap.lean).
-/
namespace Verif.Mem

/-- What the pointer variables of the program point to (or once pointed to). -/
inductive Thing where
  /-- the table of `hdbscan_create_cluster_map` with its labels -/
  | map (t : TableB ListB) (keys : List Nat)
  /-- the table of `hdbscan_get_min_max_distances`: a block per `distance_values` -/
  | dists (t : TableB Nat) (keys : List Nat)
  /-- a list of labels -/
  | list (l : ListB) (labels : List Nat)

/-- Access to a list. -/
def useList (l : ListB) : M Unit := do
  use l.self
  use l.data

/-- Access to an entry of a table and its value. -/
def useNode {V : Type} (useV : V → M Unit) (n : NodeB V) : M Unit := do
  use n.self
  use n.data
  use n.key
  useV n.value

/-- Access to a table, its keys and its entries. -/
def useTable {V : Type} (useV : V → M Unit) (t : TableB V) : M Unit := do
  use t.self
  use t.table
  useList t.keys
  each (useNode useV) t.nodes

/-- Stop if something is wrong. -/
def stopIf (c : Prop) [Decidable c] (o : Outcome (Unit × Heap)) : M Unit := if c then fail o else pure ()

/-- `hdbscan_create_cluster_map`, hdbscan.c 1205-1240: a list per label that occurs. The lists are made with capacity a third of the number of points, and
    `array_list_init` asserts that it is positive (list.c 55). -/
def createMap (labels : List Nat) : M Thing := do
  stopIf (0 < labels.length ∧ labels.length < 3) (.abort "initial_size > 0")
  let t ← tableInit
  let t ← addGroups labels.dedup.length t
  return .map t labels.dedup

/-- The loop of `hdbscan_get_min_max_distances`, hdbscan.c 1272-1312: a record and an entry per label. -/
def addRecords : Nat → TableB Nat → M (TableB Nat)
  | 0, t => return t
  | k + 1, t => do
    let d ← alloc
    let t' ← tableInsert t d
    addRecords k t'

/-- `hdbscan_get_min_max_distances`, hdbscan.c 1249-1316. -/
def minMaxDistances (t : TableB ListB) (keys : List Nat) : M Thing := do
  useTable useList t
  let d ← tableInit
  let d ← addRecords keys.length d
  return .dists d keys

/-- `hdbscan_calculate_stats`, hdbscan.c 1412-1540: the values are copied to arrays on the stack whose length is the number of labels. -/
def calculateStats (t : TableB Nat) (keys : List Nat) : M Unit := do
  useTable use t
  stopIf (keys = []) (.ub "variable length array of length zero")

/-- `array_list_init` and `array_list_append` of labels by the program itself. -/
def makeList (labels : List Nat) : M Thing := do
  let l ← listInit
  return .list l labels

/-- `hdbscan_sort_by_length`, hdbscan.c 1717-1775: `array_list_init(0)` aborts; the list of a label that is not in the table is a null pointer. -/
def sortByLength (t : TableB ListB) (keys : List Nat) (l : ListB) (labels : List Nat) : M Unit := do
  use l.self
  stopIf (labels = []) (.abort "initial_size > 0")
  let lengths ← listInit
  useList l
  useTable useList t
  stopIf (∃ x ∈ labels, x ∉ keys) (.ub "dereference of a null pointer")
  listDelete lengths

/-- `hdbscan_sort_by_similarity` with a list, hdbscan.c 1628-1708: the loop reads as many keys of the table as the list has labels. -/
def sortBySimilarity (t : TableB Nat) (keys : List Nat) (l : ListB) (labels : List Nat) : M Unit := do
  use l.self
  stopIf (labels = []) (.abort "initial_size > 0")
  let distances ← listInit
  useTable use t
  stopIf (keys.length < labels.length) (.ub "read beyond the keys of the table")
  useList l
  listDelete distances

/-- `hdbscan_sort_by_similarity` with a null pointer for the list, hdbscan.c 1632-1645 and 1660-1680: a new list is returned. -/
def sortAllBySimilarity (t : TableB Nat) (keys : List Nat) : M Thing := do
  use t.self
  stopIf (keys = []) (.abort "initial_size > 0")
  let l ← listInit
  let distances ← listInit
  useTable use t
  listDelete distances
  return .list l keys

/-- `hdbscan_destroy_cluster_map`, hdbscan.c 1782-1787. -/
def destroyMap (t : TableB ListB) : M Unit := do
  use t.self
  tableDestroy listDelete t

/-- `hdbscan_destroy_distance_map`, hdbscan.c 1323-1327. -/
def destroyDists (t : TableB Nat) : M Unit := do
  use t.self
  tableDestroy free t

/-- `array_list_delete`. -/
def deleteList (l : ListB) : M Unit := do
  use l.self
  listDelete l

/-- What a program does with its tables and lists, which are numbered in the order in which they are made. -/
inductive ReportAct where
  /-- `hdbscan_create_cluster_map(labels, 0, n)` -/
  | createMap (labels : List Nat)
  /-- `hdbscan_get_min_max_distances(sc, x)` -/
  | minMax (x : Nat)
  /-- `hdbscan_calculate_stats(x, &stats)` -/
  | stats (x : Nat)
  /-- a list of labels made by the program -/
  | makeList (labels : List Nat)
  /-- `hdbscan_sort_by_length(x, y)` -/
  | byLength (x y : Nat)
  /-- `hdbscan_sort_by_similarity(x, y, type)` -/
  | bySimilarity (x y : Nat)
  /-- `hdbscan_sort_by_similarity(x, NULL, type)` -/
  | allBySimilarity (x : Nat)
  /-- `hdbscan_print_cluster_map(x)`, `hdbscan_print_cluster_sizes(x)` -/
  | printMap (x : Nat)
  /-- `hdbscan_print_distance_map(x)` -/
  | printDists (x : Nat)
  /-- `hdbscan_destroy_cluster_map(x)` -/
  | destroyMap (x : Nat)
  /-- `hdbscan_destroy_distance_map(x)` -/
  | destroyDists (x : Nat)
  /-- `array_list_delete(x)` -/
  | deleteList (x : Nat)

def withMap {α : Type} (vs : List Thing) (x : Nat) (k : TableB ListB → List Nat → M α) : M α :=
  match vs[x]? with
  | some (.map t keys) => k t keys
  | _ => fail (.ub "not a cluster map")

def withDists {α : Type} (vs : List Thing) (x : Nat) (k : TableB Nat → List Nat → M α) : M α :=
  match vs[x]? with
  | some (.dists t keys) => k t keys
  | _ => fail (.ub "not a distance map")

def withList {α : Type} (vs : List Thing) (x : Nat) (k : ListB → List Nat → M α) : M α :=
  match vs[x]? with
  | some (.list l labels) => k l labels
  | _ => fail (.ub "not a list")

/-- A new pointer variable. -/
def keep (vs : List Thing) (m : M Thing) : M (List Thing) := do
  let v ← m
  return vs ++ [v]

/-- The pointer variables stay as they are. -/
def same (vs : List Thing) (m : M Unit) : M (List Thing) := do
  m
  return vs

def reportAct (vs : List Thing) : ReportAct → M (List Thing)
  | .createMap labels => keep vs (createMap labels)
  | .minMax x => keep vs (withMap vs x minMaxDistances)
  | .stats x => same vs (withDists vs x calculateStats)
  | .makeList labels => keep vs (makeList labels)
  | .byLength x y => same vs (withMap vs x fun t keys => withList vs y (sortByLength t keys))
  | .bySimilarity x y => same vs (withDists vs x fun t keys => withList vs y (sortBySimilarity t keys))
  | .allBySimilarity x => keep vs (withDists vs x sortAllBySimilarity)
  | .printMap x => same vs (withMap vs x fun t _ => useTable useList t)
  | .printDists x => same vs (withDists vs x fun t _ => useTable use t)
  | .destroyMap x => same vs (withMap vs x fun t _ => destroyMap t)
  | .destroyDists x => same vs (withDists vs x fun t _ => destroyDists t)
  | .deleteList x => same vs (withList vs x fun l _ => deleteList l)

def reportActs : List ReportAct → List Thing → M (List Thing)
  | [], vs => return vs
  | a :: r, vs => do
    let vs' ← reportAct vs a
    reportActs r vs'

/-- A program that starts without tables and lists. -/
def reportProgram (as : List ReportAct) : M (List Thing) := reportActs as []

end Verif.Mem
