import Verif.Model.Cluster
import Verif.Model.Distance
import Verif.Model.SortClusters
import Mathlib.Data.Nat.Basic
/-
Model of the functions that post-process a clustering, /repo/src/hdbscan.c 1205-1317 and 1628-1776, and of their C++ counterparts,
/repo/src/hdbscan.cpp 91-155 and 239-360.

Simplifications: a hash table keyed by labels is the list of its entries in ascending order of the keys, which is the order of its
`keys` set (properties C05 and C06; labels are below 2^31, so that `int_compare` orders them as numbers), and so is a `std::map`; an
`ArrayList` or a `std::vector` is a list (property C01).
-/
namespace Verif

/-- A table keyed by labels: its entries in ascending order of the keys. -/
abbrev KMap (V : Type) := List (Nat × V)

namespace KMap
variable {V : Type}

/-- `hashtable_lookup`; `none` is the null pointer the caller put into the result variable. -/
def lookup (m : KMap V) (k : Nat) : Option V := (m.find? (fun e => e.1 = k)).map (·.2)

/-- `hashtable_insert`: the value replaces that of an existing key. -/
def insert (k : Nat) (v : V) : KMap V → KMap V
  | [] => [(k, v)]
  | (k', v') :: r => if k < k' then (k, v) :: (k', v') :: r else if k = k' then (k, v) :: r else (k', v') :: insert k v r

/-- `keys`: the sorted set of keys. -/
def keys (m : KMap V) : List Nat := m.map (·.1)

end KMap

/-! ### The cluster map -/

namespace CMap

/-- One iteration of the loop of `hdbscan_create_cluster_map`, hdbscan.c 1220-1236; `size` is `end - begin`. -/
def add (labels : List Nat) (size i : Nat) (m : KMap (List Nat)) : Outcome (KMap (List Nat)) := do
  let lb ← rd labels i
  match m.lookup lb with
  | none => if size / 3 = 0 then .abort "array_list_init: initial_size > 0" else return m.insert lb [i]
  | some l => return m.insert lb (l ++ [i])

/-- The loop over `count` indices from `i` on, hdbscan.c 1220-1236. -/
def loop (labels : List Nat) (size : Nat) : (count i : Nat) → KMap (List Nat) → Outcome (KMap (List Nat))
  | 0, _, m => .ok m
  | count + 1, i, m => do
    let m' ← add labels size i m
    loop labels size count (i + 1) m'

/-- `hdbscan_create_cluster_map`, hdbscan.c 1205-1240. `begin` and `end_` are `index_t`, so `end - begin` wraps around. -/
def create (labels : List Nat) (begin end_ : Nat) : Outcome (KMap (List Nat)) :=
  loop labels (subIndex end_ begin) (end_ - begin) begin []

/-- The loop of `clustering::createClusterMap`, /repo/src/hdbscan.cpp 95-98. -/
def cppLoop (labels : List Nat) : (count i : Nat) → KMap (List Nat) → Outcome (KMap (List Nat))
  | 0, _, m => .ok m
  | count + 1, i, m => do
    let lb ← rd labels i
    cppLoop labels count (i + 1) (m.insert lb ((m.lookup lb).getD [] ++ [i]))

/-- `clustering::createClusterMap`, /repo/src/hdbscan.cpp 91-101. -/
def cppCreate (labels : List Nat) (begin end_ : Nat) : Outcome (KMap (List Nat)) := cppLoop labels (end_ - begin) begin []

end CMap

/-! ### Minimum and maximum distances -/

/-- `distance_values`, /repo/include/hdbscan/hdbscan.h 79-87. -/
structure DistVals (W : Type) where
  minCr : W
  maxCr : W
  crConf : W
  minDr : W
  maxDr : W
  drConf : W
  deriving DecidableEq

namespace DMap
variable {W : Type}

/-- The constants used: `0.0`, `D_MIN`, `D_MAX`. -/
structure Consts (W : Type) where
  zero : W
  dmin : W
  dmax : W

/-- The record of a cluster after its first member, hdbscan.c 1280-1287. -/
def first (k : Consts W) (c : W) : DistVals W :=
  { minCr := c, maxCr := c, crConf := k.zero, minDr := k.dmax, maxDr := k.dmin, drConf := k.zero }

/-- The update for the core distance of a later member, hdbscan.c 1291-1298. -/
def core [CCmp W] (k : Consts W) (c : W) (v : DistVals W) : DistVals W :=
  let v1 := if CCmp.lt c v.minCr && (CCmp.lt c k.zero || CCmp.lt k.zero c) then { v with minCr := c } else v
  if CCmp.lt v1.maxCr c then { v1 with maxCr := c } else v1

/-- The update for one distance, hdbscan.c 1305-1312. -/
def pair [CCmp W] (k : Consts W) (d : W) (v : DistVals W) : DistVals W :=
  let v1 := if CCmp.lt d v.minDr && (CCmp.lt d k.zero || CCmp.lt k.zero d) then { v with minDr := d } else v
  if CCmp.lt v1.maxDr d then { v1 with maxDr := d } else v1

/-- The loop over the later members, hdbscan.c 1302-1313. -/
def pairs [CCmp W] (k : Consts W) (dis : Distance W) (index : Nat) : List Nat → DistVals W → Outcome (DistVals W)
  | [], v => .ok v
  | j :: r, v => do
    let d ← dis.get k.zero index j
    pairs k dis index r (pair k d v)

/-- The loop over the members of one cluster, hdbscan.c 1275-1314; the record is `none` (NULL) before the first member. -/
def members [CCmp W] (k : Consts W) (dis : Distance W) : List Nat → Option (DistVals W) → Outcome (Option (DistVals W))
  | [], v => .ok v
  | i :: r, v => do
    let c ← rdInit dis.coreDistances i
    let v1 := match v with
      | none => first k c
      | some v => core k c v
    let v2 ← pairs k dis i r v1
    members k dis r (some v2)

/-- The loop over the clusters, hdbscan.c 1264-1315. -/
def loop [CCmp W] (k : Consts W) (dis : Distance W) : KMap (List Nat) → KMap (DistVals W) → Outcome (KMap (DistVals W))
  | [], m => .ok m
  | (key, l) :: r, m => do
    match ← members k dis l (m.lookup key) with
    | none => loop k dis r m
    | some v => loop k dis r (m.insert key v)

/-- `hdbscan_get_min_max_distances`, hdbscan.c 1249-1317; `clustering::getMinMaxDistances`, /repo/src/hdbscan.cpp 103-155, makes the
    same steps on C++ containers. -/
def minMax [CCmp W] (k : Consts W) (dis : Distance W) (clusters : KMap (List Nat)) : Outcome (KMap (DistVals W)) := loop k dis clusters []

end DMap

/-! ### Sorting clusters -/

namespace CSort
variable {W : Type}

/-- `distanceType == CORE_DISTANCE_TYPE ? dv->cr_confidence : dv->dr_confidence`, hdbscan.c 1671-1675 and 1694-1698. -/
def conf (coreType : Bool) (v : DistVals W) : W := if coreType then v.crConf else v.drConf

/-- The loop fetching the confidences for a given list of clusters, hdbscan.c 1690-1700: iteration `i` uses the `i`-th key of the map
    (not the `i`-th cluster of the list). `count` iterations remain. Reading past the keys, or a key that is not found, leaves `dv` indeterminate. -/
def fetch (m : KMap (DistVals W)) (coreType : Bool) : (count i : Nat) → Outcome (List W)
  | 0, _ => .ok []
  | count + 1, i => do
    let key ← rd m.keys i
    match m.lookup key with
    | none => .ub "indeterminate pointer dv"
    | some v => do
      let r ← fetch m coreType count (i + 1)
      return conf coreType v :: r

/-- The sort at the end, hdbscan.c 1704 and 1772. -/
def sortAll [CCmp W] (clusters : List Nat) (values : List W) : Outcome (List Nat) := do
  let a ← quicksort clusters.length { c := clusters, d := values } 0 clusters.length
  return a.c

/-- `hdbscan_sort_by_similarity`, hdbscan.c 1628-1708; `none` is a null pointer for `clusters`. -/
def bySimilarity [CCmp W] (m : KMap (DistVals W)) (clusters : Option (List Nat)) (coreType : Bool) : Outcome (List Nat) :=
  match clusters with
  | none => if m.length = 0 then .abort "array_list_init: initial_size > 0" else sortAll m.keys (m.map (fun e => conf coreType e.2))
  | some cl =>
    if cl.length = 0 then .abort "array_list_init: initial_size > 0"
    else do
      let ds ← fetch m coreType cl.length 0
      sortAll cl ds

/-- The loop of `clustering::sortBySimilarity` fetching the confidences, /repo/src/hdbscan.cpp 264-275: a label that is not in the map
    dereferences the end iterator. -/
def cppFetch (m : KMap (DistVals W)) (coreType : Bool) : List Nat → Outcome (List W)
  | [] => .ok []
  | key :: r =>
    match m.lookup key with
    | none => .ub "end iterator dereferenced"
    | some v => do
      let rest ← cppFetch m coreType r
      return conf coreType v :: rest

/-- `quickSort`, /repo/src/hdbscan.cpp 321-357. -/
def cppSort [CCmp W] (clusters : List Nat) (values : List W) : Outcome (List Nat) :=
  if clusters.length = 0 then .abort "array_list_init: initial_size > 0" else sortAll clusters values

/-- `clustering::sortBySimilarity`, /repo/src/hdbscan.cpp 239-281. -/
def cppBySimilarity [CCmp W] (m : KMap (DistVals W)) (clusters : List Nat) (coreType : Bool) : Outcome (List Nat) :=
  if clusters.length = 0 then cppSort m.keys (m.map (fun e => conf coreType e.2))
  else do
    let ds ← cppFetch m coreType clusters
    cppSort clusters ds

/-- The loop fetching the sizes, hdbscan.c 1761-1767 and /repo/src/hdbscan.cpp 304-309; sizes stay numbers (they are exact as `distance_t` below 2^53). -/
def sizes (m : KMap (List Nat)) : List Nat → Outcome (List Nat)
  | [] => .ok []
  | key :: r =>
    match m.lookup key with
    | none => .ub "null pointer lst"
    | some l => do
      let rest ← sizes m r
      return l.length :: rest

/-- `hdbscan_sort_by_length`, hdbscan.c 1717-1776. A null pointer fails the assertion and an empty list that of `array_list_init`, so the branch
    for `size == 0` (1747-1757) is never executed. -/
def byLength (m : KMap (List Nat)) (clusters : Option (List Nat)) : Outcome (List Nat) :=
  match clusters with
  | none => .abort "clusters != NULL"
  | some cl =>
    if cl.length = 0 then .abort "array_list_init: initial_size > 0"
    else do
      let ls ← sizes m cl
      sortAll cl ls

/-- `clustering::sortByLength`, /repo/src/hdbscan.cpp 287-316. -/
def cppByLength (m : KMap (List Nat)) (clusters : List Nat) : Outcome (List Nat) :=
  if clusters.length = 0 then cppSort m.keys (m.map (fun e => e.2.length))
  else do
    let ls ← sizes m clusters
    cppSort clusters ls

end CSort
end Verif
