import Verif.Model.Histories
import Verif.Model.Heap
/-
Model of what happens when memory runs out: lists, tables, linked lists and the beginning of `hdbscan_run`, with an allocator that may refuse any
request.

A block is a number, the heap is the collection of the live blocks. `refuses k` says whether the `k`-th request (`malloc`, `calloc`, `realloc`) of the
program is refused, that is whether it returns NULL. Every theorem is for all such functions.

Simplifications: `hdbscan_run` is followed up to the point where the adjacency lists of the spanning tree exist (/repo/src/undirected_graph.c 87); arrays on
the stack (variable length arrays) always fit; iterations of parallel loops are executed in order; messages are left out.
-/
namespace Verif.Oom
open Spec
open Mem (Ptr)
variable {α : Type}

/-- The live blocks, the next unused name, and the number of requests so far. -/
structure Heap where
  live : Multiset Nat
  fresh : Nat
  asked : Nat

/-- A computation on the heap. -/
abbrev M := StateT Heap Outcome

/-- `malloc`, `calloc`: `none` is NULL. -/
def alloc (refuses : Nat → Bool) : M (Option Nat) := fun h =>
  if refuses h.asked then .ok (none, { h with asked := h.asked + 1 })
  else .ok (some h.fresh, { live := h.fresh ::ₘ h.live, fresh := h.fresh + 1, asked := h.asked + 1 })

/-- `free` of a pointer that is not null. -/
def free (b : Nat) : M Unit := fun h =>
  if b ∈ h.live then .ok ((), { h with live := h.live.erase b }) else .ub "free of a block that is not allocated"

/-- `free(p)`, which does nothing for a null pointer. -/
def freeOpt : Option Nat → M Unit
  | none => return ()
  | some b => free b

def fail (o : Outcome (α × Heap)) : M α := fun _ => o

/-- A computation that does not touch the heap. -/
def lift (o : Outcome α) : M α := fun h => do
  let a ← o
  return (a, h)

/-- `realloc(p, n)`: a refused request leaves the old block allocated; a null pointer makes it `malloc`. -/
def realloc (refuses : Nat → Bool) (p : Option Nat) : M (Option Nat) := do
  match ← alloc refuses with
  | none => return none
  | some b => do
    freeOpt p
    return some b

/-- Follow a pointer. -/
def deref : Option α → M α
  | none => fail (.ub "null pointer")
  | some a => return a

/-! ### ArrayList -/

/-- `ArrayList`: the blocks of the structure and of the elements (`none`: `data` is NULL; then `list` has no cells), and the contents. -/
structure OList (α : Type) where
  self : Nat
  data : Option Nat
  list : AList α

/-- `array_list_init`, /repo/modules/collections/src/list.c 54-75; `none` is NULL. -/
def listInit (refuses : Nat → Bool) (n : Nat) : M (Option (OList α)) := do
  let a ← lift (AList.init n)
  match ← alloc refuses with
  | none => return none
  | some self =>
    match ← alloc refuses with
    | none => do
      free self
      return none
    | some data => return some ⟨self, some data, a⟩

/-- `array_list_delete`, list.c 139-150. -/
def listDelete (l : OList α) : M Unit := do
  freeOpt l.data
  free l.self

/-- `array_list_grow`, list.c 119-131: the pointer to the elements is overwritten by the result of `realloc`. -/
def grow (refuses : Nat → Bool) (l : OList α) : M (Int × OList α) := do
  let a ← lift l.list.grow
  match ← realloc refuses l.data with
  | none => return (-1, { l with data := none, list := { l.list with buf := [] } })
  | some b => return (1, { l with data := some b, list := a })

/-- The growth test of `array_list_append` and `array_list_insert_at`, list.c 191-192 and 210-211. -/
def ensureRoom (refuses : Nat → Bool) (l : OList α) : M (Int × OList α) :=
  if l.list.size = l.list.maxSize then grow refuses l else return (1, l)

/-- Store the new element behind the last one, list.c 199-205. -/
def store (l : OList α) (x : α) : M (Ret α × OList α) := do
  let a ← lift (l.list.insertionHelper x l.list.size)
  return ((1, none), { l with list := { a with size := a.size + 1 } })

/-- `array_list_append`, list.c 189-206. -/
def append (refuses : Nat → Bool) (l : OList α) (x : α) : M (Ret α × OList α) := do
  let (r, l1) ← ensureRoom refuses l
  if r < 0 then return ((0, none), l1) else store l1 x

/-- `array_list_insert_at`, list.c 208-223: the result of `array_list_grow` is not looked at. -/
def insertAt (refuses : Nat → Bool) (l : OList α) (x : α) (pos : Nat) : M (Ret α × OList α) := do
  let (_, l1) ← ensureRoom refuses l
  let a ← lift (l1.list.shiftRight pos)
  let a' ← lift (({ a with size := a.size + 1 } : AList α).insertionHelper x pos)
  return ((1, none), { l1 with list := a' })

/-- One call on a list. The calls other than `append` and `insertAt` make no request (`array_list_clear` without `resize`). -/
def step (refuses : Nat → Bool) (cmp : α → α → Int) (l : OList α) : SeqOp α → M (Ret α × OList α)
  | .append x => append refuses l x
  | .insertAt x pos => insertAt refuses l x pos
  | op => do
    let (r, a) ← lift (l.list.step cmp op)
    return (r, { l with list := a })

/-- Did an `append` report that it failed? -/
def failed : SeqOp α → Ret α → Bool
  | .append _, r => r.1 == 0
  | _, _ => false

/-- A caller that works on a list until an `append` returns 0, and then releases the list. -/
def work (refuses : Nat → Bool) (cmp : α → α → Int) : OList α → List (SeqOp α) → M (List (Ret α))
  | l, [] => do
    listDelete l
    return []
  | l, op :: ops => do
    let (r, l') ← step refuses cmp l op
    if failed op r then do
      listDelete l'
      return [r]
    else do
      let rs ← work refuses cmp l' ops
      return r :: rs

/-- A caller that creates a list, gives up if there is none, and otherwise works on it as above. -/
def session (refuses : Nat → Bool) (cmp : α → α → Int) (n : Nat) (ops : List (SeqOp α)) : M (Option (List (Ret α))) := do
  match ← listInit refuses n with
  | none => return none
  | some l => do
    let rs ← work refuses cmp l ops
    return some rs

/-- `array_list_clear(list, 1)`, list.c 279-285: the result of `realloc` is not looked at. -/
def listShrink (refuses : Nat → Bool) (l : OList α) : M (OList α) := do
  match ← realloc refuses l.data with
  | none => return { l with data := none, list := { l.list with buf := [], size := 0 } }
  | some b => return { l with data := some b, list := l.list.clear true }

/-! ### Linked lists and hash tables -/

/-- `node_creator` with `node_set_data`, /repo/modules/collections/src/linkedlist.c 80-108: (node, data); the data pointer is not checked before `memcpy`. -/
def nodeCreate (refuses : Nat → Bool) : M (Option (Nat × Nat)) := do
  match ← alloc refuses with
  | none => return none
  | some nd => do
    let p ← alloc refuses
    let data ← deref p
    return some (nd, data)

/-- `hashtable` without entries; `keys` is NULL when `set_init` failed. -/
structure Table where
  self : Nat
  table : Nat
  keys : Option (OList Nat)

/-- `hashtable_init_size`, /repo/modules/collections/src/hashtable.c 116-147: the keys are not checked. -/
def tableInit (refuses : Nat → Bool) : M (Option Table) := do
  match ← alloc refuses with
  | none => return none
  | some self =>
    match ← alloc refuses with
    | none => do
      free self
      return none
    | some table => do
      let keys ← listInit refuses 2
      return some ⟨self, table, keys⟩

/-- `hashtable_set_entry` for a new key, hashtable.c 411-435: the entry, its value and its key are written to without a check. -/
def entryCreate (refuses : Nat → Bool) : M (Nat × Nat × Nat) := do
  let e ← alloc refuses
  let self ← deref e
  let d ← alloc refuses
  let k ← alloc refuses
  let key ← deref k
  let data ← deref d
  return (self, data, key)

/-- `hashtable_clear` of a table without entries, hashtable.c 337-383: the two buffers are not used, the set of keys is. -/
def tableClear (refuses : Nat → Bool) (t : Table) : M Table := do
  let key ← alloc refuses
  let data ← alloc refuses
  freeOpt key
  freeOpt data
  let ks ← deref t.keys
  let ks' ← listShrink refuses ks
  return { t with keys := some ks' }

/-- `hashtable_destroy` of a table without entries, hashtable.c 390-402. -/
def tableDestroy (refuses : Nat → Bool) (t : Table) : M Unit := do
  let t' ← tableClear refuses t
  let ks ← deref t'.keys
  listDelete ks
  free t'.table
  free t'.self

/-! ### An `hdbscan` object -/

/-- `UndirectedGraph`: its blocks and lists. -/
structure Graph where
  self : Nat
  va : OList Nat
  vb : OList Nat
  wt : OList Nat
  edges : Nat
  adj : List (OList Nat)

/-- `hdbscan`, /repo/include/hdbscan/hdbscan.h 128-139, without the fields that are null until the spanning tree exists. -/
structure Obj where
  self : Nat
  distances : Option Nat
  core : Option Nat
  mst : Ptr Graph
  clusters : Option (OList Nat)
  stabilities : Option Table
  hierarchy : Option Table

/-- `hdbscan_init(NULL, ...)`, /repo/src/hdbscan.c 109-133; `none` is NULL. `mst` is not assigned; the pointers of the distances are not assigned either, but
    `hdbscan_run` sets them to NULL first (`distance_init`, /repo/src/distance.c 59-75), as is done here already. -/
def objInit (refuses : Nat → Bool) : M (Option Obj) := do
  match ← alloc refuses with
  | none => return none
  | some self => return some ⟨self, none, none, .indet, none, none, none⟩

/-- The adjacency lists of `graph_init`, /repo/src/undirected_graph.c 78-87: `edges[i]->compare` is assigned without a check. -/
def adjInit (refuses : Nat → Bool) : Nat → M (List (OList Nat))
  | 0 => return []
  | k + 1 => do
    let p ← listInit refuses 16
    let l ← deref p
    let r ← adjInit refuses k
    return l :: r

/-- `graph_init(NULL, ...)`, undirected_graph.c 46-87; `none` is NULL. -/
def graphInit (refuses : Nat → Bool) (n : Nat) (va vb wt : OList Nat) : M (Option Graph) := do
  match ← alloc refuses with
  | none => return none
  | some self =>
    match ← alloc refuses with
    | none => return none
    | some edges => do
      let adj ← adjInit refuses n
      return some ⟨self, va, vb, wt, edges, adj⟩

/-- What a call ends with: `HDBSCAN_ERROR`, or the spanning tree exists and the run goes on. -/
inductive End where
  | error
  | goesOn
  deriving DecidableEq

/-- The end of `hdbscan_construct_mst`, hdbscan.c 967-977. -/
def finishMst (refuses : Nat → Bool) (n : Nat) (va vb wt : OList Nat) (o : Obj) : M (End × Obj) := do
  match ← graphInit refuses n va vb wt with
  | none => return (.error, { o with mst := .null })
  | some g => return (.goesOn, { o with mst := .at g })

/-- `hdbscan_construct_mst`, hdbscan.c 810-980: the first two lists are checked, the third one is written to before it is checked. -/
def constructMst (refuses : Nat → Bool) (n : Nat) (o : Obj) : M (End × Obj) := do
  let nb ← listInit refuses (2 * n - 1)
  let ov ← listInit refuses (2 * n - 1)
  match nb, ov with
  | some va, some vb => do
    let d ← listInit refuses (2 * n - 1)
    let wt ← deref d
    finishMst refuses n va vb wt o
  | _, _ => return (.error, o)

/-- `csize`, hdbscan.c 321-325. -/
def csize (n : Nat) : Nat := if n / 5 < 4 then n / 5 * 4 else n / 5

/-- `hdbscan_run` on an object that has not been used before, hdbscan.c 304-330 with 236-246: the distances and core distances are written to without a check. -/
def run (refuses : Nat → Bool) (n : Nat) (o : Obj) : M (End × Obj) := do
  let d ← alloc refuses
  let c ← alloc refuses
  let _ ← deref d
  let _ ← deref c
  let clusters ← listInit refuses (csize n)
  let stabilities ← tableInit refuses
  let hierarchy ← tableInit refuses
  constructMst refuses n { o with distances := d, core := c, clusters := clusters, stabilities := stabilities, hierarchy := hierarchy }

/-- `hdbscan_run` as called by a program: a null pointer is answered with `HDBSCAN_ERROR`, hdbscan.c 306-314. -/
def runPtr (refuses : Nat → Bool) (n : Nat) : Option Obj → M (End × Option Obj)
  | none => return (.error, none)
  | some o => do
    let (e, o') ← run refuses n o
    return (e, some o')

/-- `hdbscan_init` followed by `hdbscan_run`. -/
def start (refuses : Nat → Bool) (n : Nat) : M (End × Option Obj) := do
  let p ← objInit refuses
  runPtr refuses n p

/-- `if (p != NULL)` for a pointer that may be null. -/
def whenSome {β : Type} (p : Option β) (m : β → M Unit) : M Unit :=
  match p with
  | none => return ()
  | some a => m a

def each {β : Type} (m : β → M Unit) : List β → M Unit
  | [] => return ()
  | a :: r => do
    m a
    each m r

/-- `graph_destroy`, undirected_graph.c 103-137. -/
def graphDestroy (g : Graph) : M Unit := do
  listDelete g.va
  listDelete g.vb
  listDelete g.wt
  each listDelete g.adj
  free g.edges
  free g.self

/-- `if (sc->mst != NULL) graph_destroy(sc->mst)`, hdbscan.c 152-155. -/
def mstDestroy : Ptr Graph → M Unit
  | .indet => fail (.ub "read of an indeterminate pointer")
  | .null => return ()
  | .at g => graphDestroy g

/-- `if (sc->clusterStabilities != NULL) hashtable_clear(...)`, hdbscan.c 187-190. -/
def stabilitiesClear (refuses : Nat → Bool) : Option Table → M (Option Table)
  | none => return none
  | some t => do
    let t' ← tableClear refuses t
    return some t'

/-- `hdbscan_destroy` of an object without results, hdbscan.c 198-228. -/
def destroy (refuses : Nat → Bool) (o : Obj) : M Unit := do
  freeOpt o.distances
  freeOpt o.core
  mstDestroy o.mst
  whenSome o.hierarchy (tableDestroy refuses)
  let st ← stabilitiesClear refuses o.stabilities
  whenSome o.clusters listDelete
  whenSome st (tableDestroy refuses)
  free o.self

end Verif.Oom
