import Verif.Model.SetT
/-
Memory-level model of `hashtable`, /repo/modules/collections/src/hashtable.c: entries live on a heap and are doubly
linked into one chain per bucket.

Simplifications for the whole file: allocation never fails; keys are abstract values (every access to a key goes
through `key_hash`, `key_compare` or a whole-key copy); values are byte strings, because `hashtable_remove` copies the
wrong number of their bytes. The hash function is a parameter, already applied to the bucket count: the integer and
string hash functions are modelled in `Verif.Model.Utils`, those for `double` and `float` (utils.c 344-356) in
`Verif.Model.Keys`.
-/
namespace Verif

abbrev Bytes := List UInt8

/-- `memcpy(dst, src, n)` between two blocks: undefined when `n` exceeds one of them. -/
def memcpy (dst src : Bytes) (n : Nat) : Outcome Bytes :=
  if n ≤ src.length ∧ n ≤ dst.length then .ok (src.take n ++ dst.drop n) else .ub "memcpy outside a block"

namespace HTable

/-- `hashtable_entry`, hashtable.h: `next` and `prev` are addresses, `none` is NULL. -/
structure Entry (K : Type) where
  key : K
  data : Bytes
  next : Option Nat
  prev : Option Nat
  deriving Repr, DecidableEq

/-- `hashtable`, hashtable.h, with the heap its entries live on. `heap a = none`: nothing allocated at `a` (never, or
    not any more). `fresh` is the next address `malloc` hands out. -/
structure Table (K : Type) where
  ktype : HType
  dtype : HType
  table : List (Option Nat)
  size : Nat
  keys : AList K
  collisions : Nat
  heap : Nat → Option (Entry K)
  fresh : Nat

variable {K : Type}

/-- `hashtable_init_size`, hashtable.c 116-178: zero buckets become 37. -/
def initSize (buckets : Nat) (kt dt : HType) : Outcome (Table K) := do
  let ks ← SetT.init
  return { ktype := kt, dtype := dt, table := List.replicate (if buckets = 0 then 37 else buckets) none, size := 0,
           keys := ks, collisions := 0, heap := fun _ => none, fresh := 0 }

/-- Follow a pointer. -/
def deref (t : Table K) (a : Nat) : Outcome (Entry K) :=
  match t.heap a with
  | some e => .ok e
  | none => .ub "access to a freed entry"

/-- Store an entry. -/
def store (t : Table K) (a : Nat) (e : Entry K) : Table K :=
  { t with heap := fun x => if x = a then some e else t.heap x }

/-- `free(entry)`. -/
def free (t : Table K) (a : Nat) : Table K :=
  { t with heap := fun x => if x = a then none else t.heap x }

/-- The loop of `hashtable_lookup_entry`, hashtable.c 233-241. -/
def walk (cmp : K → K → Int) (t : Table K) (key : K) : (fuel : Nat) → Option Nat → Outcome (Option Nat)
  | _, none => .ok none
  | 0, some _ => .diverge
  | fuel + 1, some a => do
    let e ← deref t a
    if cmp e.key key = 0 then return some a
    else walk cmp t key fuel e.next

/-- `hashtable_lookup_entry`, hashtable.c 228-245: the address of the entry, or NULL. -/
def lookupEntry (cmp : K → K → Int) (hash : K → Nat) (t : Table K) (key : K) : Outcome (Option Nat) := do
  let p ← rd t.table (hash key)
  walk cmp t key (t.fresh + 1) p

/-- `hashtable_lookup`, hashtable.c 260-271: return value and the caller's buffer after the call. -/
def lookup (cmp : K → K → Int) (hash : K → Nat) (t : Table K) (key : K) (buf : Bytes) : Outcome (Int × Bytes) := do
  match ← lookupEntry cmp hash t key with
  | some a => do
    let e ← deref t a
    let buf' ← memcpy buf e.data (getHtypeSize t.dtype)
    return (1, buf')
  | none => return (0, buf)

/-- `hashtable_set_entry`, hashtable.c 411-435, for a NULL entry: allocate and fill a new entry. -/
def setEntry (t : Table K) (key : K) (value : Bytes) : Outcome (Nat × Table K) := do
  let n := getHtypeSize t.dtype
  let data ← memcpy (List.replicate n 0) value n
  return (t.fresh, { store t t.fresh { key, data, next := none, prev := none } with fresh := t.fresh + 1 })

/-- Hooking the new entry at `a` in front of a chain, hashtable.c 193-204. -/
def hookFront (t : Table K) (bucket a : Nat) : Outcome (Table K) := do
  match ← rd t.table bucket with
  | none => do
    let tbl ← wr t.table bucket (some a)
    return { t with table := tbl }
  | some b => do
    let e ← deref t a
    let t1 := store t a { e with next := some b }
    let f ← deref t1 b
    let t2 := store t1 b { f with prev := some a }
    let tbl ← wr t2.table bucket (some a)
    return { t2 with table := tbl, collisions := t2.collisions + 1 }

/-- `hashtable_insert`, hashtable.c 183-219: return value, the caller's value buffer after the call, the new table. -/
def insert (cmp : K → K → Int) (hash : K → Nat) (t : Table K) (key : K) (value : Bytes) :
    Outcome (Int × Bytes × Table K) := do
  match ← lookupEntry cmp hash t key with
  | none => do
    let (a, t1) ← setEntry t key value
    let t2 ← hookFront t1 (hash key) a
    let (_, ks) ← SetT.insert cmp t2.keys key
    return (1, value, { t2 with size := t2.size + 1, keys := ks })
  | some a => do
    let n := getHtypeSize t.dtype
    let e ← deref t a
    let tmp ← memcpy (List.replicate n 0) e.data n
    let data ← memcpy e.data value n
    let value' ← memcpy value tmp n
    return (-1, value', store t a { e with data })

/-- `hashtable_entry_destroy`, hashtable.c 445-455: copy `dsize` bytes of the value to the caller, free the entry. -/
def entryDestroy (t : Table K) (a : Nat) (buf : Bytes) (dsize : Nat) : Outcome (Bytes × Table K) := do
  let e ← deref t a
  let buf' ← memcpy buf e.data dsize
  return (buf', free t a)

/-- First half of the unhooking in `hashtable_remove`, hashtable.c 297-307. -/
def unhookPrev (t : Table K) (bucket a : Nat) : Outcome (Table K) := do
  let e ← deref t a
  match e.prev with
  | some p => do
    let f ← deref t p
    let t1 := store t p { f with next := e.next }
    let e1 ← deref t1 a
    return store t1 a { e1 with prev := none }
  | none => do
    let tbl ← wr t.table bucket e.next
    let t1 := { t with table := tbl }
    match e.next with
    | some n => do
      let f ← deref t1 n
      return store t1 n { f with prev := none }
    | none => return t1

/-- Second half of the unhooking, hashtable.c 309-318. `entry->prev` was set to NULL before in all cases. -/
def unhookNext (t : Table K) (a : Nat) : Outcome (Table K) := do
  let e ← deref t a
  match e.next with
  | some n => do
    let f ← deref t n
    let t1 := store t n { f with prev := e.prev }
    let e1 ← deref t1 a
    return store t1 a { e1 with next := none }
  | none =>
    match e.prev with
    | some p => do
      let f ← deref t p
      return store t p { f with next := none }
    | none => return t

/-- `hashtable_remove`, hashtable.c 281-326: return value, the caller's buffer after the call, the new table. The
    value is copied with the size of the *key* type, as in the code (line 321). -/
def remove (cmp : K → K → Int) (hash : K → Nat) (t : Table K) (key : K) (buf : Bytes) :
    Outcome (Int × Bytes × Table K) :=
  if t.size = 0 then .ok (0, buf, t)
  else do
    match ← lookupEntry cmp hash t key with
    | none => return (0, buf, t)
    | some a => do
      let t1 ← unhookPrev t (hash key) a
      let t2 ← unhookNext t1 a
      let (buf', t3) ← entryDestroy t2 a buf (getHtypeSize t2.ktype)
      let (_, ks) ← SetT.remove cmp t3.keys key
      return (1, buf', { t3 with size := t3.size - 1, keys := ks })

/-- A call of a destructor the caller supplied. -/
inductive Event (K : Type)
  | destroyKey (k : K)
  | destroyValue (v : Bytes)
  deriving Repr, DecidableEq

/-- The inner loop of `hashtable_clear`, hashtable.c 357-372: free a whole chain. The key destructor is called with the
    key taken from the keys set, not with the key of the entry. Simplification: keys and values handed to destructors
    are not NULL. -/
def clearChain (t : Table K) (setKey : K) (kd vd : Bool) : (fuel : Nat) → Option Nat →
    Outcome (List (Event K) × Table K)
  | _, none => .ok ([], t)
  | 0, some _ => .diverge
  | fuel + 1, some a => do
    let e ← deref t a
    let (data, t1) ← entryDestroy t a (List.replicate (getHtypeSize t.dtype) 0) (getHtypeSize t.dtype)
    let (evs, t2) ← clearChain t1 setKey kd vd fuel e.next
    return ((if kd then [Event.destroyKey setKey] else []) ++ (if vd then [Event.destroyValue data] else []) ++ evs, t2)

/-- The outer loop of `hashtable_clear`, hashtable.c 345-373, from index `i` on with `k` keys to go. -/
def clearLoop (hash : K → Nat) (kd vd : Bool) : (k i : Nat) → Table K → Outcome (List (Event K) × Table K)
  | 0, _, t => .ok ([], t)
  | k + 1, i, t => do
    match ← SetT.valueAt t.keys i with
    | none => .ub "uninitialised key"
    | some key => do
      let p ← rd t.table (hash key)
      let tbl ← wr t.table (hash key) none
      let (evs, t1) ← clearChain { t with table := tbl } key kd vd (t.fresh + 1) p
      let (evs', t2) ← clearLoop hash kd vd k (i + 1) t1
      return (evs ++ evs', t2)

/-- `hashtable_clear`, hashtable.c 337-383: the destructor calls in order, and the cleared table. -/
def clear (hash : K → Nat) (kd vd : Bool) (t : Table K) : Outcome (List (Event K) × Table K) := do
  let (evs, t1) ← clearLoop hash kd vd t.keys.size 0 t
  return (evs, { t1 with keys := SetT.clear t1.keys, size := 0 })

/-- `hashtable_size`, hashtable.c 457-462. -/
def hsize (t : Table K) : Nat := t.keys.size

/-- `hashtable_empty`, hashtable.c 464-472. -/
def empty (t : Table K) : Bool := t.size = 0

end HTable
end Verif
