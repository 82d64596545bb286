import Verif.Model.Outcome
/-
Memory-level model of `linkedlist`, /repo/modules/collections/src/linkedlist.c: nodes on a heap.

Simplifications: allocation never fails; node data are abstract values (always copied whole, `step` bytes); the list
pointer is not NULL; the size does not reach `INT_MAX`.
-/
namespace Verif

/-- `node`, linkedlist.h. -/
structure LNode (α : Type) where
  data : α
  next : Option Nat
  prev : Option Nat
  deriving Repr, DecidableEq

/-- `linkedlist`, linkedlist.h, with the heap its nodes live on; `fresh` is the next address `malloc` hands out. -/
structure LList (α : Type) where
  size : Int
  head : Option Nat
  tail : Option Nat
  heap : Nat → Option (LNode α)
  fresh : Nat

namespace LList
variable {α : Type}

/-- `linkedlist_init`, linkedlist.c 56-71. -/
def init : LList α := { size := 0, head := none, tail := none, heap := fun _ => none, fresh := 0 }

/-- Follow a pointer that is assumed not to be NULL. -/
def deref (l : LList α) (p : Option Nat) : Outcome (Nat × LNode α) :=
  match p with
  | none => .ub "null pointer"
  | some a =>
    match l.heap a with
    | some n => .ok (a, n)
    | none => .ub "access to a freed node"

/-- Store a node. -/
def store (l : LList α) (a : Nat) (n : LNode α) : LList α :=
  { l with heap := fun x => if x = a then some n else l.heap x }

/-- Give the node at an address back, linkedlist.c 123-124. -/
def free (l : LList α) (a : Nat) : LList α :=
  { l with heap := fun x => if x = a then none else l.heap x }

/-- `node_destroy`, linkedlist.c 117-128: reads the node, so that one given back already is an access to freed memory. -/
def destroy (l : LList α) (a : Nat) : Outcome (LList α) := do
  let _ ← deref l (some a)
  return free l a

/-- `node_creator`, linkedlist.c 93-108: the address of the new node. -/
def nodeCreator (l : LList α) (x : α) : Nat × LList α :=
  (l.fresh, { store l l.fresh { data := x, next := none, prev := none } with fresh := l.fresh + 1 })

/-- `linkedlist_front_add` with `linkedlist_node_front_add`, linkedlist.c 134-156, 189-200. -/
def frontAdd (l : LList α) (x : α) : Outcome (LList α) := do
  let (a, l1) := nodeCreator l x
  if l1.size > 0 then do
    let (h, n) ← deref l1 l1.head
    let l2 := store l1 h { n with prev := some a }
    let (_, m) ← deref l2 (some a)
    let l3 := store l2 a { m with next := l2.head }
    return { l3 with head := some a, size := l3.size + 1 }
  else return { l1 with tail := some a, head := some a, size := l1.size + 1 }

/-- `linkedlist_tail_add` with `linkedlist_node_tail_add`, linkedlist.c 161-184, 206-216. -/
def tailAdd (l : LList α) (x : α) : Outcome (LList α) := do
  let (a, l1) := nodeCreator l x
  if l1.size > 0 then do
    let (t, n) ← deref l1 l1.tail
    let l2 := store l1 t { n with next := some a }
    let (_, m) ← deref l2 (some a)
    let l3 := store l2 a { m with prev := l2.tail }
    return { l3 with tail := some a, size := l3.size + 1 }
  else return { l1 with head := some a, tail := some a, size := l1.size + 1 }

/-- `linkedlist_lookup_helper`, linkedlist.c 226-241, from pointer `p` on; `fuel` bounds the loop. -/
def lookupFrom (cmp : α → α → Int) (l : LList α) (x : α) : (fuel : Nat) → Option Nat → Outcome (Option Nat)
  | _, none => .ok none
  | 0, some _ => .diverge
  | fuel + 1, some a => do
    let (_, n) ← deref l (some a)
    if cmp n.data x = 0 then return some a
    else lookupFrom cmp l x fuel n.next

/-- `linkedlist_lookup_helper`, linkedlist.c 226-241. -/
def lookupHelper (cmp : α → α → Int) (l : LList α) (x : α) : Outcome (Option Nat) :=
  lookupFrom cmp l x (l.fresh + 1) l.head

/-- First half of `linkedlist_node_unhook`, linkedlist.c 256-267. -/
def unhookPrev (l : LList α) (a : Nat) : Outcome (LList α) := do
  let (_, n) ← deref l (some a)
  match n.prev with
  | some p => do
    let (_, m) ← deref l (some p)
    let l1 := store l p { m with next := n.next }
    let (_, n1) ← deref l1 (some a)
    return store l1 a { n1 with prev := none }
  | none => do
    let l1 := { l with head := n.next }
    match n.next with
    | some b => do
      let (_, m) ← deref l1 (some b)
      return store l1 b { m with prev := none }
    | none => return l1

/-- Second half of `linkedlist_node_unhook`, linkedlist.c 270-282. -/
def unhookNext (l : LList α) (a : Nat) : Outcome (LList α) := do
  let (_, n) ← deref l (some a)
  match n.next with
  | some b => do
    let (_, m) ← deref l (some b)
    let l1 := store l b { m with prev := n.prev }
    let (_, n1) ← deref l1 (some a)
    let l2 := store l1 a { n1 with next := none }
    return { l2 with size := l2.size - 1 }
  | none => do
    let l1 := { l with tail := n.prev }
    match n.prev with
    | some p => do
      let (_, m) ← deref l1 (some p)
      let l2 := store l1 p { m with next := none }
      return { l2 with size := l2.size - 1 }
    | none => return { l1 with size := l1.size - 1 }

/-- `linkedlist_node_unhook`, linkedlist.c 246-283. -/
def unhook (l : LList α) (a : Nat) : Outcome (LList α) :=
  if l.size = 0 then .ok l
  else do
    let l1 ← unhookPrev l a
    unhookNext l1 a

/-- `linkedlist_lookup` without removal, linkedlist.c 288-299: what the returned pointer points to, `none` for NULL. -/
def lookup (cmp : α → α → Int) (l : LList α) (x : α) : Outcome (Option α) := do
  match ← lookupHelper cmp l x with
  | none => return none
  | some a => do
    let (_, n) ← deref l (some a)
    return some n.data

/-- `linkedlist_remove`, linkedlist.c 305-327. -/
def remove (cmp : α → α → Int) (l : LList α) (x : α) : Outcome (Int × LList α) := do
  match ← lookupHelper cmp l x with
  | none => return (0, l)
  | some a => do
    let l1 ← unhook l a
    let l2 ← destroy l1 a
    return (1, l2)

/-- `linkedlist_lookup` with `remove` = 1, linkedlist.c 288-299: the node is unhooked but not given back; the pointer returned is to its data. -/
def take (cmp : α → α → Int) (l : LList α) (x : α) : Outcome (Option α × LList α) := do
  match ← lookupHelper cmp l x with
  | none => return (none, l)
  | some a => do
    let l1 ← unhook l a
    let (_, n) ← deref l1 (some a)
    return (some n.data, l1)

/-- The loop of `linkedlist_clear`, linkedlist.c 351-361. -/
def clearFrom : (fuel : Nat) → LList α → Option Nat → Outcome (LList α)
  | _, l, none => .ok l
  | 0, _, some _ => .diverge
  | fuel + 1, l, some a => do
    let (_, n) ← deref l (some a)
    let l1 ← unhook l a
    let l2 ← destroy l1 a
    clearFrom fuel l2 n.next

/-- `linkedlist_clear`, linkedlist.c 349-366. -/
def clear (l : LList α) : Outcome (LList α) := do
  let l1 ← clearFrom (l.fresh + 1) l l.head
  return { l1 with head := none, tail := none }

/-- `linkedlist_delete`, linkedlist.c 335-342: the heap it leaves (the list's own block, given back last, is not on this heap). -/
def delete (l : LList α) : Outcome (Nat → Option (LNode α)) := do
  let l1 ← clear l
  return l1.heap

/-- `linkedlist_empty`, linkedlist.c 413-421: 1 if the list is *not* empty. -/
def empty (l : LList α) : Int := if l.size ≤ 0 then 0 else 1

/-- `linkedlist_tail`, linkedlist.c 375-388. -/
def tailData (l : LList α) : Outcome (Option α) :=
  if empty l = 0 then .ok none
  else
    match l.tail with
    | none => .ok none
    | some t => do
      let (_, n) ← deref l (some t)
      return some n.data

/-- `linkedlist_head`, linkedlist.c 397-405. -/
def headData (l : LList α) : Outcome (Option α) :=
  if empty l = 0 then .ok none
  else
    match l.head with
    | none => .ok none
    | some t => do
      let (_, n) ← deref l (some t)
      return some n.data

/-- The loop of `linkedlist_value_at`, linkedlist.c 439-451. -/
def valueFrom (l : LList α) (pos : Int) : (fuel : Nat) → Int → Option Nat → Outcome (Int × Option α)
  | _, _, none => .ok (-1, none)
  | 0, _, some _ => .diverge
  | fuel + 1, i, some a => do
    let (_, n) ← deref l (some a)
    if i = pos then return (i, some n.data)
    else valueFrom l pos fuel (i + 1) n.next

/-- `linkedlist_value_at`, linkedlist.c 432-454: the return value and what was copied to the caller. -/
def valueAt (l : LList α) (pos : Int) : Outcome (Int × Option α) :=
  if pos ≥ l.size then .ok (-1, none)
  else valueFrom l pos (l.fresh + 1) 0 l.head

end LList
end Verif
