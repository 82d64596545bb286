import Verif.Spec.HTable
import Verif.Model.Primes
import Verif.Spec.LList
import Verif.Model.LList
/-
Driving the collection models with histories of calls (the caller's side of the API; no library code here beyond the
calls themselves, each of which is modelled in its own file).
-/
namespace Verif
open Spec
variable {α : Type}

/-- One call on an `ArrayList` (list.c 99-331), with what it gives back. -/
def AList.step (cmp : α → α → Int) (l : AList α) : SeqOp α → Outcome (Ret α × AList α)
  | .append x => do let l' ← l.append x; return ((1, none), l')
  | .insertAt x pos => do let l' ← l.insertAt x pos; return ((1, none), l')
  | .replaceAt x pos => do let (r, l') ← l.replaceAt x pos; return ((r, none), l')
  | .removeAt pos => do let (o, l') ← l.removeAt pos; return ((if o.isSome then 1 else 0, o), l')
  | .remove x => do let (r, l') ← l.remove cmp x; return ((r, none), l')
  | .pop => do let (o, l') ← l.pop; return ((if o.isSome then 1 else -1, o), l')
  | .valueAt pos => do let o ← l.valueAt pos; return ((if o.isSome then 1 else 0, o), l)
  | .find x => do let r ← l.find cmp x false; return ((r, none), l)
  | .size => .ok ((l.size, none), l)
  | .clear => .ok ((0, none), l.clear false)

/-- A history of calls on an `ArrayList`. -/
def AList.run (cmp : α → α → Int) : AList α → List (SeqOp α) → Outcome (List (Ret α) × AList α)
  | l, [] => .ok ([], l)
  | l, op :: ops => do
    let (r, l') ← l.step cmp op
    let (rs, l'') ← run cmp l' ops
    return (r :: rs, l'')

/-- One call on a `set_t` (set.c 59-123), with what it gives back. -/
def SetT.step (cmp : α → α → Int) (s : AList α) : SetOp α → Outcome (Ret α × AList α)
  | .insert x => do let (r, s') ← SetT.insert cmp s x; return ((r, none), s')
  | .remove x => do let (r, s') ← SetT.remove cmp s x; return ((r, none), s')
  | .removeAt pos => do let (o, s') ← SetT.removeAt s pos; return ((if o.isSome then 1 else 0, o), s')
  | .find x => do let r ← SetT.find cmp s x; return ((r, none), s)
  | .valueAt pos => do let o ← SetT.valueAt s pos; return ((if o.isSome then 1 else 0, o), s)
  | .size => .ok ((s.size, none), s)

/-- A history of calls on a `set_t`. -/
def SetT.run (cmp : α → α → Int) : AList α → List (SetOp α) → Outcome (List (Ret α) × AList α)
  | s, [] => .ok ([], s)
  | s, op :: ops => do
    let (r, s') ← SetT.step cmp s op
    let (rs, s'') ← run cmp s' ops
    return (r :: rs, s'')

/-- The elements of an `ArrayList` as `array_list_value_at` 0, 1, 2, ... shows them (list.c 99-111). -/
def AList.contents (l : AList α) : List (Outcome (Option α)) := (List.range l.size).map l.valueAt

/-- Appending a whole list of elements, list.c 189-206. -/
def AList.appendAll (l : AList α) : List α → Outcome (AList α)
  | [] => .ok l
  | x :: xs => do let l' ← l.append x; l'.appendAll xs

/-- Inserting a whole list of elements into a set, set.c 59-83. -/
def SetT.insertAll (cmp : α → α → Int) (s : AList α) : List α → Outcome (AList α)
  | [] => .ok s
  | x :: xs => do let (_, s') ← SetT.insert cmp s x; insertAll cmp s' xs

/-- One call on a hash table (hashtable.c 183-326), with what it gives back. -/
def HTable.step {K : Type} (cmp : K → K → Int) (hash : K → Nat) (t : HTable.Table K) :
    MapOp K → Outcome (MapRet × HTable.Table K)
  | .insert k v => do let (r, b, t') ← HTable.insert cmp hash t k v; return ((r, b), t')
  | .lookup k buf => do let (r, b) ← HTable.lookup cmp hash t k buf; return ((r, b), t)
  | .remove k buf => do let (r, b, t') ← HTable.remove cmp hash t k buf; return ((r, b), t')

/-- A history of calls on a hash table. -/
def HTable.run {K : Type} (cmp : K → K → Int) (hash : K → Nat) : HTable.Table K → List (MapOp K) →
    Outcome (List MapRet × HTable.Table K)
  | t, [] => .ok ([], t)
  | t, op :: ops => do
    let (r, t') ← HTable.step cmp hash t op
    let (rs, t'') ← run cmp hash t' ops
    return (r :: rs, t'')

/-- One call on a `linkedlist` (linkedlist.c 189-454), with what it gives back. -/
def LList.step (cmp : α → α → Int) (l : LList α) : LOp α → Outcome (Ret α × LList α)
  | .frontAdd x => do let l' ← l.frontAdd x; return ((1, none), l')
  | .tailAdd x => do let l' ← l.tailAdd x; return ((1, none), l')
  | .valueAt pos => do let r ← l.valueAt pos; return (r, l)
  | .lookup x => do let o ← l.lookup cmp x; return ((if o.isSome then 1 else 0, o), l)
  | .head => do let o ← l.headData; return ((if o.isSome then 1 else 0, o), l)
  | .tail => do let o ← l.tailData; return ((if o.isSome then 1 else 0, o), l)
  | .size => .ok ((l.size, none), l)
  | .clear => do let l' ← l.clear; return ((0, none), l')
  | .remove x => do let (r, l') ← l.remove cmp x; return ((r, none), l')

/-- A history of calls on a `linkedlist`. -/
def LList.run (cmp : α → α → Int) : LList α → List (LOp α) → Outcome (List (Ret α) × LList α)
  | l, [] => .ok ([], l)
  | l, op :: ops => do
    let (r, l') ← l.step cmp op
    let (rs, l'') ← run cmp l' ops
    return (r :: rs, l'')

end Verif
