import Verif.Model.Histories
import Verif.Spec.LListMem
/-
Histories of calls on a linked list with removal by `linkedlist_lookup`.
-/
namespace Verif
open Spec
variable {α : Type}

/-- One call on a `linkedlist` (linkedlist.c 189-454), `linkedlist_lookup` with `remove` = 1 among them. -/
def LList.call (cmp : α → α → Int) (l : LList α) : LCall α → Outcome (Ret α × LList α)
  | .op o => l.step cmp o
  | .take x => do let (o, l') ← l.take cmp x; return ((if o.isSome then 1 else 0, o), l')

/-- A history of calls on a `linkedlist`. -/
def LList.calls (cmp : α → α → Int) : LList α → List (LCall α) → Outcome (List (Ret α) × LList α)
  | l, [] => .ok ([], l)
  | l, c :: cs => do
    let (r, l') ← l.call cmp c
    let (rs, l'') ← calls cmp l' cs
    return (r :: rs, l'')

end Verif
