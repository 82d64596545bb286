import Verif.Spec.Marks
import Verif.Model.LList
import Mathlib.Data.Finset.Card
/-
Specification for C109: the memory of linked lists.
-/
namespace Verif.Spec
variable {α : Type}

/-- A call on a linked list; `take` is `linkedlist_lookup` with `remove` = 1. -/
inductive LCall (α : Type)
  | op (o : LOp α)
  | take (x : α)

/-- The ideal sequence: `take` gives the first match, or NULL, and takes it out. -/
def lCallStep (cmp : α → α → Int) (xs : List α) : LCall α → Ret α × List α
  | .op o => lStep cmp xs o
  | .take x =>
    (match xs.find? (fun y => cmp y x == 0) with | some y => (1, some y) | none => (0, none), xs.eraseP (fun y => cmp y x == 0))

def lCalls (cmp : α → α → Int) : List α → List (LCall α) → List (Ret α) × List α
  | xs, [] => ([], xs)
  | xs, c :: cs =>
    let (r, xs') := lCallStep cmp xs c
    let (rs, xs'') := lCalls cmp xs' cs
    (r :: rs, xs'')

/-- What a call takes out, as in the account of C15: `take` is a removal. -/
def LCall.asOp : LCall α → LOp α
  | .op o => o
  | .take x => .remove x

/-- How many of the calls took an element out and handed it to the caller, by what they gave back. -/
def taken : List (LCall α) → List (Ret α) → Nat
  | .take _ :: cs, r :: rs => (if r.1 = 1 then 1 else 0) + taken cs rs
  | _ :: cs, _ :: rs => taken cs rs
  | _, _ => 0

/-- `k` nodes of the heap have been allocated and not given back. -/
def NodesLeft (heap : Nat → Option (LNode α)) (k : Nat) : Prop := ∃ D : Finset Nat, (∀ a, a ∈ D ↔ heap a ≠ none) ∧ D.card = k

end Verif.Spec
