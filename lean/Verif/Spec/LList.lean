import Verif.Spec.Collections
/-
Specification for the linked list properties C14, C15.
-/
namespace Verif.Spec
variable {α : Type}

inductive LOp (α : Type)
  | frontAdd (x : α)
  | tailAdd (x : α)
  | valueAt (pos : Int)
  | lookup (x : α)
  | head
  | tail
  | size
  | clear
  | remove (x : α)

/-- The ideal sequence. Calls that return a pointer give back 1 and what it points to, or 0 for NULL. -/
def lStep (cmp : α → α → Int) (xs : List α) : LOp α → Ret α × List α
  | .frontAdd x => ((1, none), x :: xs)
  | .tailAdd x => ((1, none), xs ++ [x])
  | .valueAt pos =>
    (if 0 ≤ pos ∧ pos < xs.length then (pos, xs[pos.toNat]?) else (-1, none), xs)
  | .lookup x =>
    (match xs.find? (fun y => cmp y x == 0) with | some y => (1, some y) | none => (0, none), xs)
  | .head => (match xs.head? with | some y => (1, some y) | none => (0, none), xs)
  | .tail => (match xs.getLast? with | some y => (1, some y) | none => (0, none), xs)
  | .size => ((xs.length, none), xs)
  | .clear => ((0, none), [])
  | .remove x => ((if xs.any (fun y => cmp y x == 0) then 1 else 0, none), xs.eraseP (fun y => cmp y x == 0))

def lRun (cmp : α → α → Int) : List α → List (LOp α) → List (Ret α) × List α
  | xs, [] => ([], xs)
  | xs, op :: ops =>
    let (r, xs') := lStep cmp xs op
    let (rs, xs'') := lRun cmp xs' ops
    (r :: rs, xs'')

/-- Every removal of the history is of the front element (at that moment) or of an absent element. -/
def removesAtFront (cmp : α → α → Int) : List α → List (LOp α) → Prop
  | _, [] => True
  | xs, op :: ops =>
    (match op with
      | .remove x => ∀ y ∈ xs.tail, cmp y x = 0 → ∃ h ∈ xs.head?, cmp h x = 0
      | _ => True) ∧ removesAtFront cmp (lStep cmp xs op).2 ops

end Verif.Spec
