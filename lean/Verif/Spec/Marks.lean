import Verif.Spec.LList
/-
Specification for the second part of C15: which calls on a linked list go wrong after removals. An account of the list is kept: its elements with, for each, whether its link
to the element in front of it is lost (by removing the element that was in front of it), and whether the pointer to the last element is lost (by removing the last element).
-/
namespace Verif.Spec
variable {α : Type}

/-- The elements of a list, `true` for those whose link to the element in front is lost, and whether the pointer to the last element is lost. -/
structure Account (α : Type) where
  elems : List (α × Bool)
  tailLost : Bool

/-- Mark the first element. -/
def setFirst (lost : Bool) : List (α × Bool) → List (α × Bool)
  | [] => []
  | (x, _) :: r => (x, lost) :: r

/-- Take out the first element for which `p` holds; the one behind it loses its link. -/
def takeOut (p : α → Bool) : List (α × Bool) → List (α × Bool)
  | [] => []
  | (x, c) :: r => if p x then setFirst true r else (x, c) :: takeOut p r

/-- The first element for which `p` holds is the last element but not the only one. -/
def takesLast (p : α → Bool) (l : List (α × Bool)) : Bool := (l.dropWhile (fun e => !p e.1)).length == 1 && l.length != 1

/-- The account after a call. -/
def accountStep (cmp : α → α → Int) (m : Account α) : LOp α → Account α
  | .frontAdd x => ⟨(x, false) :: setFirst false m.elems, m.tailLost && !m.elems.isEmpty⟩
  | .tailAdd x => ⟨m.elems ++ [(x, false)], false⟩
  | .clear => ⟨[], false⟩
  | .remove x => ⟨takeOut (fun y => cmp y x == 0) m.elems, m.tailLost || takesLast (fun y => cmp y x == 0) m.elems⟩
  | _ => m

/-- The call goes wrong: it needs the last element and the pointer to it is lost, or it removes an element whose link is lost and that is not the first. -/
def GoesWrong (cmp : α → α → Int) (m : Account α) : LOp α → Prop
  | .tail => m.tailLost = true ∧ m.elems ≠ []
  | .tailAdd _ => m.tailLost = true ∧ m.elems ≠ []
  | .remove x => ∃ l y r, m.elems = l ++ (y, true) :: r ∧ l ≠ [] ∧ cmp y x = 0 ∧ ∀ z ∈ l, cmp z.1 x ≠ 0
  | _ => False

/-- No call of the history goes wrong. -/
def GoodHistory (cmp : α → α → Int) : Account α → List (LOp α) → Prop
  | _, [] => True
  | m, op :: ops => ¬ GoesWrong cmp m op ∧ GoodHistory cmp (accountStep cmp m op) ops

/-- The account after a history. -/
def accountAfter (cmp : α → α → Int) (m : Account α) (ops : List (LOp α)) : Account α := ops.foldl (accountStep cmp) m

end Verif.Spec
