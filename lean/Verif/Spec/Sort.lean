import Verif.Spec.Collections
import Verif.Model.Sort
/-
Specification for property C94: what the calls on a list that is sorted now and then may give back.
-/
namespace Verif.Spec
variable {α : Type}

/-- Calls after which a list in ascending order is still in ascending order. -/
def keepsOrder : SeqOp α → Bool
  | .append _ => false
  | .insertAt _ _ => false
  | .replaceAt _ _ => false
  | _ => true

/-- What a search for `x` may give back: the position of an element that compares equal; or -1, in a list in ascending order only if there is none. -/
def SearchResult (cmp : α → α → Int) (xs : List α) (ordered : Bool) (x : α) (r : Int) : Prop :=
  (∃ (j : Nat) (hj : j < xs.length), r = j ∧ cmp xs[j] x = 0) ∨ (r = -1 ∧ (ordered = true → ∀ y ∈ xs, cmp y x ≠ 0))

/-- `rs` are right answers to the calls `ops`, made on a list with the elements `xs`, and `ys` are the elements at the end. `ordered`: the list has been sorted
    (or emptied) and nothing has been put into it since. Sorting rearranges the elements into ascending order. -/
def RightAnswers (cmp : α → α → Int) : List α → Bool → List (SortOp α) → List (Ret α) → List α → Prop
  | xs, _, [], rs, ys => rs = [] ∧ ys = xs
  | xs, o, .plain op :: ops, rs, ys => ∃ rs', rs = (seqStep cmp xs op).1 :: rs' ∧
      RightAnswers cmp (seqStep cmp xs op).2 (o && keepsOrder op || (seqStep cmp xs op).2.isEmpty) ops rs' ys
  | xs, _, .sort :: ops, rs, ys => ∃ rs' zs, rs = (0, none) :: rs' ∧ zs.Perm xs ∧ zs.Pairwise (fun a b => cmp a b ≤ 0) ∧ RightAnswers cmp zs true ops rs' ys
  | xs, o, .findSorted x :: ops, rs, ys => ∃ rs' r, rs = (r, none) :: rs' ∧ SearchResult cmp xs o x r ∧ RightAnswers cmp xs o ops rs' ys

/-- The elements after a call, when sorting rearranges them as `q` does. -/
def elementsAfter (q : (α → α → Int) → List α → List α) (cmp : α → α → Int) (xs : List α) : SortOp α → List α
  | .plain op => (seqStep cmp xs op).2
  | .sort => q cmp xs
  | .findSorted _ => xs

/-- Every insertion of the history is at a position that exists at that moment (C01). -/
def LegalHistory (q : (α → α → Int) → List α → List α) (cmp : α → α → Int) : List α → List (SortOp α) → Prop
  | _, [] => True
  | xs, .plain op :: ops => seqLegal xs op ∧ LegalHistory q cmp (elementsAfter q cmp xs (.plain op)) ops
  | xs, op :: ops => LegalHistory q cmp (elementsAfter q cmp xs op) ops

end Verif.Spec
