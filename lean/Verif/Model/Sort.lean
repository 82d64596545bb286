import Verif.Model.Histories
/-
`array_list_sort` and `set_sort`, and histories of calls on a list that include sorting and the search in sorted lists. Simplifications as in AList.lean;
`qsort` is a parameter, applied to the first `size` elements. It reads and writes only these, so that all of them must have been stored.
-/
namespace Verif
variable {α : Type}

/-- The first `k` elements from `i` on, as `qsort` reads them. -/
def AList.readFrom (l : AList α) : (k i : Nat) → Outcome (List α)
  | 0, _ => .ok []
  | k + 1, i => do
    let x ← l.readSlot i
    let xs ← readFrom l k (i + 1)
    return x :: xs

/-- `array_list_sort`, /repo/modules/collections/src/list.c 348-351. -/
def AList.sort (qsort : (α → α → Int) → List α → List α) (cmp : α → α → Int) (l : AList α) : Outcome (AList α) := do
  let xs ← l.readFrom l.size 0
  return { l with buf := (qsort cmp xs).map some ++ l.buf.drop l.size }

/-- `set_sort`, /repo/modules/collections/src/set.c 120-123. -/
def SetT.sort (qsort : (α → α → Int) → List α → List α) (cmp : α → α → Int) (s : AList α) : Outcome (AList α) := s.sort qsort cmp

/-- `int_ptr_compare` (/repo/modules/utils/src/utils.c 67-81), and the same text for `short`, `long` and `char` (147-161, 186-199, 260-273): the elements are
    addresses, `mem` is what is stored there. -/
def intPtrCompare (mem : Nat → Int) (a b : Nat) : Int :=
  if mem a > mem b then 1 else if mem a = mem b then 0 else -1

/-- The calls on a list, with sorting (list.c 348) and the search in a sorted list (`array_list_find(list, x, 1)`, list.c 270-277). -/
inductive SortOp (α : Type)
  | plain (op : Spec.SeqOp α)
  | sort
  | findSorted (x : α)

/-- One call, with what it gives back. -/
def AList.sortStep (qsort : (α → α → Int) → List α → List α) (cmp : α → α → Int) (l : AList α) : SortOp α → Outcome (Spec.Ret α × AList α)
  | .plain op => l.step cmp op
  | .sort => do
    let l' ← l.sort qsort cmp
    return ((0, none), l')
  | .findSorted x => do
    let r ← l.find cmp x true
    return ((r, none), l)

/-- A history of calls. -/
def AList.sortRun (qsort : (α → α → Int) → List α → List α) (cmp : α → α → Int) : AList α → List (SortOp α) → Outcome (List (Spec.Ret α) × AList α)
  | l, [] => .ok ([], l)
  | l, op :: ops => do
    let (r, l') ← l.sortStep qsort cmp op
    let (rs, l'') ← sortRun qsort cmp l' ops
    return (r :: rs, l'')

end Verif
