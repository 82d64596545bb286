import Verif.Model.SetT
/-
Specifications for the collection properties C01-C05: what an ideal sequence and an ideal ordered set do.
Nothing here refers to memory, capacities or searches.
-/
namespace Verif.Spec

/-- A three-way comparison function is a total preorder: swapping flips the sign, and "not greater" is transitive. -/
structure PreCmp {α : Type} (cmp : α → α → Int) : Prop where
  swap : ∀ a b, cmp a b < 0 ↔ 0 < cmp b a
  le_trans : ∀ a b c, cmp a b ≤ 0 → cmp b c ≤ 0 → cmp a c ≤ 0

/-- A three-way comparison function is a total order: additionally it is zero exactly on equal values. -/
structure LawfulCmp {α : Type} (cmp : α → α → Int) : Prop extends PreCmp cmp where
  eq_iff : ∀ a b, cmp a b = 0 ↔ a = b

/-! ### Sequences (C01) -/

/-- The operations of an `ArrayList` a caller can use on one list. -/
inductive SeqOp (α : Type)
  | append (x : α)
  | insertAt (x : α) (pos : Nat)
  | replaceAt (x : α) (pos : Nat)
  | removeAt (pos : Nat)
  | remove (x : α)
  | pop
  | valueAt (pos : Nat)
  | find (x : α)
  | size
  | clear

/-- What a call gives back: the return value and the element copied to the caller, if any. -/
abbrev Ret (α : Type) := Int × Option α

/-- The ideal sequence. `cmp y x = 0` is "y matches x". -/
def seqStep {α : Type} (cmp : α → α → Int) (xs : List α) : SeqOp α → Ret α × List α
  | .append x => ((1, none), xs ++ [x])
  | .insertAt x pos => ((1, none), xs.take pos ++ x :: xs.drop pos)
  | .replaceAt x pos => ((if pos < xs.length then 1 else 0, none), xs.set pos x)
  | .removeAt pos => ((if pos < xs.length then 1 else 0, xs[pos]?), xs.eraseIdx pos)
  | .remove x => ((if xs.any (fun y => cmp y x == 0) then 1 else -1, none), xs.eraseP (fun y => cmp y x == 0))
  | .pop => ((if xs = [] then -1 else 1, xs.getLast?), xs.dropLast)
  | .valueAt pos => ((if pos < xs.length then 1 else 0, xs[pos]?), xs)
  | .find x => ((match xs.findIdx? (fun y => cmp y x == 0) with | some i => (i : Int) | none => -1, none), xs)
  | .size => ((xs.length, none), xs)
  | .clear => ((0, none), [])

/-- The only call the API does not protect: inserting past the end. -/
def seqLegal {α : Type} (xs : List α) : SeqOp α → Prop
  | .insertAt _ pos => pos ≤ xs.length
  | _ => True

/-- Results and final sequence of a whole history. -/
def seqRun {α : Type} (cmp : α → α → Int) : List α → List (SeqOp α) → List (Ret α) × List α
  | xs, [] => ([], xs)
  | xs, op :: ops =>
    let (r, xs') := seqStep cmp xs op
    let (rs, xs'') := seqRun cmp xs' ops
    (r :: rs, xs'')

/-- Every insertion of the history is at a position that exists at that moment. -/
def seqLegalRun {α : Type} (cmp : α → α → Int) : List α → List (SeqOp α) → Prop
  | _, [] => True
  | xs, op :: ops => seqLegal xs op ∧ seqLegalRun cmp (seqStep cmp xs op).2 ops

/-! ### Ordered sets (C05) -/

/-- Strictly increasing. -/
def StrictSorted {α : Type} (cmp : α → α → Int) (xs : List α) : Prop := xs.Pairwise (fun a b => cmp a b < 0)

inductive SetOp (α : Type)
  | insert (x : α)
  | remove (x : α)
  | removeAt (pos : Nat)
  | find (x : α)
  | valueAt (pos : Nat)
  | size

/-- The increasing list of the elements of the set with `x` added. -/
def setInsert {α : Type} [DecidableEq α] (cmp : α → α → Int) (xs : List α) (x : α) : List α :=
  if x ∈ xs then xs
  else xs.filter (fun y => cmp y x < 0) ++ x :: xs.filter (fun y => cmp y x > 0)

/-- The ideal ordered set, given by the increasing list of its elements. -/
def setStep {α : Type} [DecidableEq α] (cmp : α → α → Int) (xs : List α) : SetOp α → Ret α × List α
  | .insert x => ((if x ∈ xs then 0 else 1, none), setInsert cmp xs x)
  | .remove x => ((if x ∈ xs then 1 else -1, none), xs.filter (fun y => y ≠ x))
  | .removeAt pos => ((if pos < xs.length then 1 else 0, xs[pos]?), xs.eraseIdx pos)
  | .find x => ((if x ∈ xs then ((xs.filter (fun y => cmp y x < 0)).length : Int) else -1, none), xs)
  | .valueAt pos => ((if pos < xs.length then 1 else 0, xs[pos]?), xs)
  | .size => ((xs.length, none), xs)

def setRun {α : Type} [DecidableEq α] (cmp : α → α → Int) : List α → List (SetOp α) → List (Ret α) × List α
  | xs, [] => ([], xs)
  | xs, op :: ops =>
    let (r, xs') := setStep cmp xs op
    let (rs, xs'') := setRun cmp xs' ops
    (r :: rs, xs'')

end Verif.Spec
