import Mathlib.Data.List.Forall2
/-
Text files that hold tables of numbers.
-/
namespace Verif.Spec

/-- What may stand between two fields of a line. -/
def Separator (c : Char) : Prop := c = ' ' ∨ c = ',' ∨ c = '\t' ∨ c = '\r' ∨ c = '\x0b'

/-- A character of a field. -/
def FieldChar (c : Char) : Prop := ¬ Separator c ∧ c ≠ '\n' ∧ c ≠ '\x00'

/-- `Line fs l`: the line `l`, without its line feed, consists of the fields `fs` with separators between them and possibly around them. -/
inductive Line : List (List Char) → List Char → Prop
  | blank {s : List Char} : (∀ c ∈ s, Separator c) → Line [] s
  | field {s f t : List Char} {fs : List (List Char)} : (∀ c ∈ s, Separator c) → f ≠ [] → (∀ c ∈ f, FieldChar c) → (t = [] ∨ ∃ c r, t = c :: r ∧ Separator c) → Line fs t → Line (f :: fs) (s ++ f ++ t)

/-- `TextOf ls file`: the file consists of the lines `ls`, each ended by a line feed, which may be missing after the last one if that is not empty. -/
inductive TextOf : List (List Char) → List Char → Prop
  | nil : TextOf [] []
  | last {l : List Char} : l ≠ [] → TextOf [l] l
  | line {l t : List Char} {ls : List (List Char)} : TextOf ls t → TextOf (l :: ls) (l ++ '\n' :: t)

/-- `FileOf table n file`: the lines of the file are those of the table, one line per row; no line has more than `n` characters, and no field consists of a form feed. -/
def FileOf (table : List (List (List Char))) (n : Nat) (file : List Char) : Prop :=
  ∃ ls, TextOf ls file ∧ List.Forall₂ Line table ls ∧ (∀ l ∈ ls, l.length ≤ n) ∧ ∀ r ∈ table, ['\x0c'] ∉ r

end Verif.Spec
