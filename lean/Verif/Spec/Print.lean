import Verif.Model.Print
/-
Vocabulary of the properties of the printing functions (C76 to C78).
-/
namespace Verif.Spec
open Verif.Print

/-- The clock works: the date fits into the 100 characters reserved for it ("[2024-02-29 23:59:59]" has 21) and is text. -/
def ClockWorks (sys : Sys) : Prop := ∀ k, (sys.date k).length < 100 ∧ '\x00' ∉ sys.date k

/-- The call returns, having written exactly `t` to the standard output and nothing to files. -/
def Prints (x : Outcome World) (w : World) (t : Text) : Prop := ∃ w', x = .ok w' ∧ w'.out = w.out ++ t ∧ w'.files = w.files

/-- The number is printed with at most `k` digits before the decimal point when `p` follow it: it rounds to less than `10^k`. NaN and the
    infinities are printed as words. -/
def AtMost (p k : Nat) : Dbl → Prop
  | .nan _ => True
  | .inf _ => True
  | .fin _ mag => 0 ≤ mag ∧ mag < 10 ^ k - 1 / 2 / 10 ^ p

/-- No minus sign on a finite number. -/
def Dbl.Plain : Dbl → Prop
  | .fin neg mag => neg = false ∧ 0 ≤ mag
  | _ => True

/-- The largest finite `double`, `D_MAX`. -/
def dblMax : Dbl := .fin false ((2 ^ 53 - 1) * 2 ^ 971)

/-- A number in decimal notation. -/
def decimal (n : Nat) : Text := (toString n).toList

/-- One line of the printed cluster map: the label, then the indices of the points. -/
def mapLine (e : Nat × List Nat) : Text := decimal e.1 ++ " -> [".toList ++ e.2.flatMap (fun i => decimal i ++ " ".toList) ++ "]\n".toList

/-- One line of the printed sizes: the label, then the number of points. -/
def sizeLine (e : Nat × List Nat) : Text := decimal e.1 ++ " : ".toList ++ decimal e.2.length ++ "\n".toList

end Verif.Spec

namespace Verif.Spec
open Verif.Print
variable {W : Type}

/-- One line of the printed hierarchy: the level, its weight, then the labels of the points. -/
def levelLine (view : W → Dbl) (e : Nat × W × List Nat) : Text :=
  decimal e.1 ++ " : ".toList ++ fmtF 15 (view e.2.1) ++ " -> [".toList ++ e.2.2.flatMap (fun x => decimal x ++ " ".toList) ++ "]\n".toList

end Verif.Spec
