import Verif.Model.Num
import Verif.Spec.Order
/-
Vocabulary of C107.
-/
namespace Verif.Spec
open Verif

/-- The values of `data'` are `2 ^ k` times those of `data`, exactly. -/
def ScaledData (k : ℤ) (data data' : List (Fin754 binary64)) : Prop := data'.map (fun x => x.1) = data.map fun x => 2 ^ k * x.1

/-- The finite number `b` is `2 ^ k` times the finite number `a`, exactly. -/
def ScaledNum (k : ℤ) (a b : Num754 binary64) : Prop := ∃ x y : Fin754 binary64, a = .fin x ∧ b = .fin y ∧ y.1 = 2 ^ k * x.1

/-- The same for the values of stabilities, which may also be both `+inf` or both NaN. -/
def ScaledVal (k : ℤ) (a b : Dbl) : Prop := (a = .nan ∧ b = .nan) ∨ (a = .num .pinf ∧ b = .num .pinf) ∨ ∃ x y, a = .num x ∧ b = .num y ∧ ScaledNum k x y

/-- The scores are the same; only the core distances in them are scaled. -/
def ScoresScaled (k : ℤ) (s s' : List (OScore (Num754 binary64) (Num754 binary64))) : Prop :=
  s.length = s'.length ∧ ∀ (i : Nat) (a b : OScore (Num754 binary64) (Num754 binary64)), s[i]? = some a → s'[i]? = some b → a.id = b.id ∧ a.score = b.score ∧ ScaledNum k a.core b.core

end Verif.Spec
