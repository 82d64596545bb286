import Verif.Model.Keys
import Verif.Spec.HTable
/-
Vocabulary of the properties C83 and C84.
-/
namespace Verif.Spec
open Keys

/-- Floating point numbers whose integral part is a `size_t`. -/
def Hashable (k : Dbl) : Prop := ∃ x : Rat, k = .fin x ∧ -1 < x ∧ x < 18446744073709551616

/-- The number that a key is. -/
def Dbl.value : Dbl → Rat
  | .fin x => x
  | _ => 0

/-- The same calls with other keys. -/
def rekey {K O : Type} (f : K → O) : MapOp K → MapOp O
  | .insert k v => .insert (f k) v
  | .lookup k b => .lookup (f k) b
  | .remove k b => .remove (f k) b

/-- The bytes of an address in memory (least significant first) before the first zero byte. -/
def prefixOf (a : Nat) : List Nat := (bytesOf a).takeWhile (· ≠ 0)

end Verif.Spec
