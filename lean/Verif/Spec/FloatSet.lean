import Verif.Spec.Ieee
import Verif.Spec.Collections
/-
Vocabulary of C116.
-/
namespace Verif.Spec
open Verif

/-- The call passes no NaN to the set. -/
def noNan {V : Type} : SetOp (Ieee V) → Prop
  | .insert x => x ≠ .nan
  | .remove x => x ≠ .nan
  | .find x => x ≠ .nan
  | _ => True

end Verif.Spec
