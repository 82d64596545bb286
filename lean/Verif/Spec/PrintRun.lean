import Verif.Spec.Print
import Verif.Spec.ScoreRun
/-
Vocabulary of C76 for the results of runs.
-/
namespace Verif.Spec

/-- How `printf` sees a `double` that is no NaN. -/
def doubleView : Num754 binary64 → Print.Dbl
  | .ninf => .inf true
  | .pinf => .inf false
  | .fin x => .fin (decide (x.1 < 0)) |x.1|

/-- All core distances in the list of outlier scores are below `10 ^ 60` (or infinite). -/
def CoresShort (scores : List (OScore (Num754 binary64) (Num754 binary64))) : Prop := ∀ o ∈ scores, ∀ x : Fin754 binary64, o.core = .fin x → |x.1| < 10 ^ 60

end Verif.Spec
