import Verif.Model.Cpp
/-
What C++ programs may do with `hdbscan` objects.
-/
namespace Verif.Spec
open Mem

/-- Where a C++ object is in its life. -/
inductive CppPhase where
  /-- constructed -/
  | made
  /-- constructed as a copy of another object, whose memory it shares -/
  | sharing
  /-- after `run` or `reRun` -/
  | ready
  /-- its life has ended -/
  | left
  deriving DecidableEq

/-- Tidy use: an object is run once, on at least five points, before its life ends; a copy is run before anything else is done with it; `clean()` is not called. -/
def tidyStep (ps : List CppPhase) : Act → Option (List CppPhase)
  | .make => some (ps ++ [.made])
  | .copyOf x => if ps[x]? = some .ready then some (ps ++ [.sharing]) else none
  | .run x _ n => if (ps[x]? = some .made ∨ ps[x]? = some .sharing) ∧ 5 ≤ n then some (ps.set x .ready) else none
  | .reRun x _ => if ps[x]? = some .ready then some ps else none
  | .clean _ => none
  | .leave x => if ps[x]? = some .ready then some (ps.set x .left) else none

def tidyFrom : List CppPhase → List Act → Option (List CppPhase)
  | ps, [] => some ps
  | ps, a :: r => (tidyStep ps a).bind (fun qs => tidyFrom qs r)

/-- A program that uses its objects tidily and has reached the given phases. -/
def Reaches (as : List Act) (ps : List CppPhase) : Prop := tidyFrom [] as = some ps

/-- A tidy program at the end of which no object is alive. -/
def Tidy (as : List Act) : Prop := ∃ ps, Reaches as ps ∧ ∀ p ∈ ps, p = .left

end Verif.Spec
