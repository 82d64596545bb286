import Verif.Model.SkewKurt
import Verif.Spec.Stats
import Mathlib.Logic.Relation
/-
Skewness and kurtosis of a sample as spreadsheets define them (the functions SKEW and KURT that the comment in /repo/src/hdbscan.c 1358-1361 refers to), and executions with several threads.
-/
namespace Verif.Spec
variable {K : Type} [Field K]

/-- SKEW: n / ((n - 1) (n - 2)) · Σ ((x - mean) / s)^3. -/
def sheetSkew (xs : List K) (s : K) : K :=
  (xs.length : K) / (((xs.length : K) - 1) * ((xs.length : K) - 2)) * (xs.map (fun x => ((x - mean xs) / s) ^ 3)).sum

/-- KURT: n (n + 1) / ((n - 1) (n - 2) (n - 3)) · Σ ((x - mean) / s)^4 - 3 (n - 1)^2 / ((n - 2) (n - 3)). -/
def sheetKurt (xs : List K) (s : K) : K :=
  (xs.length : K) * ((xs.length : K) + 1) / (((xs.length : K) - 1) * ((xs.length : K) - 2) * ((xs.length : K) - 3)) * (xs.map (fun x => ((x - mean xs) / s) ^ 4)).sum -
    3 * ((xs.length : K) - 1) ^ 2 / (((xs.length : K) - 2) * ((xs.length : K) - 3))

/-- `m` is what the fields can hold when `threads` threads have executed a body, starting with the fields `m0`. -/
def Leaves {W : Type} (o : Stat.Ops W) (threads : Nat) (body : List (Stat.Act W)) (m0 m : Stat.Cell → W) : Prop :=
  ∃ reg s, Relation.ReflTransGen (Stat.Step o) (Stat.start threads body reg m0) s ∧ s.done ∧ s.mem = m

end Verif.Spec
