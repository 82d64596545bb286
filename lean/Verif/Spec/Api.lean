import Verif.Model.Api
import Verif.Spec.Distance
import Verif.Spec.Outlier
/-
Vocabulary of the properties C49, C51, C52 and C55.
-/
namespace Verif.Spec
variable {D W S T : Type}

/-- Every iteration of every parallel loop is executed exactly once. -/
structure Complete (rows n : Nat) (par : Api.Par) : Prop where
  pairs : par.pairs.Perm (Distance.pairs rows)
  cores : par.cores.Perm (List.range rows)
  sch : par.sch.Complete
  scores : par.scores.Perm (List.range n)

/-- A data set the library supports: `f i j` is the sum over the columns for the rows `i < j` (no read outside the data, no signed
    overflow), and the distances are less than `D_MAX`. -/
structure Supported [LinearOrder W] (env : Api.Env D W S T) (data : List D) (rows cols : Nat) (f : Nat → Nat → W) : Prop where
  few : rows ≤ 65536
  zero : env.dops.zero = env.ar.zeroW
  zero_lt : env.ar.zeroW < env.ar.dmax
  sum : ∀ i j, i < j → j < rows → SqSum env.dops data cols i j (f i j)
  lt : ∀ i j, i < j → j < rows → env.dops.sqrt (f i j) < env.ar.dmax

/-- The distance between two rows. -/
def distOf (ops : DistOps D W) (f : Nat → Nat → W) (i j : Nat) : W :=
  if i < j then ops.sqrt (f i j) else if i = j then ops.zero else ops.sqrt (f j i)

end Verif.Spec
