import Verif.Model.Cluster
import Mathlib.Algebra.Order.Field.Basic
/-
Exact arithmetic for stabilities, over any ordered field.
-/
namespace Verif.Spec

/-- Levels and stabilities in a field: `numPoints * (1/level - 1/birthLevel)`, cluster.c 124. The root has birth level NaN in
    the code; its stability is not used by any property. -/
def exact (K : Type) [Field K] (dmax : K) : Arith K K where
  zeroW := 0
  dmax := dmax
  zeroS := 0
  add := (· + ·)
  term k level birth := match birth with
    | some b => (k : K) * (1 / level - 1 / b)
    | none => 0

end Verif.Spec
