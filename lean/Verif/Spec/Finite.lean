import Verif.Model.Fp
/-
Vocabulary of C108.
-/
namespace Verif.Spec
open Verif

/-- `0 <= d` holds in C: `d` is a number that is not negative, or `+inf`. It is not NaN. -/
def NotNegative (d : Dbl) : Prop := CCmp.le (Fp.of 0 : Dbl) d = true

/-- No distance or level in the results of a run is NaN or negative. -/
structure NumbersOnly (obj : Api.Obj Dbl Dbl (Num754 binary64)) : Prop where
  distances : ∀ d, some d ∈ obj.dis.distances → NotNegative d
  cores : ∀ d, some d ∈ obj.dis.coreDistances → NotNegative d
  levels : ∀ x ∈ obj.results.hierarchy, NotNegative x.2.1
  noise : ∀ d, some d ∈ obj.results.noise → NotNegative d
  births : ∀ c, some c ∈ obj.results.clusters → ∀ b, c.birth = some b → NotNegative b
  deaths : ∀ c, some c ∈ obj.results.clusters → NotNegative c.death
  lowest : ∀ c, some c ∈ obj.results.clusters → NotNegative c.propLowest
  scores : ∀ o ∈ obj.results.outliers, NotNegative o.core

end Verif.Spec
