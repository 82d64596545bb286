import Verif.Model.FpStat
import Verif.Spec.Scale
/-
Vocabulary of C115.
-/
namespace Verif.Spec
open Verif

/-- Both calls succeed with results that are alike, or neither succeeds. -/
def SameOutcome {A B : Type} (P : A → B → Prop) (x : Outcome A) (y : Outcome B) : Prop :=
  (∃ a b, x = .ok a ∧ y = .ok b ∧ P a b) ∨ ((∀ a, x ≠ .ok a) ∧ ∀ b, y ≠ .ok b)

/-- Two distances, the second of which is the first one multiplied by `2 ^ k`. Both are finite numbers. -/
def ScaledDist (k : ℤ) (a b : Dbl) : Prop := ∃ x y, a = .num x ∧ b = .num y ∧ ScaledNum k x y

/-- The record of a cluster in two reports. The core distances are multiplied by `2 ^ k`; so are the distances between members, unless there is no distance to report (D_MAX and D_MIN take the place of the
    smallest and of the largest one). The confidences are the same. -/
structure SameRecord (k : ℤ) (v v' : DistVals Dbl) : Prop where
  minCr : ScaledDist k v.minCr v'.minCr
  maxCr : ScaledDist k v.maxCr v'.maxCr
  crConf : v'.crConf = v.crConf
  dr : (ScaledDist k v.minDr v'.minDr ∧ ScaledDist k v.maxDr v'.maxDr) ∨ (v.minDr = Fp.max ∧ v'.minDr = Fp.max ∧ v.maxDr = Fp.min ∧ v'.maxDr = Fp.min)
  drConf : v'.drConf = v.drConf

/-- Two reports that differ in the unit of length only. -/
structure SameReport (k : ℤ) (r r' : Report.Report Dbl) : Prop where
  map : r'.map = r.map
  labels : r'.distances.keys = r.distances.keys
  records : ∀ c v v', r.distances.lookup c = some v → r'.distances.lookup c = some v' → SameRecord k v v'
  stats : r'.stats = r.stats
  byLength : r'.byLength = r.byLength
  bySimilarity : r'.bySimilarity = r.bySimilarity

end Verif.Spec
