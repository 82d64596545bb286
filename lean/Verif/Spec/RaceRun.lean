import Verif.Spec.Race
import Verif.Model.Api
/-
Vocabulary of property C63.
-/
namespace Verif.Spec
open Race
variable {W S T : Type}

/-- The choices made for the loop that assigns offsets are interleavings of its iterations: given the number of the line and the labels of the clusters born in that line. -/
def Interleaves (th : Nat → List Nat → List Access) : Prop := ∀ line born, Interleaving born.length (th line born)

/-- `lost` contains clusters only, never all clusters born in one line (`offset` is the number of the line before the first one that carries the label). -/
def Spares (cs : List (Option (Cl W S))) (lost : Nat → Bool) : Prop :=
  ∀ l, lost l = true → ∃ (c : Cl W S) (l' : Nat) (c' : Cl W S), cs[l]? = some (some c) ∧ cs[l']? = some (some c') ∧ c.offset ≠ 0 ∧ c'.offset = c.offset ∧ lost l' = false

/-- `b` is the object `a`, except that the clusters in `lost` have no offset and do not occur among the labels: the points that carry them in `a` are noise in `b`. -/
structure SameButLost (lost : Nat → Bool) (a b : Api.Obj W S T) : Prop where
  minPoints : b.minPoints = a.minPoints
  numPoints : b.numPoints = a.numPoints
  dis : b.dis = a.dis
  hierarchy : b.results.hierarchy = a.results.hierarchy
  noise : b.results.noise = a.results.noise
  last : b.results.last = a.results.last
  infinite : b.results.infinite = a.results.infinite
  outliers : b.results.outliers = a.results.outliers
  clusters : ∀ l, b.results.clusters[l]? = (a.results.clusters[l]?).map (fun (x : Option (Cl W S)) => x.map (fun c => if lost l then { c with offset := 0 } else c))
  labels : b.results.labels = a.results.labels.map (fun l => if lost l then 0 else l)

end Verif.Spec
