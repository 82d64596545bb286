import Verif.Model.Again
import Verif.Spec.Tree
/-
What the property about repeated selections talks about.
-/
namespace Verif.Spec
variable {W S : Type}

/-- A cluster without what it collected from the clusters below it when the clusters were selected: the total stability, the number of satisfied constraints and the list of selected clusters.
    The lowest death level below it stays. -/
def withoutSums (c : Cl W S) : Cl W S := { c with pncs := 0, propStability := c.stability, desc := [] }

/-- The clusters are the same but for those sums. -/
def SameButSums (cs cs' : List (Option (Cl W S))) : Prop := cs'.map (Option.map withoutSums) = cs.map (Option.map withoutSums)

/-- Sums that never fall, for the values satisfying `P`: adding one of them to a sum that exceeds something leaves it exceeding it. -/
structure Grows [CCmp S] (ar : Arith W S) (P : S → Prop) : Prop where
  zero : P ar.zeroS
  add : ∀ a b, P a → P b → P (ar.add a b)
  more : ∀ a b s, P a → P b → P s → CCmp.le a s = false → CCmp.le (ar.add a b) s = false

end Verif.Spec
