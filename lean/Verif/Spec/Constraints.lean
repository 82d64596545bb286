import Verif.Model.Constraints
import Verif.Spec.Tree
/-
What it means to satisfy constraints.
-/
namespace Verif.Spec
variable {W S : Type}

open Classical in
/-- The constraints that a selection `T` satisfies: those recorded for the selected clusters, and those recorded for the virtual children (the noise) of the clusters that are split up,
    that is, of those that are neither selected nor below a selected cluster. -/
noncomputable def satisfied (cs : List (Option (Cl W S))) (calls : List ConstraintCall) (T : List Nat) : Nat :=
  (calls.map (fun c =>
    if c.virtual then (if ∃ t ∈ T, AtOrAbove cs t c.label then 0 else c.count)
    else (if c.label ∈ T then c.count else 0))).sum

end Verif.Spec
