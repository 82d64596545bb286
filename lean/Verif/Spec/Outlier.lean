import Verif.Model.Outlier
import Verif.Spec.Tree
import Verif.Spec.Hierarchy
/-
What the properties of the outlier scores talk about.
-/
namespace Verif.Spec
variable {W S T : Type}

/-- `cmp` is a total order on the elements of `xs`, as the C standard requires of a comparison function handed to `qsort`. -/
structure OrderOn {α : Type} (cmp : α → α → Int) (xs : List α) : Prop where
  swap : ∀ a ∈ xs, ∀ b ∈ xs, (cmp a b < 0 ↔ 0 < cmp b a)
  trans : ∀ a ∈ xs, ∀ b ∈ xs, ∀ c ∈ xs, cmp a b ≤ 0 → cmp b c ≤ 0 → cmp a c ≤ 0

/-- The contract of `qsort` (ISO C 7.22.5.2): given a total order it rearranges the array into ascending order. -/
def SortsAscending {α : Type} (q : (α → α → Int) → List α → List α) : Prop :=
  ∀ cmp xs, OrderOn cmp xs → (q cmp xs).Perm xs ∧ (q cmp xs).Pairwise (fun a b => cmp a b ≤ 0)

/-- The documented order of outlier scores: by score, then core distance, then id (outlier_score.h). -/
def Before [LinearOrder W] [LinearOrder T] (a b : OScore W T) : Prop :=
  a.score < b.score ∨ a.score = b.score ∧ (a.core < b.core ∨ a.core = b.core ∧ a.id < b.id)

/-- `w` is the smallest death level of the childless clusters at or below cluster `l`. -/
def LowestBelow [LinearOrder W] (cs : List (Option (Cl W S))) (l : Nat) (w : W) : Prop :=
  (∃ (t : Nat) (c : Cl W S), cs[t]? = some (some c) ∧ (∀ k, ¬ IsChild cs k t) ∧ AtOrAbove cs l t ∧ c.death = w) ∧
  ∀ (t : Nat) (c : Cl W S), cs[t]? = some (some c) → (∀ k, ¬ IsChild cs k t) → AtOrAbove cs l t → w ≤ c.death

end Verif.Spec
