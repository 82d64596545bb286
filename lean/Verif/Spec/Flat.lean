import Verif.Spec.Graph
/-
What a density cluster is (C97).
-/
namespace Verif.Spec

/-- The points below `n` with `P` are one component of the graph whose edges are the pairs with mutual reachability `m` less than `b`, and at `b` this component is joined with
    further points. -/
def DensityCluster {W : Type} [LinearOrder W] (n : Nat) (m : Nat → Nat → W) (b : W) (P : Nat → Prop) : Prop :=
  ∀ p, P p → (∀ q, q < n → (P q ↔ ∃ w, w < b ∧ Reachable n m w p q)) ∧ ∃ q, q < n ∧ Reachable n m b p q ∧ ¬ P q

end Verif.Spec
