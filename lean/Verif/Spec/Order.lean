import Verif.Spec.Invariance
/-
Vocabulary of C62 and C107.
-/
namespace Verif.Spec
variable {W W' S S' : Type}

/-- The distances `d` and `d'` between `n` points compare alike. -/
def SameOrder [LinearOrder W] [LinearOrder W'] (n : Nat) (d : Nat → Nat → W) (d' : Nat → Nat → W') : Prop :=
  ∀ i j k l, i < n → j < n → k < n → l < n → (d i j < d k l ↔ d' i j < d' k l)

/-- `w` and `w'` are the distances of the same two points (0 for a point and itself). -/
def SamePair (n : Nat) (d : Nat → Nat → W) (d' : Nat → Nat → W') (w : W) (w' : W') : Prop := ∃ i j, i < n ∧ j < n ∧ w = d i j ∧ w' = d' i j

/-- The same lines with the same numbers of clusters; only the levels are other ones, related by `P`. -/
def LinesAlike (P : W → W' → Prop) (H : Lines W) (H' : Lines W') : Prop :=
  H.length = H'.length ∧ ∀ (k : Nat) (x : Nat × W × List Nat) (x' : Nat × W' × List Nat), H[k]? = some x → H'[k]? = some x' → x.1 = x'.1 ∧ P x.2.1 x'.2.1 ∧ x.2.2 = x'.2.2

/-- The same cluster; only its levels are other ones, related by `P`. -/
structure ClusterAlike (P : W → W' → Prop) (c : Cl W S) (c' : Cl W' S') : Prop where
  label : c.label = c'.label
  parent : c.parent = c'.parent
  hasChildren : c.hasChildren = c'.hasChildren
  offset : c.offset = c'.offset
  birth : (c.birth = none ∧ c'.birth = none) ∨ ∃ b b', c.birth = some b ∧ c'.birth = some b' ∧ P b b'
  death : P c.death c'.death

/-- The same clusters under the same numbers; only their levels are other ones, related by `P`. -/
def ClustersAlike (P : W → W' → Prop) (cs : List (Option (Cl W S))) (cs' : List (Option (Cl W' S'))) : Prop :=
  cs.length = cs'.length ∧ ∀ l : Nat, (∀ c : Cl W S, cs[l]? = some (some c) → ∃ c', cs'[l]? = some (some c') ∧ ClusterAlike P c c') ∧ ∀ c' : Cl W' S', cs'[l]? = some (some c') → ∃ c, cs[l]? = some (some c)

end Verif.Spec
