import Mathlib.Data.List.Basic
import Mathlib.Logic.Relation
import Verif.Model.Cluster
/-
What the properties of cluster selection talk about: cluster trees, ancestors, selections.
-/
namespace Verif.Spec
variable {W S : Type}

/-- `l` is the label of a cluster and `q` that of its parent. -/
def IsChild (cs : List (Option (Cl W S))) (l q : Nat) : Prop := ∃ c : Cl W S, cs[l]? = some (some c) ∧ c.parent = some q

/-- A cluster tree as the hierarchy construction leaves it (property C28): index 0 is null, all other indices hold a cluster, labelled
    with its index; the root is cluster 1; parents have smaller labels; `hasChildren` tells which clusters are parents. -/
structure ClusterTree (cs : List (Option (Cl W S))) : Prop where
  zero : cs[0]? = some none
  two : 2 ≤ cs.length
  cl : ∀ l, 1 ≤ l → l < cs.length → ∃ c : Cl W S, cs[l]? = some (some c) ∧ c.label = l
  root : ∀ (l : Nat) (c : Cl W S), cs[l]? = some (some c) → (c.parent = none ↔ l = 1)
  up : ∀ l q, IsChild cs l q → 1 ≤ q ∧ q < l
  kids : ∀ (l : Nat) (c : Cl W S), cs[l]? = some (some c) → (c.hasChildren = true ↔ ∃ l', IsChild cs l' l)

/-- No cluster is an only child. -/
def NoOnlyChild (cs : List (Option (Cl W S))) : Prop := ∀ l q, IsChild cs l q → ∃ l', l' ≠ l ∧ IsChild cs l' q

/-- Nothing has been propagated yet. -/
def Unpropagated (ar : Arith W S) (cs : List (Option (Cl W S))) : Prop :=
  ∀ (l : Nat) (c : Cl W S), cs[l]? = some (some c) → c.propStability = ar.zeroS ∧ c.propLowest = ar.dmax ∧ c.desc = []

/-- `a` is a proper ancestor of `l`. -/
def Above (cs : List (Option (Cl W S))) (a l : Nat) : Prop := Relation.TransGen (IsChild cs) l a

/-- `a` is `l` or an ancestor of it. -/
def AtOrAbove (cs : List (Option (Cl W S))) (a l : Nat) : Prop := Relation.ReflTransGen (IsChild cs) l a

/-- A leaf below the root. -/
def Leaf (cs : List (Option (Cl W S))) (l : Nat) : Prop := (∃ q, IsChild cs l q) ∧ ∀ l', ¬ IsChild cs l' l

/-- A set of clusters below the root, none of them above another one, such that every leaf below the root is in the set or below
    one of its members. -/
structure Selection (cs : List (Option (Cl W S))) (T : List Nat) : Prop where
  nodup : T.Nodup
  notRoot : ∀ t ∈ T, ∃ q, IsChild cs t q
  apart : ∀ s ∈ T, ∀ t ∈ T, ¬ Above cs s t
  covers : ∀ l, Leaf cs l → ∃ t ∈ T, AtOrAbove cs t l

/-- The stability recorded for label `l` (0 if there is no such cluster). -/
def stabilityOf (zero : S) (cs : List (Option (Cl W S))) (l : Nat) : S :=
  match cs[l]? with
  | some (some c) => c.stability
  | _ => zero

end Verif.Spec
