import Verif.Model.ClusterMap
import Mathlib.Order.Basic
/-
Vocabulary of the properties C41, C42, C47, C48, C57 and C58.
-/
namespace Verif.Spec
variable {V W : Type}

/-- The keys ascend (as those of every table do, property C05). -/
def Ascending (m : KMap V) : Prop := m.keys.Pairwise (· < ·)

/-- The indices from `begin` to `end_ - 1` whose label is `k`, ascending. -/
def carriers (labels : List Nat) (begin end_ k : Nat) : List Nat := (List.range end_).filter (fun i => begin ≤ i ∧ labels[i]? = some k)

/-- `m` maps exactly the labels that occur in the range, each to the list of the indices that carry it. -/
structure IsClusterMap (labels : List Nat) (begin end_ : Nat) (m : KMap (List Nat)) : Prop where
  ascending : Ascending m
  lists : ∀ k l, m.lookup k = some l ↔ l = carriers labels begin end_ k ∧ l ≠ []

/-- `w` is the largest value with property `P`. -/
def Largest [LE W] (P : W → Prop) (w : W) : Prop := P w ∧ ∀ x, P x → x ≤ w

/-- `w` is the smallest value with property `P`. -/
def Smallest [LE W] (P : W → Prop) (w : W) : Prop := P w ∧ ∀ x, P x → w ≤ x

/-- The core distances of the members of a cluster. -/
def CoreOf (core : Nat → W) (l : List Nat) (x : W) : Prop := ∃ i ∈ l, x = core i

/-- The distances between two members of a cluster, earlier and later in the list. -/
def PairOf (d : Nat → Nat → W) (l : List Nat) (x : W) : Prop := ∃ i j, [i, j].Sublist l ∧ x = d i j

/-- The confidence of a cluster that a caller asks for: that of the core distances (`CORE_DISTANCE_TYPE`) or that of the intra-cluster distances. -/
def confidenceOf : (coreDistances : Bool) → DistVals W → W
  | true, v => v.crConf
  | false, v => v.drConf

end Verif.Spec
