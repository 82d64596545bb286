import Verif.Spec.Graph
/-
What the hierarchy properties talk about: admissible spanning tree inputs, hierarchy lines, points in lines.
-/
namespace Verif.Spec

/-- The input of the hierarchy construction: parallel edge arrays `va`, `vb`, `wt` over `n` points, sorted by weight, that connect
    all points and hold at most one self edge per point, and neighbour lists that describe exactly those edges. -/
structure TreeInput {W : Type} [LinearOrder W] (n : Nat) (va vb : List Nat) (wt : List W) (adj : List (List Nat)) : Prop where
  nonempty : 1 ≤ wt.length
  lenA : va.length = wt.length
  lenB : vb.length = wt.length
  endA : ∀ a ∈ va, a < n
  endB : ∀ b ∈ vb, b < n
  sorted : wt.Pairwise (· ≤ ·)
  adj : Describes n adj (va.zip vb)
  spans : Spans n (va.zip vb)
  self : ∀ v, (va.zip vb).countP (joins v v) ≤ 1

/-- A hierarchy: line number, edge weight, labels of all points. -/
abbrev Lines (W : Type) := List (Nat × W × List Nat)

/-- In line `i` point `p` carries label `l`. -/
def Carries {W : Type} (H : Lines W) (i p l : Nat) : Prop := ∃ w A, (i, w, A) ∈ H ∧ A[p]? = some l

/-- Line `i` belongs to edge weight `w`. -/
def HasWeight {W : Type} (H : Lines W) (i : Nat) (w : W) : Prop := ∃ A, (i, w, A) ∈ H

/-- Some line `i ≥ 1` is the last one in which point `p` carries label `l`, and it belongs to weight `w`. -/
def LeavesAt {W : Type} (H : Lines W) (l p : Nat) (w : W) : Prop :=
  ∃ i, 1 ≤ i ∧ Carries H i p l ∧ HasWeight H i w ∧ ∀ j, i < j → ¬ Carries H j p l

/-- At least `m` different things satisfy `P`. -/
def AtLeast (m : Nat) (P : Nat → Prop) : Prop := ∃ l : List Nat, l.Nodup ∧ m ≤ l.length ∧ ∀ v ∈ l, P v

/-- Point `p` is a member of cluster `l` when `l` appears for the first time. -/
def MemberAtBirth {W : Type} (H : Lines W) (l p : Nat) : Prop :=
  ∃ i, 1 ≤ i ∧ Carries H i p l ∧ ∀ j p', 1 ≤ j → j < i → ¬ Carries H j p' l

end Verif.Spec
