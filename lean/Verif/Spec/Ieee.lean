import Verif.Spec.Api
import Verif.Spec.Hierarchy
import Mathlib.Order.Basic
/-
Vocabulary of the properties about arbitrary data, NaN and infinities included.
-/
namespace Verif.Spec
variable {D W S T V : Type}

/-- The values of a floating point type: `nan`, and numbers `num v` (the infinities are among them). -/
inductive Ieee (V : Type) where
  | nan
  | num (v : V)
  deriving DecidableEq

/-- The comparisons of IEEE 754: every comparison with NaN is false, the others are those of the numbers. -/
instance [LinearOrder V] : CCmp (Ieee V) where
  lt
    | .num a, .num b => decide (a < b)
    | _, _ => false
  le
    | .num a, .num b => decide (a ≤ b)
    | _, _ => false
  eq
    | .num a, .num b => decide (a = b)
    | _, _ => false

/-- A data set that the library can read: at most 65536 rows, and `f i j` is the sum over the columns for the rows `i < j` (no read outside
    the data, no overflow of a signed difference). Nothing is assumed of the values. -/
structure Readable (env : Api.Env D W S T) (data : List D) (rows cols : Nat) (f : Nat → Nat → W) : Prop where
  few : rows ≤ 65536
  zero : env.dops.zero = env.ar.zeroW
  sum : ∀ i j, i < j → j < rows → SqSum env.dops data cols i j (f i j)

/-- `u` and `v` are connected by steps between different points below `n` such that the distance and the core distances of both
    points compare less than or equal to `w`. -/
def Linked [CCmp W] (n : Nat) (d : Nat → Nat → W) (core : Nat → W) (w : W) (u v : Nat) : Prop :=
  Relation.EqvGen (fun a b => a < n ∧ b < n ∧ a ≠ b ∧ CCmp.le (d a b) w = true ∧ CCmp.le (core a) w = true ∧ CCmp.le (core b) w = true) u v

/-- Nothing below `dmax`: greater, equal or not a number. -/
def NotBelow [CCmp W] (dmax x : W) : Prop := CCmp.lt x dmax = false

/-- The shape of a hierarchy over `n` points: lines numbered 1, 2, ... with decreasing weights, from a line in which all points carry label
    1 on, followed by line 0 in which all are noise; from one line to the next a point keeps its label, becomes noise, or gets a label that no
    point carried before; noise stays noise. -/
structure Nested [CCmp W] (n : Nat) (zero : W) (H : Lines W) : Prop where
  shape : ∃ L : Lines W, H = L ++ [(0, zero, List.replicate n 0)] ∧ L.map (·.1) = (List.range L.length).map (· + 1) ∧
    L.Pairwise (fun a b => CCmp.lt b.2.1 a.2.1 = true) ∧ (∀ e ∈ L, e.2.2.length = n) ∧ ∃ w, (1, w, List.replicate n 1) ∈ L
  next : ∀ i p l l', 1 ≤ i → Carries H i p l → Carries H (i + 1) p l' → l' = l ∨ (l ≠ 0 ∧ (l' = 0 ∨ ∀ j q, 1 ≤ j → j ≤ i → ¬ Carries H j q l'))

/-- A hierarchy line of weight `w` shows the components at level `w`: linked points carry the same label; points that carry the same label
    are linked (for label 1, that of the root: if they are linked at any level below `dmax`); points of a component of fewer than `m`
    points have label 0 (or label 1, if no level below `dmax` links them to more points), the others have not; and the core distance of a point
    that is not noise is at most `w`. -/
structure Shows [CCmp W] (n m : Nat) (d : Nat → Nat → W) (core : Nat → W) (dmax w : W) (A : List Nat) : Prop where
  together : ∀ u v, u < n → v < n → Linked n d core w u v → A[u]? = A[v]?
  apart : ∀ u v l, l ≠ 0 → A[u]? = some l → A[v]? = some l → l ≠ 1 ∨ (∃ w', CCmp.lt w' dmax = true ∧ Linked n d core w' u v) → Linked n d core w u v
  large : ∀ u l, l ≠ 0 → A[u]? = some l →
    AtLeast m (Linked n d core w u) ∨ (l = 1 ∧ ∀ v w', CCmp.lt w' dmax = true → Linked n d core w' u v → Linked n d core w u v)
  small : ∀ u, A[u]? = some 0 → ¬ AtLeast m (Linked n d core w u)
  alive : ∀ u l, l ≠ 0 → A[u]? = some l → CCmp.le (core u) w = true

/-- The documented order of outlier scores: by score, then core distance, then id. -/
def InOrder [CCmp W] [LinearOrder T] (a b : OScore W T) : Prop :=
  a.score < b.score ∨ a.score = b.score ∧ (CCmp.lt a.core b.core = true ∨ a.core = b.core ∧ a.id < b.id)

/-- A result for `n` points with distances `d` and core distances `core`. -/
structure Sound [CCmp W] [LinearOrder T] (ar : Arith W S) (n m : Nat) (d : Nat → Nat → W) (core : Nat → W) (r : Run.Full W S T) : Prop where
  nested : Nested n ar.zeroW r.hierarchy
  weights : ∀ i w A, (i, w, A) ∈ r.hierarchy → i ≠ 0 → CCmp.le w ar.dmax = true
  shown : ∀ i w A, (i, w, A) ∈ r.hierarchy → i ≠ 0 → CCmp.lt w ar.dmax = true → Shows n m d core ar.dmax w A
  tree : ClusterTree r.clusters
  siblings : NoOnlyChild r.clusters
  labels : ∃ root : Cl W S, r.clusters[1]? = some (some root) ∧ Selection r.clusters root.desc ∧ r.labels.length = n ∧
    (∀ p l, l ≠ 0 → (r.labels[p]? = some l ↔ l ∈ root.desc ∧ MemberAtBirth r.hierarchy l p)) ∧
    ∀ l ∈ root.desc, AtLeast m (fun p => r.labels[p]? = some l)
  everyone : (r.outliers.map (·.id)).Perm (List.range n)
  sorted : r.outliers.Pairwise InOrder
  cores : ∀ o ∈ r.outliers, o.core = core o.id

end Verif.Spec
