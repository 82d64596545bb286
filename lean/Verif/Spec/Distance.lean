import Verif.Model.Distance
import Mathlib.Analysis.Real.Sqrt
import Mathlib.Algebra.BigOperators.Group.Finset.Basic
/-
Specification for the distance properties C17-C20.
-/
namespace Verif.Spec

/-- `x` is the `k`-th smallest element of `ts` (k = 1 is the smallest): fewer than `k` elements are below `x`, and at least
    `k` are not above it. -/
def IsKth {W : Type} [LinearOrder W] (ts : List W) (k : Nat) (x : W) : Prop :=
  ts.countP (fun t => decide (t < x)) < k ∧ k ≤ ts.countP (fun t => decide (t ≤ x))

/-- Among the distances `d 0, ..., d (n - 1)`, with `k` at most 2 or equal to `n` any may repeat; otherwise every distance that occurs twice is the smallest of all or has fewer than `k` distances up to
    it, so that it is smaller than the `k`-th smallest. -/
def TiesBelow {W : Type} [LinearOrder W] (n k : Nat) (d : Nat → W) : Prop :=
  k ≤ 2 ∨ k = n ∨ ∀ j j', j < n → j' < n → j ≠ j' → d j = d j' → (∀ l, l < n → d j ≤ d l) ∨ (List.range n).countP (fun l => decide (d l ≤ d j)) < k

/-- Exact real arithmetic. -/
noncomputable def realOps : DistOps ℝ ℝ where
  diff a b := .ok (a - b)
  add := (· + ·)
  mul := (· * ·)
  sqrt := Real.sqrt
  zero := 0

/-- `int` data: the difference is computed in `int` and overflow is undefined; the rest is exact. -/
noncomputable def int32Ops : DistOps Int ℝ where
  diff a b := if -2 ^ 31 ≤ a - b ∧ a - b < 2 ^ 31 then .ok ((a - b : Int) : ℝ) else .ub "signed overflow"
  add := (· + ·)
  mul := (· * ·)
  sqrt := Real.sqrt
  zero := 0

/-- Integers with an exact square root on squares, for computed examples. -/
def exactIntOps : DistOps Int Int where
  diff a b := .ok (a - b)
  add := (· + ·)
  mul := (· * ·)
  sqrt x := Int.ofNat (((List.range 100).find? (fun k : Nat => decide (Int.ofNat (k * k) = x))).getD 0)
  zero := 0

/-- Euclidean distance of rows `i` and `j` of a row-major data set with `cols` columns. -/
noncomputable def euclid (data : List ℝ) (cols i j : Nat) : ℝ :=
  Real.sqrt (∑ k ∈ Finset.range cols, (data.getD (i * cols + k) 0 - data.getD (j * cols + k) 0) ^ 2)

/-- `s` is the sum of the squared differences of rows `i` and `j`, computed from the first column to the last with the arithmetic `ops`: all cells of the two
    rows exist, and no difference is undefined. -/
def SqSum {D W : Type} (ops : DistOps D W) (data : List D) (cols i j : Nat) (s : W) : Prop :=
  ∃ ds : List W, ds.length = cols ∧ s = ds.foldl (fun s d => ops.add s (ops.mul d d)) ops.zero ∧
    ∀ k d, ds[k]? = some d → ∃ a b, data[i * cols + k]? = some a ∧ data[j * cols + k]? = some b ∧ ops.diff a b = .ok d

/-- The cell of the packed matrix that `distance_get` addresses for two different points. -/
def addressed (n i j : Nat) : Nat := if i < j then cellGet n i j else cellGet n j i

end Verif.Spec
