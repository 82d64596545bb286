import Verif.Spec.Api
import Verif.Spec.Distance
/-
Vocabulary of the properties that compare data sets: C59-C62, C91.
-/
namespace Verif.Spec
variable {D W : Type}

/-- What coordinates and sums of squares have in common with real numbers, rounding included: `x - x` is 0, `x - y` and `y - x` have the same
    square, and 0 is its own square, sum with itself and square root. IEEE arithmetic on finite numbers has these properties. -/
structure PlainArith (ops : DistOps D W) : Prop where
  self : ∀ a d, ops.diff a a = .ok d → d = ops.zero
  swap : ∀ a b d e, ops.diff a b = .ok d → ops.diff b a = .ok e → ops.mul d d = ops.mul e e
  mul_zero : ops.mul ops.zero ops.zero = ops.zero
  add_zero : ops.add ops.zero ops.zero = ops.zero
  sqrt_zero : ops.sqrt ops.zero = ops.zero

/-- Row `i` of the first data set and row `j` of the second hold the same values. -/
def SameRow (data data' : List D) (cols i j : Nat) : Prop := ∀ k, k < cols → data[i * cols + k]? = data'[j * cols + k]?

/-- `σ` rearranges the numbers below `n`. -/
structure Rearranges (n : Nat) (σ : Nat → Nat) : Prop where
  lt : ∀ i, i < n → σ i < n
  inj : ∀ i j, i < n → j < n → σ i = σ j → i = j

/-- The second hierarchy is the first one with point `p` called `σ p`, label `l` called `φ l` and level `w` called `ψ w`: there are equally many lines, corresponding lines have
    corresponding levels and labels, noise stays noise and different labels stay different. -/
structure SameHierarchy (n : Nat) (σ φ : Nat → Nat) (ψ : W → W) (H H' : Lines W) : Prop where
  count : H'.length = H.length
  weight : ∀ i w, 1 ≤ i → HasWeight H i w → HasWeight H' i (ψ w)
  label : ∀ i p l, p < n → Carries H i p l → Carries H' i (σ p) (φ l)
  noise : φ 0 = 0
  inj : ∀ i j p q l l', Carries H i p l → Carries H j q l' → φ l = φ l' → l = l'

/-- Sums of stabilities without rounding: `ar.add` is addition, and `term k` is additive in the number `k` of points that leave a cluster. -/
structure ExactSum {S : Type} [AddMonoid S] (ar : Arith W S) : Prop where
  zero : ar.zeroS = 0
  add : ∀ a b, ar.add a b = a + b
  term_zero : ∀ w b, ar.term 0 w (some b) = 0
  term_add : ∀ j k w b, ar.term (j + k) w (some b) = ar.term j w (some b) + ar.term k w (some b)

/-- `minPoints` is 2 or the number of points, or the distances from a point that occur more than once are smaller than its `minPoints`-th smallest or the smallest of all. -/
def Untied [LinearOrder W] (rows m : Nat) (d : Nat → Nat → W) : Prop := ∀ i, i < rows → TiesBelow rows m (d i)

/-- How far row `i` has moved from the first data set to the second. -/
noncomputable def shift (data data' : List ℝ) (cols i : Nat) : ℝ :=
  Real.sqrt (∑ k ∈ Finset.range cols, (data.getD (i * cols + k) 0 - data'.getD (i * cols + k) 0) ^ 2)

end Verif.Spec
