import Verif.Model.Stats
import Verif.Spec.ClusterMap
import Mathlib.Algebra.Order.Field.Basic
import Mathlib.Algebra.BigOperators.Group.List.Basic
/-
Vocabulary of the properties C43-C45.
-/
namespace Verif.Spec

/-- Exact arithmetic in a field; only the square root is a parameter. -/
def exactStat (K : Type) [Field K] (sqrt : K → K) : Stat.Ops K where
  zero := 0
  add := (· + ·)
  sub := (· - ·)
  mul := (· * ·)
  div := (· / ·)
  ofNat n := (n : K)
  sqrt := sqrt
  pow3 x := x ^ 3
  pow4 x := x ^ 4

/-- The mean of a list of numbers. -/
def mean {K : Type} [Field K] (xs : List K) : K := xs.sum / (xs.length : K)

/-- The sum of the `k`-th powers of the deviations from the mean. -/
def centred {K : Type} [Field K] (k : Nat) (xs : List K) : K := (xs.map (fun x => (x - mean xs) ^ k)).sum

/-- The sample variance of a list of numbers. -/
def sampleVariance {K : Type} [Field K] (xs : List K) : K := centred 2 xs / ((xs.length : K) - 1)

/-- What is used of the arithmetic of the confidences. Exact arithmetic has these properties, and so has IEEE arithmetic on finite values with any rounding mode, as
    rounding is monotone and exact results are not rounded. -/
structure ConfLaws {W : Type} [LinearOrder W] (o : Stat.Ops W) : Prop where
  sub_anti : ∀ m r r', o.zero ≤ r → r ≤ r' → r' ≤ m → o.sub m r' ≤ o.sub m r
  sub_self : ∀ m, o.sub m m = o.zero
  sub_zero : ∀ m, o.sub m o.zero = m
  div_mono : ∀ a b m, o.zero < m → o.zero ≤ a → a ≤ b → b ≤ m → o.div a m ≤ o.div b m
  zero_div : ∀ m, o.zero < m → o.div o.zero m = o.zero
  div_self : ∀ m, o.zero < m → o.div m m = o.ofNat 1
  mul_mono : ∀ a b, o.zero ≤ a → a ≤ b → b ≤ o.ofNat 1 → o.mul a (o.ofNat 100) ≤ o.mul b (o.ofNat 100)
  zero_mul : o.mul o.zero (o.ofNat 100) = o.zero
  one_mul : o.mul (o.ofNat 1) (o.ofNat 100) = o.ofNat 100

/-- The sign of a number that may be NaN. -/
inductive Sign
  | positive
  | negative
  /-- zero or NaN -/
  | neither
  deriving DecidableEq

/-- `s` is the sign of `x`. -/
def HasSign {W : Type} [CCmp W] (zero x : W) : Sign → Prop
  | .positive => CCmp.lt zero x = true
  | .negative => CCmp.lt x zero = true
  | .neither => CCmp.lt zero x = false ∧ CCmp.lt x zero = false

/-- The decision table: signs of skewness and kurtosis to score. -/
def table : Sign → Sign → Int
  | .positive, .positive => 2
  | .negative, .positive => 1
  | .positive, .negative => 0
  | _, _ => -1

end Verif.Spec
