import Verif.Lemmas.Mirror
import Verif.Props.Columns
/-
C113: mirror images.
-/
namespace Verif.Props
open Verif Verif.Spec Verif.Columns Verif.Binary64 Verif.Mirror

/-- **C113, `double` and `float`**. Multiplying any of the columns by -1 changes nothing: neither the results nor the way in which a run goes wrong. The values may be any, NaN and infinities included, and nothing
    is assumed of the size of the numbers. -/
theorem C113_floating (qsort : Sorter) (flip : Nat → Bool) (rows cols m : Nat) (par : Api.Par) (hp : Complete rows rows par) :
    (∀ data data' : List Dbl, Mirrored Fp.neg flip data data' rows cols →
      Api.fresh (fpEnv doubleOps qsort) par m data' rows cols true = Api.fresh (fpEnv doubleOps qsort) par m data rows cols true ∧
      ∀ th, Race.fresh th (fpEnv doubleOps qsort) par m data' rows cols true = Race.fresh th (fpEnv doubleOps qsort) par m data rows cols true) ∧
    (∀ data data' : List Flt, Mirrored Fp.neg flip data data' rows cols →
      Api.fresh (fpEnv floatOps qsort) par m data' rows cols true = Api.fresh (fpEnv floatOps qsort) par m data rows cols true ∧
      ∀ th, Race.fresh th (fpEnv floatOps qsort) par m data' rows cols true = Race.fresh th (fpEnv floatOps qsort) par m data rows cols true) := by
  refine ⟨fun data data' h => fresh_sums_eq (fpEnv doubleOps qsort) (fun i j hij hj => sum_mirrored h (fun a _ b _ => ?_) (by omega) hj _) m par hp,
    fun data data' h => fresh_sums_eq (fpEnv floatOps qsort) (fun i j hij hj => sum_mirrored h (fun a _ b _ => ?_) (by omega) hj _) m par hp⟩
  · show Outcome.ok (Fp.mul ((Fp.neg a).sub (Fp.neg b)) ((Fp.neg a).sub (Fp.neg b))) = .ok (Fp.mul (a.sub b) (a.sub b))
    rw [sub_neg_neg, mul_neg_neg]
  · show Outcome.ok (Fp.mul (Fp.widen ((Fp.neg a).sub (Fp.neg b))) (Fp.widen ((Fp.neg a).sub (Fp.neg b)))) = .ok (Fp.mul (Fp.widen (a.sub b)) (Fp.widen (a.sub b)))
    rw [sub_neg_neg, widen_neg, mul_neg_neg]

/-- **C113, integers, proved part**. The same for integers, if no difference is `-2 ^ (bits - 1)`. Missing: that difference, for which the claim is false (`C113_violated`). -/
theorem C113_integers_partial (qsort : Sorter) (bits : Nat) (flip : Nat → Bool) (data data' : List ℤ) (rows cols m : Nat) (h : Mirrored (fun x => -x) flip data data' rows cols)
    (hd : ∀ x ∈ data, ∀ y ∈ data, x - y ≠ -2 ^ (bits - 1)) (par : Api.Par) (hp : Complete rows rows par) :
    Api.fresh (fpEnv (integerOps bits) qsort) par m data' rows cols true = Api.fresh (fpEnv (integerOps bits) qsort) par m data rows cols true ∧
    ∀ th, Race.fresh th (fpEnv (integerOps bits) qsort) par m data' rows cols true = Race.fresh th (fpEnv (integerOps bits) qsort) par m data rows cols true := by
  refine fresh_sums_eq (fpEnv (integerOps bits) qsort) (fun i j hij hj => sum_mirrored h (fun a ha b hb => ?_) (by omega) hj _) m par hp
  have h1 := hd a ha b hb
  have h2 := hd b hb a ha
  show ((if -2 ^ (bits - 1) ≤ -a - -b ∧ -a - -b < 2 ^ (bits - 1) then (Outcome.ok (Fp.of ((-a - -b : ℤ) : ℚ)) : Outcome Dbl) else .ub "signed overflow") >>= fun d => .ok (Fp.mul d d)) =
    (if -2 ^ (bits - 1) ≤ a - b ∧ a - b < 2 ^ (bits - 1) then (Outcome.ok (Fp.of ((a - b : ℤ) : ℚ)) : Outcome Dbl) else .ub "signed overflow") >>= fun d => .ok (Fp.mul d d)
  generalize (2 : ℤ) ^ (bits - 1) = M at h1 h2 ⊢
  by_cases hr : -M ≤ a - b ∧ a - b < M
  · rw [if_pos hr, if_pos (by omega), Outcome.ok_bind, Outcome.ok_bind, show -a - -b = -(a - b) by ring]
    push_cast
    rw [of_neg, mul_neg_neg]
  · rw [if_neg hr, if_neg (by omega)]

/-- The values of type `short` or `char` have no difference of that size. -/
theorem C113_small (qsort : Sorter) (flip : Nat → Bool) (data data' : List ℤ) (rows cols m : Nat) (h : Mirrored (fun x => -x) flip data data' rows cols) (hs : ∀ x ∈ data, -2 ^ 15 ≤ x ∧ x < 2 ^ 15)
    (par : Api.Par) (hp : Complete rows rows par) :
    Api.fresh (fpEnv (integerOps 32) qsort) par m data' rows cols true = Api.fresh (fpEnv (integerOps 32) qsort) par m data rows cols true ∧
    ∀ th, Race.fresh th (fpEnv (integerOps 32) qsort) par m data' rows cols true = Race.fresh th (fpEnv (integerOps 32) qsort) par m data rows cols true :=
  C113_integers_partial qsort 32 flip data data' rows cols m h (fun x hx y hy => by have := hs x hx; have := hs y hy; norm_num at *; omega) par hp

/-! ### Concrete cases -/

/-- Six values of type `int`; the first and the last are `2 ^ 31` apart. -/
def edgePts : List ℤ := [-2147483647, -2147483640, -2147483600, -10, 0, 1]
def edgePts' : List ℤ := [2147483647, 2147483640, 2147483600, 10, 0, -1]

/-- C113 is violated by data of type `int`: a difference of `-2 ^ 31` is computed without overflow, but the mirror image of its data set has the difference `2 ^ 31`, and the subtraction overflows. Both data sets
    consist of numbers of type `int`. -/
theorem C113_violated : Mirrored (fun x => -x) (fun _ => true) edgePts edgePts' 6 1 ∧ (∀ x ∈ edgePts ++ edgePts', -2 ^ 31 ≤ x ∧ x < 2 ^ 31) ∧
    labelsOf (integerOps 32) 2 edgePts 6 1 = .ok [2, 2, 2, 3, 3, 3] ∧ labelsOf (integerOps 32) 2 edgePts' 6 1 = .ub "signed overflow" :=
  ⟨⟨by decide, fun i k hi hk => (by decide : ∀ i < 6, ∀ k < 1, edgePts'[i * 1 + k]? = (edgePts[i * 1 + k]?).map fun x => if true then -x else x) i hi k hk⟩, by decide, by decide +kernel, by decide +kernel⟩

/-- Two columns of which the second is multiplied by -1. -/
def mixedDbl : List Dbl := [Fp.of 1, Fp.of (1 / 3), Fp.of 2, .num .pinf, Fp.of 3, Fp.of (1 / 7), .nan, Fp.of 100, Fp.of 101, Fp.of (-5), .num .ninf, Fp.of 0]
def mixedDbl' : List Dbl := [Fp.of 1, Fp.of (-1 / 3), Fp.of 2, .num .ninf, Fp.of 3, Fp.of (-1 / 7), .nan, Fp.of (-100), Fp.of 101, Fp.of 5, .num .ninf, Fp.of 0]

theorem mixedDbl_mirrored : Mirrored Fp.neg (fun k => k == 1) mixedDbl mixedDbl' 6 2 :=
  ⟨by decide +kernel, fun i k hi hk => (by decide +kernel : ∀ i < 6, ∀ k < 2, mixedDbl'[i * 2 + k]? = (mixedDbl[i * 2 + k]?).map fun x => if (k == 1) = true then Fp.neg x else x) i hi k hk⟩

example := (C113_floating isort (fun k => k == 1) 6 2 2 (backPar 6 6) (backPar_complete 6 6)).1 _ _ mixedDbl_mirrored

def twoColsMirror : List ℤ := [-1, 5, -2, 7, -4, 4, -100, 90, -101, 95, -104, 90, -200, 0]

theorem twoCols_mirrored : Mirrored (fun x => -x) (fun k => k == 0) twoCols twoColsMirror 7 2 :=
  ⟨by decide, fun i k hi hk => (by decide : ∀ i < 7, ∀ k < 2, twoColsMirror[i * 2 + k]? = (twoCols[i * 2 + k]?).map fun x => if (k == 0) = true then -x else x) i hi k hk⟩

example := C113_small isort _ twoCols twoColsMirror 7 2 2 twoCols_mirrored (by decide) (backPar 7 7) (backPar_complete 7 7)
example : labelsOf (integerOps 32) 2 twoColsMirror 7 2 = .ok [2, 2, 2, 3, 3, 3, 0] := by decide +kernel

end Verif.Props
