import Verif.Model.Binary64
import Verif.Spec.Binary64
import Mathlib.Tactic.Linarith
import Mathlib.Tactic.FieldSimp
import Mathlib.Tactic.Positivity
import Mathlib.Tactic.NormNum
import Mathlib.Analysis.SpecialFunctions.Sqrt
import Mathlib.Algebra.Order.Archimedean.Real.Basic

namespace Verif.Binary64
open Verif.Spec

section
variable {K : Type} [Field K] [LinearOrder K] [FloorRing K] [IsStrictOrderedRing K] {f : Format}

theorem roundEven_cases (x : K) : (roundEven x = ⌊x⌋ ∧ x ≤ ⌊x⌋ + 1 / 2) ∨ (roundEven x = ⌊x⌋ + 1 ∧ (⌊x⌋ : K) + 1 / 2 ≤ x) := by
  unfold roundEven
  split
  · rename_i h; exact .inl ⟨rfl, h.le⟩
  · rename_i h
    split
    · rename_i h'; exact .inr ⟨rfl, h'.le⟩
    · rename_i h'
      split
      · exact .inl ⟨rfl, not_lt.1 h'⟩
      · exact .inr ⟨rfl, not_lt.1 h⟩

theorem roundEven_half (x : K) : |(roundEven x : K) - x| ≤ 1 / 2 := by
  have h1 := Int.floor_le x
  have h2 := Int.lt_floor_add_one x
  rw [abs_le]
  rcases roundEven_cases x with ⟨h, h'⟩ | ⟨h, h'⟩ <;> rw [h]
  · constructor <;> linarith
  · push_cast
    constructor <;> linarith

theorem roundEven_int (n : ℤ) : roundEven (n : K) = n := by
  unfold roundEven
  rw [Int.floor_intCast, if_pos (by linarith)]

/-- No integer is nearer. -/
theorem roundEven_nearest (x : K) (n : ℤ) : |(roundEven x : K) - x| ≤ |(n : K) - x| := by
  by_cases hn : n = roundEven x
  · rw [hn]
  · have h := roundEven_half x
    have h1 : (1 : K) ≤ |(n : K) - roundEven x| := by
      have : (1 : ℤ) ≤ |n - roundEven x| := Int.one_le_abs (sub_ne_zero.2 hn)
      exact_mod_cast this
    have h2 : |(n : K) - roundEven x| ≤ |(n : K) - x| + |(roundEven x : K) - x| := by
      have := abs_sub_le (n : K) x (roundEven x)
      rwa [abs_sub_comm x] at this
    linarith

/-- The power of two below `x`. -/
theorem log_bounds {x : K} (hx : x ≠ 0) : (2 : K) ^ Int.log 2 |x| ≤ |x| ∧ |x| < 2 ^ (Int.log 2 |x| + 1) := by
  have h0 : 0 < |x| := abs_pos.2 hx
  exact ⟨by have := Int.zpow_log_le_self (b := 2) (by norm_num) h0; exact_mod_cast this, by have := Int.lt_zpow_succ_log_self (b := 2) (by norm_num) |x|; exact_mod_cast this⟩

theorem two_zpow_pos (e : ℤ) : (0 : K) < 2 ^ e := zpow_pos (by norm_num) e

theorem two_zpow_int {e : ℤ} (he : 0 ≤ e) : ((2 ^ e.toNat : ℤ) : K) = 2 ^ e := by
  push_cast
  rw [← zpow_natCast, Int.toNat_of_nonneg he]

/-- A number of the format is a multiple of its last digit, and of every digit below. -/
theorem binary_multiple {d : K} (hd : IsBinary f d) {e : ℤ} (he : e ≤ lastDigit f d) : ∃ n : ℤ, d = n * 2 ^ e := by
  obtain ⟨m, a, h1, h2, rfl⟩ := hd
  by_cases hm : m = 0
  · exact ⟨0, by simp [hm]⟩
  · have hne : (m : K) * 2 ^ a ≠ 0 := mul_ne_zero (by exact_mod_cast hm) (two_zpow_pos a).ne'
    have hl : Int.log 2 |(m : K) * 2 ^ a| < f.digits + 1 + a := by
      have h := (log_bounds hne).1
      have h3 : |(m : K) * 2 ^ a| < 2 ^ (f.digits + 1 + a) := by
        rw [abs_mul, abs_of_pos (two_zpow_pos (K := K) a), zpow_add₀ (by norm_num)]
        have : |(m : K)| < 2 ^ (f.digits + 1 : ℤ) := by exact_mod_cast h1
        exact mul_lt_mul_of_pos_right this (two_zpow_pos a)
      exact (zpow_lt_zpow_iff_right₀ (by norm_num : (1 : K) < 2)).1 (lt_of_le_of_lt h h3)
    have hea : e ≤ a := by
      unfold lastDigit at he
      omega
    refine ⟨m * 2 ^ (a - e).toNat, ?_⟩
    rw [Int.cast_mul, two_zpow_int (by omega), mul_assoc, ← zpow_add₀ (by norm_num)]
    congr 2
    omega

/-- Numbers of the format are rounded to themselves. -/
theorem round_binary {d : K} (hd : IsBinary f d) : round f d = d := by
  obtain ⟨n, hn⟩ := binary_multiple hd (le_refl _)
  have hp := (two_zpow_pos (K := K) (lastDigit f d)).ne'
  have : d / 2 ^ lastDigit f d = n := by
    rw [div_eq_iff hp]; exact hn
  unfold round
  rw [this, roundEven_int, ← hn]

theorem lt_prec {x : K} : |x / 2 ^ lastDigit f x| < 2 ^ (f.digits + 1 : ℤ) := by
  by_cases hx : x = 0
  · subst hx; simpa using two_zpow_pos (K := K) (f.digits + 1)
  · rw [abs_div, abs_of_pos (two_zpow_pos (K := K) _), div_lt_iff₀ (two_zpow_pos _), ← zpow_add₀ (by norm_num)]
    refine lt_of_lt_of_le (log_bounds hx).2 (zpow_le_zpow_right₀ (by norm_num) ?_)
    unfold lastDigit
    omega

/-- Rounding gives a number of the format. -/
theorem isBinary_round (f : Format) (x : K) : IsBinary f (round f x) := by
  have h := roundEven_nearest (x / 2 ^ lastDigit f x)
  have hlt := lt_prec (f := f) (x := x)
  have hle : |roundEven (x / 2 ^ lastDigit f x)| ≤ 2 ^ (f.digits + 1) := by
    have h1 := roundEven_half (x / 2 ^ lastDigit f x)
    have h2 : |(roundEven (x / 2 ^ lastDigit f x) : K)| < 2 ^ (f.digits + 1 : ℤ) + 1 := by
      have := abs_sub_abs_le_abs_sub (roundEven (x / 2 ^ lastDigit f x) : K) (x / 2 ^ lastDigit f x)
      linarith
    have h3 : |roundEven (x / 2 ^ lastDigit f x)| < 2 ^ (f.digits + 1) + 1 := by exact_mod_cast h2
    omega
  have he : f.least ≤ lastDigit f x := le_max_right _ _
  rcases lt_or_eq_of_le hle with h1 | h1
  · exact ⟨_, _, h1, he, rfl⟩
  · rcases abs_eq (by norm_num : (0 : ℤ) ≤ 2 ^ (f.digits + 1)) |>.1 h1 with h2 | h2
    · refine ⟨2 ^ f.digits, lastDigit f x + 1, by rw [abs_of_pos (by positivity)]; exact pow_lt_pow_right₀ (by norm_num) (by omega), by omega, ?_⟩
      unfold round
      rw [h2, zpow_add₀ (by norm_num)]
      push_cast
      ring
    · refine ⟨-2 ^ f.digits, lastDigit f x + 1, by rw [abs_neg, abs_of_pos (by positivity)]; exact pow_lt_pow_right₀ (by norm_num) (by omega), by omega, ?_⟩
      unfold round
      rw [h2, zpow_add₀ (by norm_num)]
      push_cast
      ring

theorem round_sub (f : Format) (x : K) (n : ℤ) : |round f x - x| ≤ |n * 2 ^ lastDigit f x - x| := by
  have h := mul_le_mul_of_nonneg_right (roundEven_nearest (x / 2 ^ lastDigit f x) n) (two_zpow_pos (K := K) (lastDigit f x)).le
  have e : ∀ m : K, |m - x / 2 ^ lastDigit f x| * 2 ^ lastDigit f x = |m * 2 ^ lastDigit f x - x| := by
    intro m
    conv_lhs => rw [← abs_of_pos (two_zpow_pos (K := K) (lastDigit f x)), ← abs_mul, abs_of_pos (two_zpow_pos (K := K) (lastDigit f x))]
    congr 1
    rw [sub_mul, div_mul_cancel₀ _ (two_zpow_pos (K := K) _).ne']
  rw [e, e] at h
  exact h

/-- Rounding gives the nearest number of the format. -/
theorem round_nearest (f : Format) (x : K) : NearestBinary f x (round f x) := by
  refine ⟨isBinary_round f x, fun d hd => ?_⟩
  by_cases he : lastDigit f x ≤ lastDigit f d
  · obtain ⟨n, hn⟩ := binary_multiple hd he
    have := round_sub f x n
    rwa [← hn] at this
  · by_cases hx : x = 0
    · subst hx
      have := round_sub f (0 : K) 0
      simp only [Int.cast_zero, zero_mul, sub_self, abs_zero] at this
      exact this.trans (abs_nonneg _)
    · have hl : lastDigit f x = Int.log 2 |x| - f.digits := by
        unfold lastDigit at he ⊢
        omega
      have hdl : |d| < 2 ^ Int.log 2 |x| := by
        by_cases hd0 : d = 0
        · rw [hd0, abs_zero]; exact two_zpow_pos _
        · refine lt_of_lt_of_le (log_bounds hd0).2 (zpow_le_zpow_right₀ (by norm_num) ?_)
          unfold lastDigit at he
          omega
      have hxl := (log_bounds hx).1
      have h52 : ((2 ^ f.digits : ℤ) : K) * 2 ^ lastDigit f x = 2 ^ Int.log 2 |x| := by
        have : ((2 ^ f.digits : ℤ) : K) = 2 ^ (f.digits : ℤ) := by norm_cast
        rw [hl, this, ← zpow_add₀ (by norm_num)]
        congr 1
        omega
      rcases lt_or_gt_of_ne hx with h | h
      · refine (round_sub f x (-2 ^ f.digits)).trans ?_
        rw [abs_of_neg h] at hxl
        have e : ((-2 ^ f.digits : ℤ) : K) * 2 ^ lastDigit f x = -2 ^ Int.log 2 |x| := by rw [← h52]; push_cast; ring
        rw [e, abs_of_nonneg (by rw [abs_of_neg h]; linarith)]
        have := (abs_lt.1 hdl).1
        exact le_trans (by linarith) (le_abs_self _)
      · refine (round_sub f x (2 ^ f.digits)).trans ?_
        rw [abs_of_pos h] at hxl
        rw [h52, abs_of_nonpos (by rw [abs_of_pos h]; linarith)]
        have := (abs_lt.1 hdl).2
        exact le_trans (by linarith) (neg_le_abs _)

/-- Rounding keeps the order. -/
theorem round_mono {x y : K} (h : x ≤ y) : round f x ≤ round f y := by
  by_contra hlt
  rw [not_le] at hlt
  have h1 := (round_nearest f x).2 (round f y) (isBinary_round f y)
  have h2 := (round_nearest f y).2 (round f x) (isBinary_round f x)
  have hx : round f x + round f y ≤ 2 * x := by
    by_contra hc
    rw [not_le] at hc
    have : |round f y - x| < |round f x - x| := by
      rw [abs_lt]
      have := le_abs_self (round f x - x)
      constructor <;> linarith
    exact absurd h1 (not_le.2 this)
  have hy : 2 * y ≤ round f x + round f y := by
    by_contra hc
    rw [not_le] at hc
    have : |round f x - y| < |round f y - y| := by
      rw [abs_lt]
      have := neg_le_abs (round f y - y)
      constructor <;> linarith
    exact absurd h2 (not_le.2 this)
  have : x = y := le_antisymm h (by linarith)
  rw [this] at hlt
  exact lt_irrefl _ hlt

theorem isBinary_int {n : ℤ} (h : |n| < 2 ^ (f.digits + 1)) : IsBinary f (n : K) := ⟨n, 0, h, f.least_le, by simp⟩

theorem isBinary_zero : IsBinary f (0 : K) := by simpa using isBinary_int (K := K) (n := 0) (by norm_num)

theorem round_zero : round f (0 : K) = 0 := round_binary isBinary_zero

theorem round_nonneg {x : K} (h : 0 ≤ x) : 0 ≤ round f x := by
  have := round_mono (f := f) h
  rwa [round_zero] at this

theorem round_half (f : Format) (x : K) : |round f x - x| ≤ 2 ^ lastDigit f x / 2 := by
  have h := mul_le_mul_of_nonneg_right (roundEven_half (x / 2 ^ lastDigit f x)) (two_zpow_pos (K := K) (lastDigit f x)).le
  have e : |(roundEven (x / 2 ^ lastDigit f x) : K) - x / 2 ^ lastDigit f x| * 2 ^ lastDigit f x = |round f x - x| := by
    conv_lhs => rw [← abs_of_pos (two_zpow_pos (K := K) (lastDigit f x)), ← abs_mul, abs_of_pos (two_zpow_pos (K := K) (lastDigit f x))]
    congr 1
    rw [sub_mul, div_mul_cancel₀ _ (two_zpow_pos (K := K) _).ne']
    rfl
  rw [e] at h
  linarith

/-- The relative error of a result that is not tiny is at most half a unit in the last digit. -/
theorem round_relative {x : K} (h : x = 0 ∨ (2 : K) ^ (f.least + f.digits) ≤ |x|) : |round f x - x| ≤ 2 ^ (-(f.digits + 1) : ℤ) * |x| := by
  rcases h with rfl | h
  · simp [round_zero]
  · have hx : x ≠ 0 := by
      rintro rfl
      rw [abs_zero] at h
      exact absurd (two_zpow_pos (K := K) (f.least + f.digits)) (not_lt.2 h)
    obtain ⟨h1, h2⟩ := log_bounds hx
    have hl : f.least + f.digits ≤ Int.log 2 |x| := by
      have := (zpow_lt_zpow_iff_right₀ (by norm_num : (1 : K) < 2)).1 (lt_of_le_of_lt h h2)
      omega
    refine (round_half f x).trans ?_
    have e : lastDigit f x = Int.log 2 |x| - f.digits := by unfold lastDigit; omega
    have : (2 : K) ^ lastDigit f x / 2 = 2 ^ (-(f.digits + 1) : ℤ) * 2 ^ Int.log 2 |x| := by
      rw [e, ← zpow_add₀ (by norm_num), div_eq_iff (by norm_num)]
      nth_rw 3 [← zpow_one (2 : K)]
      rw [← zpow_add₀ (by norm_num)]
      congr 1
      omega
    rw [this]
    exact mul_le_mul_of_nonneg_left h1 (two_zpow_pos _).le

/-! Doubles. -/

theorem fl_double {d : K} (hd : IsDouble d) : fl d = d := round_binary (f := binary64) hd

theorem isDouble_fl (x : K) : IsDouble (fl x) := isBinary_round binary64 x

theorem fl_nearest (x : K) : NearestDouble x (fl x) := round_nearest binary64 x

theorem fl_mono {x y : K} (h : x ≤ y) : fl x ≤ fl y := round_mono h

theorem isDouble_int {n : ℤ} (h : |n| < 2 ^ 53) : IsDouble (n : K) := ⟨n, 0, h, by omega, by simp⟩

theorem isDouble_zero : IsDouble (0 : K) := isBinary_zero (f := binary64)

theorem fl_zero : fl (0 : K) = 0 := round_zero

theorem fl_one : fl (1 : K) = 1 := fl_double (by simpa using isDouble_int (K := K) (n := 1) (by norm_num))

theorem fl_nonneg {x : K} (h : 0 ≤ x) : 0 ≤ fl x := round_nonneg h

/-- The relative error of a result that is not tiny is at most 2 ^ -53. -/
theorem fl_relative {x : K} (h : x = 0 ∨ (2 : K) ^ (-1022 : ℤ) ≤ |x|) : |fl x - x| ≤ 2 ^ (-53 : ℤ) * |x| :=
  round_relative (f := binary64) h

end

theorem log_unique {K : Type} [Field K] [LinearOrder K] [FloorRing K] [IsStrictOrderedRing K] {x : K} (hx : 0 < x) {l : ℤ} (h1 : (2 : K) ^ l ≤ x) (h2 : x < 2 ^ (l + 1)) : Int.log 2 x = l := by
  obtain ⟨a, b⟩ := log_bounds hx.ne'
  rw [abs_of_pos hx] at a b
  have c := (zpow_lt_zpow_iff_right₀ (by norm_num : (1 : K) < 2)).1 (lt_of_le_of_lt a h2)
  have d := (zpow_lt_zpow_iff_right₀ (by norm_num : (1 : K) < 2)).1 (lt_of_le_of_lt h1 b)
  omega

theorem log_nonpos {K : Type} [Field K] [LinearOrder K] [FloorRing K] [IsStrictOrderedRing K] {x : K} (hx : x ≤ 0) : Int.log 2 x = 0 := Int.log_of_right_le_zero _ hx

/-- Rounding of rational numbers is rounding of real numbers. -/
theorem log_cast (x : ℚ) : Int.log 2 (x : ℝ) = Int.log 2 x := by
  rcases le_or_gt x 0 with h | h
  · rw [log_nonpos h, log_nonpos (by exact_mod_cast h)]
  · obtain ⟨a, b⟩ := log_bounds h.ne'
    rw [abs_of_pos h] at a b
    exact log_unique (by exact_mod_cast h) (by have := (Rat.cast_le (K := ℝ)).2 a; push_cast at this; exact this) (by have := (Rat.cast_lt (K := ℝ)).2 b; push_cast at this; exact this)

theorem roundEven_cast (x : ℚ) : roundEven (x : ℝ) = roundEven x := by
  unfold roundEven
  rw [Rat.floor_cast]
  have e1 : ((x : ℝ) < ⌊x⌋ + 1 / 2) ↔ (x < ⌊x⌋ + 1 / 2) := by
    rw [← Rat.cast_lt (K := ℝ)]; push_cast; rfl
  have e2 : ((⌊x⌋ : ℝ) + 1 / 2 < (x : ℝ)) ↔ ((⌊x⌋ : ℚ) + 1 / 2 < x) := by
    rw [← Rat.cast_lt (K := ℝ)]; push_cast; rfl
  simp only [e1, e2]

theorem lastDigit_cast (f : Format) (x : ℚ) : lastDigit f (x : ℝ) = lastDigit f x := by
  unfold lastDigit
  rw [← Rat.cast_abs, log_cast]

theorem round_cast (f : Format) (x : ℚ) : round f (x : ℝ) = (round f x : ℚ) := by
  unfold round
  rw [lastDigit_cast]
  push_cast
  rw [← roundEven_cast]
  push_cast
  rfl

theorem fl_cast (x : ℚ) : fl (x : ℝ) = (fl x : ℚ) := round_cast binary64 x

theorem roundSqrt_spec {y : ℚ} (hy : 0 ≤ y) : roundSqrt y = roundEven (Real.sqrt y) := by
  have hyr : (0 : ℝ) ≤ y := by exact_mod_cast hy
  have hf : ⌊Real.sqrt y⌋ = (Nat.sqrt ⌊y⌋₊ : ℤ) := by
    rw [Int.floor_eq_iff]
    have h1 : (Nat.sqrt ⌊y⌋₊) ^ 2 ≤ ⌊y⌋₊ := Nat.sqrt_le' _
    have h2 : ⌊y⌋₊ < (Nat.sqrt ⌊y⌋₊ + 1) ^ 2 := Nat.lt_succ_sqrt' _
    constructor
    · have h3 : ((Nat.sqrt ⌊y⌋₊ : ℚ)) ^ 2 ≤ y := le_trans (by exact_mod_cast h1) (Nat.floor_le hy)
      apply Real.le_sqrt_of_sq_le
      push_cast
      exact_mod_cast h3
    · have h3 : y < ((Nat.sqrt ⌊y⌋₊ : ℚ) + 1) ^ 2 := by
        have := (Nat.floor_lt hy).1 h2
        push_cast at this
        exact this
      rw [Real.sqrt_lt' (by positivity)]
      push_cast
      exact_mod_cast h3
  unfold roundSqrt roundEven
  rw [hf]
  generalize Nat.sqrt ⌊y⌋₊ = f
  have e1 : (Real.sqrt y < ((f : ℤ) : ℝ) + 1 / 2) ↔ y < ((f : ℚ) + 1 / 2) ^ 2 := by
    rw [Real.sqrt_lt' (by positivity), ← Rat.cast_lt (K := ℝ)]
    push_cast
    rfl
  have e2 : (((f : ℤ) : ℝ) + 1 / 2 < Real.sqrt y) ↔ ((f : ℚ) + 1 / 2) ^ 2 < y := by
    rw [Real.lt_sqrt (by positivity), ← Rat.cast_lt (K := ℝ)]
    push_cast
    rfl
  have e3 : ((f : ℤ) % 2 = 0) ↔ f % 2 = 0 := by omega
  simp only [e1, e2, e3]

theorem lastDigitSqrt_spec (f : Format) {x : ℚ} (hx : 0 < x) : lastDigitSqrt f x = lastDigit f (Real.sqrt x) := by
  unfold lastDigitSqrt lastDigit
  have hxr : (0 : ℝ) < x := by exact_mod_cast hx
  obtain ⟨a, b⟩ := log_bounds hxr.ne'
  rw [abs_of_pos hxr, log_cast] at a b
  have hp := Real.sqrt_pos.2 hxr
  rw [abs_of_pos hp]
  congr 2
  symm
  have hsq : ∀ k : ℤ, ((2 : ℝ) ^ k) ^ 2 = 2 ^ (2 * k) := fun k => by
    rw [← zpow_natCast, ← zpow_mul, mul_comm]; rfl
  apply log_unique hp
  · apply Real.le_sqrt_of_sq_le
    rw [hsq]
    exact (zpow_le_zpow_right₀ (by norm_num) (by omega)).trans a
  · rw [Real.sqrt_lt' (two_zpow_pos _), hsq]
    exact lt_of_lt_of_le b (zpow_le_zpow_right₀ (by norm_num) (by omega))

/-- `root` is the correctly rounded square root. -/
theorem root_sqrt (f : Format) {x : ℚ} (hx : 0 ≤ x) : ((root f x : ℚ) : ℝ) = round f (Real.sqrt x) := by
  rcases eq_or_lt_of_le hx with rfl | h
  · simp [round_zero, root, roundSqrt]
  · unfold root round
    rw [← lastDigitSqrt_spec f h]
    have h4 : (0 : ℚ) < 4 ^ lastDigitSqrt f x := zpow_pos (by norm_num) _
    push_cast
    rw [roundSqrt_spec (div_nonneg hx h4.le)]
    congr 3
    push_cast
    rw [Real.sqrt_div' _ (by positivity)]
    congr 1
    have : (4 : ℝ) ^ lastDigitSqrt f x = ((2 : ℝ) ^ lastDigitSqrt f x) ^ 2 := by
      rw [← zpow_natCast, ← zpow_mul, mul_comm, zpow_mul]; norm_num
    rw [this, Real.sqrt_sq (two_zpow_pos _).le]

/-- `flSqrt` is the correctly rounded square root. -/
theorem flSqrt_spec {x : ℚ} (hx : 0 ≤ x) : ((flSqrt x : ℚ) : ℝ) = fl (Real.sqrt x) := root_sqrt binary64 hx

theorem isBinary_of_cast {f : Format} {x : ℚ} (h : IsBinary f (x : ℝ)) : IsBinary f x := by
  obtain ⟨m, e, h1, h2, h3⟩ := h
  exact ⟨m, e, h1, h2, by apply Rat.cast_injective (α := ℝ); push_cast; exact h3⟩

theorem isBinary_root (f : Format) (x : ℚ) : IsBinary f (root f x) := by
  rcases le_or_gt 0 x with h | h
  · exact isBinary_of_cast (by rw [root_sqrt f h]; exact isBinary_round f _)
  · have h4 : (0 : ℚ) < 4 ^ lastDigitSqrt f x := zpow_pos (by norm_num) _
    have hn : x / 4 ^ lastDigitSqrt f x < 0 := div_neg_of_neg_of_pos h h4
    have : roundSqrt (x / 4 ^ lastDigitSqrt f x) = 0 := by
      unfold roundSqrt
      rw [Nat.floor_of_nonpos hn.le]
      have : x / 4 ^ lastDigitSqrt f x < (((Nat.sqrt 0 : ℕ) : ℚ) + 1 / 2) ^ 2 := by simp; linarith
      simp only [this, if_true]
      simp
    unfold root
    rw [this]
    simpa using isBinary_zero (K := ℚ)

theorem isDouble_flSqrt (x : ℚ) : IsDouble (flSqrt x) := isBinary_root binary64 x

end Verif.Binary64
