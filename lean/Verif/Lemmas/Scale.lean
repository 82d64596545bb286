import Verif.Lemmas.Num
/-
Rounding commutes with multiplication by a power of two, as long as the digits are not cut off below.
-/
namespace Verif.Binary64
open Verif.Spec
variable {K : Type} [Field K] [LinearOrder K] [FloorRing K] [IsStrictOrderedRing K]

theorem log_scale {x : K} (hx : x ≠ 0) (j : ℤ) : Int.log 2 |2 ^ j * x| = Int.log 2 |x| + j := by
  obtain ⟨h1, h2⟩ := log_bounds hx
  have hp : (0 : K) < 2 ^ j := two_zpow_pos j
  have e : |2 ^ j * x| = 2 ^ j * |x| := by rw [abs_mul, abs_of_pos hp]
  have h0 : 0 < |x| := abs_pos.2 hx
  rw [e]
  apply log_unique (mul_pos hp h0)
  · rw [zpow_add₀ (by norm_num), mul_comm]
    exact mul_le_mul_of_nonneg_left h1 hp.le
  · rw [show Int.log 2 |x| + j + 1 = j + (Int.log 2 |x| + 1) by ring, zpow_add₀ (by norm_num)]
    exact mul_lt_mul_of_pos_left h2 hp

/-- Numbers of the usual size. -/
theorem fl_scale {x : K} {j : ℤ} (h : x = 0 ∨ ((2 : K) ^ (-1022 : ℤ) ≤ |x| ∧ (2 : K) ^ (-1022 : ℤ) ≤ |2 ^ j * x|)) : fl (2 ^ j * x) = 2 ^ j * fl x := by
  by_cases hx : x = 0
  · subst hx; rw [mul_zero, fl_zero, mul_zero]
  · obtain ⟨h1, h2⟩ := h.resolve_left hx
    have hl : ∀ y : K, y ≠ 0 → (2 : K) ^ (-1022 : ℤ) ≤ |y| → lastDigit binary64 y = Int.log 2 |y| - 52 := by
      intro y hy h
      have h3 := (log_bounds hy).2
      have h4 : (-1022 : ℤ) < Int.log 2 |y| + 1 := (zpow_lt_zpow_iff_right₀ (by norm_num : (1 : K) < 2)).1 (h.trans_lt h3)
      show max (Int.log 2 |y| - 52) (-1074) = _
      omega
    have hp : (2 : K) ^ j ≠ 0 := (two_zpow_pos j).ne'
    have hne : 2 ^ j * x ≠ 0 := mul_ne_zero hp hx
    unfold fl round
    rw [hl _ hne h2, hl _ hx h1, log_scale hx, show Int.log 2 |x| + j - 52 = j + (Int.log 2 |x| - 52) by ring, zpow_add₀ (by norm_num), mul_div_mul_left _ _ hp]
    ring

/-- Multiples of the least positive double. -/
def Grid (x : K) : Prop := ∃ n : ℤ, x = n * 2 ^ (-1074 : ℤ)

omit [IsStrictOrderedRing K] in
theorem Grid.double {x : K} (h : IsDouble x) : Grid x := by
  obtain ⟨n, e, _, he, rfl⟩ := h
  have he : (-1074 : ℤ) ≤ e := he
  refine ⟨n * 2 ^ (e + 1074).toNat, ?_⟩
  push_cast
  rw [← zpow_natCast (2 : K), Int.toNat_of_nonneg (by omega), mul_assoc, ← zpow_add₀ (by norm_num)]
  congr 2
  ring

omit [LinearOrder K] [FloorRing K] [IsStrictOrderedRing K] in
theorem Grid.add {x y : K} (hx : Grid x) (hy : Grid y) : Grid (x + y) := by
  obtain ⟨n, rfl⟩ := hx
  obtain ⟨m, rfl⟩ := hy
  exact ⟨n + m, by push_cast; ring⟩

omit [LinearOrder K] [FloorRing K] [IsStrictOrderedRing K] in
theorem Grid.sub {x y : K} (hx : Grid x) (hy : Grid y) : Grid (x - y) := by
  obtain ⟨n, rfl⟩ := hx
  obtain ⟨m, rfl⟩ := hy
  exact ⟨n - m, by push_cast; ring⟩

omit [LinearOrder K] [FloorRing K] [IsStrictOrderedRing K] in
theorem Grid.mul_nat {x : K} (hx : Grid x) (k : Nat) : Grid ((k : K) * x) := by
  obtain ⟨n, rfl⟩ := hx
  exact ⟨k * n, by push_cast; ring⟩

/-- Small multiples are doubles, and so is what remains on the grid. -/
theorem Grid.small {x : K} {j : ℤ} (h : Grid x) (h' : Grid (2 ^ j * x)) (hs : |x| < 2 ^ (-1022 : ℤ)) : IsDouble x ∧ IsDouble (2 ^ j * x) := by
  obtain ⟨n, rfl⟩ := h
  have hn : |n| < 2 ^ 53 := by
    have h1 : |(n : K)| < 2 ^ (52 : ℤ) := by
      rw [abs_mul, abs_of_pos (two_zpow_pos (K := K) _), ← lt_div_iff₀ (two_zpow_pos _), ← zpow_sub₀ (by norm_num)] at hs
      exact hs
    have h2 : ((|n| : ℤ) : K) < ((2 ^ 52 : ℤ) : K) := by
      rw [Int.cast_abs]
      have e : ((2 ^ 52 : ℤ) : K) = 2 ^ (52 : ℤ) := by norm_num
      rw [e]; exact h1
    have h3 : |n| < 2 ^ 52 := by exact_mod_cast h2
    exact h3.trans (by norm_num)
  refine ⟨⟨n, -1074, hn, le_refl _, rfl⟩, ?_⟩
  by_cases hj : 0 ≤ j
  · exact ⟨n, j - 1074, hn, by show (-1074 : ℤ) ≤ _; omega, by rw [sub_eq_add_neg, zpow_add₀ (by norm_num)]; ring⟩
  · obtain ⟨m, hm⟩ := h'
    have h4 : (m : K) = 2 ^ j * n := by
      have hp : (2 : K) ^ (-1074 : ℤ) ≠ 0 := (two_zpow_pos _).ne'
      apply mul_right_cancel₀ hp
      rw [← hm]; ring
    have h5 : |(m : K)| ≤ |(n : K)| := by
      rw [h4, abs_mul, abs_of_pos (two_zpow_pos (K := K) _)]
      have : (2 : K) ^ j ≤ 1 := zpow_le_one_of_nonpos₀ (by norm_num) (by omega)
      exact mul_le_of_le_one_left (abs_nonneg _) this
    have h6 : |m| ≤ |n| := by
      rw [← Int.cast_abs, ← Int.cast_abs] at h5
      exact_mod_cast h5
    exact ⟨m, -1074, h6.trans_lt hn, le_refl _, hm⟩

/-- Sums, differences and multiples of doubles. -/
theorem fl_scale_grid {x : K} {j : ℤ} (h : Grid x) (h' : Grid (2 ^ j * x)) : fl (2 ^ j * x) = 2 ^ j * fl x := by
  by_cases h1 : |x| < 2 ^ (-1022 : ℤ)
  · obtain ⟨d1, d2⟩ := h.small h' h1
    rw [fl_double d1, fl_double d2]
  · by_cases h2 : |2 ^ j * x| < 2 ^ (-1022 : ℤ)
    · have e : 2 ^ (-j) * (2 ^ j * x) = x := by rw [← mul_assoc, ← zpow_add₀ (by norm_num)]; simp
      obtain ⟨d1, d2⟩ := h'.small (j := -j) (by rw [e]; exact h) h2
      rw [e] at d2
      rw [fl_double d1, fl_double d2]
    · exact fl_scale (.inr ⟨not_lt.1 h1, not_lt.1 h2⟩)

/-- Square roots. -/
theorem flSqrt_scale {s : ℚ} {j : ℤ} (h : s = 0 ∨ ((2 : ℚ) ^ (-1000 : ℤ) ≤ s ∧ (2 : ℚ) ^ (-1000 : ℤ) ≤ 2 ^ (2 * j) * s)) : flSqrt (2 ^ (2 * j) * s) = 2 ^ j * flSqrt s := by
  have h0 : 0 ≤ s := by
    rcases h with h | h
    · exact h.symm.le
    · exact (two_zpow_pos _).le.trans h.1
  have e : Real.sqrt ((2 ^ (2 * j) * s : ℚ) : ℝ) = 2 ^ j * Real.sqrt s := by
    push_cast
    rw [show (2 : ℝ) ^ (2 * j) = (2 ^ j) ^ 2 by rw [mul_comm, zpow_mul]; norm_cast, Real.sqrt_mul (by positivity), Real.sqrt_sq (two_zpow_pos j).le]
  have key : ((flSqrt (2 ^ (2 * j) * s) : ℚ) : ℝ) = ((2 ^ j * flSqrt s : ℚ) : ℝ) := by
    rw [flSqrt_spec (mul_nonneg (two_zpow_pos _).le h0), e]
    push_cast
    rw [flSqrt_spec h0]
    apply fl_scale
    rcases h with h | ⟨h1, h2⟩
    · left; rw [h]; simp
    · right
      have hbig : ∀ t : ℚ, (2 : ℚ) ^ (-1000 : ℤ) ≤ t → (2 : ℝ) ^ (-1022 : ℤ) ≤ Real.sqrt t := by
        intro t ht
        apply Real.le_sqrt_of_sq_le
        have h3 : ((2 ^ (-1000 : ℤ) : ℚ) : ℝ) ≤ (t : ℝ) := by exact_mod_cast ht
        refine le_trans ?_ h3
        push_cast
        rw [← zpow_natCast, ← zpow_mul]
        exact zpow_le_zpow_right₀ (by norm_num) (by norm_num)
      refine ⟨?_, ?_⟩
      · rw [abs_of_nonneg (Real.sqrt_nonneg _)]; exact hbig s h1
      · rw [← e, abs_of_nonneg (Real.sqrt_nonneg _)]; exact hbig _ h2
  exact_mod_cast key

end Verif.Binary64
