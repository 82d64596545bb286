import Verif.Spec.Double
import Verif.Props.Distance
import Mathlib.Analysis.SpecialFunctions.Exp
import Mathlib.Analysis.Complex.Exponential
import Mathlib.Algebra.Order.Ring.Pow

/-! Facts on doubles: order, and errors of sums of squares. -/

namespace Verif.Props
open Verif Verif.Spec Verif.Binary64

theorem of_le_of_le {x : ℚ} {a : F64} (h : x ≤ a.1) : F64.of x ≤ a := by
  show fl x ≤ a.1
  rw [← fl_double a.2]
  exact fl_mono h

theorem le_of_of_le {x : ℚ} {a : F64} (h : a.1 ≤ x) : a ≤ F64.of x := by
  show a.1 ≤ fl x
  rw [← fl_double a.2]
  exact fl_mono h

theorem of_zero : (F64.of 0).1 = 0 := fl_zero

theorem of_one : (F64.of 1).1 = 1 := fl_one

theorem fl_val (a : F64) : fl a.1 = a.1 := fl_double a.2

theorem of_val (a : F64) : F64.of a.1 = a := Subtype.ext (fl_val a)

theorem of_mono {x y : ℚ} (h : x ≤ y) : F64.of x ≤ F64.of y := fl_mono h

theorem of_nat {n : Nat} (h : n < 2 ^ 53) : (F64.of n).1 = n := fl_double (by
  have := isDouble_int (K := ℚ) (n := n) (by rw [abs_of_nonneg (by omega)]; exact_mod_cast h)
  simpa using this)

/-- `y` is `x` up to `n` roundings. -/
def Within (n : Nat) (x y : ℝ) : Prop := (1 - 2 ^ (-53 : ℤ)) ^ n * x ≤ y ∧ y ≤ (1 + 2 ^ (-53 : ℤ)) ^ n * x

theorem unit_pos : (0 : ℝ) < 2 ^ (-53 : ℤ) := two_zpow_pos _

theorem unit_lt : (2 : ℝ) ^ (-53 : ℤ) < 1 := by norm_num

theorem within_fl {n : Nat} {x y : ℝ} (h : Within n x y) (hy : 0 ≤ y) (hs : y = 0 ∨ (2 : ℝ) ^ (-1022 : ℤ) ≤ y) : Within (n + 1) x (fl y) := by
  have h1 := fl_relative (x := y) (by rw [abs_of_nonneg hy]; exact hs)
  rw [abs_of_nonneg hy, abs_le] at h1
  have u0 := unit_pos
  have u1 := unit_lt
  unfold Within at h ⊢
  generalize (2 : ℝ) ^ (-53 : ℤ) = u at *
  constructor
  · calc (1 - u) ^ (n + 1) * x = (1 - u) * ((1 - u) ^ n * x) := by ring
      _ ≤ (1 - u) * y := mul_le_mul_of_nonneg_left h.1 (by linarith)
      _ ≤ fl y := by linarith [h1.1]
  · calc fl y ≤ (1 + u) * y := by linarith [h1.2]
      _ ≤ (1 + u) * ((1 + u) ^ n * x) := mul_le_mul_of_nonneg_left h.2 (by linarith)
      _ = (1 + u) ^ (n + 1) * x := by ring

theorem within_mono {n k : Nat} {x y : ℝ} (hx : 0 ≤ x) (h : Within n x y) (hnk : n ≤ k) : Within k x y := by
  have u0 := unit_pos
  have u1 := unit_lt
  exact ⟨le_trans (mul_le_mul_of_nonneg_right (pow_le_pow_of_le_one (by linarith) (by linarith) hnk) hx) h.1,
    le_trans h.2 (mul_le_mul_of_nonneg_right (pow_le_pow_right₀ (by linarith) hnk) hx)⟩

theorem within_add {n : Nat} {x x' y y' : ℝ} (h : Within n x y) (h' : Within n x' y') : Within n (x + x') (y + y') :=
  ⟨by rw [mul_add]; exact add_le_add h.1 h'.1, by rw [mul_add]; exact add_le_add h.2 h'.2⟩

/-- The square of a rounded number. -/
theorem within_sq {x : ℝ} (hs : x = 0 ∨ (2 : ℝ) ^ (-1022 : ℤ) ≤ |x|) : Within 2 (x ^ 2) (fl x ^ 2) := by
  have h1 := fl_relative (x := x) hs
  have u0 := unit_pos
  have u1 := unit_lt
  unfold Within
  generalize (2 : ℝ) ^ (-53 : ℤ) = u at *
  have hx := abs_nonneg x
  have a1 : |fl x| ≤ (1 + u) * |x| := by
    have := abs_sub_abs_le_abs_sub (fl x) x
    linarith
  have a2 : (1 - u) * |x| ≤ |fl x| := by
    have := abs_sub_abs_le_abs_sub x (fl x)
    rw [abs_sub_comm] at this
    linarith
  rw [← sq_abs x, ← sq_abs (fl x), ← mul_pow, ← mul_pow]
  exact ⟨pow_le_pow_left₀ (mul_nonneg (by linarith) hx) a2 2, pow_le_pow_left₀ (abs_nonneg _) a1 2⟩

theorem isDouble_pow {k : ℤ} (hk : -1074 ≤ k) : IsDouble ((2 : ℝ) ^ k) := ⟨1, k, by norm_num, hk, by simp⟩

/-- A number that is not tiny is not tiny after rounding. -/
theorem fl_large {k : ℤ} (hk : -1074 ≤ k) {x : ℝ} (h : x = 0 ∨ (2 : ℝ) ^ k ≤ x) : fl x = 0 ∨ (2 : ℝ) ^ k ≤ fl x := by
  rcases h with rfl | h
  · exact .inl fl_zero
  · right
    rw [← fl_double (isDouble_pow hk)]
    exact fl_mono h

theorem of_cast (x : ℚ) : ((F64.of x).1 : ℝ) = fl (x : ℝ) := (fl_cast x).symm

theorem sqrt_cast {x : F64} (h : 0 ≤ x.1) : ((F64.sqrt x).1 : ℝ) = fl (Real.sqrt x.1) := flSqrt_spec h

/-- The sum over the first `n` columns. -/
def partialSum (g : Nat → F64) (n : Nat) : F64 := ((List.range n).map g).foldl (fun s d => doubleDist.add s (doubleDist.mul d d)) doubleDist.zero

theorem partialSum_succ (g : Nat → F64) (n : Nat) : partialSum g (n + 1) = doubleDist.add (partialSum g n) (doubleDist.mul (g n) (g n)) := by
  simp [partialSum, List.range_succ]

theorem zpow_500 : ((2 : ℝ) ^ (-500 : ℤ)) ^ 2 = 2 ^ (-1000 : ℤ) := by
  rw [← zpow_natCast, ← zpow_mul]; norm_num

theorem partialSum_spec (g : Nat → F64) (x : Nat → ℝ) (n : Nat) (hg : ∀ k, k < n → ((g k).1 : ℝ) = fl (x k)) (hx : ∀ k, k < n → x k = 0 ∨ (2 : ℝ) ^ (-500 : ℤ) ≤ |x k|) :
    Within (n + 3) (∑ k ∈ Finset.range n, x k ^ 2) (partialSum g n).1 ∧ (((partialSum g n).1 : ℝ) = 0 ∨ (2 : ℝ) ^ (-1000 : ℤ) ≤ (partialSum g n).1) := by
  induction n with
  | zero =>
    have : ((partialSum g 0).1 : ℝ) = 0 := by
      show ((F64.of 0).1 : ℝ) = 0
      rw [of_zero, Rat.cast_zero]
    rw [this]
    exact ⟨⟨by simp, by simp⟩, .inl rfl⟩
  | succ n ih =>
    obtain ⟨i1, i2⟩ := ih (fun k hk => hg k (by omega)) (fun k hk => hx k (by omega))
    have hpos : (0 : ℝ) < 2 ^ (-1000 : ℤ) := two_zpow_pos _
    have hle : (2 : ℝ) ^ (-1022 : ℤ) ≤ 2 ^ (-1000 : ℤ) := zpow_le_zpow_right₀ (by norm_num) (by omega)
    have hle' : (2 : ℝ) ^ (-1022 : ℤ) ≤ 2 ^ (-500 : ℤ) := zpow_le_zpow_right₀ (by norm_num) (by omega)
    have hn := hx n (by omega)
    have hd : fl (x n) = 0 ∨ (2 : ℝ) ^ (-500 : ℤ) ≤ |fl (x n)| := by
      rcases hn with h | h
      · rw [h]; exact .inl fl_zero
      · right
        rcases le_or_gt 0 (x n) with h0 | h0
        · rw [abs_of_nonneg h0] at h
          rcases fl_large (k := -500) (by omega) (.inr h) with e | e
          · have := fl_mono h
            rw [e, fl_double (isDouble_pow (by omega))] at this
            exact absurd (two_zpow_pos (K := ℝ) (-500)) (not_lt.2 this)
          · exact e.trans (le_abs_self _)
        · rw [abs_of_neg h0] at h
          have h2 : IsDouble (-(2 : ℝ) ^ (-500 : ℤ)) := ⟨-1, -500, by norm_num, by omega, by norm_num⟩
          have := fl_mono (show x n ≤ -(2 : ℝ) ^ (-500 : ℤ) by linarith)
          rw [fl_double h2] at this
          exact le_trans (by linarith) (neg_le_abs _)
    have hsq : fl (x n) ^ 2 = 0 ∨ (2 : ℝ) ^ (-1000 : ℤ) ≤ fl (x n) ^ 2 := by
      rcases hd with h | h
      · left; rw [h]; norm_num
      · right
        rw [← zpow_500, ← sq_abs (fl (x n))]
        exact pow_le_pow_left₀ (two_zpow_pos _).le h 2
    have w2 : Within 2 (x n ^ 2) (fl (x n) ^ 2) := within_sq (hn.imp_right hle'.trans)
    have w3 : Within 3 (x n ^ 2) (fl (fl (x n) ^ 2)) := within_fl w2 (sq_nonneg _) (hsq.imp_right hle.trans)
    have l3 := fl_large (k := -1000) (by omega) hsq
    have w3' : Within (n + 3) (x n ^ 2) (fl (fl (x n) ^ 2)) := within_mono (sq_nonneg _) w3 (by omega)
    have wa := within_add i1 w3'
    have la : ((partialSum g n).1 : ℝ) + fl (fl (x n) ^ 2) = 0 ∨ (2 : ℝ) ^ (-1000 : ℤ) ≤ ((partialSum g n).1 : ℝ) + fl (fl (x n) ^ 2) := by
      rcases i2 with a | a <;> rcases l3 with b | b
      · left; rw [a, b]; norm_num
      · right; rw [a]; linarith
      · right; rw [b]; linarith
      · right; linarith
    have e : ((partialSum g (n + 1)).1 : ℝ) = fl (((partialSum g n).1 : ℝ) + fl (fl (x n) ^ 2)) := by
      rw [partialSum_succ]
      show ((F64.of _).1 : ℝ) = _
      rw [of_cast]
      congr 1
      push_cast
      congr 1
      show ((F64.of _).1 : ℝ) = _
      rw [of_cast]
      push_cast
      rw [hg n (by omega), sq]
    rw [e, Finset.sum_range_succ]
    refine ⟨?_, fl_large (by omega) la⟩
    refine within_fl wa ?_ (la.imp_right hle.trans)
    rcases la with h | h
    · rw [h]
    · linarith

theorem pow_upper {u : ℝ} {n : Nat} (hu : 0 ≤ u) (h : n * u ≤ 1) : (1 + u) ^ n ≤ 1 + 2 * (n * u) := by
  have h1 : (1 + u) ^ n ≤ Real.exp (n * u) := by
    rw [Real.exp_nat_mul]
    exact pow_le_pow_left₀ (by linarith) (by linarith [Real.add_one_le_exp u]) n
  have h0 : 0 ≤ n * u := by positivity
  have h2 := Real.abs_exp_sub_one_sub_id_le (x := n * u) (by rw [abs_of_nonneg h0]; exact h)
  have h3 := (abs_le.1 h2).2
  nlinarith

theorem pow_lower {u : ℝ} {n : Nat} (hu : u ≤ 1) : 1 - n * u ≤ (1 - u) ^ n := by
  have := one_add_mul_le_pow (a := -u) (by linarith) n
  have e : 1 + (n : ℝ) * -u = 1 - n * u := by ring
  rw [e] at this
  exact this

/-- From squares to numbers. -/
theorem within_root {n : Nat} {d y : ℝ} (hd : 0 ≤ d) (hy : 0 ≤ y) (h : Within n (d ^ 2) (y ^ 2)) (hn : (n : ℝ) * 2 ^ (-53 : ℤ) ≤ 1) : |y - d| ≤ n * 2 ^ (-53 : ℤ) * d := by
  have u0 := unit_pos
  have u1 := unit_lt
  unfold Within at h
  generalize (2 : ℝ) ^ (-53 : ℤ) = u at *
  have e1 := pow_upper u0.le hn
  have e2 := pow_lower (n := n) u1.le
  have hnu : 0 ≤ n * u := by positivity
  have h1 : y ^ 2 ≤ ((1 + n * u) * d) ^ 2 := by
    refine h.2.trans ?_
    rw [mul_pow]
    refine mul_le_mul_of_nonneg_right (e1.trans ?_) (sq_nonneg _)
    nlinarith
  have h2 : ((1 - n * u) * d) ^ 2 ≤ y ^ 2 := by
    refine le_trans ?_ h.1
    rw [mul_pow]
    refine mul_le_mul_of_nonneg_right (le_trans ?_ e2) (sq_nonneg _)
    nlinarith
  have h3 := abs_le_of_sq_le_sq h1 (by positivity)
  have h4 := abs_le_of_sq_le_sq h2 hy
  rw [abs_le]
  constructor
  · linarith [(abs_le.1 h4).2]
  · linarith [(abs_le.1 h3).2]


theorem euclid_columns (data : List ℚ) (cols i j : Nat) :
    euclid (data.map (fun x : ℚ => (x : ℝ))) cols i j = Real.sqrt (∑ k ∈ Finset.range cols, ((columnDiff data cols i j k : ℚ) : ℝ) ^ 2) := by
  have hg : ∀ k, (data.map (fun x : ℚ => (x : ℝ))).getD k 0 = ((data.getD k 0 : ℚ) : ℝ) := by
    intro k
    rw [List.getD_eq_getElem?_getD, List.getD_eq_getElem?_getD, List.getElem?_map]
    cases data[k]? with
    | none => simp
    | some v => simp
  unfold euclid columnDiff
  congr 1
  refine Finset.sum_congr rfl fun k _ => ?_
  rw [hg, hg]
  push_cast
  rfl

theorem euclid_swap (data : List ℝ) (cols i j : Nat) : euclid data cols i j = euclid data cols j i := by
  unfold euclid
  congr 1
  exact Finset.sum_congr rfl fun k _ => by ring

/-- The root of a sum of squares. -/
theorem root_spec (g : Nat → F64) (x : Nat → ℝ) (cols : Nat) (hc : cols < 2 ^ 32) (hg : ∀ k, k < cols → ((g k).1 : ℝ) = fl (x k)) (hx : ∀ k, k < cols → x k = 0 ∨ (2 : ℝ) ^ (-500 : ℤ) ≤ |x k|) :
    0 ≤ (F64.sqrt (partialSum g cols)).1 ∧
      |(((F64.sqrt (partialSum g cols)).1 : ℚ) : ℝ) - Real.sqrt (∑ k ∈ Finset.range cols, x k ^ 2)| ≤ (cols + 5) * 2 ^ (-53 : ℤ) * Real.sqrt (∑ k ∈ Finset.range cols, x k ^ 2) ∧
      ((F64.sqrt (partialSum g cols)).1 = 0 ↔ ∀ k, k < cols → x k = 0) := by
  obtain ⟨w, l⟩ := partialSum_spec g x cols hg hx
  generalize partialSum g cols = s at *
  have hpos : (0 : ℝ) < 2 ^ (-1000 : ℤ) := two_zpow_pos _
  have hs : (0 : ℝ) ≤ s.1 := by rcases l with h | h <;> linarith
  have hs' : 0 ≤ s.1 := by exact_mod_cast hs
  have e := sqrt_cast hs'
  have hy : (0 : ℝ) ≤ fl (Real.sqrt s.1) := fl_nonneg (Real.sqrt_nonneg _)
  have hroot : Real.sqrt s.1 = 0 ∨ (2 : ℝ) ^ (-500 : ℤ) ≤ |Real.sqrt s.1| := by
    rcases l with h | h
    · left; rw [h, Real.sqrt_zero]
    · right
      rw [abs_of_nonneg (Real.sqrt_nonneg _)]
      apply Real.le_sqrt_of_sq_le
      rw [zpow_500]; exact h
  have hsum : 0 ≤ ∑ k ∈ Finset.range cols, x k ^ 2 := Finset.sum_nonneg fun _ _ => sq_nonneg _
  have w' : Within (cols + 5) (∑ k ∈ Finset.range cols, x k ^ 2) (fl (Real.sqrt s.1) ^ 2) := by
    have w2 := within_sq (x := Real.sqrt s.1) (hroot.imp_right (le_trans (zpow_le_zpow_right₀ (by norm_num) (by omega))))
    rw [Real.sq_sqrt hs] at w2
    have u0 := unit_pos
    have u1 := unit_lt
    unfold Within at w w2 ⊢
    generalize (2 : ℝ) ^ (-53 : ℤ) = u at *
    constructor
    · calc (1 - u) ^ (cols + 5) * _ = (1 - u) ^ 2 * ((1 - u) ^ (cols + 3) * (∑ k ∈ Finset.range cols, x k ^ 2)) := by ring
        _ ≤ (1 - u) ^ 2 * s.1 := mul_le_mul_of_nonneg_left w.1 (by positivity)
        _ ≤ _ := w2.1
    · calc _ ≤ (1 + u) ^ 2 * (s.1 : ℝ) := w2.2
        _ ≤ (1 + u) ^ 2 * ((1 + u) ^ (cols + 3) * (∑ k ∈ Finset.range cols, x k ^ 2)) := mul_le_mul_of_nonneg_left w.2 (by positivity)
        _ = _ := by ring
  have hsmall : ((cols + 5 : ℕ) : ℝ) * 2 ^ (-53 : ℤ) < 1 := by
    have : ((cols + 5 : ℕ) : ℝ) < 2 ^ 33 := by exact_mod_cast (by omega : cols + 5 < 2 ^ 33)
    calc ((cols + 5 : ℕ) : ℝ) * 2 ^ (-53 : ℤ) ≤ 2 ^ 33 * 2 ^ (-53 : ℤ) := mul_le_mul_of_nonneg_right this.le unit_pos.le
      _ < 1 := by norm_num
  have hd := Real.sqrt_nonneg (∑ k ∈ Finset.range cols, x k ^ 2)
  have key := within_root hd hy (by rw [Real.sq_sqrt hsum]; exact w') hsmall.le
  rw [← e] at key hy
  push_cast at key hsmall
  refine ⟨by exact_mod_cast hy, key, ?_⟩
  have hz : (F64.sqrt s).1 = 0 ↔ Real.sqrt (∑ k ∈ Finset.range cols, x k ^ 2) = 0 := by
    constructor
    · intro h
      rw [h, Rat.cast_zero, zero_sub, abs_neg, abs_of_nonneg hd] at key
      by_contra hne
      have := lt_of_le_of_ne hd (Ne.symm hne)
      nlinarith
    · intro h
      rw [h, mul_zero, sub_zero] at key
      have := abs_nonpos_iff.1 key
      exact_mod_cast this
  rw [hz, Real.sqrt_eq_zero hsum, Finset.sum_eq_zero_iff_of_nonneg fun _ _ => sq_nonneg _]
  constructor
  · intro h k hk
    exact pow_eq_zero_iff (by norm_num) |>.1 (h k (Finset.mem_range.2 hk))
  · intro h k hk
    rw [h k (Finset.mem_range.1 hk)]
    norm_num

end Verif.Props
