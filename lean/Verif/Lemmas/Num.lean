import Verif.Model.Num
import Verif.Lemmas.Fp
import Verif.Spec.Invariance
import Verif.Lemmas.Groups
/-
Helper lemmas: distances and stabilities of `double` data.
-/
namespace Verif.Binary64
variable {K : Type} [Field K] [LinearOrder K] [FloorRing K] [IsStrictOrderedRing K]

theorem roundEven_neg (x : K) : roundEven (-x) = -roundEven x := by
  by_cases hx : (⌊x⌋ : K) = x
  · rw [← hx, ← Int.cast_neg, roundEven_int, roundEven_int]
  · have hlt : (⌊x⌋ : K) < x := lt_of_le_of_ne (Int.floor_le x) hx
    have hfl : ⌊-x⌋ = -⌊x⌋ - 1 := by
      rw [Int.floor_eq_iff]
      have := Int.lt_floor_add_one x
      push_cast
      constructor <;> linarith
    unfold roundEven
    rw [hfl]
    push_cast
    by_cases h1 : x < ⌊x⌋ + 1 / 2
    · rw [if_neg (by linarith), if_pos (by linarith), if_pos h1]; ring
    · by_cases h2 : (⌊x⌋ : K) + 1 / 2 < x
      · rw [if_pos (by linarith), if_neg h1, if_pos h2]; ring
      · rw [if_neg (by linarith), if_neg (by linarith), if_neg h1, if_neg h2]
        by_cases h3 : ⌊x⌋ % 2 = 0
        · rw [if_pos h3, if_neg (by omega)]; ring
        · rw [if_neg h3, if_pos (by omega)]; ring

theorem round_neg (f : Spec.Format) (x : K) : round f (-x) = -round f x := by
  have : lastDigit f (-x) = lastDigit f x := by simp [lastDigit]
  unfold round
  rw [this, neg_div, roundEven_neg]
  push_cast; ring

end Verif.Binary64

namespace Verif.Props
open Verif Verif.Spec Verif.Binary64

/-- The finite numbers as values. -/
theorem of_fin {x : ℚ} (hx : IsDouble x) (h : |x| < 2 ^ (1024 : ℤ)) : (Fp.of x : Dbl) = Fp.fin (f := binary64) ⟨x, hx, h⟩ := fp_of_binary (f := binary64) hx h

theorem of_cases (x : ℚ) : (∃ h, (Fp.of x : Dbl) = Fp.fin (f := binary64) ⟨fl x, isDouble_fl x, h⟩) ∨ (¬ |fl x| < 2 ^ (1024 : ℤ) ∧ (Fp.of x : Dbl) = Fp.inf (decide (x < 0))) := by
  by_cases h : |fl x| < 2 ^ (1024 : ℤ)
  · exact .inl ⟨h, fp_of (f := binary64) h⟩
  · exact .inr ⟨h, dif_neg h⟩

theorem zero_lt : |(0 : ℚ)| < 2 ^ (1024 : ℤ) := by rw [abs_zero]; exact two_zpow_pos _

theorem of_zero_fin : (Fp.of 0 : Dbl) = Fp.fin (f := binary64) ⟨0, isDouble_zero, zero_lt⟩ := of_fin isDouble_zero zero_lt

theorem num_zero : numArith.zeroW = .fin ⟨0, isDouble_zero, zero_lt⟩ := by
  show (Fp.of 0 : Dbl).toNum = _
  rw [of_zero_fin]; rfl

theorem num_fin_le {a b : Fin754 binary64} : Num754.fin a ≤ .fin b ↔ a.1 ≤ b.1 := by
  show Num754.place (.fin a) ≤ Num754.place (.fin b) ↔ _
  simp [Num754.place]

theorem num_fin_lt {a b : Fin754 binary64} : Num754.fin a < .fin b ↔ a.1 < b.1 := by
  show Num754.place (.fin a) < Num754.place (.fin b) ↔ _
  simp [Num754.place]

theorem num_le_pinf (a : Num754 binary64) : a ≤ .pinf := by
  show Num754.place a ≤ Num754.place .pinf
  cases a <;> simp [Num754.place]

/-- `double` arithmetic is plain. -/
theorem numOps_plain : PlainArith numOps where
  self a d h := by
    have h := Outcome.ok.inj h
    rw [← h, fp_sub, sub_self]; rfl
  swap a b d e h1 h2 := by
    have h1 := Outcome.ok.inj h1
    have h2 := Outcome.ok.inj h2
    rw [fp_sub] at h1 h2
    have hn : b.1 - a.1 = -(a.1 - b.1) := by ring
    rw [hn] at h2
    generalize a.1 - b.1 = x at *
    have hf : fl (-x) = -fl x := round_neg binary64 x
    rcases of_cases x with ⟨g, e1⟩ | ⟨g, e1⟩
    · have g' : |fl (-x)| < 2 ^ (1024 : ℤ) := by rw [hf, abs_neg]; exact g
      rcases of_cases (-x) with ⟨g2, e2⟩ | ⟨g2, _⟩
      · rw [← h1, ← h2, e1, e2]
        show (Fp.of (fl x * fl x)).toNum = (Fp.of (fl (-x) * fl (-x))).toNum
        rw [hf, neg_mul_neg]
      · exact absurd g' g2
    · rcases of_cases (-x) with ⟨g2, _⟩ | ⟨g2, e2⟩
      · rw [hf, abs_neg] at g2; exact absurd g2 g
      · rw [← h1, ← h2, e1, e2]
        generalize decide (x < 0) = s
        generalize decide (-x < 0) = t
        cases s <;> cases t <;> rfl
  mul_zero := by
    show ((Fp.mul (.num (Fp.of 0 : Dbl).toNum) (.num (Fp.of 0 : Dbl).toNum))).toNum = (Fp.of 0 : Dbl).toNum
    rw [of_zero_fin]
    show (Fp.of ((0 : ℚ) * 0)).toNum = _
    rw [mul_zero, of_zero_fin]
  add_zero := by
    show ((Fp.add (.num (Fp.of 0 : Dbl).toNum) (.num (Fp.of 0 : Dbl).toNum))).toNum = (Fp.of 0 : Dbl).toNum
    rw [of_zero_fin]
    show (Fp.of ((0 : ℚ) + 0)).toNum = _
    rw [add_zero, of_zero_fin]
  sqrt_zero := by
    show ((Fp.sqrt (.num (Fp.of 0 : Dbl).toNum))).toNum = (Fp.of 0 : Dbl).toNum
    rw [of_zero_fin]
    show (if (0 : ℚ) < 0 then Ieee.nan else Fp.of (flSqrt 0) : Dbl).toNum = _
    rw [if_neg (lt_irrefl _)]
    have : flSqrt 0 = 0 := by
      have h := flSqrt_spec (le_refl (0 : ℚ))
      rw [Rat.cast_zero, Real.sqrt_zero, fl_zero] at h
      exact_mod_cast h
    rw [this, of_zero_fin]

/-- The weights that occur: 0, and numbers that are neither tiny nor too large. -/
def Weight (w : Num754 binary64) : Prop := ∃ x : Fin754 binary64, w = .fin x ∧ (x.1 = 0 ∨ (2 : ℚ) ^ (-537 : ℤ) ≤ x.1)

/-- Square roots of doubles are not tiny. -/
theorem sqrt_weight (x : Num754 binary64) : Weight (numOps.sqrt x) ∨ numOps.sqrt x = .pinf := by
  match x with
  | .ninf => exact .inr rfl
  | .pinf => exact .inr rfl
  | .fin x =>
    show Weight (if x.1 < 0 then Ieee.nan else Fp.of (flSqrt x.1) : Dbl).toNum ∨ _ = _
    by_cases hx : x.1 < 0
    · right
      show (if x.1 < 0 then Ieee.nan else Fp.of (flSqrt x.1) : Dbl).toNum = _
      rw [if_pos hx]; rfl
    · rw [if_neg hx]
      have h0 : 0 ≤ x.1 := not_lt.1 hx
      rcases of_cases (flSqrt x.1) with ⟨g, e⟩ | ⟨g, e⟩
      · left
        rw [e]
        refine ⟨_, rfl, ?_⟩
        show fl (flSqrt x.1) = 0 ∨ _ ≤ fl (flSqrt x.1)
        rw [fl_double (isDouble_flSqrt _)]
        rcases eq_or_lt_of_le h0 with hz | hpos
        · left
          have h := flSqrt_spec h0
          rw [← hz, Rat.cast_zero, Real.sqrt_zero, fl_zero] at h
          rw [← hz]
          exact_mod_cast h
        · right
          obtain ⟨n, hn⟩ := binary_int x.2.1
          have hn1 : 1 ≤ n := by
            by_contra hc
            have : (n : ℚ) ≤ 0 := by exact_mod_cast (by omega : n ≤ 0)
            have := mul_nonpos_of_nonpos_of_nonneg this (two_zpow_pos (K := ℚ) binary64.least).le
            rw [← hn] at this
            exact absurd hpos (not_lt.2 this)
          have hge : (2 : ℚ) ^ (-1074 : ℤ) ≤ x.1 := by
            rw [hn]
            have : (1 : ℚ) ≤ n := by exact_mod_cast hn1
            have := mul_le_mul_of_nonneg_right this (two_zpow_pos (K := ℚ) (-1074)).le
            rw [one_mul] at this
            exact this
          have hs := flSqrt_spec h0
          have hle : ((2 : ℝ) ^ (-537 : ℤ)) ≤ fl (Real.sqrt x.1) := by
            rw [← fl_double (isDouble_pow (k := -537) (by norm_num))]
            apply fl_mono
            apply Real.le_sqrt_of_sq_le
            have := (Rat.cast_le (K := ℝ)).2 hge
            push_cast at this
            refine le_trans (le_of_eq ?_) this
            rw [← zpow_natCast, ← zpow_mul]; norm_num
          rw [← hs] at hle
          have : (((2 : ℚ) ^ (-537 : ℤ) : ℚ) : ℝ) ≤ (flSqrt x.1 : ℚ) := by push_cast; exact hle
          exact_mod_cast this
      · right
        have h1 : ¬ flSqrt x.1 < 0 := by
          have h := flSqrt_spec h0
          have h2 : (0 : ℝ) ≤ flSqrt x.1 := by rw [h]; exact fl_nonneg (Real.sqrt_nonneg _)
          exact not_lt.2 (by exact_mod_cast h2)
        show (if x.1 < 0 then Ieee.nan else Fp.of (flSqrt x.1) : Dbl).toNum = _
        rw [if_neg hx, e, decide_eq_false h1]
        rfl

theorem sqrt_nonneg (x : Num754 binary64) : numArith.zeroW ≤ numOps.sqrt x := by
  rcases sqrt_weight x with ⟨y, e, h⟩ | e
  · rw [e, num_zero, num_fin_le]
    rcases h with h | h
    · exact h.symm.le
    · exact (two_zpow_pos _).le.trans h
  · rw [e]; exact num_le_pinf _

/-! ### Stabilities -/

def PosInf (s : Dbl) : Prop := s = .num .pinf
def NonNeg (s : Dbl) : Prop := ∃ x : Fin754 binary64, s = Fp.fin x ∧ 0 ≤ x.1

theorem big_lt {e : ℤ} (he : e ≤ 900) (k : Nat) (hk : k < 2 ^ 33) : (k : ℚ) * 2 ^ e < 2 ^ (1024 : ℤ) := by
  calc (k : ℚ) * 2 ^ e < 2 ^ 33 * 2 ^ e := mul_lt_mul_of_pos_right (by exact_mod_cast hk) (two_zpow_pos _)
    _ = 2 ^ (33 + e) := by rw [← zpow_natCast, ← zpow_add₀ (by norm_num)]; norm_num
    _ < 2 ^ (1024 : ℤ) := zpow_lt_zpow_right₀ (by norm_num) (by omega)

theorem big_double {e : ℤ} (he : -1074 ≤ e) (k : Nat) (hk : k < 2 ^ 33) : IsDouble ((k : ℚ) * 2 ^ e) := ⟨k, e, by
  rw [abs_of_nonneg (by positivity)]
  have : ((k : ℕ) : ℤ) < 2 ^ 33 := by exact_mod_cast hk
  exact this.trans (by norm_num), he, by push_cast; rfl⟩

/-- A result between 0 and a small multiple of a power of 2. -/
theorem of_bounded {e : ℤ} (he : -1074 ≤ e) (he' : e ≤ 900) {x : ℚ} {k : Nat} (hk : k < 2 ^ 33) (h0 : 0 ≤ x) (h : x ≤ k * 2 ^ e) :
    ∃ y : Fin754 binary64, (Fp.of x : Dbl) = Fp.fin y ∧ y.1 = fl x ∧ 0 ≤ y.1 ∧ y.1 ≤ k * 2 ^ e := by
  have h1 : fl x ≤ k * 2 ^ e := by rw [← fl_double (big_double he k hk)]; exact fl_mono h
  have h2 : 0 ≤ fl x := fl_nonneg h0
  have h3 : |fl x| < 2 ^ (1024 : ℤ) := by rw [abs_of_nonneg h2]; exact lt_of_le_of_lt h1 (big_lt he' k hk)
  exact ⟨⟨fl x, isDouble_fl x, h3⟩, fp_of (f := binary64) h3, rfl, h2, h1⟩

theorem of_small {x : ℚ} {k : Nat} (hk : k < 2 ^ 33) (h0 : 0 ≤ x) (h : x ≤ k * 2 ^ (537 : ℤ)) :
    ∃ y : Fin754 binary64, (Fp.of x : Dbl) = Fp.fin y ∧ y.1 = fl x ∧ 0 ≤ y.1 ∧ y.1 ≤ k * 2 ^ (537 : ℤ) := of_bounded (by norm_num) (by norm_num) hk h0 h

theorem of_count (k : Nat) (hk : k < 2 ^ 33) : ∃ y : Fin754 binary64, (Fp.of (k : ℚ) : Dbl) = Fp.fin y ∧ y.1 = k := by
  have hd : IsDouble (k : ℚ) := by
    have := isDouble_int (K := ℚ) (n := k) (by
      rw [abs_of_nonneg (by positivity)]
      have : ((k : ℕ) : ℤ) < 2 ^ 33 := by exact_mod_cast hk
      exact this.trans (by norm_num))
    simpa using this
  have hlt : |(k : ℚ)| < 2 ^ (1024 : ℤ) := by
    rw [abs_of_nonneg (by positivity)]
    have h1 : (k : ℚ) < 2 ^ 33 := by exact_mod_cast hk
    refine h1.trans ?_
    rw [← zpow_natCast]
    exact zpow_lt_zpow_right₀ (by norm_num) (by norm_num)
  exact ⟨_, of_fin hd hlt, rfl⟩

/-- The reciprocal of a weight that is not 0. -/
theorem inv_weight {x : Fin754 binary64} (h : (2 : ℚ) ^ (-537 : ℤ) ≤ x.1) :
    ∃ y : Fin754 binary64, (Fp.of 1 : Dbl).div (Fp.fin x) = Fp.fin y ∧ y.1 = fl (1 / x.1) ∧ 0 ≤ y.1 ∧ y.1 ≤ 2 ^ (537 : ℤ) := by
  have hp : 0 < x.1 := lt_of_lt_of_le (two_zpow_pos _) h
  obtain ⟨o, ho, ho1⟩ := of_count 1 (by norm_num)
  rw [Nat.cast_one] at ho ho1
  have hle : 1 / x.1 ≤ (1 : Nat) * 2 ^ (537 : ℤ) := by
    have := one_div_le_one_div_of_le (two_zpow_pos _) h
    rw [Nat.cast_one, one_mul]
    refine this.trans (le_of_eq ?_)
    rw [zpow_neg, one_div, inv_inv]
  obtain ⟨y, e, e1, e2, e3⟩ := of_small (k := 1) (by norm_num) (one_div_nonneg.2 hp.le) hle
  rw [Nat.cast_one, one_mul] at e3
  refine ⟨y, ?_, e1, e2, e3⟩
  rw [ho, ← e]
  show (if x.1 = 0 then _ else Fp.of (o.1 / x.1) : Dbl) = _
  rw [if_neg hp.ne', ho1]

/-- A term at a positive level. -/
theorem term_fin {k : Nat} (hk : k < 2 ^ 32) {w b : Fin754 binary64} (hw : (2 : ℚ) ^ (-537 : ℤ) ≤ w.1) (hwb : w.1 < b.1) :
    ∃ t : Fin754 binary64, numArith.term k (.fin w) (some (.fin b)) = Fp.fin t ∧ 0 ≤ t.1 ∧ t.1 ≤ k * 2 ^ (537 : ℤ) ∧ t.1 = fl (k * fl (fl (1 / w.1) - fl (1 / b.1))) := by
  obtain ⟨x, e1, e2, e3, e4⟩ := inv_weight hw
  obtain ⟨y, g1, g2, g3, g4⟩ := inv_weight (hw.trans hwb.le)
  have hp : 0 < w.1 := lt_of_lt_of_le (two_zpow_pos _) hw
  have hyx : y.1 ≤ x.1 := by rw [e2, g2]; exact fl_mono (one_div_le_one_div_of_le hp hwb.le)
  obtain ⟨d, d1, d2, d3, d4⟩ := of_small (k := 1) (x := x.1 - y.1) (by norm_num) (sub_nonneg.2 hyx) (by rw [Nat.cast_one, one_mul]; linarith)
  rw [Nat.cast_one, one_mul] at d4
  obtain ⟨o, ho, ho1⟩ := of_count k (by omega)
  obtain ⟨t, t1, t2, t3, t4⟩ := of_small (k := k) (x := k * d.1) (by omega) (mul_nonneg (Nat.cast_nonneg k) d3) (mul_le_mul_of_nonneg_left d4 (Nat.cast_nonneg k))
  refine ⟨t, ?_, t3, t4, by rw [t2, d2, e2, g2]⟩
  show Fp.mul (Fp.of k) (((Fp.of 1).div (Fp.fin w)).sub ((Fp.of 1).div (Fp.fin b))) = _
  rw [e1, g1, fp_sub, d1, ho, ← t1]
  show (Fp.of (o.1 * d.1) : Dbl) = _
  rw [ho1]

/-- A term at the level 0. -/
theorem term_inf {k : Nat} (hk : k < 2 ^ 32) (h0 : k ≠ 0) {b : Fin754 binary64} (hb : (2 : ℚ) ^ (-537 : ℤ) ≤ b.1) :
    numArith.term k numArith.zeroW (some (.fin b)) = .num .pinf := by
  obtain ⟨y, g1, g2, g3, g4⟩ := inv_weight hb
  obtain ⟨o, ho, ho1⟩ := of_count k (by omega)
  obtain ⟨i, hi, hi1⟩ := of_count 1 (by norm_num)
  rw [Nat.cast_one] at hi hi1
  show Fp.mul (Fp.of k) (((Fp.of 1).div (.num numArith.zeroW)).sub ((Fp.of 1).div (Fp.fin b))) = _
  have hz : (Fp.of 1 : Dbl).div (.num numArith.zeroW) = .num .pinf := by
    rw [hi, num_zero]
    show (if (0 : ℚ) = 0 then if i.1 = 0 then Ieee.nan else Fp.inf (decide (i.1 < 0)) else Fp.of (i.1 / 0) : Dbl) = _
    rw [if_pos rfl, hi1, if_neg one_ne_zero, decide_eq_false (by norm_num)]
    rfl
  rw [hz, g1, ho]
  have hn : (Fp.fin y).neg = Fp.fin (f := binary64) ⟨-y.1, isBinary_neg y.2.1, by rw [abs_neg]; exact y.2.2⟩ := fp_of_binary (isBinary_neg y.2.1) (by rw [abs_neg]; exact y.2.2)
  unfold Fp.sub
  rw [hn]
  show Fp.mul (Fp.fin o) (.num .pinf) = _
  show (if Fp.isZero (.fin o) || Fp.isZero .pinf then Ieee.nan else Fp.inf (Fp.isNeg (.fin o) != Fp.isNeg .pinf) : Dbl) = _
  have hk0 : (k : ℚ) ≠ 0 := by exact_mod_cast h0
  have hk1 : ¬ (k : ℚ) < 0 := not_lt.2 (by positivity)
  simp [Fp.isZero, Fp.isNeg, ho1, h0, Fp.inf]

theorem pinf_add {b : Dbl} (h : PosInf b ∨ NonNeg b) : Fp.add (.num .pinf : Dbl) b = .num .pinf := by
  rcases h with h | ⟨x, h, _⟩ <;> rw [h] <;> rfl

theorem add_pinf {a : Dbl} (h : NonNeg a) : Fp.add a (.num .pinf) = .num .pinf := by
  obtain ⟨x, h, _⟩ := h
  rw [h]; rfl

theorem num_infinities : Sel.Infinities numArith PosInf NonNeg where
  zero := ⟨_, of_zero_fin, le_refl _⟩
  inf_inf a b ha hb := by rw [PosInf] at ha; rw [ha]; exact pinf_add (.inl hb)
  inf_fin a b ha hb := by rw [PosInf] at ha; rw [ha]; exact pinf_add (.inr hb)
  fin_inf a b ha hb := by rw [PosInf] at hb; rw [hb]; exact add_pinf ha
  fin_fin a b := by
    rintro ⟨x, rfl, hx⟩ ⟨y, rfl, hy⟩
    show NonNeg (Fp.of (x.1 + y.1)) ∨ PosInf (Fp.of (x.1 + y.1))
    rcases of_cases (x.1 + y.1) with ⟨g, e⟩ | ⟨g, e⟩
    · left
      rw [e]
      exact ⟨_, rfl, fl_nonneg (add_nonneg hx hy)⟩
    · right
      rw [e, decide_eq_false (not_lt.2 (add_nonneg hx hy))]
      rfl
  le a b := by
    rintro rfl ⟨x, rfl, _⟩
    show decide (Num754.pinf ≤ Num754.fin x) = false
    rw [decide_eq_false_iff_not]
    show ¬ Num754.place .pinf ≤ Num754.place (.fin x)
    simp [Num754.place]

/-- For `double` data a stability is infinite exactly if a point leaves at the level 0. -/
theorem num_infinite (n : Nat) (hn : n < 2 ^ 32) : InfiniteAtZero numArith Weight n PosInf NonNeg where
  toInfinities := num_infinities
  least := by
    rintro w ⟨x, rfl, h⟩
    rw [num_zero, num_fin_le]
    rcases h with h | h
    · exact h.symm.le
    · exact (two_zpow_pos _).le.trans h
  total := by
    rintro b es ⟨β, rfl, hβ⟩ hes hsum
    have hβ0 : ∀ e ∈ es, (2 : ℚ) ^ (-537 : ℤ) ≤ β.1 := by
      intro e he
      obtain ⟨_, _, ⟨x, hx, hx'⟩, hlt⟩ := hes e he
      rcases hβ with h | h
      · rw [hx, num_fin_lt, h] at hlt
        rcases hx' with hx' | hx'
        · rw [hx'] at hlt; exact absurd hlt (lt_irrefl _)
        · exact absurd ((two_zpow_pos _).trans_le hx') (lt_asymm hlt)
      · exact h
    have key : ∀ es : List (Hier.Event (Num754 binary64)), (∀ e ∈ es, (2 : ℚ) ^ (-537 : ℤ) ≤ β.1) →
        (∀ e ∈ es, e.1 ≠ 0 ∧ e.2.2 = some (.fin β) ∧ Weight e.2.1 ∧ e.2.1 < .fin β) → (es.map (·.1)).sum ≤ n →
        ((∃ e ∈ es, e.2.1 = numArith.zeroW) → PosInf (Hier.total numArith es)) ∧
        ((∀ e ∈ es, e.2.1 ≠ numArith.zeroW) → ∃ x : Fin754 binary64, Hier.total numArith es = Fp.fin x ∧ 0 ≤ x.1 ∧ x.1 ≤ ((es.map (·.1)).sum : Nat) * 2 ^ (537 : ℤ)) := by
      intro es
      induction es using List.reverseRecOn with
      | nil =>
        intro _ _ _
        exact ⟨by simp, fun _ => ⟨_, of_zero_fin, le_refl _, by simp⟩⟩
      | append_singleton es e ih =>
        intro hβ0 hes hsum
        obtain ⟨k, w, b⟩ := e
        have hb1 := hβ0 (k, w, b) (by simp)
        obtain ⟨h1, h2, ⟨x, h3, h4⟩, h5⟩ := hes (k, w, b) (by simp)
        dsimp only at h1 h2 h3 h5
        subst h2 h3
        rw [List.map_append, List.sum_append] at hsum ⊢
        simp only [List.map_cons, List.map_nil, List.sum_cons, List.sum_nil, Nat.add_zero] at hsum ⊢
        obtain ⟨i1, i2⟩ := ih (fun e he => hβ0 e (List.mem_append_left _ he)) (fun e he => hes e (List.mem_append_left _ he)) (by omega)
        rw [Hier.total_snoc]
        have hx0 : (Num754.fin x = numArith.zeroW) ↔ x.1 = 0 := by
          rw [num_zero]
          constructor
          · intro h; cases h; rfl
          · intro h
            congr 1
            exact Subtype.ext h
        have ht : numArith.term k (.fin x) (some (.fin β)) = .num .pinf ∧ x.1 = 0 ∨
            x.1 ≠ 0 ∧ ∃ t : Fin754 binary64, numArith.term k (.fin x) (some (.fin β)) = Fp.fin t ∧ 0 ≤ t.1 ∧ t.1 ≤ k * 2 ^ (537 : ℤ) := by
          rcases h4 with h4 | h4
          · left
            refine ⟨?_, h4⟩
            rw [hx0.2 h4]
            exact term_inf (by omega) h1 hb1
          · right
            obtain ⟨t, t1, t2, t3, _⟩ := term_fin (k := k) (by omega) h4 (num_fin_lt.1 h5)
            exact ⟨(lt_of_lt_of_le (two_zpow_pos _) h4).ne', t, t1, t2, t3⟩
        have hall : (∃ e ∈ es, e.2.1 = numArith.zeroW) ∨ ∀ e ∈ es, e.2.1 ≠ numArith.zeroW := by
          by_cases h : ∃ e ∈ es, e.2.1 = numArith.zeroW
          · exact .inl h
          · exact .inr fun e he hz => h ⟨e, he, hz⟩
        constructor
        · rintro ⟨e, he, hz⟩
          rcases hall with hl | hl
          · show numArith.add _ _ = _
            have := i1 hl
            rw [PosInf] at this
            rw [this]
            refine pinf_add ?_
            rcases ht with ⟨ht, _⟩ | ⟨_, t, ht, t0, _⟩
            · exact .inl ht
            · exact .inr ⟨t, ht, t0⟩
          · obtain ⟨y, y1, y2, y3⟩ := i2 hl
            rcases List.mem_append.1 he with he | he
            · exact absurd hz (hl e he)
            · rw [List.mem_singleton] at he
              subst he
              rcases ht with ⟨ht, _⟩ | ⟨hne, _⟩
              · show numArith.add _ _ = _
                rw [ht]
                exact add_pinf ⟨y, y1, y2⟩
              · exact absurd (hx0.1 hz) hne
        · intro hno
          obtain ⟨y, y1, y2, y3⟩ := i2 fun e he => hno e (List.mem_append_left _ he)
          rcases ht with ⟨_, ht⟩ | ⟨_, t, ht, t0, t1⟩
          · exact absurd (hx0.2 ht) (hno _ (List.mem_append_right _ List.mem_cons_self))
          · rw [y1, ht]
            have hle : y.1 + t.1 ≤ (((es.map (·.1)).sum + k : Nat) : ℚ) * 2 ^ (537 : ℤ) := by
              rw [Nat.cast_add, add_mul]
              exact add_le_add y3 t1
            obtain ⟨r, r1, _, r3, r4⟩ := of_small (by omega) (add_nonneg y2 t0) hle
            exact ⟨r, r1, r3, r4⟩
    obtain ⟨k1, k2⟩ := key es hβ0 hes hsum
    exact ⟨k1, fun h => by obtain ⟨x, x1, x2, _⟩ := k2 h; exact ⟨x, x1, x2⟩⟩

/-! ### Distances of moderate data -/

theorem pow_double {K : Type} [Field K] [LinearOrder K] [FloorRing K] [IsStrictOrderedRing K] {k : ℤ} (hk : -1074 ≤ k) : IsDouble ((2 : K) ^ k) := ⟨1, k, by norm_num, hk, by simp⟩

/-- The difference of two numbers. -/
theorem diff_spec {a b : Fin754 binary64} (ha : |a.1| ≤ 2 ^ (400 : ℤ)) (hb : |b.1| ≤ 2 ^ (400 : ℤ)) :
    ∃ d : Fin754 binary64, numOps.diff a b = .ok (.fin d) ∧ |d.1| ≤ 2 ^ (401 : ℤ) ∧ ((2 : ℚ) ^ (-500 : ℤ) ≤ |a.1 - b.1| → (2 : ℚ) ^ (-500 : ℤ) ≤ |d.1|) := by
  have hfl : ∀ x : ℚ, |fl x| = fl |x| := by
    intro x
    rcases le_total 0 x with h | h
    · rw [abs_of_nonneg h, abs_of_nonneg (fl_nonneg h)]
    · have h1 : fl (-x) = -fl x := round_neg binary64 x
      have h2 : 0 ≤ fl (-x) := fl_nonneg (by linarith)
      rw [abs_of_nonpos h, h1, abs_of_nonpos (by linarith)]
  have hle : |a.1 - b.1| ≤ 2 ^ (401 : ℤ) := by
    have h2 : (2 : ℚ) ^ (401 : ℤ) = 2 ^ (400 : ℤ) + 2 ^ (400 : ℤ) := by
      rw [show (401 : ℤ) = 400 + 1 by norm_num, zpow_add₀ (by norm_num), zpow_one]; ring
    rw [h2]
    exact (abs_sub _ _).trans (add_le_add ha hb)
  have h1 : |fl (a.1 - b.1)| ≤ 2 ^ (401 : ℤ) := by
    rw [hfl, ← fl_double (pow_double (K := ℚ) (k := 401) (by norm_num))]
    exact fl_mono hle
  have h2 : |fl (a.1 - b.1)| < 2 ^ (1024 : ℤ) := lt_of_le_of_lt h1 (zpow_lt_zpow_right₀ (by norm_num) (by norm_num))
  refine ⟨⟨fl (a.1 - b.1), isDouble_fl _, h2⟩, ?_, h1, fun hn => ?_⟩
  · show Outcome.ok ((Fp.fin a).sub (Fp.fin b)).toNum = _
    rw [fp_sub, fp_of (f := binary64) h2]
    rfl
  · show _ ≤ |fl (a.1 - b.1)|
    rw [hfl, ← fl_double (pow_double (K := ℚ) (k := -500) (by norm_num))]
    exact fl_mono hn

/-- The square of a difference. -/
theorem square_spec {d : Fin754 binary64} (hd : |d.1| ≤ 2 ^ (401 : ℤ)) :
    ∃ t : Fin754 binary64, numOps.mul (.fin d) (.fin d) = .fin t ∧ 0 ≤ t.1 ∧ t.1 ≤ 2 ^ (802 : ℤ) ∧ ((2 : ℚ) ^ (-500 : ℤ) ≤ |d.1| → (2 : ℚ) ^ (-1000 : ℤ) ≤ t.1) := by
  have hsq : d.1 * d.1 = |d.1| * |d.1| := (abs_mul_abs_self d.1).symm
  have hle : d.1 * d.1 ≤ (1 : Nat) * 2 ^ (802 : ℤ) := by
    rw [hsq, Nat.cast_one, one_mul]
    refine (mul_le_mul hd hd (abs_nonneg _) (two_zpow_pos _).le).trans (le_of_eq ?_)
    rw [← zpow_add₀ (by norm_num)]; norm_num
  obtain ⟨t, t1, t2, t3, t4⟩ := of_bounded (e := 802) (by norm_num) (by norm_num) (by norm_num) (mul_self_nonneg d.1) hle
  rw [Nat.cast_one, one_mul] at t4
  refine ⟨t, ?_, t3, t4, fun hge => ?_⟩
  · show (Fp.of (d.1 * d.1) : Dbl).toNum = _
    rw [t1]; rfl
  · rw [t2, ← fl_double (pow_double (K := ℚ) (k := -1000) (by norm_num))]
    refine fl_mono ?_
    rw [hsq]
    refine le_trans (le_of_eq ?_) (mul_le_mul hge hge (two_zpow_pos _).le (abs_nonneg _))
    rw [← zpow_add₀ (by norm_num)]; norm_num

/-- The sum of the squares. -/
theorem sum_spec (ds : List (Num754 binary64)) (hds : ∀ x ∈ ds, ∃ d : Fin754 binary64, x = .fin d ∧ |d.1| ≤ 2 ^ (401 : ℤ)) (k : Nat) (s : Fin754 binary64)
    (hk : k + ds.length < 2 ^ 33) (h0 : 0 ≤ s.1) (hs : s.1 ≤ k * 2 ^ (802 : ℤ)) :
    ∃ r : Fin754 binary64, ds.foldl (fun s d => numOps.add s (numOps.mul d d)) (.fin s) = .fin r ∧ s.1 ≤ r.1 ∧ r.1 ≤ (k + ds.length : Nat) * 2 ^ (802 : ℤ) ∧
      ∀ d : Fin754 binary64, Num754.fin d ∈ ds → (2 : ℚ) ^ (-500 : ℤ) ≤ |d.1| → (2 : ℚ) ^ (-1000 : ℤ) ≤ r.1 := by
  induction ds generalizing k s with
  | nil => exact ⟨s, rfl, le_refl _, by simpa using hs, by simp⟩
  | cons x ds ih =>
    obtain ⟨d, rfl, hd⟩ := hds x List.mem_cons_self
    obtain ⟨t, t1, t2, t3, t4⟩ := square_spec hd
    rw [List.length_cons] at hk
    have hle : s.1 + t.1 ≤ (k + 1 : Nat) * 2 ^ (802 : ℤ) := by
      rw [Nat.cast_add, Nat.cast_one, add_mul, one_mul]; exact add_le_add hs t3
    obtain ⟨u, u1, u2, u3, u4⟩ := of_bounded (e := 802) (by norm_num) (by norm_num) (k := k + 1) (by omega) (add_nonneg h0 t2) hle
    have hsu : s.1 ≤ u.1 := by
      rw [u2, ← fl_double s.2.1]
      refine fl_mono ?_
      rw [fl_double s.2.1]
      linarith
    have htu : t.1 ≤ u.1 := by
      rw [u2, ← fl_double t.2.1]
      refine fl_mono ?_
      rw [fl_double t.2.1]
      linarith
    obtain ⟨r, r1, r2, r3, r4⟩ := ih (fun x hx => hds x (List.mem_cons_of_mem _ hx)) (k + 1) u (by omega) u3 u4
    refine ⟨r, ?_, hsu.trans r2, ?_, fun d' hd' hge => ?_⟩
    · rw [List.foldl_cons, t1]
      have : numOps.add (.fin s) (.fin t) = .fin u := by
        show (Fp.of (s.1 + t.1) : Dbl).toNum = _
        rw [u1]; rfl
      rw [this, r1]
    · rw [List.length_cons, ← Nat.add_assoc, Nat.add_right_comm]; exact r3
    · rcases List.mem_cons.1 hd' with h | h
      · cases h
        exact (t4 hge).trans (htu.trans r2)
      · exact r4 d' h hge

/-- The square root of the sum. -/
theorem sqrt_spec {s : Fin754 binary64} (h0 : 0 ≤ s.1) (h : s.1 ≤ 2 ^ (836 : ℤ)) :
    numOps.sqrt (.fin s) < numArith.dmax ∧ ((2 : ℚ) ^ (-1000 : ℤ) ≤ s.1 → numOps.sqrt (.fin s) ≠ numArith.zeroW) := by
  have hs := flSqrt_spec h0
  have hle : flSqrt s.1 ≤ 2 ^ (418 : ℤ) := by
    have : ((flSqrt s.1 : ℚ) : ℝ) ≤ 2 ^ (418 : ℤ) := by
      rw [hs, ← fl_double (pow_double (K := ℝ) (k := 418) (by norm_num))]
      apply fl_mono
      apply Real.sqrt_le_iff.2
      refine ⟨(two_zpow_pos _).le, ?_⟩
      have := (Rat.cast_le (K := ℝ)).2 h
      push_cast at this
      refine this.trans (le_of_eq ?_)
      rw [← zpow_natCast, ← zpow_mul]; norm_num
    have h2 : ((flSqrt s.1 : ℚ) : ℝ) ≤ (((2 : ℚ) ^ (418 : ℤ) : ℚ) : ℝ) := by push_cast; exact this
    exact_mod_cast h2
  have hnn : 0 ≤ flSqrt s.1 := by
    have h2 : (0 : ℝ) ≤ flSqrt s.1 := by rw [hs]; exact fl_nonneg (Real.sqrt_nonneg _)
    exact_mod_cast h2
  have hlt : |flSqrt s.1| < 2 ^ (1024 : ℤ) := by
    rw [abs_of_nonneg hnn]; exact lt_of_le_of_lt hle (zpow_lt_zpow_right₀ (by norm_num) (by norm_num))
  have e : numOps.sqrt (.fin s) = .fin ⟨flSqrt s.1, isDouble_flSqrt _, hlt⟩ := by
    show (if s.1 < 0 then Ieee.nan else Fp.of (flSqrt s.1) : Dbl).toNum = _
    rw [if_neg (not_lt.2 h0), of_fin (isDouble_flSqrt _) hlt]
    rfl
  constructor
  · have hdm : (.fin ⟨2 ^ (419 : ℤ), pow_double (by norm_num), by rw [abs_of_pos (two_zpow_pos _)]; exact zpow_lt_zpow_right₀ (by norm_num) (by decide)⟩ : Num754 binary64) ≤ numArith.dmax := by
      decide +kernel
    refine lt_of_lt_of_le ?_ hdm
    rw [e, num_fin_lt]
    exact lt_of_le_of_lt hle (zpow_lt_zpow_right₀ (by norm_num) (by norm_num))
  · intro hge hz
    rw [e, num_zero] at hz
    have hz : flSqrt s.1 = 0 := congrArg (fun x => match x with | Num754.fin y => y.1 | _ => (0 : ℚ)) hz
    have hge' : (2 : ℝ) ^ (-500 : ℤ) ≤ fl (Real.sqrt s.1) := by
      rw [← fl_double (pow_double (K := ℝ) (k := -500) (by norm_num))]
      apply fl_mono
      apply Real.le_sqrt_of_sq_le
      have := (Rat.cast_le (K := ℝ)).2 hge
      push_cast at this
      refine le_trans (le_of_eq ?_) this
      rw [← zpow_natCast, ← zpow_mul]; norm_num
    rw [← hs, hz, Rat.cast_zero] at hge'
    exact absurd hge' (not_le.2 (two_zpow_pos _))

end Verif.Props
