import Verif.Lemmas.Tally
import Verif.Lemmas.Fp
import Verif.Lemmas.Double
/-
Helper lemmas: rounding errors of stabilities.
-/
namespace Verif.Hier
open Verif.Spec Verif.Binary64 Verif.Props

/-- Half a unit in the last place. -/
abbrev u : ℚ := 2 ^ (-53 : ℤ)

theorem u_pos : 0 < u := two_zpow_pos _

theorem u_val : u = 1 / 2 ^ 53 := by norm_num [u]

/-- A multiple of the least double is rounded with a relative error of half a unit, however small it is. -/
theorem fl_grid {x : ℚ} (n : ℤ) (hx : x = n * 2 ^ (-1074 : ℤ)) : |fl x - x| ≤ u * |x| := by
  by_cases h : (2 : ℚ) ^ (-1022 : ℤ) ≤ |x|
  · exact fl_relative (.inr h)
  · have hbin : IsDouble x := by
      refine ⟨n, -1074, ?_, by norm_num, hx⟩
      rw [not_le, hx, abs_mul, abs_of_pos (two_zpow_pos (K := ℚ) (-1074)), show (-1022 : ℤ) = 52 + -1074 by norm_num, zpow_add₀ (by norm_num)] at h
      have h1 := lt_of_mul_lt_mul_right h (two_zpow_pos (K := ℚ) (-1074)).le
      have h2 : |n| < 2 ^ 52 := by exact_mod_cast h1
      exact h2.trans (by norm_num)
    rw [fl_double hbin, sub_self, abs_zero]
    exact mul_nonneg u_pos.le (abs_nonneg _)

theorem double_grid (a : F64) : ∃ n : ℤ, a.1 = n * 2 ^ (-1074 : ℤ) := binary_int (f := binary64) a.2

/-- Sums of doubles. -/
theorem of_add_relative (a b : F64) : |(F64.of (a.1 + b.1)).1 - (a.1 + b.1)| ≤ u * |a.1 + b.1| := by
  obtain ⟨m, hm⟩ := double_grid a
  obtain ⟨n, hn⟩ := double_grid b
  exact fl_grid (m + n) (by rw [hm, hn]; push_cast; ring)

theorem of_sub_relative (a b : F64) : |(F64.of (a.1 - b.1)).1 - (a.1 - b.1)| ≤ u * |a.1 - b.1| := by
  obtain ⟨m, hm⟩ := double_grid a
  obtain ⟨n, hn⟩ := double_grid b
  exact fl_grid (m - n) (by rw [hm, hn]; push_cast; ring)

theorem of_mul_relative (k : Nat) (a : F64) : |(F64.of (k * a.1)).1 - k * a.1| ≤ u * |k * a.1| := by
  obtain ⟨m, hm⟩ := double_grid a
  exact fl_grid (k * m) (by rw [hm]; push_cast; ring)

/-- Reciprocals. -/
theorem of_inv_relative {w : F64} (h0 : 0 < w.1) (h : w.1 ≤ 2 ^ (1000 : ℤ)) : |(F64.of (1 / w.1)).1 - 1 / w.1| ≤ u * (1 / w.1) := by
  have hp : 0 < 1 / w.1 := one_div_pos.2 h0
  have := fl_relative (x := 1 / w.1) (.inr (by
    rw [abs_of_pos hp]
    calc (2 : ℚ) ^ (-1022 : ℤ) ≤ 2 ^ (-1000 : ℤ) := zpow_le_zpow_right₀ (by norm_num) (by norm_num)
      _ = 1 / 2 ^ (1000 : ℤ) := by rw [zpow_neg, one_div]
      _ ≤ 1 / w.1 := one_div_le_one_div_of_le h0 h))
  rw [abs_of_pos hp] at this
  exact this

/-- Reciprocals, compared with the reciprocal of a smaller number that is not huge. -/
theorem of_inv_error {w b : F64} (h0 : 0 < w.1) (h : w.1 ≤ 2 ^ (1000 : ℤ)) (hb : w.1 < b.1) : |(F64.of (1 / b.1)).1 - 1 / b.1| ≤ u * (1 / w.1) := by
  have hb0 := h0.trans hb
  have hp : 0 < 1 / b.1 := one_div_pos.2 hb0
  by_cases hs : (2 : ℚ) ^ (-1022 : ℤ) ≤ 1 / b.1
  · have h1 := fl_relative (x := 1 / b.1) (.inr (by rw [abs_of_pos hp]; exact hs))
    rw [abs_of_pos hp] at h1
    exact h1.trans (mul_le_mul_of_nonneg_left (one_div_le_one_div_of_le h0 hb.le) u_pos.le)
  · rw [not_le] at hs
    have hg : (0 : ℚ) < 2 ^ (-1074 : ℤ) := two_zpow_pos _
    have f1 := Int.floor_le (1 / b.1 / 2 ^ (-1074 : ℤ))
    have f2 := Int.lt_floor_add_one (1 / b.1 / 2 ^ (-1074 : ℤ))
    have f0 : (0 : ℤ) ≤ ⌊1 / b.1 / 2 ^ (-1074 : ℤ)⌋ := Int.floor_nonneg.2 (div_nonneg hp.le hg.le)
    rw [le_div_iff₀ hg] at f1
    rw [div_lt_iff₀ hg] at f2
    have hd : IsDouble ((⌊1 / b.1 / 2 ^ (-1074 : ℤ)⌋ : ℚ) * 2 ^ (-1074 : ℤ)) := by
      refine ⟨_, -1074, ?_, by norm_num, rfl⟩
      have h1 := lt_of_le_of_lt f1 hs
      rw [show (-1022 : ℤ) = 52 + -1074 by norm_num, zpow_add₀ (by norm_num)] at h1
      have h2 := lt_of_mul_lt_mul_right h1 hg.le
      rw [abs_of_nonneg f0]
      have h3 : ⌊1 / b.1 / 2 ^ (-1074 : ℤ)⌋ < 2 ^ 52 := by exact_mod_cast h2
      exact h3.trans (by norm_num)
    have h1 := (fl_nearest (1 / b.1)).2 _ hd
    have h2 : (2 : ℚ) ^ (-1074 : ℤ) ≤ u * (1 / w.1) := by
      calc (2 : ℚ) ^ (-1074 : ℤ) ≤ 2 ^ (-1053 : ℤ) := zpow_le_zpow_right₀ (by norm_num) (by norm_num)
        _ = u * 2 ^ (-1000 : ℤ) := by rw [show (-1053 : ℤ) = -53 + -1000 by norm_num, zpow_add₀ (by norm_num)]
        _ = u * (1 / 2 ^ (1000 : ℤ)) := by rw [zpow_neg, one_div]
        _ ≤ u * (1 / w.1) := mul_le_mul_of_nonneg_left (one_div_le_one_div_of_le h0 h) u_pos.le
    refine h1.trans (le_trans ?_ h2)
    rw [abs_le]
    constructor <;> linarith

/-- The rounding errors of one term. -/
theorem term_error {k : Nat} {w b : F64} (h0 : 0 < w.1) (hwb : w < b) (hw : w.1 ≤ 2 ^ (1000 : ℤ)) :
    0 ≤ (doubleArith.term k w (some b)).1 ∧ (doubleArith.term k w (some b)).1 ≤ (1 + u) ^ 3 * (k * (1 / w.1)) ∧
    |(doubleArith.term k w (some b)).1 - k * (1 / w.1 - 1 / b.1)| ≤ 5 * u * (k * (1 / w.1)) := by
  have hwb' : w.1 < b.1 := hwb
  have hb0 : 0 < b.1 := h0.trans hwb'
  have ea := of_inv_relative h0 hw
  have eb := of_inv_error h0 hw hwb'
  have hab : (F64.of (1 / b.1)).1 ≤ (F64.of (1 / w.1)).1 := of_mono (one_div_le_one_div_of_le h0 hwb'.le)
  have hb' : 0 ≤ (F64.of (1 / b.1)).1 := fl_nonneg (one_div_nonneg.2 hb0.le)
  have hαβ : 1 / b.1 < 1 / w.1 := one_div_lt_one_div_of_lt h0 hwb'
  have hβ : 0 < 1 / b.1 := one_div_pos.2 hb0
  have ed := of_sub_relative (F64.of (1 / w.1)) (F64.of (1 / b.1))
  have hd : 0 ≤ (F64.of ((F64.of (1 / w.1)).1 - (F64.of (1 / b.1)).1)).1 := fl_nonneg (sub_nonneg.2 hab)
  have et := of_mul_relative k (F64.of ((F64.of (1 / w.1)).1 - (F64.of (1 / b.1)).1))
  have hk : (0 : ℚ) ≤ k := Nat.cast_nonneg k
  have ht : 0 ≤ (F64.of (k * (F64.of ((F64.of (1 / w.1)).1 - (F64.of (1 / b.1)).1)).1)).1 := fl_nonneg (mul_nonneg hk hd)
  show 0 ≤ (F64.of (k * (F64.of ((F64.of (1 / w.1)).1 - (F64.of (1 / b.1)).1)).1)).1 ∧ (F64.of (k * (F64.of ((F64.of (1 / w.1)).1 - (F64.of (1 / b.1)).1)).1)).1 ≤ _ ∧
    |(F64.of (k * (F64.of ((F64.of (1 / w.1)).1 - (F64.of (1 / b.1)).1)).1)).1 - _| ≤ _
  generalize (F64.of (k * (F64.of ((F64.of (1 / w.1)).1 - (F64.of (1 / b.1)).1)).1)).1 = t at *
  generalize (F64.of ((F64.of (1 / w.1)).1 - (F64.of (1 / b.1)).1)).1 = d at *
  generalize (F64.of (1 / w.1)).1 = a' at *
  generalize (F64.of (1 / b.1)).1 = b' at *
  generalize 1 / w.1 = α at *
  generalize 1 / b.1 = β at *
  generalize (k : ℚ) = κ at *
  have u0 : 0 < u := u_pos
  have u1 : u ≤ 1 / 100 := by rw [u_val]; norm_num
  rw [abs_of_nonneg (sub_nonneg.2 hab)] at ed
  rw [abs_of_nonneg (mul_nonneg hk hd)] at et
  generalize u = v at *
  have ha1 : a' ≤ (1 + v) * α := by linarith [(abs_le.1 ea).2]
  have hd1 : d ≤ (1 + v) ^ 2 * α := by
    have h1 : d ≤ (1 + v) * (a' - b') := by linarith [(abs_le.1 ed).2]
    calc d ≤ (1 + v) * (a' - b') := h1
      _ ≤ (1 + v) * ((1 + v) * α) := mul_le_mul_of_nonneg_left (by linarith) (by linarith)
      _ = (1 + v) ^ 2 * α := by ring
  have hkd : κ * d ≤ κ * ((1 + v) ^ 2 * α) := mul_le_mul_of_nonneg_left hd1 hk
  refine ⟨ht, ?_, ?_⟩
  · calc t ≤ (1 + v) * (κ * d) := by linarith [(abs_le.1 et).2]
      _ ≤ (1 + v) * (κ * ((1 + v) ^ 2 * α)) := mul_le_mul_of_nonneg_left hkd (by linarith)
      _ = (1 + v) ^ 3 * (κ * α) := by ring
  · have h1 : |d - (α - β)| ≤ v * (a' - b') + (v * α + v * α) := by
      have e : d - (α - β) = (d - (a' - b')) + ((a' - α) - (b' - β)) := by ring
      rw [e]
      exact (abs_add_le _ _).trans (add_le_add ed ((abs_sub _ _).trans (add_le_add ea eb)))
    have h2 : |κ * d - κ * (α - β)| ≤ κ * (v * (a' - b') + (v * α + v * α)) := by
      rw [← mul_sub, abs_mul, abs_of_nonneg hk]
      exact mul_le_mul_of_nonneg_left h1 hk
    have h3 : |t - κ * (α - β)| ≤ v * (κ * d) + κ * (v * (a' - b') + (v * α + v * α)) := by
      have e : t - κ * (α - β) = (t - κ * d) + (κ * d - κ * (α - β)) := by ring
      rw [e]
      exact (abs_add_le _ _).trans (add_le_add et h2)
    have hα : 0 < α := hβ.trans hαβ
    have h4 : v * (κ * d) ≤ v * (κ * ((1 + v) ^ 2 * α)) := mul_le_mul_of_nonneg_left hkd u0.le
    have h5 : v * (a' - b') + (v * α + v * α) ≤ v * ((1 + v) * α) + (v * α + v * α) := by
      have := mul_le_mul_of_nonneg_left (show a' - b' ≤ (1 + v) * α by linarith) u0.le
      linarith
    have h6 := mul_le_mul_of_nonneg_left h5 hk
    have hkα : 0 ≤ κ * α := mul_nonneg hk hα.le
    have h7 : (1 + v) ^ 2 + (1 + v) + 2 ≤ 5 := by nlinarith
    calc |t - κ * (α - β)| ≤ v * (κ * ((1 + v) ^ 2 * α)) + κ * (v * ((1 + v) * α) + (v * α + v * α)) := by linarith
      _ = ((1 + v) ^ 2 + (1 + v) + 2) * (v * (κ * α)) := by ring
      _ ≤ 5 * (v * (κ * α)) := mul_le_mul_of_nonneg_right h7 (mul_nonneg u0.le hkα)
      _ = 5 * v * (κ * α) := by ring

/-- The exact value and the mass of a list of calls. -/
def exactOf (es : List (Event F64)) (b : F64) : ℚ := (es.map fun e => (e.1 : ℚ) * (1 / e.2.1.1 - 1 / b.1)).sum
def massOf (es : List (Event F64)) : ℚ := (es.map fun e => (e.1 : ℚ) * (1 / e.2.1.1)).sum

theorem add_zero_term (s : F64) (w : F64) (b : Option F64) : doubleArith.add s (doubleArith.term 0 w b) = s := by
  have : (doubleArith.term 0 w b).1 = 0 := by
    cases b with
    | none => exact of_zero
    | some b =>
      show (F64.of (((0 : Nat) : ℚ) * _)).1 = 0
      rw [Nat.cast_zero, zero_mul, of_zero]
  show F64.of (s.1 + (doubleArith.term 0 w b).1) = s
  rw [this, add_zero, of_val]

/-- The rounding errors of a sum of terms. -/
theorem total_error (b : F64) (es : List (Event F64)) (hes : ∀ e ∈ es, e.1 ≠ 0 → e.2.2 = some b ∧ 0 < e.2.1.1 ∧ e.2.1 < b ∧ e.2.1.1 ≤ 2 ^ (1000 : ℤ)) :
    ∃ T : ℚ, 0 ≤ (total doubleArith es).1 ∧ 0 ≤ T ∧ T ≤ (1 + u) ^ 3 * massOf es ∧ |T - exactOf es b| ≤ 5 * u * massOf es ∧
      |(total doubleArith es).1 - T| ≤ ((1 + u) ^ (es.countP (fun e => e.1 != 0)) - 1) * T := by
  induction es using List.reverseRecOn with
  | nil =>
    refine ⟨0, ?_, le_refl _, by simp [massOf], by simp [exactOf, massOf], ?_⟩
    · show 0 ≤ (F64.of 0).1
      rw [of_zero]
    · show |(F64.of 0).1 - 0| ≤ _
      rw [of_zero]; simp
  | append_singleton es e ih =>
    obtain ⟨T, i0, i1, i2, i3, i4⟩ := ih fun e he => hes e (List.mem_append_left _ he)
    obtain ⟨k, w, b'⟩ := e
    rw [total_snoc]
    have hM : massOf (es ++ [(k, w, b')]) = massOf es + k * (1 / w.1) := by simp [massOf]
    have hX : exactOf (es ++ [(k, w, b')]) b = exactOf es b + k * (1 / w.1 - 1 / b.1) := by simp [exactOf]
    rw [hM, hX]
    by_cases hk : k = 0
    · subst hk
      rw [add_zero_term]
      refine ⟨T, i0, i1, by simpa using i2, by simpa using i3, ?_⟩
      rw [List.countP_append]
      simpa using i4
    · obtain ⟨h1, h2, h3, hw⟩ := hes _ (List.mem_append_right _ List.mem_cons_self) hk
      dsimp only at h1 h2 h3 hw
      subst h1
      obtain ⟨t0, t1, t2⟩ := term_error (k := k) h2 h3 hw
      have e1 := of_add_relative (total doubleArith es) (doubleArith.term k w (some b))
      rw [abs_of_nonneg (add_nonneg i0 t0)] at e1
      have hs0 : 0 ≤ (doubleArith.add (total doubleArith es) (doubleArith.term k w (some b))).1 := fl_nonneg (add_nonneg i0 t0)
      change |(doubleArith.add (total doubleArith es) (doubleArith.term k w (some b))).1 - _| ≤ _ at e1
      generalize (doubleArith.add (total doubleArith es) (doubleArith.term k w (some b))).1 = s' at *
      generalize (doubleArith.term k w (some b)).1 = t at *
      generalize (total doubleArith es).1 = s at *
      have u0 : 0 < u := u_pos
      generalize u = v at *
      refine ⟨T + t, hs0, add_nonneg i1 t0, by rw [mul_add]; exact add_le_add i2 t1, ?_, ?_⟩
      · have e : T + t - (exactOf es b + k * (1 / w.1 - 1 / b.1)) = (T - exactOf es b) + (t - k * (1 / w.1 - 1 / b.1)) := by ring
        rw [e, mul_add]
        exact (abs_add_le _ _).trans (add_le_add i3 t2)
      · rw [List.countP_append]
        have hc : List.countP (fun e : Event F64 => e.1 != 0) [(k, w, some b)] = 1 := by simp [hk]
        rw [hc, pow_succ]
        generalize List.countP (fun e : Event F64 => e.1 != 0) es = j at *
        have hj : 1 ≤ (1 + v) ^ j := one_le_pow₀ (by linarith)
        have hs1 : s ≤ (1 + v) ^ j * T := by linarith [(abs_le.1 i4).2]
        have e : s' - (T + t) = (s' - (s + t)) + (s - T) := by ring
        rw [e]
        have h5 := (abs_add_le (s' - (s + t)) (s - T)).trans (add_le_add e1 i4)
        have h6 : v * (s + t) ≤ v * ((1 + v) ^ j * T + t) := mul_le_mul_of_nonneg_left (by linarith) u0.le
        have h7 : v * t ≤ ((1 + v) ^ j * (1 + v) - 1) * t := by
          refine mul_le_mul_of_nonneg_right ?_ t0
          nlinarith
        calc _ ≤ v * ((1 + v) ^ j * T + t) + ((1 + v) ^ j - 1) * T := by linarith
          _ = ((1 + v) ^ j * (1 + v) - 1) * T + v * t := by ring
          _ ≤ ((1 + v) ^ j * (1 + v) - 1) * T + ((1 + v) ^ j * (1 + v) - 1) * t := by linarith
          _ = _ := by ring

/-- Sums over the calls are sums over the points. -/
theorem sum_tally {W : Type} {z d : W} (F : W × Option W → ℚ) (es : List (Event W)) :
    (es.map fun e => (e.1 : ℚ) * F e.2).sum = ((total (tallyArith z d) es).map F).sum := by
  induction es using List.reverseRecOn with
  | nil => simp [total, tallyArith]
  | append_singleton es e ih =>
    obtain ⟨k, w, b⟩ := e
    rw [total_snoc, List.map_append, List.sum_append, ih]
    show _ = (Multiset.map F (_ + Multiset.replicate k (w, b))).sum
    rw [Multiset.map_add, Multiset.sum_add, Multiset.map_replicate, Multiset.sum_replicate]
    simp [nsmul_eq_mul]

theorem mem_tally {W : Type} {z d : W} {es : List (Event W)} : ∀ e ∈ es, e.1 ≠ 0 → e.2 ∈ total (tallyArith z d) es := by
  induction es using List.reverseRecOn with
  | nil => simp
  | append_singleton es e ih =>
    obtain ⟨k, w, b⟩ := e
    intro x hx h0
    rw [total_snoc]
    show x.2 ∈ _ + Multiset.replicate k (w, b)
    rw [Multiset.mem_add]
    rcases List.mem_append.1 hx with h | h
    · exact .inl (ih x h h0)
    · rw [List.mem_singleton] at h
      subst h
      exact .inr (Multiset.mem_replicate.2 ⟨h0, rfl⟩)

theorem count_tally {W : Type} {z d : W} (es : List (Event W)) : es.countP (fun e => e.1 != 0) ≤ (total (tallyArith z d) es).card := by
  induction es using List.reverseRecOn with
  | nil => simp
  | append_singleton es e ih =>
    obtain ⟨k, w, b⟩ := e
    rw [total_snoc, List.countP_append]
    show _ ≤ (_ + Multiset.replicate k (w, b)).card
    rw [Multiset.card_add, Multiset.card_replicate]
    refine Nat.add_le_add ih ?_
    by_cases hk : k = 0 <;> simp [hk]
    omega

theorem pow_small (n : Nat) (h : n ≤ 2 ^ 32) : (1 + u) ^ n ≤ 1 + 2 * n * u := by
  have key : ∀ m : Nat, m ≤ 2 ^ 32 → (1 + u) ^ m ≤ 1 + 2 * m * u := by
    intro m
    induction m with
    | zero => intro _; simp
    | succ m ih =>
      intro hm
      have h1 := ih (by omega)
      have u0 : 0 < u := u_pos
      have h2 : (m : ℚ) ≤ 2 ^ 32 := by exact_mod_cast (by omega : m ≤ 2 ^ 32)
      have h3 : 2 * m * u ≤ 1 := by rw [u_val]; linarith
      rw [pow_succ]
      push_cast
      have h4 := mul_le_mul_of_nonneg_right h3 u0.le
      calc (1 + u) ^ m * (1 + u) ≤ (1 + 2 * m * u) * (1 + u) := mul_le_mul_of_nonneg_right h1 (by linarith)
        _ = 1 + 2 * m * u + u + 2 * m * u * u := by ring
        _ ≤ _ := by linarith
  exact key n h

theorem count_small {n : ℚ} (h : n ≤ 2 ^ 32) : 2 * n * (6 * u) ≤ 1 ∧ (2 * n + 1) * u + 6 * u ≤ 1 := by
  rw [u_val]
  constructor <;> linarith

/-- The rounding errors of a stability. -/
theorem stab_error {z d : F64} {b : F64} {es : List (Event F64)} {members : List Nat} {leave : Nat → F64} (hm : members.length < 2 ^ 32)
    (hl : ∀ p ∈ members, 0 < (leave p).1 ∧ leave p < b ∧ (leave p).1 ≤ 2 ^ (1000 : ℤ)) (he : total (tallyArith z d) es = (members.map (fun p => (leave p, some b)) : List (F64 × Option F64))) :
    0 ≤ (total doubleArith es).1 ∧ (total doubleArith es).1 ≤ 2 * (members.map fun p => 1 / (leave p).1).sum ∧
    |(total doubleArith es).1 - (members.map fun p => 1 / (leave p).1 - 1 / b.1).sum| ≤ (2 * members.length + 6) * u * (members.map fun p => 1 / (leave p).1).sum := by
  have hes : ∀ e ∈ es, e.1 ≠ 0 → e.2.2 = some b ∧ 0 < e.2.1.1 ∧ e.2.1 < b ∧ e.2.1.1 ≤ 2 ^ (1000 : ℤ) := by
    intro e h1 h2
    have h3 := mem_tally (z := z) (d := d) e h1 h2
    rw [he, Multiset.mem_coe, List.mem_map] at h3
    obtain ⟨p, hp, h4⟩ := h3
    rw [← h4]
    exact ⟨rfl, hl p hp⟩
  have hM : massOf es = (members.map fun p => 1 / (leave p).1).sum := by
    have := sum_tally (z := z) (d := d) (fun x : F64 × Option F64 => 1 / x.1.1) es
    rw [he, Multiset.map_coe, Multiset.sum_coe, List.map_map] at this
    exact this
  have hX : exactOf es b = (members.map fun p => 1 / (leave p).1 - 1 / b.1).sum := by
    have := sum_tally (z := z) (d := d) (fun x : F64 × Option F64 => 1 / x.1.1 - 1 / b.1) es
    rw [he, Multiset.map_coe, Multiset.sum_coe, List.map_map] at this
    exact this
  have hj : es.countP (fun e => e.1 != 0) ≤ members.length := by
    have := count_tally (z := z) (d := d) es
    rw [he] at this
    simpa using this
  obtain ⟨T, t0, t1, t2, t3, t4⟩ := total_error b es hes
  rw [← hM, ← hX]
  have hM0 : 0 ≤ massOf es := by
    rw [hM]
    refine List.sum_nonneg ?_
    intro x hx
    obtain ⟨p, hp, rfl⟩ := List.mem_map.1 hx
    exact one_div_nonneg.2 (hl p hp).1.le
  have h3 : (1 + u) ^ 3 ≤ 1 + 6 * u := by
    have := pow_small 3 (by norm_num)
    norm_num at this ⊢
  have hn : (members.length : ℚ) ≤ 2 ^ 32 := by exact_mod_cast hm.le
  have hpow : (1 + u) ^ (es.countP (fun e => e.1 != 0)) ≤ 1 + 2 * members.length * u :=
    (pow_le_pow_right₀ (by linarith [u_pos]) hj).trans (pow_small _ hm.le)
  have u0 : 0 < u := u_pos
  clear he hes
  have hT : T ≤ (1 + 6 * u) * massOf es := t2.trans (mul_le_mul_of_nonneg_right h3 hM0)
  have h4 : |(total doubleArith es).1 - T| ≤ 2 * members.length * u * ((1 + 6 * u) * massOf es) := by
    refine t4.trans (mul_le_mul (by linarith) hT t1 (by positivity))
  have h5 : 2 * members.length * u * ((1 + 6 * u) * massOf es) ≤ (2 * members.length + 1) * u * massOf es := by
    have := (count_small hn).1
    have h6 := mul_le_mul_of_nonneg_right this (mul_nonneg u0.le hM0)
    calc 2 * members.length * u * ((1 + 6 * u) * massOf es) = 2 * members.length * u * massOf es + 2 * members.length * (6 * u) * (u * massOf es) := by ring
      _ ≤ 2 * members.length * u * massOf es + 1 * (u * massOf es) := by linarith
      _ = _ := by ring
  refine ⟨t0, ?_, ?_⟩
  · have h6 := (count_small hn).2
    have h7 := mul_le_mul_of_nonneg_right h6 hM0
    have h8 := (abs_le.1 (h4.trans h5)).2
    linarith
  · have e : (total doubleArith es).1 - exactOf es b = ((total doubleArith es).1 - T) + (T - exactOf es b) := by ring
    rw [e]
    calc _ ≤ (2 * members.length + 1) * u * massOf es + 5 * u * massOf es := (abs_add_le _ _).trans (add_le_add (h4.trans h5) t3)
      _ = _ := by ring

end Verif.Hier
