import Verif.Spec.PrintRun
import Verif.Props.Print
import Verif.Props.ScoreRun
/-
Property C76 for runs: printing the outlier scores of finite data.
-/
namespace Verif.Props
open Spec Print Binary64

/-- A double below 1 is at most `1 - 2 ^ -53`. -/
theorem double_below_one {x : ℚ} (h : IsDouble x) (h1 : x < 1) : x ≤ 1 - 2 ^ (-53 : ℤ) := by
  obtain ⟨m, e, hm, -, rfl⟩ := h
  by_cases he : -53 ≤ e
  · have hk : (2 : ℚ) ^ e = 2 ^ (e + 53).toNat * 2 ^ (-53 : ℤ) := by
      rw [← zpow_natCast, ← zpow_add₀ (by norm_num)]
      congr 1
      omega
    rw [hk] at h1 ⊢
    have h2 : ((m * 2 ^ (e + 53).toNat : ℤ) : ℚ) * 2 ^ (-53 : ℤ) < 1 := by push_cast; rw [mul_assoc]; exact h1
    have h3 : ((m * 2 ^ (e + 53).toNat : ℤ) : ℚ) < ((2 ^ 53 : ℤ) : ℚ) := by
      rw [show (2 : ℚ) ^ (-53 : ℤ) = 1 / 2 ^ 53 by norm_num, mul_one_div, div_lt_one (by norm_num)] at h2
      push_cast at h2 ⊢
      exact h2
    have h4 : m * 2 ^ (e + 53).toNat ≤ 2 ^ 53 - 1 := by have := Int.cast_lt.1 h3; omega
    have h5 : ((m * 2 ^ (e + 53).toNat : ℤ) : ℚ) ≤ ((2 ^ 53 - 1 : ℤ) : ℚ) := Int.cast_le.2 h4
    rw [← mul_assoc]
    have h5 : (m : ℚ) * 2 ^ (e + 53).toNat ≤ 2 ^ 53 - 1 := by
      refine le_trans (le_of_eq ?_) (h5.trans (le_of_eq ?_)) <;> push_cast <;> norm_num
    calc (m : ℚ) * 2 ^ (e + 53).toNat * 2 ^ (-53 : ℤ) ≤ (2 ^ 53 - 1) * 2 ^ (-53 : ℤ) := mul_le_mul_of_nonneg_right h5 (by norm_num)
      _ = 1 - 2 ^ (-53 : ℤ) := by norm_num
  · have h2 : (2 : ℚ) ^ e ≤ 2 ^ (-54 : ℤ) := zpow_le_zpow_right₀ (by norm_num) (by omega)
    have h3 : (m : ℚ) ≤ 2 ^ 53 := by
      have : m ≤ 2 ^ 53 := (le_abs_self m).trans hm.le
      exact_mod_cast this
    have h4 : (0 : ℚ) < 2 ^ e := two_zpow_pos _
    calc (m : ℚ) * 2 ^ e ≤ 2 ^ 53 * 2 ^ e := mul_le_mul_of_nonneg_right h3 h4.le
      _ ≤ 2 ^ 53 * 2 ^ (-54 : ℤ) := mul_le_mul_of_nonneg_left h2 (by norm_num)
      _ ≤ 1 - 2 ^ (-53 : ℤ) := by norm_num

/-- `1 - DBL_MAX / eps` is `-inf` if `eps` is below 1, and a number otherwise. -/
theorem far_score {a b : Fin754 binary64} (ha : a.1 = (2 ^ 53 - 1) * 2 ^ (971 : ℤ)) (hb : 0 < b.1) (s : Num754 binary64)
    (h : (Fp.of 1).sub ((Fp.fin a).div (Fp.fin b)) = .num s) : (b.1 < 1 → s = .ninf) ∧ (1 ≤ b.1 → s ≠ .ninf) := by
  obtain ⟨o, ho, ho1⟩ := of_count 1 (by norm_num)
  rw [Nat.cast_one] at ho ho1
  have hd : (Fp.fin a).div (Fp.fin b) = Fp.of (a.1 / b.1) := by
    show (if b.1 = 0 then _ else Fp.of (a.1 / b.1) : Dbl) = _
    rw [if_neg hb.ne']
  have hp : (0 : ℚ) < 2 ^ (971 : ℤ) := two_zpow_pos _
  have ha0 : 0 < a.1 := by rw [ha]; exact mul_pos (by norm_num) hp
  have hq0 : ¬ a.1 / b.1 < 0 := not_lt.2 (div_nonneg ha0.le hb.le)
  rw [hd, ho] at h
  constructor
  · intro h1
    have hb1 := double_below_one b.2.1 h1
    have hge : (2 : ℚ) ^ (1024 : ℤ) ≤ a.1 / b.1 := by
      rw [le_div_iff₀ hb, ha, show (1024 : ℤ) = 53 + 971 by norm_num, zpow_add₀ (by norm_num)]
      have h53 : (2 : ℚ) ^ (53 : ℤ) * (1 - 2 ^ (-53 : ℤ)) = 2 ^ 53 - 1 := by norm_num
      calc (2 : ℚ) ^ (53 : ℤ) * 2 ^ (971 : ℤ) * b.1 ≤ 2 ^ (53 : ℤ) * 2 ^ (971 : ℤ) * (1 - 2 ^ (-53 : ℤ)) :=
            mul_le_mul_of_nonneg_left hb1 (mul_nonneg (by norm_num) hp.le)
        _ = (2 ^ (53 : ℤ) * (1 - 2 ^ (-53 : ℤ))) * 2 ^ (971 : ℤ) := by ring
        _ = (2 ^ 53 - 1) * 2 ^ (971 : ℤ) := by rw [h53]
    rcases of_cases (a.1 / b.1) with ⟨g, e⟩ | ⟨g, e⟩
    · exfalso
      have : (2 : ℚ) ^ (1024 : ℤ) ≤ fl (a.1 / b.1) := by
        rw [← fl_double (pow_double (K := ℚ) (k := 1024) (by norm_num))]
        exact fl_mono hge
      exact absurd g (not_lt.2 (this.trans (le_abs_self _)))
    · rw [e, decide_eq_false hq0] at h
      change Fp.add (Fp.fin o) (.num .ninf) = .num s at h
      exact (Ieee.num.inj h).symm
  · rintro h1 rfl
    have hle : a.1 / b.1 ≤ a.1 := div_le_self ha0.le h1
    have hfl : fl (a.1 / b.1) ≤ a.1 := (fl_mono hle).trans_eq (fl_double a.2.1)
    have hfl0 : 0 ≤ fl (a.1 / b.1) := fl_nonneg (div_nonneg ha0.le hb.le)
    rcases of_cases (a.1 / b.1) with ⟨g, e⟩ | ⟨g, e⟩
    · rw [e, fp_sub, ho1] at h
      rcases of_cases (1 - fl (a.1 / b.1)) with ⟨g', e'⟩ | ⟨g', e'⟩
      · rw [e'] at h
        cases h
      · apply g'
        have hlow : -a.1 ≤ fl (1 - fl (a.1 / b.1)) := by
          refine (fl_double (isDouble_neg a.2.1)).symm.trans_le (fl_mono ?_)
          have := neg_le_neg hfl
          exact this.trans (by rw [sub_eq_add_neg]; exact le_add_of_nonneg_left zero_le_one)
        have hhigh : fl (1 - fl (a.1 / b.1)) ≤ 1 := by
          exact (fl_mono (sub_le_self 1 hfl0)).trans_eq (fl_double (show IsDouble (1 : ℚ) from ⟨1, 0, by norm_num, by norm_num, by norm_num⟩))
        have hal := a.2.2
        rw [abs_of_pos ha0] at hal
        rw [abs_lt]
        have h1024 : (1 : ℚ) < 2 ^ (1024 : ℤ) := one_lt_zpow₀ (by norm_num) (by norm_num)
        change a.1 < 2 ^ (1024 : ℤ) at hal
        exact ⟨lt_of_lt_of_le (neg_lt_neg hal) hlow, lt_of_le_of_lt hhigh h1024⟩
    · exfalso
      apply g
      rw [abs_of_nonneg hfl0]
      have hal := a.2.2
      rw [abs_of_pos ha0] at hal
      exact lt_of_le_of_lt hfl hal

theorem view_core {x : Num754 binary64} (h : ∀ y : Fin754 binary64, x = .fin y → |y.1| < 10 ^ 60) : AtMost 6 64 (doubleView x) := by
  cases x with
  | fin y =>
    refine ⟨abs_nonneg _, lt_of_lt_of_le (h y rfl) ?_⟩
    norm_num
  | _ => trivial

theorem view_unit {x : Fin754 binary64} (h0 : 0 ≤ x.1) (h1 : x.1 ≤ 1) : (fmtF 6 (doubleView (.fin x))).length ≤ 8 := by
  refine (fmtF_plain (p := 6) (k := 1) (by decide) (by decide) (by decide) ?_).2 ⟨abs_nonneg _, ?_⟩
  · exact ⟨decide_eq_false (not_lt.2 h0), abs_nonneg _⟩
  · rw [abs_of_nonneg h0]
    exact lt_of_le_of_lt h1 (by norm_num)

theorem view_far {x : Fin754 binary64} (h : x.1 < -2 ^ (500 : ℤ)) : 91 < (fmtF 6 (doubleView (.fin x))).length := by
  have h2 : (10 : ℚ) ^ 90 < 2 ^ (500 : ℤ) := by
    have : (2 : ℚ) ^ (500 : ℤ) = 2 ^ (250 : ℤ) * 2 ^ (250 : ℤ) := by rw [← zpow_add₀ (by norm_num)]; norm_num
    rw [this]
    norm_num
  have hl : 91 < (fmtF 6 (Print.Dbl.fin false |x.1|)).length := by
    by_contra hc
    have := (fmtF_plain (p := 6) (k := 84) (x := .fin false |x.1|) (by decide) (by decide) (by decide) ⟨rfl, abs_nonneg _⟩).1 (by omega)
    have h3 : |x.1| < 10 ^ 84 - 1 / 2 / 10 ^ 6 := this.2
    have h4 : -x.1 ≤ |x.1| := neg_le_abs _
    have h5 : (10 : ℚ) ^ 84 - 1 / 2 / 10 ^ 6 < 10 ^ 90 := by norm_num
    generalize (2 : ℚ) ^ (500 : ℤ) = t at h h2
    linarith
  show 91 < (fmtF 6 (Print.Dbl.fin (decide (x.1 < 0)) |x.1|)).length
  rw [fmtF_fin_length (by decide)] at hl ⊢
  have : (sign false).length = 0 := by decide
  omega

/-- **C76 for the outlier scores of runs on finite data** (no distance overflows, `m` at most the number of rows), with any schedules and any interleaving of the loop with the data race.
    If the hierarchy splits, printing them is safe provided that the core distances are below `10 ^ 60`. If it never splits, printing them is safe, under the same condition, exactly
    if the levels at which the points become noise are all below 1; if one of them is not, the score has more than 150 digits and is written past the end of the array. -/
theorem C76_scores_run (qsort : (OScore (Num754 binary64) (Num754 binary64) → OScore (Num754 binary64) (Num754 binary64) → Int) →
      List (OScore (Num754 binary64) (Num754 binary64)) → List (OScore (Num754 binary64) (Num754 binary64))) (hq : SortsAscending qsort)
    (data : List (Fin754 binary64)) (rows cols : Nat) (hr : rows ≤ 65536) (hdata : rows * cols ≤ data.length) (h5 : 5 ≤ rows) (m : Nat) (hm : 2 ≤ m) (hmr : m ≤ rows)
    {sys : Sys} (hc : ClockWorks sys) :
    ∃ obj : Api.Obj (Num754 binary64) Verif.Dbl (Num754 binary64), (∀ par, Complete rows rows par → Api.fresh (numEnv qsort) par m data rows cols true = .ok obj) ∧
      (∀ th : Race.Threads, Interleaves th → ∃ obj', (∀ par, Complete rows rows par → Race.fresh th (numEnv qsort) par m data rows cols true = .ok obj') ∧ obj'.results.outliers = obj.results.outliers) ∧
      ((∀ i j, i < rows → j < rows → obj.dis.get numArith.zeroW i j ≠ .ok .pinf) →
        (obj.results.clusters.length ≠ 2 → CoresShort obj.results.outliers → ∀ w, (outlierScores sys doubleView doubleView obj.results.outliers rows w).Returns) ∧
        (obj.results.clusters.length = 2 → ∃ level : Nat → Fin754 binary64, (∀ p, p < rows → ∃ l, LastAt obj.results.hierarchy p l (level p)) ∧
          ((∀ p, p < rows → (level p).1 < 1) → CoresShort obj.results.outliers → ∀ w, (outlierScores sys doubleView doubleView obj.results.outliers rows w).Returns) ∧
          ((∃ p, p < rows ∧ 1 ≤ (level p).1) → ∀ w, (outlierScores sys doubleView doubleView obj.results.outliers rows w).IsUB))) := by
  obtain ⟨obj, h1, h2, h3, h4⟩ := C105_scores qsort hq data rows cols hr hdata h5 m hm
  refine ⟨obj, h1, h2, fun hfin => ?_⟩
  have h4 := h4 hmr hfin
  have hlen : obj.results.outliers.length = rows := by simpa using h3.length_eq
  have hid : ∀ o ∈ obj.results.outliers, o.id < rows := fun o ho => List.mem_range.1 (h3.mem_iff.1 (List.mem_map.2 ⟨o, ho, rfl⟩))
  have hidl : ∀ o ∈ obj.results.outliers, (decimal o.id).length ≤ 10 := by
    intro o ho
    have := fmtL_index (n := o.id) (by have := hid o ho; omega)
    rwa [fmtL_eq] at this
  have hcl : CoresShort obj.results.outliers → ∀ o ∈ obj.results.outliers, (fmtF 6 (doubleView o.core)).length ≤ 72 := fun hcs o ho =>
    fmtF_length (p := 6) (k := 64) (by decide) (by decide) (by decide) (view_core (hcs o ho))
  have hsafe : CoresShort obj.results.outliers → (∀ o ∈ obj.results.outliers, (fmtF 6 (doubleView o.score)).length ≤ 8) →
      ∀ w, (outlierScores sys doubleView doubleView obj.results.outliers rows w).Returns := by
    intro hcs hs w
    refine (C76_outlier_scores_partial hc doubleView doubleView obj.results.outliers rows hlen.ge w).1.2 (fun o ho => ?_)
    have ho := List.mem_of_mem_take ho
    have := hidl o ho
    have := hcl hcs o ho
    have := hs o ho
    omega
  refine ⟨fun hsp hcs => hsafe hcs fun o ho => ?_, fun hl => ?_⟩
  · obtain ⟨eps, epsmax, l, _, _, _, k, _⟩ := h4 o ho
    obtain ⟨_, _, x, hx, x0, x1, _⟩ := k hsp
    rw [hx]
    exact view_unit x0 x1
  · have hpt : ∀ p, ∃ e : Fin754 binary64, p < rows → ∃ o ∈ obj.results.outliers, o.id = p ∧ (∃ l, LastAt obj.results.hierarchy p l e) ∧
        (e.1 < 1 → (fmtF 6 (doubleView o.score)).length ≤ 8) ∧ (1 ≤ e.1 → 91 < (fmtF 6 (doubleView o.score)).length) := by
      intro p
      by_cases hp : p < rows
      · obtain ⟨o, ho, hoi⟩ := List.mem_map.1 (h3.mem_iff.2 (List.mem_range.2 hp))
        obtain ⟨eps, epsmax, l, k1, k2, ⟨k3, k4⟩, _, k5⟩ := h4 o ho
        obtain ⟨k6, k7⟩ := k5 hl
        refine ⟨eps, fun _ => ⟨o, ho, hoi, ⟨l, hoi ▸ k1⟩, fun he => ?_, fun he => ?_⟩⟩
        · by_cases h0 : eps.1 = 0
          · obtain ⟨z, hz0, hz1⟩ := of_count 0 (by norm_num)
            rw [Nat.cast_zero] at hz0 hz1
            have hsz : numScore.zero = .fin z := by
              show (match (Fp.of 0 : Verif.Dbl) with | .num v => v | .nan => _) = _
              rw [hz0]
            rw [k3 h0, hsz]
            exact view_unit hz1.ge (by rw [hz1]; exact zero_le_one)
          · rw [(far_score k6 (lt_of_le_of_ne k2 (Ne.symm h0)) _ (k4 h0)).1 he]
            decide
        · have h0 : eps.1 ≠ 0 := by intro h0; rw [h0] at he; norm_num at he
          rcases k7 h0 with hni | ⟨x, hx, hlt⟩
          · exact absurd hni ((far_score k6 (lt_of_le_of_ne k2 (Ne.symm h0)) _ (k4 h0)).2 he)
          · rw [hx]
            exact view_far hlt
      · exact ⟨⟨0, isDouble_zero, zero_lt⟩, fun h => absurd h hp⟩
    choose level hlevel using hpt
    refine ⟨level, fun p hp => ?_, fun hall hcs => hsafe hcs fun o ho => ?_, ?_⟩
    · obtain ⟨_, _, _, h, _⟩ := hlevel p hp
      exact h
    · obtain ⟨o', ho', hi', _, hs, _⟩ := hlevel o.id (hid o ho)
      have hnd : (obj.results.outliers.map (·.id)).Nodup := h3.nodup_iff.2 List.nodup_range
      obtain rfl : o' = o := List.inj_on_of_nodup_map hnd ho' ho hi'
      exact hs (hall _ (hid _ ho))
    · rintro ⟨p, hp, hge⟩ w
      obtain ⟨o, ho, _, _, _, hs⟩ := hlevel p hp
      obtain ⟨p1, p2, _⟩ := C76_outlier_scores_partial hc doubleView doubleView obj.results.outliers rows hlen.ge w
      refine p2 fun hret => ?_
      have := p1.1 hret o (by rw [← hlen, List.take_length]; exact ho)
      have := hs hge
      omega

/-! ### Concrete cases -/

/-- Whether the scores of a run can be printed. -/
def printed (m : Nat) (data : List (Fin754 binary64)) (rows : Nat) : Outcome Nat :=
  Api.fresh (numEnv isort) (backPar rows rows) m data rows 1 true >>= fun o => outlierScores exampleSys doubleView doubleView o.results.outliers rows ⟨[], [], 0⟩ >>= fun w => .ok w.out.length

/-- Seven numbers: with `m` = 2 the hierarchy splits and the scores are printed; with `m` = 5 it does not split, and printing writes outside the array. -/
theorem C76_scores_cases : printed 2 spread 7 = .ok 447 ∧ (printed 5 spread 7).IsUB := by
  refine ⟨by decide +kernel, "write outside a character array", by decide +kernel⟩

example := C76_scores_run isort (isort_sorts _) spread 7 1 (by decide) (by decide) (by decide) 5 (by decide) (by decide) (sys := exampleSys) exampleSys_works

end Verif.Props
