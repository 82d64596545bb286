import Verif.Spec.ScoreRun
import Verif.Lemmas.NumAny
import Verif.Props.Outlier
import Verif.Props.Finite
/-
C105: the outlier scores of a run on `double` data.
-/
namespace Verif.Props
open Verif Verif.Spec Verif.Binary64

theorem fl_unit {x : ℚ} (h0 : 0 ≤ x) (h1 : x ≤ 1) : |fl x - x| ≤ 2 ^ (-53 : ℤ) := by
  by_cases h : x = 0 ∨ (2 : ℚ) ^ (-1022 : ℤ) ≤ |x|
  · refine (fl_relative h).trans ?_
    rw [abs_of_nonneg h0]
    exact mul_le_of_le_one_right (two_zpow_pos _).le h1
  · push Not at h
    rw [abs_of_nonneg h0] at h
    have h2 : fl x ≤ 2 ^ (-1022 : ℤ) := by
      rw [← fl_double (pow_double (K := ℚ) (k := -1022) (by norm_num))]
      exact fl_mono h.2.le
    have h3 : 0 ≤ fl x := fl_nonneg h0
    have h4 : (2 : ℚ) ^ (-1022 : ℤ) ≤ 2 ^ (-53 : ℤ) := zpow_le_zpow_right₀ (by norm_num) (by norm_num)
    rw [abs_le]
    constructor <;> linarith [h.2.le]

/-- A score in a hierarchy that splits. -/
theorem ratio_unit {a b : Fin754 binary64} (h0 : 0 ≤ a.1) (hab : a.1 ≤ b.1) (hb : 0 < b.1) :
    ∃ x : Fin754 binary64, (Fp.of 1).sub ((Fp.fin a).div (Fp.fin b)) = Fp.fin x ∧ 0 ≤ x.1 ∧ x.1 ≤ 1 ∧ |x.1 - (1 - a.1 / b.1)| ≤ 2 ^ (-52 : ℤ) := by
  have hq0 : 0 ≤ a.1 / b.1 := div_nonneg h0 hb.le
  have hq1 : a.1 / b.1 ≤ 1 := (div_le_one hb).2 hab
  obtain ⟨y, y1, y2, y3, y4⟩ := of_bounded (e := 0) (by norm_num) (by norm_num) (x := a.1 / b.1) (k := 1) (by norm_num) hq0 (by simpa using hq1)
  have y5 : y.1 ≤ 1 := by simpa using y4
  obtain ⟨o, ho, ho1⟩ := of_count 1 (by norm_num)
  rw [Nat.cast_one] at ho ho1
  obtain ⟨x, x1, x2, x3, x4⟩ := of_bounded (e := 0) (by norm_num) (by norm_num) (x := 1 - y.1) (k := 1) (by norm_num) (by linarith) (by simpa using y3)
  refine ⟨x, ?_, x3, by simpa using x4, ?_⟩
  · have hd : (Fp.fin a).div (Fp.fin b) = Fp.fin y := by
      rw [← y1]
      show (if b.1 = 0 then _ else Fp.of (a.1 / b.1) : Dbl) = _
      rw [if_neg hb.ne']
    rw [hd, ho, fp_sub, ho1, x1]
  · have e1 := fl_unit hq0 hq1
    have e2 := fl_unit (x := 1 - y.1) (by linarith) (by linarith)
    rw [← y2] at e1
    rw [← x2] at e2
    have h2 : (2 : ℚ) ^ (-52 : ℤ) = 2 ^ (-53 : ℤ) + 2 ^ (-53 : ℤ) := by
      rw [show (-52 : ℤ) = -53 + 1 by norm_num, zpow_add₀ (by norm_num), zpow_one]; ring
    rw [h2]
    rw [abs_le] at e1 e2 ⊢
    generalize (2 : ℚ) ^ (-53 : ℤ) = d at e1 e2 ⊢
    constructor <;> linarith [e1.1, e1.2, e2.1, e2.2]

/-- The largest `double`. -/
theorem dmax_double : IsDouble ((2 ^ 53 - 1 : ℚ) * 2 ^ (971 : ℤ)) := ⟨2 ^ 53 - 1, 971, by norm_num, by norm_num, by congr 1; norm_num⟩

theorem dmax_lt : |(2 ^ 53 - 1 : ℚ) * 2 ^ (971 : ℤ)| < 2 ^ (1024 : ℤ) := by
  have h : (0 : ℚ) < 2 ^ (971 : ℤ) := two_zpow_pos _
  rw [abs_of_nonneg (mul_nonneg (by norm_num) h.le), show (1024 : ℤ) = 53 + 971 by norm_num, zpow_add₀ (by norm_num)]
  exact mul_lt_mul_of_pos_right (by norm_num) h

/-- `DBL_MAX`. -/
theorem dmax_big : ∃ x : Fin754 binary64, numArith.dmax = .fin x ∧ (2 : ℚ) ^ (1023 : ℤ) ≤ x.1 ∧ x.1 = (2 ^ 53 - 1) * 2 ^ (971 : ℤ) := by
  have h : numArith.dmax = .fin ⟨(2 ^ 53 - 1 : ℚ) * 2 ^ (971 : ℤ), dmax_double, dmax_lt⟩ := by
    show Fp.toNum (Fp.of ((2 ^ 53 - 1 : ℚ) * 2 ^ (971 : ℤ)) : Dbl) = _
    rw [of_fin dmax_double dmax_lt]
    rfl
  refine ⟨_, h, ?_, rfl⟩
  have h0 : (0 : ℚ) < 2 ^ (971 : ℤ) := two_zpow_pos _
  show (2 : ℚ) ^ (1023 : ℤ) ≤ (2 ^ 53 - 1) * 2 ^ (971 : ℤ)
  rw [show (1023 : ℤ) = 52 + 971 by norm_num, zpow_add₀ (by norm_num)]
  exact mul_le_mul_of_nonneg_right (by norm_num) h0.le

theorem isDouble_neg {x : ℚ} (h : IsDouble x) : IsDouble (-x) := by
  obtain ⟨m, e, h1, h2, h3⟩ := h
  exact ⟨-m, e, by rwa [abs_neg], h2, by rw [h3]; push_cast; ring⟩

/-- A score in a hierarchy that does not split. -/
theorem ratio_far {a b : Fin754 binary64} (ha : (2 : ℚ) ^ (1023 : ℤ) ≤ a.1) (hb : 0 < b.1) (hb' : b.1 ≤ 2 ^ (512 : ℤ)) :
    ∃ s, (Fp.of 1).sub ((Fp.fin a).div (Fp.fin b)) = .num s ∧ FarBelow s := by
  obtain ⟨o, ho, ho1⟩ := of_count 1 (by norm_num)
  rw [Nat.cast_one] at ho ho1
  have hd : (Fp.fin a).div (Fp.fin b) = Fp.of (a.1 / b.1) := by
    show (if b.1 = 0 then _ else Fp.of (a.1 / b.1) : Dbl) = _
    rw [if_neg hb.ne']
  have hq : (2 : ℚ) ^ (511 : ℤ) ≤ a.1 / b.1 := by
    rw [le_div_iff₀ hb]
    calc (2 : ℚ) ^ (511 : ℤ) * b.1 ≤ 2 ^ (511 : ℤ) * 2 ^ (512 : ℤ) := mul_le_mul_of_nonneg_left hb' (two_zpow_pos _).le
      _ = 2 ^ (1023 : ℤ) := by rw [← zpow_add₀ (by norm_num)]; norm_num
      _ ≤ a.1 := ha
  have hfar : ∀ x : ℚ, x ≤ 1 - 2 ^ (511 : ℤ) → ∃ s, (Fp.of x : Dbl) = .num s ∧ FarBelow s := by
    intro x hx
    have hx' : x ≤ -2 ^ (510 : ℤ) := by
      have : (2 : ℚ) ^ (511 : ℤ) = 2 ^ (510 : ℤ) + 2 ^ (510 : ℤ) := by
        rw [show (511 : ℤ) = 510 + 1 by norm_num, zpow_add₀ (by norm_num), zpow_one]; ring
      have h1 : (1 : ℚ) ≤ 2 ^ (510 : ℤ) := one_le_zpow₀ (by norm_num) (by norm_num)
      rw [this] at hx
      generalize (2 : ℚ) ^ (510 : ℤ) = d at hx h1 ⊢
      linarith
    have hfl : fl x ≤ -2 ^ (510 : ℤ) := by
      rw [← fl_double (isDouble_neg (pow_double (K := ℚ) (k := 510) (by norm_num)))]
      exact fl_mono hx'
    have hneg : x < 0 := lt_of_le_of_lt hx' (neg_lt_zero.2 (two_zpow_pos _))
    rcases of_cases x with ⟨g, e⟩ | ⟨g, e⟩
    · refine ⟨_, e, .inr ⟨_, rfl, lt_of_le_of_lt hfl (neg_lt_neg (zpow_lt_zpow_right₀ (by norm_num) (by norm_num)))⟩⟩
    · rw [decide_eq_true hneg] at e
      exact ⟨.ninf, e, .inl rfl⟩
  rw [hd, ho]
  rcases of_cases (a.1 / b.1) with ⟨g, e⟩ | ⟨g, e⟩
  · rw [e, fp_sub, ho1]
    refine hfar _ ?_
    have : (2 : ℚ) ^ (511 : ℤ) ≤ fl (a.1 / b.1) := by
      rw [← fl_double (pow_double (K := ℚ) (k := 511) (by norm_num))]
      exact fl_mono hq
    exact sub_le_sub_left this 1
  · have : ¬ a.1 / b.1 < 0 := not_lt.2 ((two_zpow_pos _).le.trans hq)
    rw [e, decide_eq_false this]
    exact ⟨.ninf, rfl, .inl rfl⟩

/-- Finite distances. -/
theorem sqrt_short {x : Num754 binary64} (h : numOps.sqrt x ≠ .pinf) : ∃ y : Fin754 binary64, numOps.sqrt x = .fin y ∧ 0 ≤ y.1 ∧ y.1 ≤ 2 ^ (512 : ℤ) := by
  match x, h with
  | .ninf, h => exact absurd rfl h
  | .pinf, h => exact absurd rfl h
  | .fin s, h =>
    have h0 : 0 ≤ s.1 := by
      by_contra hn
      refine h ?_
      show (if s.1 < 0 then Ieee.nan else Fp.of (flSqrt s.1) : Dbl).toNum = _
      rw [if_pos (not_le.1 hn)]
      rfl
    have hs := flSqrt_spec h0
    have hle : flSqrt s.1 ≤ 2 ^ (512 : ℤ) := by
      have : ((flSqrt s.1 : ℚ) : ℝ) ≤ 2 ^ (512 : ℤ) := by
        rw [hs, ← fl_double (pow_double (K := ℝ) (k := 512) (by norm_num))]
        apply fl_mono
        apply Real.sqrt_le_iff.2
        refine ⟨(two_zpow_pos _).le, ?_⟩
        have h1 : s.1 ≤ (2 : ℚ) ^ (1024 : ℤ) := by
          have := s.2.2
          rw [abs_of_nonneg h0] at this
          exact this.le
        have := (Rat.cast_le (K := ℝ)).2 h1
        push_cast at this
        refine this.trans (le_of_eq ?_)
        rw [← zpow_natCast, ← zpow_mul]; norm_num
      have h2 : ((flSqrt s.1 : ℚ) : ℝ) ≤ (((2 : ℚ) ^ (512 : ℤ) : ℚ) : ℝ) := by push_cast; exact this
      exact_mod_cast h2
    have hnn : 0 ≤ flSqrt s.1 := by
      have h2 : (0 : ℝ) ≤ flSqrt s.1 := by rw [hs]; exact fl_nonneg (Real.sqrt_nonneg _)
      exact_mod_cast h2
    have hlt : |flSqrt s.1| < 2 ^ (1024 : ℤ) := by
      rw [abs_of_nonneg hnn]; exact lt_of_le_of_lt hle (zpow_lt_zpow_right₀ (by norm_num) (by norm_num))
    refine ⟨⟨flSqrt s.1, isDouble_flSqrt _, hlt⟩, ?_, hnn, hle⟩
    show (if s.1 < 0 then Ieee.nan else Fp.of (flSqrt s.1) : Dbl).toNum = _
    rw [if_neg (not_lt.2 h0), of_fin (isDouble_flSqrt _) hlt]
    rfl

/-- What is known of the distances and core distances. -/
def Short (w : Num754 binary64) : Prop := ∃ x : Fin754 binary64, w = .fin x ∧ 0 ≤ x.1 ∧ x.1 ≤ 2 ^ (512 : ℤ)

theorem short_zero : Short numArith.zeroW := ⟨_, num_zero, le_refl _, (two_zpow_pos _).le⟩

theorem short_lt {w : Num754 binary64} (h : Short w) : w < numArith.dmax := by
  obtain ⟨x, rfl, _, h1⟩ := h
  obtain ⟨v, e, hv⟩ := dmax_fin
  rw [e, num_fin_lt]
  exact lt_of_le_of_lt h1 (lt_trans (zpow_lt_zpow_right₀ (by norm_num) (by norm_num)) hv)

/-- Data whose distances are finite are supported. -/
theorem finite_supported (qsort : (OScore (Num754 binary64) (Num754 binary64) → OScore (Num754 binary64) (Num754 binary64) → Int) → List (OScore (Num754 binary64) (Num754 binary64)) → List (OScore (Num754 binary64) (Num754 binary64)))
    (data : List (Fin754 binary64)) (rows cols : Nat) (hr : rows ≤ 65536) (hdata : rows * cols ≤ data.length) (h : ∀ i j, i < j → j < rows → numOps.sqrt (numSq data cols i j) ≠ .pinf) :
    Supported (numEnv qsort) data rows cols (numSq data cols) where
  few := hr
  zero := rfl
  zero_lt := short_lt short_zero
  sum := (num_readable qsort data rows cols hr hdata).sum
  lt i j hij hj := short_lt (sqrt_short (h i j hij hj))

/-- **C105**. The outlier scores of a run on finite `double` data, with any schedules and any interleaving of the loop with the data race: one per point. Unless a distance overflows, the following holds. If the
    hierarchy splits, each score lies between 0 and 1 and is `1 - epsmax / eps` with an error of at most `2 ^ -52`, and 0 if `eps` is 0. If it does not split, it is far below 0, except that it is 0 if `eps` is 0. -/
theorem C105_scores (qsort : (OScore (Num754 binary64) (Num754 binary64) → OScore (Num754 binary64) (Num754 binary64) → Int) →
      List (OScore (Num754 binary64) (Num754 binary64)) → List (OScore (Num754 binary64) (Num754 binary64))) (hq : SortsAscending qsort)
    (data : List (Fin754 binary64)) (rows cols : Nat) (hr : rows ≤ 65536) (hdata : rows * cols ≤ data.length) (h5 : 5 ≤ rows) (m : Nat) (hm : 2 ≤ m) :
    ∃ obj : Api.Obj (Num754 binary64) Dbl (Num754 binary64), (∀ par, Complete rows rows par → Api.fresh (numEnv qsort) par m data rows cols true = .ok obj) ∧
      (∀ th : Race.Threads, Interleaves th → ∃ obj', (∀ par, Complete rows rows par → Race.fresh th (numEnv qsort) par m data rows cols true = .ok obj') ∧ obj'.results.outliers = obj.results.outliers) ∧
      (obj.results.outliers.map (·.id)).Perm (List.range rows) ∧
      (m ≤ rows → (∀ i j, i < rows → j < rows → obj.dis.get numArith.zeroW i j ≠ .ok .pinf) →
        ∀ o ∈ obj.results.outliers, ∃ (eps epsmax : Fin754 binary64) (l : Nat), LastAt obj.results.hierarchy o.id l eps ∧ 0 ≤ eps.1 ∧
          ((eps.1 = 0 → o.score = numScore.zero) ∧ (eps.1 ≠ 0 → (Fp.of 1).sub ((Fp.fin epsmax).div (Fp.fin eps)) = .num o.score)) ∧
          (obj.results.clusters.length ≠ 2 → LowestBelow obj.results.clusters l (.fin epsmax) ∧ epsmax.1 ≤ eps.1 ∧ IsScore epsmax eps o.score) ∧
          (obj.results.clusters.length = 2 → epsmax.1 = (2 ^ 53 - 1) * 2 ^ (971 : ℤ) ∧ (eps.1 ≠ 0 → FarBelow o.score))) := by
  have hread := num_readable qsort data rows cols hr hdata
  obtain ⟨obj, core0, hf, r1, hget, hcore0, hfull0⟩ := run_any (numEnv qsort) hq hread h5 m hm
  obtain ⟨o2, b1, b2⟩ := race_run (numEnv qsort) hq hread h5 m hm
  have e2 : o2 = obj := fresh_same b1 hf
  subst e2
  have hperm : (o2.results.outliers.map (·.id)).Perm (List.range rows) := by
    obtain ⟨out, _, _, _, _, _, _, _, _, _, _, e, _, _, _, _, _, _, _, _, _, _, _, _, _, _, _, _, _, _, _, hp, _⟩ := Run.full_any qsort numArith Fp.max numScore m o2.dis rows (distOf numOps (numSq data cols)) core0 hq hm (by omega) (by omega)
      (fun i j hi hj _ => hget i j hi hj) (distOf_symm _ _) (fun i hi => (hcore0 i hi).1) (fun i hi => (hcore0 i hi).2.1)
    have e' := hfull0 seqSchedule (List.range rows) seqSchedule_complete (.refl _)
    obtain rfl := Outcome.ok.inj ((e seqSchedule (List.range rows) seqSchedule_complete (.refl _)).symm.trans e')
    exact hp
  refine ⟨o2, hf, fun th hth => ?_, hperm, fun hmr hfin o ho => ?_⟩
  · obtain ⟨obj', lost, s1, s2, s3⟩ := b2 th hth
    exact ⟨obj', s3, s2.outliers⟩
  have hne : ∀ i j, i < rows → j < rows → distOf numOps (numSq data cols) i j ≠ .pinf := fun i j hi hj e => hfin i j hi hj (by rw [← e]; exact hget i j hi hj)
  have hne' : ∀ i j, i < j → j < rows → numOps.sqrt (numSq data cols i j) ≠ .pinf := by
    intro i j hij hj
    have := hne i j (by omega) hj
    rw [distOf, if_pos hij] at this
    exact this
  have hsup := finite_supported qsort data rows cols hr hdata hne'
  obtain ⟨obj, core, g, res, hf', r1, r2, hget, hcore, hmax, hgn, hin, hconn, hres, hhier, hfull⟩ := stages (env := numEnv qsort) hq hsup h5 hm hmr
  obtain rfl : obj = o2 := fresh_same hf' hf
  have hsd : ∀ i j, i < rows → j < rows → Short (distOf numOps (numSq data cols) i j) := by
    intro i j hi hj
    unfold distOf
    split
    · exact sqrt_short (hne' i j (by assumption) hj)
    · split
      · exact short_zero
      · exact sqrt_short (hne' j i (by omega) hi)
  have hval : ∀ w, ((∃ i, i < rows ∧ w = core i) ∨ ∃ i j, i < rows ∧ j < rows ∧ i ≠ j ∧ w = mutualReach (distOf numOps (numSq data cols)) core i j) → Short w := by
    rintro w (⟨i, hi, rfl⟩ | ⟨i, j, hi, hj, _, rfl⟩)
    · exact core_of h5 hsd r1 hget hcore hmax i hi
    · exact reach_of h5 hsd r1 hget hcore hmax i j hi hj
  obtain ⟨out, f1, f2, _, f4⟩ := full_rep qsort numArith Fp.max numScore m obj.dis rows (distOf numOps (numSq data cols)) core hq (by omega) (by omega) (by omega)
    (fun i j hi hj _ => hget i j hi hj) (distOf_symm _ _) (fun i hi => (hcore i hi).1) hmax
  have e := hfull seqSchedule (List.range rows) seqSchedule_complete (.refl _)
  have e' := f1 seqSchedule (List.range rows) seqSchedule_complete (.refl _)
  obtain rfl := Outcome.ok.inj (e'.symm.trans e)
  obtain ⟨_, _, w, l, c, _, _, _, q4, q5, q, r, r'⟩ := f4 o ho
  obtain ⟨eps, rfl, p0, p1⟩ := hval w q4
  have hzero : eps.1 = 0 → o.score = numScore.zero := by
    intro h
    have : Num754.fin eps = numArith.zeroW := by
      rw [num_zero]
      exact congrArg Num754.fin (Subtype.ext h)
    rw [q, if_pos this]
  have hratio : ∀ a : Fin754 binary64, c.propLowest = .fin a → eps.1 ≠ 0 → ∀ s, (Fp.of 1).sub ((Fp.fin a).div (Fp.fin eps)) = .num s → o.score = s := by
    intro a ha h s hs
    have : Num754.fin eps ≠ numArith.zeroW := by
      rw [num_zero]
      intro e
      exact h (congrArg Subtype.val (Num754.fin.inj e))
    rw [q, if_neg this, ha]
    show (match (Fp.of 1).sub ((Fp.fin a).div (Fp.fin eps)) with | .num v => v | .nan => _) = s
    rw [hs]
  obtain ⟨z, hz0, hz1⟩ := of_count 0 (by norm_num)
  rw [Nat.cast_zero] at hz0 hz1
  have hsz : numScore.zero = .fin z := by
    show (match (Fp.of 0 : Dbl) with | .num v => v | .nan => _) = _
    rw [hz0]
  by_cases hl : obj.results.clusters.length = 2
  · obtain ⟨dm, d1, d2, d3⟩ := dmax_big
    have hlow := (r hl).trans d1
    refine ⟨eps, dm, l, q5, p0, ⟨hzero, fun h => ?_⟩, fun h => absurd hl h, fun _ => ⟨d3, fun h => ?_⟩⟩
    · obtain ⟨s, s1, _⟩ := ratio_far d2 (lt_of_le_of_ne p0 (Ne.symm h)) p1
      rw [hratio dm hlow h s s1, s1]
    · obtain ⟨s, s1, s2⟩ := ratio_far d2 (lt_of_le_of_ne p0 (Ne.symm h)) p1
      rw [hratio dm hlow h s s1]
      exact s2
  · obtain ⟨t1, t2, t3⟩ := r' hl
    obtain ⟨em, hem, m0, _⟩ := hval _ t3
    rw [hem, num_fin_le] at t1
    rw [hem] at t2
    refine ⟨eps, em, l, q5, p0, ⟨hzero, fun h => ?_⟩, fun _ => ⟨t2, t1, ?_⟩, fun h => absurd h hl⟩
    · obtain ⟨x, x1, _⟩ := ratio_unit m0 t1 (lt_of_le_of_ne p0 (Ne.symm h))
      rw [hratio em hem h _ x1, x1]
    · by_cases h : eps.1 = 0
      · refine ⟨z, by rw [hzero h, hsz], hz1.symm.le, by rw [hz1]; exact zero_le_one, fun _ => hz1, fun h' => absurd h h'.ne'⟩
      · obtain ⟨x, x1, x2, x3, x4⟩ := ratio_unit m0 t1 (lt_of_le_of_ne p0 (Ne.symm h))
        exact ⟨x, hratio em hem h _ x1, x2, x3, fun h' => absurd h' h, fun _ => x4⟩

/-- No distance overflows if all values are at most `2 ^ 400`. -/
theorem C105_sized (qsort : (OScore (Num754 binary64) (Num754 binary64) → OScore (Num754 binary64) (Num754 binary64) → Int) →
      List (OScore (Num754 binary64) (Num754 binary64)) → List (OScore (Num754 binary64) (Num754 binary64))) (hq : SortsAscending qsort)
    (data : List (Fin754 binary64)) (rows cols : Nat) (h : Sized data rows cols) (h5 : 5 ≤ rows) (m : Nat) (hm : 2 ≤ m) (par : Api.Par) (hp : Complete rows rows par) :
    ∃ obj : Api.Obj (Num754 binary64) Dbl (Num754 binary64), Api.fresh (numEnv qsort) par m data rows cols true = .ok obj ∧
      ∀ i j, i < rows → j < rows → obj.dis.get numArith.zeroW i j ≠ .ok .pinf := by
  obtain ⟨obj, core, hf, _, hget, _⟩ := run_any (numEnv qsort) hq (num_readable qsort data rows cols h.few h.cells.ge) h5 m hm
  have key : ∀ i j, i < rows → j < rows → numOps.sqrt (numSq data cols i j) ≠ .pinf := by
    intro i j hi hj e
    obtain ⟨_, s, e1, s0, s1, _⟩ := numSq_spec h hi hj
    have := (sqrt_spec s0 s1).1
    rw [← e1, e] at this
    exact absurd (num_le_pinf _) (not_le.2 this)
  refine ⟨obj, hf par hp, fun i j hi hj e => ?_⟩
  have := Outcome.ok.inj ((hget i j hi hj).symm.trans e)
  unfold distOf at this
  split at this
  · exact key i j hi hj this
  · split at this
    · rw [show (numEnv qsort).dops.zero = numArith.zeroW from rfl, num_zero] at this
      cases this
    · exact key j i hj hi this

/-! ### Concrete cases -/

/-- The number, and -2 for those far below 0. -/
def scoreNum : Num754 binary64 → ℚ
  | .fin x => if x.1 < -2 ^ (500 : ℤ) then -2 else x.1
  | .pinf => 2
  | .ninf => -2

/-- Scores of a run whose hierarchy splits, one of them a rounded 2/3; with equal values, scores of 0 and 1; and a run whose hierarchy does not split. -/
theorem C105_cases : (Api.fresh (numEnv isort) (backPar 7 7) 2 spread 7 1 true >>= fun o => .ok (o.results.clusters.length, o.results.outliers.map fun (o : OScore (Num754 binary64) (Num754 binary64)) => (o.id, scoreNum o.score))) =
      .ok (4, [(0, 0), (1, 0), (3, 0), (4, 0), (2, 1 / 2), (5, 3002399751580331 / 4503599627370496), (6, 8913374262504107 / 9007199254740992)]) ∧
    (Api.fresh (numEnv isort) (backPar 7 7) 3 grpPts 7 1 true >>= fun o => .ok (o.results.clusters.length, o.results.outliers.map fun (o : OScore (Num754 binary64) (Num754 binary64)) => (o.id, scoreNum o.score))) =
      .ok (4, [(0, 0), (1, 0), (2, 0), (4, 0), (5, 0), (6, 0), (3, 1)]) ∧
    (Api.fresh (numEnv isort) (backPar 7 7) 5 spread 7 1 true >>= fun o => .ok (o.results.clusters.length, o.results.outliers.map fun (o : OScore (Num754 binary64) (Num754 binary64)) => (o.id, scoreNum o.score))) =
      .ok (2, [(2, -2), (3, -2), (1, -2), (4, -2), (0, -2), (5, -2), (6, -2)]) := by decide +kernel

example := C105_scores isort (isort_sorts _) spread 7 1 (by decide) (by decide) (by decide) 2 (by decide)

example := C105_sized isort (isort_sorts _) spread 7 1 spread_moderate.toSized (by decide) 2 (by decide) (backPar 7 7) (backPar_complete 7 7)

/-- Seven points of the plane: `(0, 0)`, `(0, 8)`, `(0, 800)`, `(0, 808)`, and `(2 ^ 600, 0)`, `(2 ^ 600, 1)`, `(2 ^ 600, 2)`, at distances from the former that overflow. -/
def overPts : List (Fin754 binary64) :=
  [bigNum 0 0 (by decide) (by decide), bigNum 0 0 (by decide) (by decide), bigNum 0 0 (by decide) (by decide), bigNum 8 0 (by decide) (by decide),
   bigNum 0 0 (by decide) (by decide), bigNum 800 0 (by decide) (by decide), bigNum 0 0 (by decide) (by decide), bigNum 808 0 (by decide) (by decide),
   bigNum 1 600 (by decide) (by decide), bigNum 0 0 (by decide) (by decide), bigNum 1 600 (by decide) (by decide), bigNum 1 0 (by decide) (by decide),
   bigNum 1 600 (by decide) (by decide), bigNum 2 0 (by decide) (by decide)]

/-- If distances overflow, **scores can be below 0 in a hierarchy that splits**: the three far points, the densest of all, stay in cluster 1 after it has split, never form a cluster of their own, and have the score
    `1 - 8 / 1`. They are labelled noise. -/
theorem C105_overflow_violated : (Api.fresh (numEnv isort) (backPar 7 7) 2 overPts 7 2 true >>= fun o => .ok (o.results.clusters.length, o.results.labels,
      o.results.outliers.map fun (o : OScore (Num754 binary64) (Num754 binary64)) => (o.id, scoreNum o.score))) =
    .ok (4, [2, 2, 3, 3, 0, 0, 0], [(4, -7), (5, -7), (6, -7), (0, 0), (1, 0), (2, 0), (3, 0)]) := by decide +kernel

end Verif.Props
