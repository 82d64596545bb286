import Verif.Lemmas.Scale
import Verif.Lemmas.TwoCount
import Verif.Props.StabRun
import Verif.Spec.Scale
/-
Helper lemmas: runs on `double` data multiplied by a power of 2.
-/
namespace Verif.Param
open Verif Spec Verif.Binary64 Verif.Props

theorem of_val {x : ℚ} {y : Fin754 binary64} (h : (Fp.of x : Dbl).toNum = .fin y) : y.1 = fl x := by
  rcases of_cases x with ⟨g, e⟩ | ⟨g, e⟩
  · rw [e] at h
    cases h
    rfl
  · rw [e] at h
    generalize decide (x < 0) = s at h
    cases s <;> cases h

/-- A result between 0 and a multiple of a power of 2. -/
theorem of_wide {x : ℚ} {k : Nat} (hk : k < 2 ^ 53) (h0 : 0 ≤ x) (h : x ≤ k * 2 ^ (537 : ℤ)) :
    ∃ y : Fin754 binary64, (Fp.of x : Dbl) = Fp.fin y ∧ y.1 = fl x ∧ 0 ≤ y.1 ∧ y.1 ≤ k * 2 ^ (537 : ℤ) := by
  have hd : IsDouble ((k : ℚ) * 2 ^ (537 : ℤ)) := ⟨k, 537, by
    rw [abs_of_nonneg (by positivity)]
    exact_mod_cast hk, by norm_num, by push_cast; rfl⟩
  have h1 : fl x ≤ k * 2 ^ (537 : ℤ) := by rw [← fl_double hd]; exact fl_mono h
  have h2 : 0 ≤ fl x := fl_nonneg h0
  have h3 : |fl x| < 2 ^ (1024 : ℤ) := by
    rw [abs_of_nonneg h2]
    refine lt_of_le_of_lt h1 ?_
    calc (k : ℚ) * 2 ^ (537 : ℤ) ≤ 2 ^ 53 * 2 ^ (537 : ℤ) := mul_le_mul_of_nonneg_right (by exact_mod_cast hk.le) (two_zpow_pos _).le
      _ = 2 ^ (590 : ℤ) := by rw [← zpow_natCast, ← zpow_add₀ (by norm_num)]; norm_num
      _ < 2 ^ (1024 : ℤ) := zpow_lt_zpow_right₀ (by norm_num) (by norm_num)
  exact ⟨⟨fl x, isDouble_fl x, h3⟩, fp_of (f := binary64) h3, rfl, h2, h1⟩

/-! ### Distances -/

/-- Differences of scaled values. -/
def DiffRel (k : ℤ) (x y : Num754 binary64) : Prop :=
  ∃ d d' : Fin754 binary64, x = .fin d ∧ y = .fin d' ∧ d'.1 = 2 ^ k * d.1 ∧ |d.1| ≤ 2 ^ (401 : ℤ) ∧ |d'.1| ≤ 2 ^ (401 : ℤ) ∧ (d.1 = 0 ∨ ((2 : ℚ) ^ (-500 : ℤ) ≤ |d.1| ∧ (2 : ℚ) ^ (-500 : ℤ) ≤ |d'.1|))

theorem diff_scaled {k : ℤ} {a b a' b' : Fin754 binary64} (ha : |a.1| ≤ 2 ^ (400 : ℤ)) (hb : |b.1| ≤ 2 ^ (400 : ℤ)) (hne : a ≠ b → (2 : ℚ) ^ (-500 : ℤ) ≤ |a.1 - b.1|)
    (ha' : |a'.1| ≤ 2 ^ (400 : ℤ)) (hb' : |b'.1| ≤ 2 ^ (400 : ℤ)) (hne' : a' ≠ b' → (2 : ℚ) ^ (-500 : ℤ) ≤ |a'.1 - b'.1|) (ea : a'.1 = 2 ^ k * a.1) (eb : b'.1 = 2 ^ k * b.1) :
    ∃ d d', numOps.diff a b = .ok d ∧ numOps.diff a' b' = .ok d' ∧ DiffRel k d d' := by
  obtain ⟨d, d1, d2, d3⟩ := diff_spec ha hb
  obtain ⟨d', d1', d2', d3'⟩ := diff_spec ha' hb'
  have v : d.1 = fl (a.1 - b.1) := by
    have := Outcome.ok.inj d1
    rw [fp_sub] at this
    exact of_val this
  have v' : d'.1 = fl (a'.1 - b'.1) := by
    have := Outcome.ok.inj d1'
    rw [fp_sub] at this
    exact of_val this
  have e : a'.1 - b'.1 = 2 ^ k * (a.1 - b.1) := by rw [ea, eb]; ring
  refine ⟨_, _, d1, d1', d, d', rfl, rfl, ?_, d2, d2', ?_⟩
  · rw [v, v', e]
    exact fl_scale_grid (.sub (.double a.2.1) (.double b.2.1)) (by rw [← e]; exact .sub (.double a'.2.1) (.double b'.2.1))
  · by_cases hab : a = b
    · left
      rw [v, hab, sub_self, fl_zero]
    · refine .inr ⟨d3 (hne hab), d3' (hne' fun h => hab ?_)⟩
      rw [h, eb] at ea
      exact Subtype.ext (mul_left_cancel₀ (two_zpow_pos k).ne' ea).symm

/-- The state of the two sums. -/
structure SumAlike (k : ℤ) (n : Nat) (s s' : Fin754 binary64) : Prop where
  val : s'.1 = 2 ^ (2 * k) * s.1
  nonneg : 0 ≤ s.1
  nonneg' : 0 ≤ s'.1
  le : s.1 ≤ n * 2 ^ (802 : ℤ)
  le' : s'.1 ≤ n * 2 ^ (802 : ℤ)
  ge : s.1 = 0 ∨ ((2 : ℚ) ^ (-1000 : ℤ) ≤ s.1 ∧ (2 : ℚ) ^ (-1000 : ℤ) ≤ s'.1)

theorem square_scaled {k : ℤ} {x y : Num754 binary64} (h : DiffRel k x y) : ∃ t t', numOps.mul x x = .fin t ∧ numOps.mul y y = .fin t' ∧ SumAlike k 1 t t' := by
  obtain ⟨d, d', rfl, rfl, e, h1, h1', h2⟩ := h
  obtain ⟨t, t1, t2, t3, t4⟩ := square_spec h1
  obtain ⟨t', t1', t2', t3', t4'⟩ := square_spec h1'
  have v : t.1 = fl (d.1 * d.1) := of_val t1
  have v' : t'.1 = fl (d'.1 * d'.1) := of_val t1'
  have e2 : d'.1 * d'.1 = 2 ^ (2 * k) * (d.1 * d.1) := by
    rw [e, two_mul, zpow_add₀ (by norm_num)]; ring
  have hbig : ∀ {z : Fin754 binary64}, (2 : ℚ) ^ (-500 : ℤ) ≤ |z.1| → (2 : ℚ) ^ (-1022 : ℤ) ≤ |z.1 * z.1| := by
    intro z hz
    rw [abs_mul]
    refine le_trans ?_ (mul_le_mul hz hz (two_zpow_pos _).le (abs_nonneg _))
    rw [← zpow_add₀ (by norm_num)]
    exact zpow_le_zpow_right₀ (by norm_num) (by norm_num)
  refine ⟨t, t', t1, t1', ⟨?_, t2, t2', by simpa using t3, by simpa using t3', ?_⟩⟩
  · rw [v, v', e2]
    refine fl_scale ?_
    rcases h2 with h0 | ⟨h2, h2'⟩
    · exact .inl (by rw [h0, mul_zero])
    · exact .inr ⟨hbig h2, by rw [← e2]; exact hbig h2'⟩
  · rcases h2 with h0 | ⟨h2, h2'⟩
    · exact .inl (by rw [v, h0, mul_zero, fl_zero])
    · exact .inr ⟨t4 h2, t4' h2'⟩

theorem add_scaled {k : ℤ} {n : Nat} (hn : n + 1 < 2 ^ 33) {s s' t t' : Fin754 binary64} (h : SumAlike k n s s') (ht : SumAlike k 1 t t') :
    ∃ u u', numOps.add (.fin s) (.fin t) = .fin u ∧ numOps.add (.fin s') (.fin t') = .fin u' ∧ SumAlike k (n + 1) u u' := by
  have hle : s.1 + t.1 ≤ (n + 1 : Nat) * 2 ^ (802 : ℤ) := by
    rw [Nat.cast_add, add_mul]; exact add_le_add h.le ht.le
  have hle' : s'.1 + t'.1 ≤ (n + 1 : Nat) * 2 ^ (802 : ℤ) := by
    rw [Nat.cast_add, add_mul]; exact add_le_add h.le' ht.le'
  obtain ⟨u, u1, u2, u3, u4⟩ := of_bounded (e := 802) (by norm_num) (by norm_num) (k := n + 1) hn (add_nonneg h.nonneg ht.nonneg) hle
  obtain ⟨u', u1', u2', u3', u4'⟩ := of_bounded (e := 802) (by norm_num) (by norm_num) (k := n + 1) hn (add_nonneg h.nonneg' ht.nonneg') hle'
  have e : s'.1 + t'.1 = 2 ^ (2 * k) * (s.1 + t.1) := by rw [h.val, ht.val]; ring
  have big : ∀ {x y z : Fin754 binary64}, 0 ≤ y.1 → z.1 = fl (x.1 + y.1) → x.1 ≤ z.1 := by
    intro x y z hy hz
    rw [hz, ← fl_double x.2.1]
    refine fl_mono ?_
    rw [fl_double x.2.1]
    linarith
  refine ⟨u, u', ?_, ?_, ⟨?_, u3, u3', u4, u4', ?_⟩⟩
  · show (Fp.of (s.1 + t.1) : Dbl).toNum = _
    rw [u1]; rfl
  · show (Fp.of (s'.1 + t'.1) : Dbl).toNum = _
    rw [u1']; rfl
  · rw [u2, u2', e]
    exact fl_scale_grid (.add (.double s.2.1) (.double t.2.1)) (by rw [← e]; exact .add (.double s'.2.1) (.double t'.2.1))
  · rcases h.ge with h0 | ⟨g, g'⟩
    · rcases ht.ge with t0 | ⟨g, g'⟩
      · exact .inl (by rw [u2, h0, t0, add_zero, fl_zero])
      · exact .inr ⟨g.trans (big h.nonneg (by rw [u2, add_comm])), g'.trans (big h.nonneg' (by rw [u2', add_comm]))⟩
    · exact .inr ⟨g.trans (big ht.nonneg u2), g'.trans (big ht.nonneg' u2')⟩

theorem sum_scaled {k : ℤ} {ds ds' : List (Num754 binary64)} (h : LRel (DiffRel k) ds ds') : ∀ {n : Nat} {s s' : Fin754 binary64}, n + ds.length < 2 ^ 33 → SumAlike k n s s' →
    ∃ r r', ds.foldl (fun s d => numOps.add s (numOps.mul d d)) (.fin s) = .fin r ∧ ds'.foldl (fun s d => numOps.add s (numOps.mul d d)) (.fin s') = .fin r' ∧ SumAlike k (n + ds.length) r r' := by
  induction h with
  | nil => intro n s s' _ hs; exact ⟨s, s', rfl, rfl, hs⟩
  | @cons a b l l' hab t ih =>
    intro n s s' hn hs
    rw [List.length_cons] at hn
    obtain ⟨t, t', t1, t2, ht⟩ := square_scaled hab
    obtain ⟨u, u', u1, u2, hu⟩ := add_scaled (by omega) hs ht
    obtain ⟨r, r', r1, r2, hr⟩ := ih (n := n + 1) (by omega) hu
    refine ⟨r, r', ?_, ?_, ?_⟩
    · rw [List.foldl_cons, t1, u1, r1]
    · rw [List.foldl_cons, t2, u2, r2]
    · rw [List.length_cons, ← Nat.add_assoc, Nat.add_right_comm]; exact hr

/-- What is known of the two distances of a pair of points. -/
def WRel (k : ℤ) (a b : Num754 binary64) : Prop := ScaledNum k a b ∧ Usual a ∧ Usual b

theorem lrel_map {α β γ : Type} {R : β → γ → Prop} {F : α → β} {G : α → γ} : ∀ {l : List α}, (∀ x ∈ l, R (F x) (G x)) → LRel R (l.map F) (l.map G)
  | [], _ => .nil
  | _ :: _, h => .cons (h _ List.mem_cons_self) (lrel_map fun x hx => h x (List.mem_cons_of_mem _ hx))

theorem sqrt_val {s y : Fin754 binary64} (h0 : 0 ≤ s.1) (h : numOps.sqrt (.fin s) = .fin y) : y.1 = flSqrt s.1 := by
  change (if s.1 < 0 then Ieee.nan else Fp.of (flSqrt s.1) : Dbl).toNum = _ at h
  rw [if_neg (not_lt.2 h0)] at h
  rw [of_val h, fl_double (isDouble_flSqrt _)]

theorem dist_scaled {k : ℤ} {data data' : List (Fin754 binary64)} {rows cols : Nat} (h : Moderate data rows cols) (h' : Moderate data' rows cols) (hk : ScaledData k data data') {i j : Nat}
    (hi : i < rows) (hj : j < rows) : WRel k (numOps.sqrt (numSq data cols i j)) (numOps.sqrt (numSq data' cols i j)) := by
  have hlt : ∀ {x k}, x < rows → k < cols → x * cols + k < rows * cols := by
    intro x k hx hk
    calc x * cols + k < x * cols + cols := by omega
      _ = (x + 1) * cols := by rw [Nat.add_mul, Nat.one_mul]
      _ ≤ rows * cols := Nat.mul_le_mul_right _ hx
  have hval : ∀ {p : Nat} (hp : p < data.length) (hp' : p < data'.length), (data'[p]).1 = 2 ^ k * (data[p]).1 := by
    intro p hp hp'
    have h1 := congrArg (fun l => l[p]?) hk
    simpa [List.getElem?_eq_getElem hp, List.getElem?_eq_getElem hp'] using h1
  have hrel : LRel (DiffRel k)
      ((List.range cols).map fun k => match data[i * cols + k]?, data[j * cols + k]? with
        | some a, some b => match numOps.diff a b with
          | .ok d => d
          | _ => .pinf
        | _, _ => .pinf)
      ((List.range cols).map fun k => match data'[i * cols + k]?, data'[j * cols + k]? with
        | some a, some b => match numOps.diff a b with
          | .ok d => d
          | _ => .pinf
        | _, _ => .pinf) := by
    refine lrel_map fun q hq => ?_
    have hq := List.mem_range.1 hq
    have a1 : i * cols + q < data.length := by rw [h.cells]; exact hlt hi hq
    have a2 : j * cols + q < data.length := by rw [h.cells]; exact hlt hj hq
    have a1' : i * cols + q < data'.length := by rw [h'.cells]; exact hlt hi hq
    have a2' : j * cols + q < data'.length := by rw [h'.cells]; exact hlt hj hq
    obtain ⟨d, d', e1, e2, e3⟩ := diff_scaled (k := k) (h.large _ (List.getElem_mem a1)) (h.large _ (List.getElem_mem a2)) (h.apart _ (List.getElem_mem a1) _ (List.getElem_mem a2))
      (h'.large _ (List.getElem_mem a1')) (h'.large _ (List.getElem_mem a2')) (h'.apart _ (List.getElem_mem a1') _ (List.getElem_mem a2')) (hval a1 a1') (hval a2 a2')
    simp only [List.getElem?_eq_getElem a1, List.getElem?_eq_getElem a2, List.getElem?_eq_getElem a1', List.getElem?_eq_getElem a2', e1, e2]
    exact e3
  have hz : numOps.zero = .fin ⟨0, isDouble_zero, zero_lt⟩ := num_zero
  have hnar := h.narrow
  obtain ⟨r, r', r1, r2, hr⟩ := sum_scaled hrel (n := 0) (s := ⟨0, isDouble_zero, zero_lt⟩) (s' := ⟨0, isDouble_zero, zero_lt⟩) (by rw [List.length_map, List.length_range]; omega)
    ⟨by simp, le_refl _, le_refl _, by simp, by simp, .inl rfl⟩
  have e : numSq data cols i j = .fin r := by rw [numSq, hz]; exact r1
  have e' : numSq data' cols i j = .fin r' := by rw [numSq, hz]; exact r2
  have u := moderate_usual h i j hi hj
  have u' := moderate_usual h' i j hi hj
  refine ⟨?_, u, u'⟩
  obtain ⟨x, x1, _⟩ := u
  obtain ⟨y, y1, _⟩ := u'
  refine ⟨x, y, x1, y1, ?_⟩
  rw [e] at x1
  rw [e'] at y1
  rw [sqrt_val hr.nonneg x1, sqrt_val hr.nonneg' y1, hr.val]
  refine flSqrt_scale ?_
  rcases hr.ge with h0 | h0
  · exact .inl h0
  · rw [hr.val] at h0
    exact .inr h0

theorem zero_wrel (k : ℤ) : WRel k numArith.zeroW numArith.zeroW := by
  have : Usual numArith.zeroW := ⟨_, num_zero, .inl rfl, (two_zpow_pos _).le⟩
  exact ⟨⟨_, _, num_zero, num_zero, by simp⟩, this, this⟩

theorem usual_lt {a : Num754 binary64} (h : Usual a) : a < numArith.dmax := by
  have hdm : (.fin ⟨2 ^ (1001 : ℤ), pow_double (by norm_num), by rw [abs_of_pos (two_zpow_pos _)]; exact zpow_lt_zpow_right₀ (by norm_num) (by decide)⟩ : Num754 binary64) ≤ numArith.dmax := by
    decide +kernel
  obtain ⟨x, rfl, _, h⟩ := h
  refine lt_of_lt_of_le ?_ hdm
  rw [num_fin_lt]
  exact lt_of_le_of_lt h (zpow_lt_zpow_right₀ (by norm_num) (by norm_num))

theorem fits_scaled {k : ℤ} {data data' : List (Fin754 binary64)} {rows cols : Nat} (h : Moderate data rows cols) (h' : Moderate data' rows cols) (hk : ScaledData k data data') :
    Fits rows (distOf numOps (numSq data cols)) (distOf numOps (numSq data' cols)) numArith.dmax numArith.dmax (WRel k) where
  dist i j hi hj := by
    unfold distOf
    split
    · exact dist_scaled h h' hk hi hj
    · split
      · exact zero_wrel k
      · exact dist_scaled h h' hk hj hi
  small h := ⟨usual_lt h.2.1, usual_lt h.2.2⟩
  lt := by
    rintro _ _ _ _ ⟨⟨x, x', rfl, rfl, ex⟩, _⟩ ⟨⟨y, y', rfl, rfl, ey⟩, _⟩
    rw [num_fin_lt, num_fin_lt, ex, ey]
    exact (mul_lt_mul_iff_right₀ (two_zpow_pos k)).symm

/-! ### Stabilities -/

/-- Sums of `p` terms. -/
def StabRel (k : ℤ) (p : Nat) (s s' : Dbl) : Prop := (s = .num .pinf ∧ s' = .num .pinf) ∨
  ∃ x y : Fin754 binary64, s = Fp.fin x ∧ s' = Fp.fin y ∧ y.1 = 2 ^ (-k) * x.1 ∧ 0 ≤ x.1 ∧ 0 ≤ y.1 ∧ x.1 ≤ p * 2 ^ (537 : ℤ) ∧ y.1 ≤ p * 2 ^ (537 : ℤ)

theorem stab_counted (k : ℤ) : Counted (2 ^ 40) (StabRel k) numArith numArith where
  zero := .inr ⟨_, _, of_zero_fin, of_zero_fin, by simp, le_refl _, le_refl _, by simp, by simp⟩
  add := by
    intro p q s s' t t' hs ht hpq
    rcases hs with ⟨rfl, rfl⟩ | ⟨x, y, rfl, rfl, e, x0, y0, x1, y1⟩
    · left
      rcases ht with ⟨rfl, rfl⟩ | ⟨u, v, rfl, rfl, _⟩
      · exact ⟨rfl, rfl⟩
      · exact ⟨rfl, rfl⟩
    · rcases ht with ⟨rfl, rfl⟩ | ⟨u, v, rfl, rfl, f, u0, v0, u1, v1⟩
      · exact .inl ⟨rfl, rfl⟩
      · have hp : p + q < 2 ^ 53 := by omega
        have hle : x.1 + u.1 ≤ (p + q : Nat) * 2 ^ (537 : ℤ) := by rw [Nat.cast_add, add_mul]; exact add_le_add x1 u1
        have hle' : y.1 + v.1 ≤ (p + q : Nat) * 2 ^ (537 : ℤ) := by rw [Nat.cast_add, add_mul]; exact add_le_add y1 v1
        obtain ⟨r, r1, r2, r3, r4⟩ := of_wide hp (add_nonneg x0 u0) hle
        obtain ⟨r', r1', r2', r3', r4'⟩ := of_wide hp (add_nonneg y0 v0) hle'
        have e2 : y.1 + v.1 = 2 ^ (-k) * (x.1 + u.1) := by rw [e, f]; ring
        refine .inr ⟨r, r', r1, r1', ?_, r3, r3', r4, r4'⟩
        rw [r2, r2', e2]
        exact fl_scale_grid (.add (.double x.2.1) (.double u.2.1)) (by rw [← e2]; exact .add (.double y.2.1) (.double v.2.1))
  le := by
    intro p q s s' t t' hs ht
    rcases hs with ⟨rfl, rfl⟩ | ⟨x, y, rfl, rfl, e, _⟩ <;> rcases ht with ⟨rfl, rfl⟩ | ⟨u, v, rfl, rfl, f, _⟩
    · rfl
    · show decide (Num754.pinf ≤ Num754.fin u) = decide (Num754.pinf ≤ Num754.fin v)
      have hno : ∀ z : Fin754 binary64, ¬ (Num754.pinf : Num754 binary64) ≤ .fin z := by
        intro z
        show ¬ Num754.place .pinf ≤ Num754.place (.fin z)
        simp [Num754.place]
      exact decide_eq_decide.2 ⟨fun h => absurd h (hno _), fun h => absurd h (hno _)⟩
    · show decide (Num754.fin x ≤ Num754.pinf) = decide (Num754.fin y ≤ Num754.pinf)
      exact decide_eq_decide.2 ⟨fun _ => num_le_pinf _, fun _ => num_le_pinf _⟩
    · show decide (Num754.fin x ≤ Num754.fin u) = decide (Num754.fin y ≤ Num754.fin v)
      refine decide_eq_decide.2 ?_
      rw [num_fin_le, num_fin_le, e, f]
      exact (mul_le_mul_iff_right₀ (two_zpow_pos (-k))).symm

/-- Reciprocals of scaled levels. -/
theorem inv_scaled {k : ℤ} {x y : ℚ} (h : y = 2 ^ k * x) (hx : 0 < x) (hx1 : x ≤ 2 ^ (1000 : ℤ)) (hy1 : y ≤ 2 ^ (1000 : ℤ)) : fl (1 / y) = 2 ^ (-k) * fl (1 / x) := by
  have e : 1 / y = 2 ^ (-k) * (1 / x) := by
    rw [h, zpow_neg, one_div, mul_inv, one_div]
  have hy : 0 < y := by rw [h]; exact mul_pos (two_zpow_pos _) hx
  have hb : ∀ {z : ℚ}, 0 < z → z ≤ 2 ^ (1000 : ℤ) → (2 : ℚ) ^ (-1022 : ℤ) ≤ |1 / z| := by
    intro z hz hz1
    rw [abs_of_pos (one_div_pos.2 hz)]
    calc (2 : ℚ) ^ (-1022 : ℤ) ≤ 2 ^ (-1000 : ℤ) := zpow_le_zpow_right₀ (by norm_num) (by norm_num)
      _ = 1 / 2 ^ (1000 : ℤ) := by rw [zpow_neg, one_div]
      _ ≤ 1 / z := one_div_le_one_div_of_le hz hz1
  rw [e]
  exact fl_scale (.inr ⟨hb hx hx1, by rw [← e]; exact hb hy hy1⟩)

theorem term_scaled {k : ℤ} {n : Nat} (hn : n < 2 ^ 32) (h0 : n ≠ 0) {w w' b b' : Num754 binary64} (hw : WRel k w w') (hb : WRel k b b') (hlt : w < b) :
    StabRel k n (numArith.term n w (some b)) (numArith.term n w' (some b')) := by
  obtain ⟨⟨x, x', rfl, rfl, ex⟩, ⟨_, e1, u1, u2⟩, ⟨_, e1', u1', u2'⟩⟩ := hw
  cases e1
  cases e1'
  obtain ⟨⟨y, y', rfl, rfl, ey⟩, ⟨_, e2, v1, v2⟩, ⟨_, e2', v1', v2'⟩⟩ := hb
  cases e2
  cases e2'
  rw [num_fin_lt] at hlt
  have hx0 : 0 ≤ x.1 := by
    rcases u1 with h | h
    · exact h.ge
    · exact (two_zpow_pos _).le.trans h
  have hy0 : 0 < y.1 := lt_of_le_of_lt hx0 hlt
  have hy0' : 0 < y'.1 := by rw [ey]; exact mul_pos (two_zpow_pos _) hy0
  have hy : (2 : ℚ) ^ (-537 : ℤ) ≤ y.1 := v1.resolve_left hy0.ne'
  have hy' : (2 : ℚ) ^ (-537 : ℤ) ≤ y'.1 := v1'.resolve_left hy0'.ne'
  by_cases hz : x.1 = 0
  · have hz' : x'.1 = 0 := by rw [ex, hz, mul_zero]
    have ea : Num754.fin x = numArith.zeroW := by rw [num_zero]; exact congrArg _ (Subtype.ext hz)
    have eb : Num754.fin x' = numArith.zeroW := by rw [num_zero]; exact congrArg _ (Subtype.ext hz')
    rw [ea, eb]
    exact .inl ⟨term_inf hn h0 hy, term_inf hn h0 hy'⟩
  · have hp : 0 < x.1 := lt_of_le_of_ne hx0 (Ne.symm hz)
    have hp' : 0 < x'.1 := by rw [ex]; exact mul_pos (two_zpow_pos _) hp
    have hlt' : x'.1 < y'.1 := by rw [ex, ey]; exact mul_lt_mul_of_pos_left hlt (two_zpow_pos _)
    obtain ⟨t, t1, t2, t3, t4⟩ := term_fin hn (u1.resolve_left hz) hlt
    obtain ⟨t', t1', t2', t3', t4'⟩ := term_fin hn (u1'.resolve_left hp'.ne') hlt'
    refine .inr ⟨t, t', t1, t1', ?_, t2, t2', t3, t3'⟩
    have i1 := inv_scaled ex hp u2 u2'
    have i2 := inv_scaled ey hy0 v2 v2'
    have g1 := isDouble_fl (1 / x.1)
    have g2 := isDouble_fl (1 / y.1)
    have g1' := isDouble_fl (1 / x'.1)
    have g2' := isDouble_fl (1 / y'.1)
    rw [t4, t4']
    generalize fl (1 / x.1) = a at *
    generalize fl (1 / y.1) = b at *
    generalize fl (1 / x'.1) = a' at *
    generalize fl (1 / y'.1) = b' at *
    have e : a' - b' = 2 ^ (-k) * (a - b) := by rw [i1, i2]; ring
    have hd : fl (a' - b') = 2 ^ (-k) * fl (a - b) := by
      rw [e]
      exact fl_scale_grid (.sub (.double g1) (.double g2)) (by rw [← e]; exact .sub (.double g1') (.double g2'))
    have j1 := isDouble_fl (a - b)
    have j2 := isDouble_fl (a' - b')
    generalize fl (a - b) = d at *
    generalize fl (a' - b') = d' at *
    have e3 : (n : ℚ) * d' = 2 ^ (-k) * (n * d) := by rw [hd]; ring
    rw [e3]
    exact fl_scale_grid (.mul_nat (.double j1) n) (by rw [← e3]; exact .mul_nat (.double j2) n)

theorem total_scaled {k : ℤ} : ∀ {es es' : List (Hier.Event (Num754 binary64))}, LRel (EvRel (WRel k)) es es' → (∀ e ∈ es, e.1 ≠ 0 ∧ ∃ b, e.2.2 = some b ∧ e.2.1 < b) → ∀ {p : Nat} {s s' : Dbl},
    p + (es.map (·.1)).sum < 2 ^ 32 → StabRel k p s s' →
    StabRel k (p + (es.map (·.1)).sum) (es.foldl (fun s e => numArith.add s (numArith.term e.1 e.2.1 e.2.2)) s) (es'.foldl (fun s e => numArith.add s (numArith.term e.1 e.2.1 e.2.2)) s') := by
  intro es es' h
  induction h with
  | nil => intro _ p s s' _ hs; exact hs
  | @cons e e' l l' he t ih =>
    intro hes p s s' hp hs
    rw [List.map_cons, List.sum_cons] at hp
    obtain ⟨n, w, b⟩ := e
    obtain ⟨n', w', b'⟩ := e'
    obtain ⟨h0, β, hb, hlt⟩ := hes (n, w, b) List.mem_cons_self
    obtain ⟨e1, e2, e3⟩ := he
    dsimp only at h0 hb hlt e1 e2 e3 hp
    subst hb e1
    cases b' with
    | none => exact False.elim e3
    | some β' =>
      have ht := term_scaled (k := k) (n := n) (by omega) h0 e2 e3 hlt
      have := ih (fun e he => hes e (List.mem_cons_of_mem _ he)) (p := p + n) (by omega) ((stab_counted k).add hs ht (by omega))
      rw [List.map_cons, List.sum_cons, List.foldl_cons, List.foldl_cons, ← Nat.add_assoc]
      exact this

theorem root_scaled {k : ℤ} {es es' : List (Hier.Event (Num754 binary64))} (h : LRel (EvRel (WRel k)) es es') (hes : ∀ e ∈ es, e.1 ≠ 0 ∧ e.2.2 = none) :
    ScaledVal (-k) (Hier.total numArith es) (Hier.total numArith es') := by
  have key : ∀ {es : List (Hier.Event (Num754 binary64))}, (∀ e ∈ es, e.2.2 = none) → Hier.total numArith es = if es = [] then Fp.of 0 else .nan := by
    intro es hes
    have h1 := root_stability (es.map fun e => (e.1, e.2.1))
    rw [List.foldl_map] at h1
    have h2 : Hier.total numArith es = es.foldl (fun s e => numArith.add s (numArith.term e.1 e.2.1 none)) numArith.zeroS := by
      unfold Hier.total
      clear h1
      generalize numArith.zeroS = s
      induction es generalizing s with
      | nil => rfl
      | cons e r ih =>
        rw [List.foldl_cons, List.foldl_cons, hes e List.mem_cons_self]
        exact ih (fun e he => hes e (List.mem_cons_of_mem _ he)) _
    rw [h2, h1]
    simp
  have hes' : ∀ e ∈ es', e.2.2 = none := by
    clear key
    induction h with
    | nil => simp
    | @cons e e' l l' he t ih =>
      intro x hx
      rcases List.mem_cons.1 hx with rfl | hx
      · have := he.2.2
        rw [(hes e List.mem_cons_self).2] at this
        cases hb : x.2.2 with
        | none => rfl
        | some b => rw [hb] at this; exact False.elim this
      · exact ih (fun e he => hes e (List.mem_cons_of_mem _ he)) x hx
  rw [key fun e he => (hes e he).2, key hes']
  cases h with
  | nil =>
    refine .inr (.inr ⟨_, _, of_zero_fin, of_zero_fin, _, _, rfl, rfl, by simp⟩)
  | cons _ _ => exact .inl ⟨rfl, rfl⟩

theorem StabRel.val {k : ℤ} {p : Nat} {s s' : Dbl} (h : StabRel k p s s') : ScaledVal (-k) s s' := by
  rcases h with h | ⟨x, y, e1, e2, e3, _⟩
  · exact .inr (.inl h)
  · exact .inr (.inr ⟨_, _, e1, e2, _, _, rfl, rfl, e3⟩)

theorem ratio_scaled {k : ℤ} {a a' b b' : Num754 binary64} (ha : WRel k a a') (hb : WRel k b b') (h0 : b ≠ numArith.zeroW) : numScore.ratio a b = numScore.ratio a' b' := by
  obtain ⟨⟨x, x', rfl, rfl, ex⟩, _⟩ := ha
  obtain ⟨⟨y, y', rfl, rfl, ey⟩, _⟩ := hb
  have hy : y.1 ≠ 0 := fun h => h0 (by rw [num_zero]; exact congrArg _ (Subtype.ext h))
  have hy' : y'.1 ≠ 0 := by rw [ey]; exact mul_ne_zero (two_zpow_pos k).ne' hy
  have hd : (Fp.fin x : Dbl).div (Fp.fin y) = (Fp.fin x').div (Fp.fin y') := by
    show (if y.1 = 0 then _ else Fp.of (x.1 / y.1) : Dbl) = (if y'.1 = 0 then _ else Fp.of (x'.1 / y'.1) : Dbl)
    rw [if_neg hy, if_neg hy', ex, ey, mul_div_mul_left _ _ (two_zpow_pos k).ne']
  show fpScore.ratio (Fp.fin x) (Fp.fin y) = fpScore.ratio (Fp.fin x') (Fp.fin y')
  unfold fpScore
  dsimp only
  rw [hd]

end Verif.Param
