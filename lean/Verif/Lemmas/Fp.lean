import Verif.Lemmas.Double

/-! Facts on IEEE 754 values: finite results, accuracy of distances. -/

namespace Verif.Props
open Verif Verif.Spec Verif.Binary64

section
variable {f : Format}

theorem fp_of {x : ℚ} (h : |round f x| < 2 ^ f.top) : (Fp.of x : Fp f) = Fp.fin ⟨round f x, isBinary_round f x, h⟩ := dif_pos h

theorem fp_of_binary {x : ℚ} (hx : IsBinary f x) (h : |x| < 2 ^ f.top) : (Fp.of x : Fp f) = Fp.fin ⟨x, hx, h⟩ := by
  have e := round_binary hx
  rw [fp_of (by rw [e]; exact h)]
  congr 3

theorem isBinary_neg {x : ℚ} (h : IsBinary f x) : IsBinary f (-x) := by
  obtain ⟨m, e, h1, h2, rfl⟩ := h
  exact ⟨-m, e, by rwa [abs_neg], h2, by push_cast; ring⟩

theorem fp_sub (a b : Fin754 f) : (Fp.fin a).sub (Fp.fin b) = Fp.of (a.1 - b.1) := by
  unfold Fp.sub
  have : Fp.neg (Fp.fin b) = Fp.fin ⟨-b.1, isBinary_neg b.2.1, by rw [abs_neg]; exact b.2.2⟩ := fp_of_binary (isBinary_neg b.2.1) (by rw [abs_neg]; exact b.2.2)
  rw [this]
  show Fp.of (a.1 + -b.1) = _
  rw [sub_eq_add_neg]
end

/-- A double that is not too large as a value. -/
theorem fp_f64 {x : F64} (h : |x.1| < 2 ^ (1024 : ℤ)) : (Fp.of x.1 : Dbl) = Fp.fin (f := binary64) ⟨x.1, x.2, h⟩ := fp_of_binary (f := binary64) x.2 h

theorem fp_fl {x : ℚ} (h : |fl x| < 2 ^ (1024 : ℤ)) : (Fp.of x : Dbl) = Fp.of (fl x) := by
  rw [fp_of (f := binary64) h, fp_of_binary (f := binary64) (isDouble_fl x) h]
  rfl

theorem fl_abs_le {x : ℚ} {k : ℤ} (hk : -1074 ≤ k) (h : |x| ≤ 2 ^ k) : |fl x| ≤ 2 ^ k := by
  have d1 : IsDouble ((2 : ℚ) ^ k) := ⟨1, k, by norm_num, hk, by simp⟩
  have d2 : IsDouble (-(2 : ℚ) ^ k) := ⟨-1, k, by norm_num, hk, by simp⟩
  rw [abs_le] at h ⊢
  have a := fl_mono h.1
  have b := fl_mono h.2
  rw [fl_double d2] at a
  rw [fl_double d1] at b
  exact ⟨a, b⟩

/-- The sums of moderate squares. -/
theorem fp_fold (g : Nat → F64) (n : Nat) (hn : n < 2 ^ 32) (hg : ∀ k, k < n → |(g k).1| ≤ 2 ^ (481 : ℤ)) :
    ((List.range n).map (fun k => (Fp.of (g k).1 : Dbl))).foldl (fun s d => Fp.add s (Fp.mul d d)) (Fp.of 0) = Fp.of (partialSum g n).1 ∧
      0 ≤ (partialSum g n).1 ∧ (partialSum g n).1 ≤ n * 2 ^ (962 : ℤ) := by
  induction n with
  | zero =>
    have : (partialSum g 0).1 = 0 := of_zero
    rw [this]
    simp
  | succ n ih =>
    obtain ⟨e, h0, h1⟩ := ih (by omega) (fun k hk => hg k (by omega))
    have hn' := hg n (by omega)
    rw [List.range_succ, List.map_append, List.foldl_append, e, partialSum_succ]
    have hq : |(g n).1 * (g n).1| ≤ 2 ^ (962 : ℤ) := by
      rw [abs_mul]
      calc |(g n).1| * |(g n).1| ≤ 2 ^ (481 : ℤ) * 2 ^ (481 : ℤ) := mul_le_mul hn' hn' (abs_nonneg _) (by positivity)
        _ = 2 ^ (962 : ℤ) := by rw [← zpow_add₀ (by norm_num)]; norm_num
    have hq' := fl_abs_le (by omega) hq
    have hq0 : 0 ≤ fl ((g n).1 * (g n).1) := fl_nonneg (mul_self_nonneg _)
    rw [abs_of_nonneg hq0] at hq'
    have hlt : ∀ k : Nat, k < 2 ^ 33 → (k : ℚ) * 2 ^ (962 : ℤ) < 2 ^ (1024 : ℤ) := by
      intro k hk
      calc (k : ℚ) * 2 ^ (962 : ℤ) < 2 ^ 33 * 2 ^ (962 : ℤ) := mul_lt_mul_of_pos_right (by exact_mod_cast hk) (two_zpow_pos _)
        _ = 2 ^ (995 : ℤ) := by rw [← zpow_natCast, ← zpow_add₀ (by norm_num)]; norm_num
        _ < 2 ^ (1024 : ℤ) := zpow_lt_zpow_right₀ (by norm_num) (by norm_num)
    have hsum : (partialSum g n).1 + fl ((g n).1 * (g n).1) ≤ ((n + 1 : ℕ) : ℚ) * 2 ^ (962 : ℤ) := by
      push_cast
      linarith
    have hd : IsDouble (((n + 1 : ℕ) : ℚ) * 2 ^ (962 : ℤ)) := ⟨(n + 1 : ℕ), 962, by
      rw [abs_of_nonneg (by positivity)]
      have : ((n + 1 : ℕ) : ℤ) < 2 ^ 32 := by exact_mod_cast hn
      exact this.trans (by norm_num), by norm_num, by push_cast; rfl⟩
    have hsum' : fl ((partialSum g n).1 + fl ((g n).1 * (g n).1)) ≤ ((n + 1 : ℕ) : ℚ) * 2 ^ (962 : ℤ) := by
      rw [← fl_double hd]; exact fl_mono hsum
    have hsum0 : 0 ≤ fl ((partialSum g n).1 + fl ((g n).1 * (g n).1)) := fl_nonneg (by linarith)
    have hS : |(partialSum g n).1| < 2 ^ (1024 : ℤ) := by
      rw [abs_of_nonneg h0]
      exact lt_of_le_of_lt h1 (hlt n (by omega))
    have hQ : |fl ((g n).1 * (g n).1)| < 2 ^ (1024 : ℤ) := by
      rw [abs_of_nonneg hq0]
      have := hlt 1 (by norm_num)
      rw [Nat.cast_one, one_mul] at this
      exact lt_of_le_of_lt hq' this
    have hT : |fl ((partialSum g n).1 + fl ((g n).1 * (g n).1))| < 2 ^ (1024 : ℤ) := by
      rw [abs_of_nonneg hsum0]
      exact lt_of_le_of_lt hsum' (hlt (n + 1) (by omega))
    refine ⟨?_, hsum0, hsum'⟩
    have hG : |(g n).1| < 2 ^ (1024 : ℤ) := lt_of_le_of_lt hn' (zpow_lt_zpow_right₀ (by norm_num) (by norm_num))
    simp only [List.map_cons, List.map_nil, List.foldl_cons, List.foldl_nil]
    rw [fp_f64 hG]
    have em : Fp.mul (Fp.fin (f := binary64) ⟨(g n).1, (g n).2, hG⟩) (Fp.fin (f := binary64) ⟨(g n).1, (g n).2, hG⟩) = (Fp.fin ⟨fl ((g n).1 * (g n).1), isDouble_fl _, hQ⟩ : Dbl) := fp_of (f := binary64) hQ
    rw [em, fp_f64 hS]
    show (Fp.of ((partialSum g n).1 + fl ((g n).1 * (g n).1)) : Dbl) = _
    rw [fp_fl hT]
    rfl

theorem fp_sqrt {s : F64} (h0 : 0 ≤ s.1) (h : s.1 < 2 ^ (1024 : ℤ)) : ∃ y : Fin754 binary64, Fp.sqrt (Fp.of s.1) = Fp.fin y ∧ y.1 = (F64.sqrt s).1 ∧ y.1 ≤ 2 ^ (512 : ℤ) := by
  have h3 : flSqrt s.1 ≤ 2 ^ (512 : ℤ) := by
    have h2 : (flSqrt s.1 : ℝ) ≤ 2 ^ (512 : ℤ) := by
      rw [flSqrt_spec h0, ← fl_double (isDouble_pow (k := 512) (by norm_num))]
      apply fl_mono
      rw [Real.sqrt_le_left (by positivity)]
      have := ((Rat.cast_lt (K := ℝ)).2 h).le
      push_cast at this
      refine this.trans (le_of_eq ?_)
      rw [← zpow_natCast, ← zpow_mul]; norm_num
    rw [← Rat.cast_le (K := ℝ)]; push_cast; exact h2
  have hy : |flSqrt s.1| < 2 ^ (1024 : ℤ) := by
    have h1 : (0 : ℝ) ≤ flSqrt s.1 := by rw [flSqrt_spec h0]; exact fl_nonneg (Real.sqrt_nonneg _)
    have h1' : 0 ≤ flSqrt s.1 := by exact_mod_cast h1
    rw [abs_of_nonneg h1']
    exact lt_of_le_of_lt h3 (zpow_lt_zpow_right₀ (by norm_num) (by norm_num))
  refine ⟨⟨flSqrt s.1, isDouble_flSqrt _, hy⟩, ?_, rfl, h3⟩
  rw [fp_f64 (by rw [abs_of_nonneg h0]; exact h)]
  show (if s.1 < 0 then Ieee.nan else Fp.of (flSqrt s.1)) = _
  rw [if_neg (not_lt.2 h0)]
  exact fp_of_binary (f := binary64) (isDouble_flSqrt _) hy

/-- Distances for which the differences are known. -/
theorem fp_accuracy {D : Type} [CCmp Dbl] (diff : D → D → Outcome Dbl) (dmax : Dbl) (data : List D) (rows cols nn : Nat) (hn : rows ≤ 65536) (hc : cols < 2 ^ 32)
    (order : List (Nat × Nat)) (corder : List Nat) (ho : order.Perm (Distance.pairs rows)) (hco : corder.Perm (List.range rows))
    (g : Nat → Nat → Nat → F64) (x : Nat → Nat → Nat → ℝ)
    (hcell : ∀ i j k, i < j → j < rows → k < cols → ∃ a b, data[i * cols + k]? = some a ∧ data[j * cols + k]? = some b ∧ diff a b = .ok (Fp.of (g i j k).1))
    (hg : ∀ i j k, i < j → j < rows → k < cols → |(g i j k).1| ≤ 2 ^ (481 : ℤ) ∧ ((g i j k).1 : ℝ) = fl (x i j k) ∧ (x i j k = 0 ∨ (2 : ℝ) ^ (-500 : ℤ) ≤ |x i j k|)) :
    ∃ dis, Distance.compute (fpDist diff) dmax order corder data rows cols nn = .ok dis ∧ (∀ i, dis.get (fpDist diff).zero i i = .ok (Fp.of 0)) ∧
      ∀ i j, i < j → j < rows → ∃ y : Fin754 binary64, dis.get (fpDist diff).zero i j = .ok (Fp.fin y) ∧ dis.get (fpDist diff).zero j i = .ok (Fp.fin y) ∧ 0 ≤ y.1 ∧
        |((y.1 : ℚ) : ℝ) - Real.sqrt (∑ k ∈ Finset.range cols, x i j k ^ 2)| ≤ (cols + 5) * 2 ^ (-53 : ℤ) * Real.sqrt (∑ k ∈ Finset.range cols, x i j k ^ 2) ∧
        (y.1 = 0 ↔ ∀ k, k < cols → x i j k = 0) := by
  obtain ⟨dis, e, key⟩ := C18_any_arithmetic (fpDist diff) dmax data rows cols nn hn (fun i j => Fp.of (partialSum (g i j) cols).1) (fun i j hij hj => by
    refine ⟨(List.range cols).map (fun k => Fp.of (g i j k).1), by simp, ?_, fun k d hk => ?_⟩
    · exact (fp_fold (g i j) cols hc (fun k hk => (hg i j k hij hj hk).1)).1.symm
    · rw [List.getElem?_map, Option.map_eq_some_iff] at hk
      obtain ⟨k', h1, rfl⟩ := hk
      obtain ⟨h2, h3⟩ := List.getElem?_eq_some_iff.1 h1
      rw [List.length_range] at h2
      rw [List.getElem_range] at h3
      subst h3
      exact hcell i j k hij hj h2) order corder ho hco
  refine ⟨dis, e, fun i => by simp [Distance.get, fpDist], fun i j hij hj => ?_⟩
  obtain ⟨_, h0, h1⟩ := fp_fold (g i j) cols hc (fun k hk => (hg i j k hij hj hk).1)
  have hlt : (partialSum (g i j) cols).1 < 2 ^ (1024 : ℤ) := by
    refine lt_of_le_of_lt h1 ?_
    calc (cols : ℚ) * 2 ^ (962 : ℤ) < 2 ^ 32 * 2 ^ (962 : ℤ) := mul_lt_mul_of_pos_right (by exact_mod_cast hc) (two_zpow_pos _)
      _ = 2 ^ (994 : ℤ) := by rw [← zpow_natCast, ← zpow_add₀ (by norm_num)]; norm_num
      _ < 2 ^ (1024 : ℤ) := zpow_lt_zpow_right₀ (by norm_num) (by norm_num)
  obtain ⟨y, hy, ey, -⟩ := fp_sqrt h0 hlt
  obtain ⟨r1, r2, r3⟩ := root_spec (g i j) (x i j) cols hc (fun k hk => (hg i j k hij hj hk).2.1) (fun k hk => (hg i j k hij hj hk).2.2)
  refine ⟨y, ?_, ?_, by rw [ey]; exact r1, by rw [ey]; exact r2, by rw [ey]; exact r3⟩
  · rw [key i j (by omega) hj, if_pos hij]
    exact congrArg _ hy
  · rw [key j i hj (by omega), if_neg (by omega), if_neg (by omega)]
    exact congrArg _ hy

/-- From the differences to the claim. -/
theorem accurate_of {data : List ℚ} {cols i j : Nat} {y : Fin754 binary64} (hi : (i + 1) * cols ≤ data.length) (hj : (j + 1) * cols ≤ data.length) (h0 : 0 ≤ y.1)
    (h : |((y.1 : ℚ) : ℝ) - Real.sqrt (∑ k ∈ Finset.range cols, ((columnDiff data cols i j k : ℚ) : ℝ) ^ 2)| ≤
      err * Real.sqrt (∑ k ∈ Finset.range cols, ((columnDiff data cols i j k : ℚ) : ℝ) ^ 2))
    (hz : y.1 = 0 ↔ ∀ k, k < cols → columnDiff data cols i j k = 0) : Accurate data cols i j err y := by
  refine ⟨h0, by rw [euclid_columns]; exact h, hz.trans ?_⟩
  constructor <;> intro H k hk <;> have := H k hk
  all_goals
    have a1 : i * cols + k < data.length := lt_of_lt_of_le (by rw [Nat.succ_mul]; omega) hi
    have a2 : j * cols + k < data.length := lt_of_lt_of_le (by rw [Nat.succ_mul]; omega) hj
  · rw [columnDiff, List.getD_eq_getElem?_getD, List.getD_eq_getElem?_getD, List.getElem?_eq_getElem a1, List.getElem?_eq_getElem a2, sub_eq_zero] at this
    rw [List.getElem?_eq_getElem a1, List.getElem?_eq_getElem a2]
    exact congrArg some this
  · rw [columnDiff, List.getD_eq_getElem?_getD, List.getD_eq_getElem?_getD, this, sub_self]

theorem accurate_symm {data : List ℚ} {cols i j : Nat} {y : Fin754 binary64} (h : Accurate data cols i j err y) : Accurate data cols j i err y := by
  obtain ⟨a, b, c⟩ := h
  refine ⟨a, by rw [euclid_swap]; exact b, c.trans ?_⟩
  constructor <;> intro h k hk <;> exact (h k hk).symm

theorem accurate_self {data : List ℚ} {cols i : Nat} {err : ℝ} : ∃ y : Fin754 binary64, (Fp.of 0 : Dbl) = Fp.fin y ∧ Accurate data cols i i err y := by
  have h0 : |(0 : ℚ)| < 2 ^ binary64.top := by rw [abs_zero]; exact two_zpow_pos _
  refine ⟨⟨0, isDouble_zero, h0⟩, fp_of_binary (f := binary64) isDouble_zero h0, le_refl _, ?_, by simp⟩
  have e1 : euclid (data.map (fun x : ℚ => (x : ℝ))) cols i i = 0 := by simp [euclid]
  rw [e1]
  simp

/-! ### `float` data -/

theorem binary_int {f : Format} {x : ℚ} (h : IsBinary f x) : ∃ n : ℤ, x = n * 2 ^ f.least := by
  obtain ⟨m, e, -, h2, rfl⟩ := h
  refine ⟨m * 2 ^ (e - f.least).toNat, ?_⟩
  rw [Int.cast_mul, two_zpow_int (by omega), mul_assoc, ← zpow_add₀ (by norm_num)]
  congr 2
  omega

/-- The difference of two numbers of a format is rounded with a relative error of half a unit, however small it is. -/
theorem round_sub_relative {f : Format} {a b : ℚ} (ha : IsBinary f a) (hb : IsBinary f b) : |round f (a - b) - (a - b)| ≤ 2 ^ (-(f.digits + 1) : ℤ) * |a - b| := by
  by_cases h : (2 : ℚ) ^ (f.least + f.digits) ≤ |a - b|
  · exact round_relative (.inr h)
  · obtain ⟨m, hm⟩ := binary_int ha
    obtain ⟨n, hn⟩ := binary_int hb
    have e : a - b = ((m - n : ℤ) : ℚ) * 2 ^ f.least := by rw [hm, hn]; push_cast; ring
    have hbin : IsBinary f (a - b) := by
      refine ⟨m - n, f.least, ?_, le_refl _, e⟩
      rw [not_le, e, abs_mul, abs_of_pos (two_zpow_pos (K := ℚ) f.least), zpow_add₀ (by norm_num), mul_comm] at h
      have h1 := lt_of_mul_lt_mul_left h (two_zpow_pos (K := ℚ) f.least).le
      rw [zpow_natCast] at h1
      have h2 : |m - n| < 2 ^ f.digits := by exact_mod_cast h1
      exact h2.trans (pow_lt_pow_right₀ (by norm_num) (by omega))
    rw [round_binary hbin, sub_self, abs_zero]
    exact mul_nonneg (two_zpow_pos _).le (abs_nonneg _)

theorem isDouble_float {x : ℚ} (h : IsBinary binary32 x) : IsDouble x := by
  obtain ⟨m, e, h1, h2, rfl⟩ := h
  refine ⟨m, e, lt_trans h1 (by norm_num [binary32]), ?_, rfl⟩
  have : binary32.least = -149 := rfl
  omega

/-- Roots of sums of squares of nearby numbers are near. -/
theorem root_near (x y : Nat → ℝ) (n : Nat) (v : ℝ) (hv : 0 ≤ v) (hv1 : v ≤ 1) (h : ∀ k, k < n → |y k - x k| ≤ v * |x k|) :
    |Real.sqrt (∑ k ∈ Finset.range n, y k ^ 2) - Real.sqrt (∑ k ∈ Finset.range n, x k ^ 2)| ≤ v * Real.sqrt (∑ k ∈ Finset.range n, x k ^ 2) := by
  have hb : ∀ k, k < n → (1 - v) ^ 2 * x k ^ 2 ≤ y k ^ 2 ∧ y k ^ 2 ≤ (1 + v) ^ 2 * x k ^ 2 := by
    intro k hk
    have h1 := h k hk
    have hx := abs_nonneg (x k)
    have a1 : |y k| ≤ (1 + v) * |x k| := by
      have := abs_sub_abs_le_abs_sub (y k) (x k)
      linarith
    have a2 : (1 - v) * |x k| ≤ |y k| := by
      have := abs_sub_abs_le_abs_sub (x k) (y k)
      rw [abs_sub_comm] at this
      linarith
    rw [← sq_abs (x k), ← sq_abs (y k), ← mul_pow, ← mul_pow]
    exact ⟨pow_le_pow_left₀ (mul_nonneg (by linarith) hx) a2 2, pow_le_pow_left₀ (abs_nonneg _) a1 2⟩
  have s1 : (1 - v) ^ 2 * ∑ k ∈ Finset.range n, x k ^ 2 ≤ ∑ k ∈ Finset.range n, y k ^ 2 := by
    rw [Finset.mul_sum]
    exact Finset.sum_le_sum fun k hk => (hb k (Finset.mem_range.1 hk)).1
  have s2 : ∑ k ∈ Finset.range n, y k ^ 2 ≤ (1 + v) ^ 2 * ∑ k ∈ Finset.range n, x k ^ 2 := by
    rw [Finset.mul_sum]
    exact Finset.sum_le_sum fun k hk => (hb k (Finset.mem_range.1 hk)).2
  have r1 := Real.sqrt_le_sqrt s1
  have r2 := Real.sqrt_le_sqrt s2
  rw [Real.sqrt_mul (sq_nonneg _), Real.sqrt_sq (by linarith)] at r1 r2
  rw [abs_le]
  constructor <;> linarith

/-- Distances for which the differences are known up to a relative error `v`. -/
theorem fp_claim {D : Type} [CCmp Dbl] (val : D → ℚ) (diff : D → D → Outcome Dbl) (dmax : Dbl) (data : List D) (rows cols nn : Nat) (hn : rows ≤ 65536) (hc : cols < 2 ^ 32)
    (hdata : rows * cols ≤ data.length) (order : List (Nat × Nat)) (corder : List Nat) (ho : order.Perm (Distance.pairs rows)) (hco : corder.Perm (List.range rows))
    (v : ℝ) (hv : 0 ≤ v) (hv1 : v < 1)
    (H : ∀ i j k a b, i < j → j < rows → k < cols → data[i * cols + k]? = some a → data[j * cols + k]? = some b → ∃ x : ℚ, diff a b = .ok (Fp.of (fl x)) ∧ |x| ≤ 2 ^ (481 : ℤ) ∧
      (x = 0 ∨ (2 : ℚ) ^ (-500 : ℤ) ≤ |x|) ∧ |(x : ℝ) - ((val a - val b : ℚ) : ℝ)| ≤ v * |((val a - val b : ℚ) : ℝ)|) :
    ∃ dis, Distance.compute (fpDist diff) dmax order corder data rows cols nn = .ok dis ∧
      ∀ i j, i < rows → j < rows → ∃ y, dis.get (fpDist diff).zero i j = .ok (Fp.fin y) ∧ Accurate (data.map val) cols i j ((1 + (cols + 5) * 2 ^ (-53 : ℤ)) * (1 + v) - 1) y := by
  have hle : ∀ i, i < rows → (i + 1) * cols ≤ (data.map val).length := fun i hi => by rw [List.length_map]; exact le_trans (Nat.mul_le_mul_right _ hi) hdata
  have hat : ∀ i k, i < rows → k < cols → ∃ a, data[i * cols + k]? = some a := fun i k hi hk => by
    have := hle i hi
    rw [List.length_map, Nat.succ_mul] at this
    exact ⟨_, List.getElem?_eq_getElem (show i * cols + k < data.length by omega)⟩
  have H' : ∀ i j k, ∃ x : ℚ, i < j → j < rows → k < cols → (∃ a b, data[i * cols + k]? = some a ∧ data[j * cols + k]? = some b ∧ diff a b = .ok (Fp.of (fl x))) ∧ |x| ≤ 2 ^ (481 : ℤ) ∧
      (x = 0 ∨ (2 : ℚ) ^ (-500 : ℤ) ≤ |x|) ∧ |(x : ℝ) - ((columnDiff (data.map val) cols i j k : ℚ) : ℝ)| ≤ v * |((columnDiff (data.map val) cols i j k : ℚ) : ℝ)| := by
    intro i j k
    by_cases h : i < j ∧ j < rows ∧ k < cols
    · obtain ⟨h1, h2, h3⟩ := h
      obtain ⟨a, ha⟩ := hat i k (by omega) h3
      obtain ⟨b, hb⟩ := hat j k h2 h3
      obtain ⟨x, e1, e2, e3, e4⟩ := H i j k a b h1 h2 h3 ha hb
      have e : columnDiff (data.map val) cols i j k = val a - val b := by
        simp [columnDiff, List.getD_eq_getElem?_getD, ha, hb]
      exact ⟨x, fun _ _ _ => ⟨⟨a, b, ha, hb, e1⟩, e2, e3, by rw [e]; exact e4⟩⟩
    · exact ⟨0, fun h1 h2 h3 => absurd ⟨h1, h2, h3⟩ h⟩
  choose X hX using H'
  obtain ⟨dis, e, hself, key⟩ := fp_accuracy diff dmax data rows cols nn hn hc order corder ho hco (fun i j k => F64.of (X i j k)) (fun i j k => ((X i j k : ℚ) : ℝ))
    (fun i j k hij hj hk => (hX i j k hij hj hk).1)
    (fun i j k hij hj hk => by
      obtain ⟨-, e2, e3, -⟩ := hX i j k hij hj hk
      refine ⟨fl_abs_le (by norm_num) e2, of_cast _, ?_⟩
      rcases e3 with h | h
      · left; rw [h]; norm_num
      · right
        have := (Rat.cast_le (K := ℝ)).2 h
        push_cast at this
        exact this)
  refine ⟨dis, e, ?_⟩
  have one : ∀ i j, i < j → j < rows → ∃ y, dis.get (fpDist diff).zero i j = .ok (Fp.fin y) ∧ dis.get (fpDist diff).zero j i = .ok (Fp.fin y) ∧
      Accurate (data.map val) cols i j ((1 + (cols + 5) * 2 ^ (-53 : ℤ)) * (1 + v) - 1) y := by
    intro i j hij hj
    obtain ⟨y, g1, g2, y0, r, z⟩ := key i j hij hj
    refine ⟨y, g1, g2, accurate_of (hle i (by omega)) (hle j hj) y0 ?_ (z.trans ?_)⟩
    · have near := root_near (fun k => ((columnDiff (data.map val) cols i j k : ℚ) : ℝ)) (fun k => ((X i j k : ℚ) : ℝ)) cols v hv hv1.le (fun k hk => (hX i j k hij hj hk).2.2.2)
      have hs := Real.sqrt_nonneg (∑ k ∈ Finset.range cols, ((columnDiff (data.map val) cols i j k : ℚ) : ℝ) ^ 2)
      have hc0 : (0 : ℝ) ≤ (cols + 5) * 2 ^ (-53 : ℤ) := by positivity
      generalize Real.sqrt (∑ k ∈ Finset.range cols, ((columnDiff (data.map val) cols i j k : ℚ) : ℝ) ^ 2) = d at *
      generalize Real.sqrt (∑ k ∈ Finset.range cols, ((X i j k : ℚ) : ℝ) ^ 2) = d' at *
      generalize ((cols : ℝ) + 5) * 2 ^ (-53 : ℤ) = w at *
      have h1 := abs_sub_le ((y.1 : ℚ) : ℝ) d' d
      have h2 : d' ≤ (1 + v) * d := by linarith [(abs_le.1 near).2]
      have h3 : w * d' ≤ w * ((1 + v) * d) := mul_le_mul_of_nonneg_left h2 hc0
      nlinarith
    · constructor <;> intro h k hk <;> have h1 := h k hk <;> have h2 := (hX i j k hij hj hk).2.2.2
      · rw [h1, zero_sub, abs_neg] at h2
        have h3 := abs_nonneg ((columnDiff (data.map val) cols i j k : ℚ) : ℝ)
        have h4 : |((columnDiff (data.map val) cols i j k : ℚ) : ℝ)| = 0 := by nlinarith
        have := abs_eq_zero.1 h4
        exact_mod_cast this
      · rw [h1, Rat.cast_zero, abs_zero, mul_zero, sub_zero] at h2
        exact abs_nonpos_iff.1 h2
  intro i j hi hj
  rcases Nat.lt_trichotomy i j with h | h | h
  · obtain ⟨y, g1, -, a⟩ := one i j h hj
    exact ⟨y, g1, a⟩
  · subst h
    obtain ⟨y, e0, a⟩ := accurate_self (data := data.map val) (cols := cols) (i := i)
    exact ⟨y, by rw [hself, e0], a⟩
  · obtain ⟨y, -, g2, a⟩ := one j i h hi
    exact ⟨y, g2, accurate_symm a⟩

/-! ### Values that are not finite -/

theorem fp_lt {f : Format} (x y : Fin754 f) : CCmp.lt (Fp.fin x) (Fp.fin y) = decide (x.1 < y.1) := by
  show decide (Num754.fin x < Num754.fin y) = _
  refine decide_eq_decide.2 ?_
  show Num754.place (.fin x) < Num754.place (.fin y) ↔ _
  simp [Num754.place]

theorem fp_max : ∃ v : Fin754 binary64, Fp.max = Fp.fin v ∧ v.1 = (2 ^ 53 - 1) * 2 ^ 971 := by
  have d : IsBinary binary64 ((2 ^ 53 - 1) * 2 ^ 971 : ℚ) := ⟨2 ^ 53 - 1, 971, by norm_num [binary64], by norm_num [binary64], by push_cast; norm_num⟩
  exact ⟨_, fp_of_binary d (by decide +kernel), rfl⟩

/-- NaN and the infinity that sums of squares can reach. -/
def Lost (x : Dbl) : Prop := x = .nan ∨ x = .num .pinf

theorem lost_square {d : Dbl} (h : ∀ x, d ≠ Fp.fin x) : Lost (Fp.mul d d) := by
  match d with
  | .nan => exact .inl rfl
  | .num .ninf => exact .inr rfl
  | .num (.fin x) => exact absurd rfl (h x)
  | .num .pinf => exact .inr rfl

theorem lost_add_right (s : Dbl) {q : Dbl} (h : Lost q) : Lost (Fp.add s q) := by
  rcases h with rfl | rfl
  · match s with
    | .nan => exact .inl rfl
    | .num .ninf => exact .inl rfl
    | .num (.fin x) => exact .inl rfl
    | .num .pinf => exact .inl rfl
  · match s with
    | .nan => exact .inl rfl
    | .num .ninf => exact .inl rfl
    | .num (.fin x) => exact .inr rfl
    | .num .pinf => exact .inr rfl

theorem lost_add_left {s : Dbl} (q : Dbl) (h : Lost s) : Lost (Fp.add s q) := by
  rcases h with rfl | rfl
  · match q with
    | .nan => exact .inl rfl
    | .num .ninf => exact .inl rfl
    | .num (.fin x) => exact .inl rfl
    | .num .pinf => exact .inl rfl
  · match q with
    | .nan => exact .inl rfl
    | .num .ninf => exact .inl rfl
    | .num (.fin x) => exact .inr rfl
    | .num .pinf => exact .inr rfl

theorem lost_fold_left (ds : List Dbl) (s : Dbl) (h : Lost s) : Lost (ds.foldl (fun s d => Fp.add s (Fp.mul d d)) s) := by
  induction ds generalizing s with
  | nil => exact h
  | cons d ds ih => exact ih _ (lost_add_left _ h)

theorem lost_fold (ds : List Dbl) (s : Dbl) (h : ∃ d ∈ ds, ∀ x, d ≠ Fp.fin x) : Lost (ds.foldl (fun s d => Fp.add s (Fp.mul d d)) s) := by
  induction ds generalizing s with
  | nil => simp at h
  | cons d ds ih =>
    obtain ⟨e, he, h⟩ := h
    rcases List.mem_cons.1 he with rfl | he
    · exact lost_fold_left ds _ (lost_add_right _ (lost_square h))
    · exact ih _ ⟨e, he, h⟩

theorem lost_sqrt {s : Dbl} (h : Lost s) : Lost (Fp.sqrt s) := by
  rcases h with rfl | rfl
  · exact .inl rfl
  · exact .inr rfl

theorem lost_notBelow {s : Dbl} (h : Lost s) : NotBelow Fp.max s := by
  obtain ⟨v, e, -⟩ := fp_max
  rw [e]
  rcases h with rfl | rfl
  · rfl
  · show decide (Num754.pinf < Num754.fin v) = false
    rw [decide_eq_false_iff_not]
    show ¬ Num754.place .pinf < Num754.place (.fin v)
    simp [Num754.place]

theorem add_infinite {a b : Dbl} (h : (∀ x, a ≠ Fp.fin x) ∨ ∀ x, b ≠ Fp.fin x) (x : Fin754 binary64) : a.add b ≠ Fp.fin x := by
  rcases a with _ | (_ | y | _) <;> rcases b with _ | (_ | z | _) <;> first
    | (intro e; cases e)
    | (rcases h with h | h <;> exact absurd rfl (h _))

theorem neg_infinite {b : Dbl} (h : ∀ x, b ≠ Fp.fin x) (x : Fin754 binary64) : b.neg ≠ Fp.fin x := by
  rcases b with _ | (_ | y | _)
  · intro e; cases e
  · intro e; cases e
  · exact absurd rfl (h y)
  · intro e; cases e

theorem sub_infinite {a b : Dbl} (h : (∀ x, a ≠ Fp.fin x) ∨ ∀ x, b ≠ Fp.fin x) (x : Fin754 binary64) : a.sub b ≠ Fp.fin x :=
  add_infinite (h.imp_right neg_infinite) x

end Verif.Props
