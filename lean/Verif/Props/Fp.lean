import Verif.Props.Any
import Verif.Lemmas.Fp

/-! C89: how accurate distances are, for all data types; and C71-C74 for `double` data in particular. -/

namespace Verif.Props
open Verif Verif.Spec Verif.Binary64

/-- The operations of the model are those of IEEE 754: the exact result is rounded to a nearest number of the format, and is infinite if that is too large. -/
theorem fp_rounded {f : Format} (x : ℚ) : ∃ y, NearestBinary f x y ∧ ((∃ z, (Fp.of x : Fp f) = Fp.fin z ∧ z.1 = y) ∨ (2 ^ f.top ≤ |y| ∧ (Fp.of x : Fp f) = Fp.inf (decide (x < 0)))) := by
  refine ⟨Binary64.round f x, round_nearest f x, ?_⟩
  by_cases h : |Binary64.round f x| < 2 ^ f.top
  · exact .inl ⟨_, fp_of h, rfl⟩
  · exact .inr ⟨not_lt.1 h, dif_neg h⟩

/-! ### C89 -/

/-- **C89 for `double` data, proved part**. `distance_get` returns the Euclidean distance up to a relative error of `(cols + 5) * 2 ^ -53`, and 0 only for rows that are equal; for every schedule.
    Required is that coordinates are at most 2 ^ 480 and that coordinates which differ differ by at least 2 ^ -500; beyond, squares fall out of the range of doubles and the claim is
    false (`C89_underflow_violated`, `C89_overflow_violated`). -/
theorem C89_double_partial (dmax : Dbl) (data : List (Fin754 binary64)) (rows cols nn : Nat) (hn : rows ≤ 65536) (hc : cols < 2 ^ 32) (hdata : rows * cols ≤ data.length)
    (order : List (Nat × Nat)) (corder : List Nat) (ho : order.Perm (Distance.pairs rows)) (hco : corder.Perm (List.range rows))
    (hbig : ∀ x ∈ data, |x.1| ≤ 2 ^ (480 : ℤ))
    (hdiff : ∀ i j k, i < j → j < rows → k < cols → columnDiff (data.map (·.1)) cols i j k = 0 ∨ 2 ^ (-500 : ℤ) ≤ |columnDiff (data.map (·.1)) cols i j k|) :
    ∃ dis, Distance.compute doubleOps dmax order corder (data.map Fp.fin) rows cols nn = .ok dis ∧
      ∀ i j, i < rows → j < rows → ∃ y, dis.get doubleOps.zero i j = .ok (Fp.fin y) ∧ Accurate (data.map (·.1)) cols i j ((cols + 5) * 2 ^ (-53 : ℤ)) y := by
  have key := fp_claim (fun x : Dbl => match x with | .num (.fin x) => x.1 | _ => 0) (fun a b : Dbl => .ok (a.sub b)) dmax (data.map Fp.fin) rows cols nn hn hc (by rw [List.length_map]; exact hdata)
    order corder ho hco 0 (le_refl _) one_pos (fun i j k a b hij hj hk ha hb => by
      rw [List.getElem?_map, Option.map_eq_some_iff] at ha hb
      obtain ⟨a, ha, rfl⟩ := ha
      obtain ⟨b, hb, rfl⟩ := hb
      have e : columnDiff (data.map (·.1)) cols i j k = a.1 - b.1 := by simp [columnDiff, List.getD_eq_getElem?_getD, ha, hb]
      have h1 : |a.1 - b.1| ≤ 2 ^ (481 : ℤ) := by
        have ha' := hbig a (List.mem_of_getElem? ha)
        have hb' := hbig b (List.mem_of_getElem? hb)
        have : (2 : ℚ) ^ (481 : ℤ) = 2 ^ (480 : ℤ) + 2 ^ (480 : ℤ) := by rw [show (481 : ℤ) = 480 + 1 by norm_num, zpow_add₀ (by norm_num)]; ring
        rw [this]
        exact (abs_sub _ _).trans (add_le_add ha' hb')
      refine ⟨a.1 - b.1, ?_, h1, by rw [← e]; exact hdiff i j k hij hj hk, by simp⟩
      rw [fp_sub]
      exact congrArg _ (fp_fl (lt_of_le_of_lt (fl_abs_le (by norm_num) h1) (zpow_lt_zpow_right₀ (by norm_num) (by norm_num)))))
  have e1 : (1 + ((cols : ℝ) + 5) * 2 ^ (-53 : ℤ)) * (1 + 0) - 1 = (cols + 5) * 2 ^ (-53 : ℤ) := by ring
  rw [e1, List.map_map] at key
  exact key

/-- **C89 for `float` data, proved part**: a difference is rounded to a `float` first, which adds a relative error of 2 ^ -24. Differences may be as small as they can be, but must not be greater than 2 ^ 127, since
    the largest `float` is less than 2 ^ 128 (`C89_float_violated`). -/
theorem C89_float_partial (dmax : Dbl) (data : List (Fin754 binary32)) (rows cols nn : Nat) (hn : rows ≤ 65536) (hc : cols < 2 ^ 32) (hdata : rows * cols ≤ data.length)
    (order : List (Nat × Nat)) (corder : List Nat) (ho : order.Perm (Distance.pairs rows)) (hco : corder.Perm (List.range rows))
    (hbig : ∀ i j k, i < j → j < rows → k < cols → |columnDiff (data.map (·.1)) cols i j k| ≤ 2 ^ (127 : ℤ)) :
    ∃ dis, Distance.compute floatOps dmax order corder (data.map Fp.fin) rows cols nn = .ok dis ∧
      ∀ i j, i < rows → j < rows → ∃ y, dis.get floatOps.zero i j = .ok (Fp.fin y) ∧
        Accurate (data.map (·.1)) cols i j ((1 + (cols + 5) * 2 ^ (-53 : ℤ)) * (1 + 2 ^ (-24 : ℤ)) - 1) y := by
  have key := fp_claim (fun x : Flt => match x with | .num (.fin x) => x.1 | _ => 0) (fun a b : Flt => .ok (Fp.widen (a.sub b))) dmax (data.map Fp.fin) rows cols nn hn hc (by rw [List.length_map]; exact hdata)
    order corder ho hco (2 ^ (-24 : ℤ)) (by positivity) (by norm_num) (fun i j k a b hij hj hk ha hb => by
      rw [List.getElem?_map, Option.map_eq_some_iff] at ha hb
      obtain ⟨a, ha, rfl⟩ := ha
      obtain ⟨b, hb, rfl⟩ := hb
      have e : columnDiff (data.map (·.1)) cols i j k = a.1 - b.1 := by simp [columnDiff, List.getD_eq_getElem?_getD, ha, hb]
      have hb2 := hbig i j k hij hj hk
      rw [e] at hb2
      have hr : |Binary64.round binary32 (a.1 - b.1)| ≤ 2 ^ (127 : ℤ) := by
        have d1 : IsBinary binary32 ((2 : ℚ) ^ (127 : ℤ)) := ⟨1, 127, by norm_num [binary32], by norm_num [binary32], by simp⟩
        rw [abs_le] at hb2 ⊢
        have l := round_mono (f := binary32) hb2.1
        have u := round_mono (f := binary32) hb2.2
        rw [round_binary (isBinary_neg d1)] at l
        rw [round_binary d1] at u
        exact ⟨l, u⟩
      have hr2 : |Binary64.round binary32 (a.1 - b.1)| < 2 ^ binary32.top := lt_of_le_of_lt hr (zpow_lt_zpow_right₀ (by norm_num) (by norm_num [binary32]))
      have hrel := round_sub_relative a.2.1 b.2.1
      refine ⟨Binary64.round binary32 (a.1 - b.1), ?_, hr.trans (zpow_le_zpow_right₀ (by norm_num) (by norm_num)), ?_, ?_⟩
      · rw [fp_sub, fp_of hr2, fl_double (isDouble_float (isBinary_round _ _))]
        rfl
      · obtain ⟨n, hn⟩ := binary_int (isBinary_round binary32 (a.1 - b.1))
        by_cases h0 : n = 0
        · left; rw [hn, h0]; simp
        · right
          rw [hn, abs_mul, abs_of_pos (two_zpow_pos (K := ℚ) _)]
          have h1 : (1 : ℚ) ≤ |(n : ℚ)| := by exact_mod_cast Int.one_le_abs h0
          calc (2 : ℚ) ^ (-500 : ℤ) ≤ 2 ^ binary32.least := zpow_le_zpow_right₀ (by norm_num) (by norm_num [binary32])
            _ ≤ |(n : ℚ)| * 2 ^ binary32.least := le_mul_of_one_le_left (two_zpow_pos _).le h1
      · have := (Rat.cast_le (K := ℝ)).2 hrel
        push_cast at this ⊢
        exact this)
  rw [List.map_map] at key
  exact key

/-- **C89 for `int`, `long`, `short` and `char` data**: there is no underflow and no overflow of a `double`; required is only that differences are integers of the type in which they are
    formed (64 bits for `long`, 32 for the others, for `short` and `char` this is always so); otherwise the code is undefined (`C18_int_overflow_violated`). -/
theorem C89_integer (bits : Nat) (hbits : bits ≤ 64) (dmax : Dbl) (data : List ℤ) (rows cols nn : Nat) (hn : rows ≤ 65536) (hc : cols < 2 ^ 32) (hdata : rows * cols ≤ data.length)
    (order : List (Nat × Nat)) (corder : List Nat) (ho : order.Perm (Distance.pairs rows)) (hco : corder.Perm (List.range rows))
    (hfit : ∀ x ∈ data, ∀ y ∈ data, -2 ^ (bits - 1) ≤ x - y ∧ x - y < 2 ^ (bits - 1)) :
    ∃ dis, Distance.compute (integerOps bits) dmax order corder data rows cols nn = .ok dis ∧
      ∀ i j, i < rows → j < rows → ∃ y, dis.get (integerOps bits).zero i j = .ok (Fp.fin y) ∧ Accurate (data.map (fun x : ℤ => (x : ℚ))) cols i j ((cols + 5) * 2 ^ (-53 : ℤ)) y := by
  have key := fp_claim (fun x : ℤ => (x : ℚ)) (integerOps bits).diff dmax data rows cols nn hn hc hdata order corder ho hco 0 (le_refl _) one_pos (fun i j k a b hij hj hk ha hb => by
    have hf := hfit a (List.mem_of_getElem? ha) b (List.mem_of_getElem? hb)
    have h63 : |a - b| ≤ 2 ^ 63 := by
      have : (2 : ℤ) ^ (bits - 1) ≤ 2 ^ 63 := pow_le_pow_right₀ (by norm_num) (by omega)
      rw [abs_le]
      constructor <;> linarith [hf.1, hf.2]
    have h1 : |((a - b : ℤ) : ℚ)| ≤ 2 ^ (481 : ℤ) := by
      have : |((a - b : ℤ) : ℚ)| ≤ 2 ^ (63 : ℤ) := by exact_mod_cast h63
      exact this.trans (zpow_le_zpow_right₀ (by norm_num) (by norm_num))
    refine ⟨((a - b : ℤ) : ℚ), ?_, h1, ?_, by push_cast; simp⟩
    · show (if -2 ^ (bits - 1) ≤ a - b ∧ a - b < 2 ^ (bits - 1) then Outcome.ok (Fp.of ((a - b : ℤ) : ℚ)) else .ub "signed overflow") = _
      rw [if_pos hf]
      exact congrArg _ (fp_fl (lt_of_le_of_lt (fl_abs_le (by norm_num) h1) (zpow_lt_zpow_right₀ (by norm_num) (by norm_num))))
    · by_cases h0 : a - b = 0
      · left; rw [h0]; norm_num
      · right
        have h2 : (1 : ℚ) ≤ |((a - b : ℤ) : ℚ)| := by exact_mod_cast Int.one_le_abs h0
        exact le_trans (zpow_le_one_of_nonpos₀ (by norm_num) (by norm_num)) h2)
  have e1 : (1 + ((cols : ℝ) + 5) * 2 ^ (-53 : ℤ)) * (1 + 0) - 1 = (cols + 5) * 2 ^ (-53 : ℤ) := by ring
  rw [e1] at key
  exact key

/-- C89 fails for coordinates that are very close: the distance between the different points 0 and 2 ^ -600 is 0. -/
theorem C89_underflow_violated (dmax : Dbl) : ∃ dis, Distance.compute doubleOps dmax [(0, 1)] [0, 1] [Fp.of 0, Fp.of (2 ^ (-600 : ℤ))] 2 1 1 = .ok dis ∧
    dis.get doubleOps.zero 0 1 = .ok (Fp.of 0) ∧ (Fp.of 0 : Dbl) ≠ Fp.of (2 ^ (-600 : ℤ)) := by
  obtain ⟨dis, e, key⟩ := C18_any_arithmetic doubleOps dmax [Fp.of 0, Fp.of (2 ^ (-600 : ℤ))] 2 1 1 (by omega) (fun _ _ => Fp.of 0)
    (fun i j hij hj => by
      have : i = 0 ∧ j = 1 := by omega
      obtain ⟨rfl, rfl⟩ := this
      exact sqSum_iff.1 (by decide +kernel)) [(0, 1)] [0, 1] (by decide) (by decide)
  refine ⟨dis, e, ?_, by decide +kernel⟩
  rw [key 0 1 (by omega) (by omega)]
  decide +kernel

/-- C89 fails for coordinates that are very far apart: the distance between the points 0 and 2 ^ 600 is infinite. -/
theorem C89_overflow_violated (dmax : Dbl) : ∃ dis, Distance.compute doubleOps dmax [(0, 1)] [0, 1] [Fp.of 0, Fp.of (2 ^ 600)] 2 1 1 = .ok dis ∧
    dis.get doubleOps.zero 0 1 = .ok (Fp.inf false) ∧ ∃ y, (Fp.of (2 ^ 600) : Dbl) = Fp.fin y ∧ y.1 = 2 ^ 600 := by
  obtain ⟨dis, e, key⟩ := C18_any_arithmetic doubleOps dmax [Fp.of 0, Fp.of (2 ^ 600)] 2 1 1 (by omega) (fun _ _ => Fp.inf false)
    (fun i j hij hj => by
      have : i = 0 ∧ j = 1 := by omega
      obtain ⟨rfl, rfl⟩ := this
      exact sqSum_iff.1 (by decide +kernel)) [(0, 1)] [0, 1] (by decide) (by decide)
  refine ⟨dis, e, ?_, ?_⟩
  · rw [key 0 1 (by omega) (by omega)]
    decide +kernel
  · have d : IsBinary binary64 ((2 : ℚ) ^ 600) := ⟨1, 600, by norm_num [binary64], by norm_num [binary64], by push_cast; rw [one_mul]; rfl⟩
    exact ⟨_, fp_of_binary d (by decide +kernel), rfl⟩

/-- C89 fails for `float` data: the difference of 2 ^ 127 and -2 ^ 127 is infinite, although a `double` could hold it. -/
theorem C89_float_violated (dmax : Dbl) : ∃ dis, Distance.compute floatOps dmax [(0, 1)] [0, 1] [Fp.of (-2 ^ 127), Fp.of (2 ^ 127)] 2 1 1 = .ok dis ∧
    dis.get floatOps.zero 0 1 = .ok (Fp.inf false) ∧ ∃ y : Fin754 binary64, (Fp.of (2 ^ 128) : Dbl) = Fp.fin y ∧ y.1 = 2 ^ 128 := by
  obtain ⟨dis, e, key⟩ := C18_any_arithmetic floatOps dmax [Fp.of (-2 ^ 127), Fp.of (2 ^ 127)] 2 1 1 (by omega) (fun _ _ => Fp.inf false)
    (fun i j hij hj => by
      have : i = 0 ∧ j = 1 := by omega
      obtain ⟨rfl, rfl⟩ := this
      exact sqSum_iff.1 (by decide +kernel)) [(0, 1)] [0, 1] (by decide) (by decide)
  refine ⟨dis, e, ?_, ?_⟩
  · rw [key 0 1 (by omega) (by omega)]
    decide +kernel
  · have d : IsBinary binary64 ((2 : ℚ) ^ 128) := ⟨1, 128, by norm_num [binary64], by norm_num [binary64], by push_cast; rw [one_mul]; rfl⟩
    exact ⟨_, fp_of_binary d (by decide +kernel), rfl⟩

/-- Three rows of two columns; no distance is a double. -/
def planePts : List ℚ := [0, 0, 1, 2, 1 / 4, 7]

theorem planePts_binary (f : Format) (hd : 4 ≤ f.digits) (hl : f.least ≤ -2) (ht : 10 ≤ f.top) : ∀ x ∈ planePts, IsBinary f x ∧ |x| < 2 ^ f.top := by
  have h2 : (2 : ℤ) ^ 4 ≤ 2 ^ f.digits := pow_le_pow_right₀ (by norm_num) hd
  have h3 : (2 : ℚ) ^ (10 : ℤ) ≤ 2 ^ f.top := zpow_le_zpow_right₀ (by norm_num) ht
  have h4 : (2 : ℤ) ^ (f.digits + 1) = 2 * 2 ^ f.digits := by ring
  intro x hx
  simp only [planePts, List.mem_cons, List.not_mem_nil, or_false] at hx
  rcases hx with rfl | rfl | rfl | rfl | rfl | rfl
  · exact ⟨⟨0, -2, by rw [h4]; norm_num, hl, by norm_num⟩, lt_of_lt_of_le (by norm_num) h3⟩
  · exact ⟨⟨0, -2, by rw [h4]; norm_num, hl, by norm_num⟩, lt_of_lt_of_le (by norm_num) h3⟩
  · exact ⟨⟨4, -2, by rw [h4, abs_of_pos (by norm_num)]; omega, hl, by norm_num⟩, lt_of_lt_of_le (by norm_num) h3⟩
  · exact ⟨⟨8, -2, by rw [h4, abs_of_pos (by norm_num)]; omega, hl, by norm_num⟩, lt_of_lt_of_le (by norm_num) h3⟩
  · exact ⟨⟨1, -2, by rw [h4, abs_of_pos (by norm_num)]; omega, hl, by norm_num⟩, lt_of_lt_of_le (by norm_num [abs_of_pos]) h3⟩
  · exact ⟨⟨28, -2, by rw [h4, abs_of_pos (by norm_num)]; omega, hl, by norm_num⟩, lt_of_lt_of_le (by norm_num) h3⟩

/-- The points as values of a format. -/
def planeFp (f : Format) (hd : 4 ≤ f.digits) (hl : f.least ≤ -2) (ht : 10 ≤ f.top) : List (Fin754 f) := planePts.attach.map fun x => ⟨x.1, planePts_binary f hd hl ht x.1 x.2⟩

example (dmax : Dbl) := C89_double_partial dmax (planeFp binary64 (by decide) (by decide) (by decide)) 3 2 1 (by omega) (by omega) (by decide) _ _ (.refl _) (.refl _)
  (by decide +kernel)
  (fun i j k hij hj hk => (by decide +kernel : ∀ j, j < 3 → ∀ i, i < j → ∀ k, k < 2 →
    columnDiff (planePts.attach.map (·.1)) 2 i j k = 0 ∨ 2 ^ (-500 : ℤ) ≤ |columnDiff (planePts.attach.map (·.1)) 2 i j k|) j hj i hij k hk)

example (dmax : Dbl) := C89_float_partial dmax (planeFp binary32 (by decide) (by decide) (by decide)) 3 2 1 (by omega) (by omega) (by decide) _ _ (.refl _) (.refl _)
  (fun i j k hij hj hk => (by decide +kernel : ∀ j, j < 3 → ∀ i, i < j → ∀ k, k < 2 →
    |columnDiff ((planeFp binary32 (by decide) (by decide) (by decide)).map (·.1)) 2 i j k| ≤ 2 ^ (127 : ℤ)) j hj i hij k hk)

example (dmax : Dbl) := C89_integer 32 (by omega) dmax [0, 0, 1, 2, -5, 2000000000] 3 2 1 (by omega) (by omega) (by decide) _ _ (.refl _) (.refl _) (by decide +kernel)

/-- The distance of the first two rows is the double nearest to the square root of 5. -/
example : Fp.sqrt (squareSum ([0, 0, 1, 2].map Fp.of) 2 0 1) = Fp.of (5035177455121576 / 2 ^ 51) := by decide +kernel

/-! ### C71 and C74 for `double` data -/

/-- Whatever the contents, `double` data can be read. -/
theorem double_readable (qsort : (OScore Dbl (Num754 binary64) → OScore Dbl (Num754 binary64) → Int) → List (OScore Dbl (Num754 binary64)) → List (OScore Dbl (Num754 binary64)))
    (data : List Dbl) (rows cols : Nat) (hr : rows ≤ 65536) (hdata : rows * cols ≤ data.length) : Readable (fpEnv doubleOps qsort) data rows cols (squareSum data cols) where
  few := hr
  zero := rfl
  sum i j hij hj := by
    refine ⟨(List.range cols).map fun k => (data.getD (i * cols + k) .nan).sub (data.getD (j * cols + k) .nan), by simp, rfl, fun k d hk => ?_⟩
    rw [List.getElem?_map, Option.map_eq_some_iff] at hk
    obtain ⟨k', h1, rfl⟩ := hk
    obtain ⟨h2, h3⟩ := List.getElem?_eq_some_iff.1 h1
    rw [List.length_range] at h2
    rw [List.getElem_range] at h3
    subst h3
    have hle : ∀ i, i < rows → i * cols + k < data.length := fun i hi => by
      have := le_trans (Nat.mul_le_mul_right cols hi) hdata
      rw [Nat.succ_mul] at this
      omega
    have a1 := hle i (by omega)
    have a2 := hle j hj
    refine ⟨data[i * cols + k], data[j * cols + k], List.getElem?_eq_getElem a1, List.getElem?_eq_getElem a2, ?_⟩
    simp [fpEnv, doubleOps, fpDist, List.getD_eq_getElem?_getD, List.getElem?_eq_getElem a1, List.getElem?_eq_getElem a2]

/-- **C71 for `double` data**: whatever the values are, NaN and infinities included, `hdbscan_run` returns, for every schedule with the same result, and the result is sound. -/
theorem C71_double (qsort : (OScore Dbl (Num754 binary64) → OScore Dbl (Num754 binary64) → Int) → List (OScore Dbl (Num754 binary64)) → List (OScore Dbl (Num754 binary64)))
    (hq : SortsAscending qsort) (data : List Dbl) (rows cols : Nat) (hr : rows ≤ 65536) (h5 : 5 ≤ rows) (hdata : rows * cols ≤ data.length) (m : Nat) (hm : 2 ≤ m) :
    ∃ (obj : Api.Obj Dbl Dbl (Num754 binary64)) (core : Nat → Dbl),
      (∀ par, Complete rows rows par → Api.fresh (fpEnv doubleOps qsort) par m data rows cols true = .ok obj) ∧
      (∀ i, i < rows → obj.dis.coreDistances[i]? = some (some (core i))) ∧
      Sound fpArith rows m (distOf doubleOps (squareSum data cols)) core obj.results := by
  obtain ⟨v, hv, -⟩ := fp_max
  obtain ⟨obj, core, key⟩ := C71_any_data (fpEnv doubleOps qsort) ⟨_, hv⟩ hq data rows cols _ (double_readable qsort data rows cols hr hdata) h5
  obtain ⟨k1, _, _, _, k3, k4, _⟩ := key m hm
  exact ⟨obj m, core m, k1, fun i hi => (k3 i hi).1, k4⟩

theorem squareSum_symm_lost {data : List Dbl} {cols i j : Nat} (h : IncompleteRow data cols i ∨ IncompleteRow data cols j) : Lost (squareSum data cols i j) := by
  refine lost_fold _ _ ?_
  rcases h with ⟨k, hk, a, ha, h⟩ | ⟨k, hk, a, ha, h⟩
  · exact ⟨_, List.mem_map.2 ⟨k, List.mem_range.2 hk, rfl⟩, sub_infinite (.inl (by rw [List.getD_eq_getElem?_getD, ha]; exact h))⟩
  · exact ⟨_, List.mem_map.2 ⟨k, List.mem_range.2 hk, rfl⟩, sub_infinite (.inr (by rw [List.getD_eq_getElem?_getD, ha]; exact h))⟩

theorem squareSum_below {data : List Dbl} {cols i j : Nat} (hc : cols < 2 ^ 32) (hi : CompleteRow data cols i) (hj : CompleteRow data cols j) :
    CCmp.lt (Fp.sqrt (squareSum data cols i j)) Fp.max = true := by
  have H : ∀ k, ∃ g : F64, k < cols → (data.getD (i * cols + k) .nan).sub (data.getD (j * cols + k) .nan) = Fp.of g.1 ∧ |g.1| ≤ 2 ^ (481 : ℤ) := by
    intro k
    by_cases hk : k < cols
    · obtain ⟨x, hx, bx⟩ := hi k hk
      obtain ⟨y, hy, by'⟩ := hj k hk
      refine ⟨F64.of (x.1 - y.1), fun _ => ?_⟩
      have h1 : |x.1 - y.1| ≤ 2 ^ (481 : ℤ) := by
        have : (2 : ℚ) ^ (481 : ℤ) = 2 ^ (480 : ℤ) + 2 ^ (480 : ℤ) := by rw [show (481 : ℤ) = 480 + 1 by norm_num, zpow_add₀ (by norm_num)]; ring
        rw [this]
        exact (abs_sub _ _).trans (add_le_add bx by')
      rw [List.getD_eq_getElem?_getD, List.getD_eq_getElem?_getD, hx, hy, Option.getD_some, Option.getD_some, fp_sub]
      exact ⟨fp_fl (lt_of_le_of_lt (fl_abs_le (by norm_num) h1) (zpow_lt_zpow_right₀ (by norm_num) (by norm_num))), fl_abs_le (by norm_num) h1⟩
    · exact ⟨F64.of 0, fun h => absurd h hk⟩
  choose g hg using H
  obtain ⟨e, h0, h1⟩ := fp_fold g cols hc (fun k hk => (hg k hk).2)
  have e' : squareSum data cols i j = Fp.of (partialSum g cols).1 := by
    rw [← e]
    unfold squareSum
    congr 1
    exact List.map_congr_left fun k hk => (hg k (List.mem_range.1 hk)).1
  have hlt : (partialSum g cols).1 < 2 ^ (1024 : ℤ) := by
    refine lt_of_le_of_lt h1 ?_
    calc (cols : ℚ) * 2 ^ (962 : ℤ) < 2 ^ 32 * 2 ^ (962 : ℤ) := mul_lt_mul_of_pos_right (by exact_mod_cast hc) (two_zpow_pos _)
      _ = 2 ^ (994 : ℤ) := by rw [← zpow_natCast, ← zpow_add₀ (by norm_num)]; norm_num
      _ < 2 ^ (1024 : ℤ) := zpow_lt_zpow_right₀ (by norm_num) (by norm_num)
  obtain ⟨y, hy, -, hb⟩ := fp_sqrt h0 hlt
  obtain ⟨v, hv, ev⟩ := fp_max
  rw [e', hy, hv, fp_lt, decide_eq_true_iff, ev]
  refine lt_of_le_of_lt hb ?_
  calc (2 : ℚ) ^ (512 : ℤ) < 2 ^ (971 : ℤ) := zpow_lt_zpow_right₀ (by norm_num) (by norm_num)
    _ = 1 * 2 ^ 971 := by rw [one_mul]; rfl
    _ ≤ (2 ^ 53 - 1) * 2 ^ 971 := mul_le_mul_of_nonneg_right (by norm_num) (by positivity)

/-- **C74 for `double` data**: if every row consists of finite numbers of at most 2 ^ 480 or contains a NaN or an infinity, and at least `minPoints` rows are of the first kind, the rows of the second kind are noise, in the
    result and at all levels below `D_MAX`; at these levels, the clusters are the components of the other rows. -/
theorem C74_double (qsort : (OScore Dbl (Num754 binary64) → OScore Dbl (Num754 binary64) → Int) → List (OScore Dbl (Num754 binary64)) → List (OScore Dbl (Num754 binary64)))
    (hq : SortsAscending qsort) (data : List Dbl) (rows cols : Nat) (hr : rows ≤ 65536) (hc : cols < 2 ^ 32) (h5 : 5 ≤ rows) (hdata : rows * cols ≤ data.length) (m : Nat) (hm : 2 ≤ m)
    (hrows : ∀ i, i < rows → CompleteRow data cols i ∨ IncompleteRow data cols i) (hmany : AtLeast m (fun i => i < rows ∧ CompleteRow data cols i)) (par : Api.Par) (hp : Complete rows rows par) :
    ∃ (obj : Api.Obj Dbl Dbl (Num754 binary64)) (core : Nat → Dbl), Api.fresh (fpEnv doubleOps qsort) par m data rows cols true = .ok obj ∧
      (∀ i, i < rows → obj.dis.coreDistances[i]? = some (some (core i)) ∧ (CCmp.lt (core i) Fp.max = true ↔ CompleteRow data cols i)) ∧
      (∀ i, i < rows → IncompleteRow data cols i → obj.results.labels[i]? = some 0) ∧
      ∀ k w A, (k, w, A) ∈ obj.results.hierarchy → k ≠ 0 → CCmp.lt w Fp.max = true →
        (∀ u v, u < rows → v < rows → ((A[u]? = A[v]? ∧ A[u]? ≠ some 0) ↔
          (Linked rows (distOf doubleOps (squareSum data cols)) core w u v ∧ AtLeast m (Linked rows (distOf doubleOps (squareSum data cols)) core w u)))) ∧
        ∀ u, u < rows → IncompleteRow data cols u → A[u]? = some 0 := by
  obtain ⟨v, hv, ev⟩ := fp_max
  have excl : ∀ i, CompleteRow data cols i → ¬ IncompleteRow data cols i := by
    rintro i h ⟨k, hk, a, ha, hx⟩
    obtain ⟨x, hx', -⟩ := h k hk
    rw [ha] at hx'
    exact hx x (Option.some.inj hx')
  have hdist : ∀ i j, i ≠ j → distOf (fpEnv doubleOps qsort).dops (squareSum data cols) i j = Fp.sqrt (squareSum data cols i j) ∨
      distOf (fpEnv doubleOps qsort).dops (squareSum data cols) i j = Fp.sqrt (squareSum data cols j i) := by
    intro i j hne
    unfold distOf
    rcases Nat.lt_or_gt_of_ne hne with h | h
    · left; rw [if_pos h]; rfl
    · right; rw [if_neg (by omega), if_neg (by omega)]; rfl
  obtain ⟨obj, core, e, k1, k2, k3⟩ := C74_incomplete_rows (fpEnv doubleOps qsort) ⟨_, hv⟩ hq (show CCmp.lt (Fp.of 0) Fp.max = true by decide +kernel) data rows cols _
    (double_readable qsort data rows cols hr hdata) h5 m hm (CompleteRow data cols) hmany
    (fun i j hi hj hne ci cj => by
      rcases hdist i j hne with h | h <;> rw [h]
      · exact squareSum_below hc ci cj
      · exact squareSum_below hc cj ci)
    (fun i j hi hj hne ci => by
      have hi' := (hrows i hi).resolve_left ci
      rcases hdist i j hne with h | h <;> rw [h]
      · exact lost_notBelow (lost_sqrt (squareSum_symm_lost (.inl hi')))
      · exact lost_notBelow (lost_sqrt (squareSum_symm_lost (.inr hi')))) par hp
  refine ⟨obj, core, e, k1, fun i hi h => k2 i hi (fun c => excl i c h), fun k w A hA hk hw => ?_⟩
  obtain ⟨a, b⟩ := k3 k w A hA hk hw
  exact ⟨a, fun u hu h => b u hu (fun c => excl u c h)⟩

/-- Two groups of three points, a row with NaN and a row with an infinity. -/
def gapPts : List Dbl := [Fp.of 0, Fp.of 1, .nan, Fp.of (1 / 3), Fp.of 50, Fp.inf true, Fp.of 51, Fp.of (101 / 2)]

example := C71_double isort (isort_sorts _) gapPts 8 1 (by omega) (by omega) (by decide) 2 (by omega)

example : (Api.fresh (fpEnv doubleOps isort) (backPar 8 8) 2 gapPts 8 1 true >>= fun o => .ok (o.results.labels, o.results.clusters.length)) = .ok ([2, 2, 0, 2, 3, 0, 3, 3], 4) := by
  decide +kernel

theorem small_fin {q : ℚ} (h : |q| ≤ 2 ^ (480 : ℤ)) : ∃ x : Fin754 binary64, (Fp.of q : Dbl) = Fp.fin x ∧ |x.1| ≤ 2 ^ (480 : ℤ) := by
  have h1 := fl_abs_le (by norm_num) h
  exact ⟨_, fp_of (f := binary64) (lt_of_le_of_lt h1 (zpow_lt_zpow_right₀ (by norm_num) (by norm_num [binary64]))), h1⟩

theorem gapPts_complete {i : Nat} {q : ℚ} (h : gapPts[i]? = some (Fp.of q)) (hq : |q| ≤ 2 ^ (480 : ℤ)) : CompleteRow gapPts 1 i := by
  intro k hk
  have : k = 0 := by omega
  subst this
  obtain ⟨x, e, b⟩ := small_fin hq
  exact ⟨x, by rw [← e, Nat.mul_one, Nat.add_zero]; exact h, b⟩

theorem gapPts_rows : (∀ i ∈ [0, 1, 3, 4, 6, 7], CompleteRow gapPts 1 i) ∧ ∀ i ∈ [2, 5], IncompleteRow gapPts 1 i := by
  constructor
  · intro i hi
    simp only [List.mem_cons, List.not_mem_nil, or_false] at hi
    rcases hi with rfl | rfl | rfl | rfl | rfl | rfl
    · exact gapPts_complete (q := 0) rfl (by decide +kernel)
    · exact gapPts_complete (q := 1) rfl (by decide +kernel)
    · exact gapPts_complete (q := 1 / 3) rfl (by decide +kernel)
    · exact gapPts_complete (q := 50) rfl (by decide +kernel)
    · exact gapPts_complete (q := 51) rfl (by decide +kernel)
    · exact gapPts_complete (q := 101 / 2) rfl (by decide +kernel)
  · intro i hi
    simp only [List.mem_cons, List.not_mem_nil, or_false] at hi
    rcases hi with rfl | rfl
    · exact ⟨0, by omega, _, rfl, fun x e => by cases e⟩
    · exact ⟨0, by omega, _, rfl, fun x e => by cases e⟩

example := C74_double isort (isort_sorts _) gapPts 8 1 (by omega) (by omega) (by omega) (by decide) 2 (by omega)
  (fun i hi => by
    by_cases h : i = 2 ∨ i = 5
    · exact .inr (gapPts_rows.2 i (by simp; omega))
    · exact .inl (gapPts_rows.1 i (by simp; omega)))
  ⟨[0, 1], by decide, by decide, fun i hi => by
    simp only [List.mem_cons, List.not_mem_nil, or_false] at hi
    rcases hi with rfl | rfl
    · exact ⟨by omega, gapPts_rows.1 0 (by simp)⟩
    · exact ⟨by omega, gapPts_rows.1 1 (by simp)⟩⟩
  (backPar 8 8) (backPar_complete 8 8)

end Verif.Props
