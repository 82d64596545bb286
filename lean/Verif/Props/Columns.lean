import Verif.Lemmas.Columns
import Verif.Props.Types
/-
C111: constant columns and the order of the columns. C112: the origin.
-/
namespace Verif.Props
open Verif Verif.Spec Verif.Columns Verif.Binary64

theorem add_zero_dbl (s : Dbl) : Fp.add s (Fp.mul (Fp.of 0) (Fp.of 0)) = s := by
  have h0 : (Fp.of 0 : Dbl) = Fp.fin (f := binary64) ⟨0, isDouble_zero, by decide +kernel⟩ := fp_of_binary (f := binary64) isDouble_zero (by decide +kernel)
  have h1 : Fp.mul (Fp.of 0 : Dbl) (Fp.of 0) = Fp.of 0 := by
    rw [h0]
    show (Fp.of ((0 : ℚ) * 0) : Dbl) = _
    rw [mul_zero, h0]
  rw [h1, h0]
  match s with
  | .nan => rfl
  | .num .ninf => rfl
  | .num .pinf => rfl
  | .num (.fin x) =>
    show (Fp.of (x.1 + 0) : Dbl) = _
    rw [add_zero]
    exact fp_of_binary (f := binary64) x.2.1 x.2.2

/-- **C111, constant columns**. A further column with the same number in every row, at any place, changes nothing: neither the results nor the way in which a run goes wrong. The other columns may have
    any values, NaN and infinities included. For `double` and `float` data the number has to be finite; for the integer types it is arbitrary. -/
theorem C111_constant (qsort : Sorter) (rows cols q m : Nat) (par : Api.Par) (hp : Complete rows rows par) :
    (∀ (data data' : List Dbl) (c : Fin754 binary64), rows * cols ≤ data.length → ConstantColumn data data' rows cols q (Fp.fin c) →
      SameRun (cols + 1) (Api.fresh (fpEnv doubleOps qsort) par m data rows cols true) (Api.fresh (fpEnv doubleOps qsort) par m data' rows (cols + 1) true) ∧
      ∀ th, SameRun (cols + 1) (Race.fresh th (fpEnv doubleOps qsort) par m data rows cols true) (Race.fresh th (fpEnv doubleOps qsort) par m data' rows (cols + 1) true)) ∧
    (∀ (data data' : List Flt) (c : Fin754 binary32), rows * cols ≤ data.length → ConstantColumn data data' rows cols q (Fp.fin c) →
      SameRun (cols + 1) (Api.fresh (fpEnv floatOps qsort) par m data rows cols true) (Api.fresh (fpEnv floatOps qsort) par m data' rows (cols + 1) true) ∧
      ∀ th, SameRun (cols + 1) (Race.fresh th (fpEnv floatOps qsort) par m data rows cols true) (Race.fresh th (fpEnv floatOps qsort) par m data' rows (cols + 1) true)) ∧
    (∀ (bits : Nat) (data data' : List ℤ) (c : ℤ), rows * cols ≤ data.length → ConstantColumn data data' rows cols q c →
      SameRun (cols + 1) (Api.fresh (fpEnv (integerOps bits) qsort) par m data rows cols true) (Api.fresh (fpEnv (integerOps bits) qsort) par m data' rows (cols + 1) true) ∧
      ∀ th, SameRun (cols + 1) (Race.fresh th (fpEnv (integerOps bits) qsort) par m data rows cols true) (Race.fresh th (fpEnv (integerOps bits) qsort) par m data' rows (cols + 1) true)) := by
  refine ⟨fun data data' c hl h => ?_, fun data data' c hl h => ?_, fun bits data data' c hl h => ?_⟩
  · refine fresh_sums (fpEnv doubleOps qsort) (fun i j hij hj => ?_) m par hp
    refine sum_constant doubleOps hl h (z := Fp.of 0) ?_ add_zero_dbl (by omega) hj _
    show Outcome.ok ((Fp.fin c).sub (Fp.fin c)) = _
    rw [fp_sub, sub_self]
  · refine fresh_sums (fpEnv floatOps qsort) (fun i j hij hj => ?_) m par hp
    refine sum_constant floatOps hl h (z := Fp.of 0) ?_ add_zero_dbl (by omega) hj _
    show Outcome.ok (Fp.widen ((Fp.fin c).sub (Fp.fin c))) = _
    rw [fp_sub, sub_self, fp_of_binary (f := binary32) (isBinary_zero (f := binary32)) (by decide +kernel)]
    rfl
  · refine fresh_sums (fpEnv (integerOps bits) qsort) (fun i j hij hj => ?_) m par hp
    refine sum_constant (integerOps bits) hl h (z := Fp.of 0) ?_ add_zero_dbl (by omega) hj _
    show (if -2 ^ (bits - 1) ≤ c - c ∧ c - c < 2 ^ (bits - 1) then (Outcome.ok (Fp.of ((c - c : ℤ) : ℚ)) : Outcome Dbl) else .ub "signed overflow") = _
    have h1 : (0 : ℤ) < 2 ^ (bits - 1) := by positivity
    rw [sub_self, if_pos ⟨by omega, h1⟩]
    simp

/-- **C111, order of the columns, proved part**. Whole numbers whose differences do not overflow and whose squared distances are at most `2 ^ 53` have the same results with the columns in any order. Missing:
    sums that are rounded, for which the claim is false (`C111_order_violated`). -/
theorem C111_order_partial (qsort : Sorter) (bits : Nat) (data data' : List ℤ) (rows cols : Nat) (σ : Nat → Nat) (h : Reordered data data' rows cols σ) (hdata : rows * cols ≤ data.length)
    (hd : ∀ x ∈ data, ∀ y ∈ data, -2 ^ (bits - 1) ≤ x - y ∧ x - y < 2 ^ (bits - 1)) (hs : ∀ i j, i < j → j < rows → squared data cols i j ≤ 2 ^ 53) (m : Nat) (par : Api.Par) (hp : Complete rows rows par) :
    Api.fresh (fpEnv (integerOps bits) qsort) par m data' rows cols true = Api.fresh (fpEnv (integerOps bits) qsort) par m data rows cols true ∧
    ∀ th, Race.fresh th (fpEnv (integerOps bits) qsort) par m data' rows cols true = Race.fresh th (fpEnv (integerOps bits) qsort) par m data rows cols true := by
  have hin : ∀ {x l}, x < rows → l < cols → x * cols + l < data.length := by
    intro x l hx hl
    have : (x + 1) * cols ≤ rows * cols := Nat.mul_le_mul_right _ hx
    have : (x + 1) * cols = x * cols + cols := by ring
    omega
  have hσ : ∀ k, k < cols → σ k < cols := fun k hk => List.mem_range.1 (h.perm.mem_iff.1 (List.mem_map_of_mem (List.mem_range.2 hk)))
  have hin' : ∀ {x l}, x < rows → l < cols → x * cols + l < data'.length := by
    intro x l hx hl
    have e := h.same x l hx hl
    rw [List.getElem?_eq_getElem (hin hx (hσ l hl))] at e
    exact (List.getElem?_eq_some_iff.1 e).1
  refine fresh_sums_eq (fpEnv (integerOps bits) qsort) (fun i j hij hj => ?_) m par hp
  have hi : i < rows := by omega
  have hz : (fpEnv (integerOps bits) qsort).dops.zero = Fp.of ((0 : ℤ) : ℚ) := by simp [fpEnv, integerOps, fpDist]
  rw [hz]
  show Distance.sumFrom (integerOps bits) data' cols i j cols 0 _ = Distance.sumFrom (integerOps bits) data cols i j cols 0 _
  rw [sumFrom_eq _ _ _ _ _ _ _ _ fun l _ hl => ⟨hin' hi (by omega), hin' hj (by omega)⟩, sumFrom_eq _ _ _ _ _ _ _ _ fun l _ hl => ⟨hin hi (by omega), hin hj (by omega)⟩]
  rw [← List.range_eq_range']
  have e0 : ∀ k, (data[i * cols + k]?).getD 0 = data.getD (i * cols + k) 0 ∧ (data[j * cols + k]?).getD 0 = data.getD (j * cols + k) 0 := fun k => ⟨List.getD_eq_getElem?_getD.symm, List.getD_eq_getElem?_getD.symm⟩
  have hval : ∀ k ∈ List.range cols, ∃ x y : ℤ, data[i * cols + k]? = some x ∧ data[j * cols + k]? = some y ∧ -2 ^ (bits - 1) ≤ x - y ∧ x - y < 2 ^ (bits - 1) := by
    intro k hk
    have hk := List.mem_range.1 hk
    exact ⟨_, _, List.getElem?_eq_getElem (hin hi hk), List.getElem?_eq_getElem (hin hj hk), hd _ (List.getElem_mem _) _ (List.getElem_mem _)⟩
  have hsum : ((List.range cols).map fun k => ((data[i * cols + k]?).getD 0 - (data[j * cols + k]?).getD 0) ^ 2).sum = squared data cols i j := by
    unfold squared
    simp only [e0]
  have hsum' : ((List.range cols).map fun k => ((data'[i * cols + k]?).getD 0 - (data'[j * cols + k]?).getD 0) ^ 2).sum = squared data cols i j := by
    rw [← hsum]
    refine Eq.trans ?_ (h.perm.map fun k => ((data[i * cols + k]?).getD 0 - (data[j * cols + k]?).getD 0) ^ 2).sum_eq
    rw [List.map_map]
    congr 1
    refine List.map_congr_left fun k hk => ?_
    have hk := List.mem_range.1 hk
    simp only [Function.comp_apply, h.same i k hi hk, h.same j k hj hk]
  rw [colSum_exact _ _ _ 0 (le_refl _) hval (by rw [hsum, zero_add]; exact hs i j hij hj), hsum]
  rw [colSum_exact _ _ _ 0 (le_refl _) (fun k hk => ?_) (by rw [hsum', zero_add]; exact hs i j hij hj), hsum']
  have hk := List.mem_range.1 hk
  rw [h.same i k hi hk, h.same j k hj hk]
  exact hval (σ k) (List.mem_range.2 (hσ k hk))

/-- **C112, integers**. Adding a number to each column, the same for all rows, changes nothing, neither the results nor the way in which a run goes wrong. -/
theorem C112_integers (qsort : Sorter) (bits : Nat) (data data' : List ℤ) (rows cols : Nat) (t : Nat → ℤ) (hdata : rows * cols ≤ data.length) (hdata' : rows * cols ≤ data'.length)
    (h : ∀ i k, i < rows → k < cols → data'.getD (i * cols + k) 0 = data.getD (i * cols + k) 0 + t k) (m : Nat) (par : Api.Par) (hp : Complete rows rows par) :
    Api.fresh (fpEnv (integerOps bits) qsort) par m data' rows cols true = Api.fresh (fpEnv (integerOps bits) qsort) par m data rows cols true ∧
    ∀ th, Race.fresh th (fpEnv (integerOps bits) qsort) par m data' rows cols true = Race.fresh th (fpEnv (integerOps bits) qsort) par m data rows cols true := by
  refine fresh_sums_eq (fpEnv (integerOps bits) qsort) (fun i j hij hj => sum_diffs _ hdata hdata' (fun i j k a b a' b' hi hj hk ha hb ha' hb' => ?_) (by omega) hj _) m par hp
  have h1 := h i k hi hk
  have h2 := h j k hj hk
  simp only [List.getD_eq_getElem?_getD, ha, hb, ha', hb', Option.getD_some] at h1 h2
  have e : a' - b' = a - b := by omega
  show (if -2 ^ (bits - 1) ≤ a' - b' ∧ a' - b' < 2 ^ (bits - 1) then (Outcome.ok (Fp.of ((a' - b' : ℤ) : ℚ)) : Outcome Dbl) else .ub "signed overflow") = _
  rw [e]
  rfl

/-- **C112, `double`, proved part**. Adding a number to each column, the same for all rows, changes nothing if the sums are exact. Rows whose values are NaN or infinite may keep them. Missing: sums that are
    rounded, for which the claim is false (`C112_violated`). -/
theorem C112_double_partial (qsort : Sorter) (data data' : List Dbl) (rows cols : Nat) (t : Nat → ℚ) (hdata : rows * cols ≤ data.length) (hdata' : rows * cols ≤ data'.length)
    (h : ∀ i k, i < rows → k < cols → Moved (t k) (data.getD (i * cols + k) .nan) (data'.getD (i * cols + k) .nan)) (m : Nat) (par : Api.Par) (hp : Complete rows rows par) :
    Api.fresh (fpEnv doubleOps qsort) par m data' rows cols true = Api.fresh (fpEnv doubleOps qsort) par m data rows cols true ∧
    ∀ th, Race.fresh th (fpEnv doubleOps qsort) par m data' rows cols true = Race.fresh th (fpEnv doubleOps qsort) par m data rows cols true := by
  refine fresh_sums_eq (fpEnv doubleOps qsort) (fun i j hij hj => sum_diffs _ hdata hdata' (fun i j k a b a' b' hi hj hk ha hb ha' hb' => ?_) (by omega) hj _) m par hp
  have h1 := h i k hi hk
  have h2 := h j k hj hk
  simp only [List.getD_eq_getElem?_getD, ha, hb, ha', hb', Option.getD_some] at h1 h2
  show Outcome.ok (a'.sub b') = .ok (a.sub b)
  have hneg : ∀ x : Fin754 binary64, ∃ y, Fp.neg (Fp.fin x) = Fp.fin y := fun x => ⟨_, fp_of_binary (isBinary_neg x.2.1) (by rw [abs_neg]; exact x.2.2)⟩
  congr 1
  rcases h1 with ⟨x, x', rfl, rfl, e1⟩ | ⟨g1, rfl⟩
  · rcases h2 with ⟨y, y', rfl, rfl, e2⟩ | ⟨g2, rfl⟩
    · rw [fp_sub, fp_sub, e1, e2]
      congr 1
      ring
    · match b', g2 with
      | .nan, _ => rfl
      | .num .ninf, _ => rfl
      | .num .pinf, _ => rfl
      | .num (.fin y), g2 => exact absurd rfl (g2 y)
  · rcases h2 with ⟨y, y', rfl, rfl, e2⟩ | ⟨g2, rfl⟩
    · obtain ⟨z, hz⟩ := hneg y
      obtain ⟨z', hz'⟩ := hneg y'
      unfold Fp.sub
      rw [hz, hz']
      match a', g1 with
      | .nan, _ => rfl
      | .num .ninf, _ => rfl
      | .num .pinf, _ => rfl
      | .num (.fin y), g1 => exact absurd rfl (g1 y)
    · rfl

/-! ### Concrete cases -/

/-- Six rows with three columns. Neighbours are about `3 * 2 ^ 25` apart; between the pairs there is a little more. -/
def nearTies : List ℤ := [0, 0, 0, 100663296, 0, 0, 201326592, 1, 1, 301989888, 1, 1, 402653184, 2, 2, 503316480, 2, 2]

/-- The same with the first column moved to the end. -/
def nearTies' : List ℤ := [0, 0, 0, 0, 0, 100663296, 1, 1, 201326592, 1, 1, 301989888, 2, 2, 402653184, 2, 2, 503316480]

def labelsOf {D : Type} (ops : DistOps D Dbl) (m : Nat) (data : List D) (rows cols : Nat) : Outcome (List Nat) :=
  Api.fresh (fpEnv ops isort) (backPar rows rows) m data rows cols true >>= fun o => .ok o.results.labels

theorem nearTies_reordered : Reordered nearTies nearTies' 6 3 (fun k => (k + 1) % 3) where
  perm := by decide
  same i k hi hk := (by decide : ∀ i < 6, ∀ k < 3, nearTies'[i * 3 + k]? = nearTies[i * 3 + (k + 1) % 3]?) i hi k hk

/-- C111 is violated by the order of the columns: the sums are rounded in a different way. With one order no cluster is found, with the other one every point is in a cluster. The data are whole numbers of type
    `int` without overflow. -/
theorem C111_order_violated : Reordered nearTies nearTies' 6 3 (fun k => (k + 1) % 3) ∧ (∀ x ∈ nearTies, ∀ y ∈ nearTies, -2 ^ 31 ≤ x - y ∧ x - y < 2 ^ 31) ∧
    labelsOf (integerOps 32) 2 nearTies 6 3 = .ok [0, 0, 0, 0, 0, 0] ∧ labelsOf (integerOps 32) 2 nearTies' 6 3 = .ok [3, 3, 2, 2, 4, 4] :=
  ⟨nearTies_reordered, by decide, by decide +kernel, by decide +kernel⟩

/-- Seven values, and the same with a second column that is infinite in all rows. -/
def sevenDbl : List Dbl := [1, 2, 4, 100, 101, 104, 200].map fun k : ℚ => Fp.of k
def sevenInf : List Dbl := sevenDbl.flatMap fun x => [x, .num .pinf]

/-- C111 is violated by a constant column that is infinite: infinity minus infinity is NaN, and no cluster is found. -/
theorem C111_infinite_violated : ConstantColumn sevenDbl sevenInf 7 1 1 (.num .pinf) ∧ labelsOf doubleOps 2 sevenDbl 7 1 = .ok [2, 2, 2, 3, 3, 3, 0] ∧
    labelsOf doubleOps 2 sevenInf 7 2 = .ok [0, 0, 0, 0, 0, 0, 0] := by
  refine ⟨⟨by decide, fun i k hi hk => ?_, fun i hi => ?_, fun i k hi h1 h2 => by omega⟩, by decide +kernel, by decide +kernel⟩
  · exact (by decide +kernel : ∀ i < 7, ∀ k < 1, sevenInf[i * 2 + k]? = sevenDbl[i * 1 + k]?) i hi k hk
  · exact (by decide +kernel : ∀ i < 7, sevenInf[i * 2 + 1]? = some (.num .pinf)) i hi

/-- C112 is violated by `double` data if the sums are rounded: adding `2 ^ 53` changes the labels. -/
theorem C112_violated : labelsOf doubleOps 2 ([0, 1, 3, 4, 6, 7].map fun k : ℚ => Fp.of k) 6 1 = .ok [3, 3, 2, 2, 4, 4] ∧
    labelsOf doubleOps 2 ([0, 1, 3, 4, 6, 7].map fun k : ℚ => (Fp.of k).add (Fp.of (2 ^ 53))) 6 1 = .ok [2, 2, 3, 3, 3, 3] := by constructor <;> decide +kernel

/-- A constant column before the others. -/
def sevenWide : List ℤ := [1, 2, 4, 100, 101, 104, 200].flatMap fun x => [-9, x]

theorem sevenWide_constant : ConstantColumn [1, 2, 4, 100, 101, 104, 200] sevenWide 7 1 0 (-9) := by
  refine ⟨by decide, fun i k hi hk => by omega, fun i hi => ?_, fun i k hi _ hk => ?_⟩
  · exact (by decide : ∀ i < 7, sevenWide[i * 2 + 0]? = some (-9)) i hi
  · exact (by decide : ∀ i < 7, ∀ k < 1, sevenWide[i * 2 + (k + 1)]? = ([1, 2, 4, 100, 101, 104, 200] : List ℤ)[i * 1 + k]?) i hi k hk

example := (C111_constant isort 7 1 0 2 (backPar 7 7) (backPar_complete 7 7)).2.2 32 _ _ _ (by decide) sevenWide_constant
example : labelsOf (integerOps 32) 2 sevenWide 7 2 = .ok [2, 2, 2, 3, 3, 3, 0] := by decide +kernel

/-- Two columns, exchanged. -/
def twoCols : List ℤ := [1, 5, 2, 7, 4, 4, 100, 90, 101, 95, 104, 90, 200, 0]
def twoCols' : List ℤ := [5, 1, 7, 2, 4, 4, 90, 100, 95, 101, 90, 104, 0, 200]

theorem twoCols_reordered : Reordered twoCols twoCols' 7 2 (fun k => 1 - k) where
  perm := by decide
  same i k hi hk := (by decide : ∀ i < 7, ∀ k < 2, twoCols'[i * 2 + k]? = twoCols[i * 2 + (1 - k)]?) i hi k hk

example := C111_order_partial isort 32 twoCols twoCols' 7 2 _ twoCols_reordered (by decide) (by decide)
  (fun i j hij hj => (by decide : ∀ j < 7, ∀ i < j, squared twoCols 2 i j ≤ 2 ^ 53) j hj i hij) 2 (backPar 7 7) (backPar_complete 7 7)
example : labelsOf (integerOps 32) 2 twoCols 7 2 = .ok [2, 2, 2, 3, 3, 3, 0] := by decide +kernel

example := C112_integers isort 32 twoCols [-9, 1005, -8, 1007, -6, 1004, 90, 1090, 91, 1095, 94, 1090, 190, 1000] 7 2 (fun k => if k = 0 then -10 else 1000) (by decide) (by decide)
  (fun i k hi hk => (by decide : ∀ i < 7, ∀ k < 2, ([-9, 1005, -8, 1007, -6, 1004, 90, 1090, 91, 1095, 94, 1090, 190, 1000] : List ℤ).getD (i * 2 + k) 0 = twoCols.getD (i * 2 + k) 0 + if k = 0 then -10 else 1000) i hi k hk)
  2 (backPar 7 7) (backPar_complete 7 7)

/-- Values with an infinity and a NaN, and the same moved by `1 / 2`. -/
def oddDbl : List Dbl := [Fp.of 1, Fp.of 2, .nan, Fp.of 100, Fp.of 101, .num .pinf]
def oddDbl' : List Dbl := [Fp.of (3 / 2), Fp.of (5 / 2), .nan, Fp.of (201 / 2), Fp.of (203 / 2), .num .pinf]

theorem oddDbl_moved : ∀ i k, i < 6 → k < 1 → Moved (1 / 2) (oddDbl.getD (i * 1 + k) .nan) (oddDbl'.getD (i * 1 + k) .nan) := by
  have hw : ∀ x : ℚ, IsDouble x → |x| < 2 ^ (1024 : ℤ) → IsDouble (x + 1 / 2) → |x + 1 / 2| < 2 ^ (1024 : ℤ) → Moved (1 / 2) (Fp.of x) (Fp.of (x + 1 / 2)) := fun x h1 h2 h3 h4 =>
    .inl ⟨⟨x, h1, h2⟩, ⟨x + 1 / 2, h3, h4⟩, fp_of_binary (f := binary64) h1 h2, fp_of_binary (f := binary64) h3 h4, rfl⟩
  have hv : ∀ n : ℤ, |n| < 2 ^ 10 → Moved (1 / 2) (Fp.of (n : ℚ)) (Fp.of ((n : ℚ) + 1 / 2)) := by
    intro n hn
    have hq : |(n : ℚ)| < 2 ^ 10 := by exact_mod_cast hn
    have hbig : (2 : ℚ) ^ 10 + 1 / 2 < 2 ^ (1024 : ℤ) := by decide +kernel
    refine hw n (isDouble_int (hn.trans (by norm_num))) (hq.trans (lt_trans (by norm_num) hbig)) ⟨2 * n + 1, -1, ?_, by norm_num, by push_cast; ring⟩ ?_
    · rw [abs_lt] at hn ⊢
      constructor <;> linarith [hn.1, hn.2]
    · exact lt_of_le_of_lt (abs_add_le _ _) (by rw [abs_of_pos (by norm_num : (0 : ℚ) < 1 / 2)]; exact lt_trans (add_lt_add_left hq _) hbig)
  intro i k hi hk
  obtain rfl : k = 0 := by omega
  interval_cases i
  · have := hv 1 (by norm_num); norm_num at this; exact this
  · have := hv 2 (by norm_num); norm_num at this; exact this
  · exact .inr ⟨(fun a h => by cases h), rfl⟩
  · have := hv 100 (by norm_num); norm_num at this; exact this
  · have := hv 101 (by norm_num); norm_num at this; exact this
  · exact .inr ⟨(fun a h => by cases h), rfl⟩

example := C112_double_partial isort oddDbl oddDbl' 6 1 (fun _ => 1 / 2) (by decide) (by decide) oddDbl_moved 2 (backPar 6 6) (backPar_complete 6 6)

end Verif.Props
