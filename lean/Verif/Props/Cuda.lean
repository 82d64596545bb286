import Verif.Lemmas.Cuda
import Verif.Props.Fp

/-! C90: the distances that the CUDA kernel computes. -/

namespace Verif.Props
open Verif Verif.Spec Verif.Binary64 Verif.Cuda

/-- **C90, which pairs are computed, proved part.** With up to 4097 rows, the thread with the number of a pair compares the rows of this pair; the threads below `n * (n - 1) / 2` are in bijection with the
    pairs of rows. With one more row this fails (`C90_pairs_violated`). -/
theorem C90_pairs_partial (n : Nat) (hn : n ≤ 4097) :
    (∀ r c, c < r → r < n → pairNumber r c < n * (n - 1) / 2 ∧ pairOf (pairNumber r c) = (r, c)) ∧
      ∀ i, i < n * (n - 1) / 2 → (pairOf i).2 < (pairOf i).1 ∧ (pairOf i).1 < n ∧ i = pairNumber (pairOf i).1 (pairOf i).2 := by
  refine ⟨fun r c h hr => ⟨pair_less h hr, pairOf_spec h (by omega)⟩, fun i hi => ?_⟩
  obtain ⟨r, c, h, rfl⟩ := pair_exists i
  have hr := pair_row hi
  rw [pairOf_spec h (by omega)]
  exact ⟨h, hr, rfl⟩

/-- With three rows: the pairs (1, 0), (2, 0) and (2, 1). -/
example : (List.range 3).map pairOf = [(1, 0), (2, 0), (2, 1)] := by decide +kernel

/-- **C90, what is computed, proved part.** With up to 4097 rows the threads fill the output in any order, without leaving the arrays: the cell of a pair is the square root of the sum of the squares of the
    differences, taken in single precision. -/
theorem C90_kernel_partial (data : List Dbl) (rows w : Nat) (hn : rows ≤ 4097) (hdata : rows * w ≤ data.length) (hl : data.length < 2 ^ 32)
    (order : List Nat) (ho : ∀ i, i < rows * (rows - 1) / 2 → i ∈ order) (out : List (Option Dbl)) (hout : out.length = rows * (rows - 1) / 2) :
    ∃ out', kernel data w (rows * (rows - 1) / 2) order out = .ok out' ∧ out'.length = rows * (rows - 1) / 2 ∧
      ∀ r c, c < r → r < rows → out'[pairNumber r c]? = some (some (sqrtf (narrow (squareSum data w r c))).widen) := by
  have hle : ∀ r, r < rows → (r + 1) * w ≤ data.length := fun r hr => le_trans (Nat.mul_le_mul_right _ hr) hdata
  obtain ⟨out', e, l, h⟩ := kernel_spec (data := data) (w := w) (d := rows * (rows - 1) / 2) (val := fun i => squareSum data w (pairOf i).1 (pairOf i).2) (fun i hi => by
    obtain ⟨h1, h2, h3⟩ := (C90_pairs_partial rows hn).2 i hi
    rw [sumFrom_spec data w _ _ (hle _ h2) (hle _ (by omega)) hl w 0 _ (by omega)]
    simp only [Nat.zero_add]
    rfl) order out hout
  refine ⟨out', e, l, fun r c hc hr => ?_⟩
  obtain ⟨h1, h2⟩ := (C90_pairs_partial rows hn).1 r c hc hr
  have := h _ h1 (.inl (ho _ h1))
  rw [h2] at this
  exact this

theorem moderate {data : List (Fin754 binary64)} {w r c k : Nat} {a b : Fin754 binary64} (hbig : ∀ x ∈ data, |x.1| ≤ 2 ^ (45 : ℤ)) (ha : data[r * w + k]? = some a) (hb : data[c * w + k]? = some b) :
    |columnDiff (data.map (·.1)) w r c k| ≤ 2 ^ (46 : ℤ) ∧
      ((data.map Fp.fin).getD (r * w + k) .nan).sub ((data.map Fp.fin).getD (c * w + k) .nan) = Fp.of (F64.of (columnDiff (data.map (·.1)) w r c k)).1 := by
  have e : columnDiff (data.map (·.1)) w r c k = a.1 - b.1 := by simp [columnDiff, List.getD_eq_getElem?_getD, ha, hb]
  have h1 : |a.1 - b.1| ≤ 2 ^ (46 : ℤ) := by
    have : (2 : ℚ) ^ (46 : ℤ) = 2 ^ (45 : ℤ) + 2 ^ (45 : ℤ) := by norm_num
    rw [this]
    exact (abs_sub _ _).trans (add_le_add (hbig a (List.mem_of_getElem? ha)) (hbig b (List.mem_of_getElem? hb)))
  rw [e]
  refine ⟨h1, ?_⟩
  have ea : (data.map Fp.fin).getD (r * w + k) .nan = Fp.fin a := by simp [List.getD_eq_getElem?_getD, ha]
  have eb : (data.map Fp.fin).getD (c * w + k) .nan = Fp.fin b := by simp [List.getD_eq_getElem?_getD, hb]
  rw [ea, eb, fp_sub]
  exact fp_fl (lt_of_le_of_lt (fl_abs_le (by norm_num) h1) (zpow_lt_zpow_right₀ (by norm_num) (by norm_num)))

/-- **C90, accuracy, proved part.** With up to 4097 rows of numbers of moderate size - at most 2 ^ 45, different coordinates differ by at least 2 ^ -60 - the cell of a pair is the Euclidean distance up to
    a relative error slightly above 2 ^ -23, and 0 only for rows that are equal. -/
theorem C90_accuracy_partial (data : List (Fin754 binary64)) (rows w : Nat) (hn : rows ≤ 4097) (hdata : rows * w ≤ data.length) (hl : data.length < 2 ^ 32)
    (order : List Nat) (ho : ∀ i, i < rows * (rows - 1) / 2 → i ∈ order) (out : List (Option Dbl)) (hout : out.length = rows * (rows - 1) / 2)
    (hbig : ∀ x ∈ data, |x.1| ≤ 2 ^ (45 : ℤ))
    (hdiff : ∀ r c k, c < r → r < rows → k < w → columnDiff (data.map (·.1)) w r c k = 0 ∨ 2 ^ (-60 : ℤ) ≤ |columnDiff (data.map (·.1)) w r c k|) :
    ∃ out', kernel (data.map Fp.fin) w (rows * (rows - 1) / 2) order out = .ok out' ∧
      ∀ r c, c < r → r < rows → ∃ y, out'[pairNumber r c]? = some (some (Fp.fin y)) ∧
        Accurate (data.map (·.1)) w r c ((1 + 2 ^ (-24 : ℤ)) ^ 2 * (1 + (w + 3) * 2 ^ (-53 : ℤ)) - 1) y := by
  obtain ⟨out', e, -, h⟩ := C90_kernel_partial (data.map Fp.fin) rows w hn (by rw [List.length_map]; exact hdata) (by rw [List.length_map]; exact hl) order ho out hout
  refine ⟨out', e, fun r c hc hr => ?_⟩
  have hle : ∀ r, r < rows → (r + 1) * w ≤ data.length := fun r hr => le_trans (Nat.mul_le_mul_right _ hr) hdata
  have hat : ∀ r k, r < rows → k < w → ∃ a, data[r * w + k]? = some a := fun r k hr hk => by
    have := hle r hr
    rw [Nat.succ_mul] at this
    exact ⟨_, List.getElem?_eq_getElem (show r * w + k < data.length by omega)⟩
  have hw : w < 2 ^ 32 := by
    have := hle r hr
    rw [Nat.succ_mul] at this
    omega
  have hmod : ∀ k, k < w → |columnDiff (data.map (·.1)) w r c k| ≤ 2 ^ (46 : ℤ) ∧
      ((data.map Fp.fin).getD (r * w + k) .nan).sub ((data.map Fp.fin).getD (c * w + k) .nan) = Fp.of (F64.of (columnDiff (data.map (·.1)) w r c k)).1 := fun k hk => by
    obtain ⟨a, ha⟩ := hat r k hr hk
    obtain ⟨b, hb⟩ := hat c k (hc.trans hr) hk
    exact moderate hbig ha hb
  have hsum : squareSum (data.map Fp.fin) w r c =
      ((List.range w).map fun k => (Fp.of (F64.of (columnDiff (data.map (·.1)) w r c k)).1 : Dbl)).foldl (fun s d => s.add (d.mul d)) (Fp.of 0) := by
    unfold squareSum
    congr 1
    refine List.map_congr_left fun k hk => (hmod k (List.mem_range.1 hk)).2
  obtain ⟨y, ey, y0, acc, hz⟩ := cell_of _ w hw (fun k => hdiff r c k hc hr) (fun k hk => (hmod k hk).1)
  refine ⟨y, by rw [h r c hc hr, hsum, ey], ?_⟩
  exact accurate_of (by rw [List.length_map]; exact hle r hr) (by rw [List.length_map]; exact hle c (by omega)) y0 acc hz

/-- The hypotheses of `C90_accuracy_partial` for three points in the plane, the threads running backwards. -/
example := C90_accuracy_partial (planeFp binary64 (by decide) (by decide) (by decide)) 3 2 (by omega) (by decide) (by decide) [2, 1, 0] (by decide) [none, none, none] rfl
  (by decide +kernel)
  (fun r c k hc hr hk => (by decide +kernel : ∀ r, r < 3 → ∀ c, c < r → ∀ k, k < 2 →
    columnDiff (planePts.attach.map (·.1)) 2 r c k = 0 ∨ 2 ^ (-60 : ℤ) ≤ |columnDiff (planePts.attach.map (·.1)) 2 r c k|) r hr c hc k hk)

/-- C90 fails from 4098 rows on: thread 8390656, whose pair is (4097, 0), compares row 4096 with itself. -/
theorem C90_pairs_violated : pairNumber 4097 0 = 8390656 ∧ 8390656 < 4098 * (4098 - 1) / 2 ∧ pairOf 8390656 = (4096, 4096) := by decide +kernel

/-- So its cell is 0 for all finite data (the rows being there). -/
theorem C90_zero_violated (data : List (Fin754 binary64)) (w d : Nat) (hd : 8390656 < d) (hdata : 4097 * w ≤ data.length) (hl : data.length < 2 ^ 32) (out : List (Option Dbl)) (hout : out.length = d) :
    thread (data.map Fp.fin) w d 8390656 out = .ok (out.set 8390656 (some (Fp.of 0))) := by
  unfold thread
  rw [if_pos hd, C90_pairs_violated.2.2, sumFrom_spec (data.map Fp.fin) w 4096 4096 (by rw [List.length_map]; exact hdata) (by rw [List.length_map]; exact hdata) (by rw [List.length_map]; exact hl) w 0 _ (by omega)]
  have h0 : ((List.range w).map fun j => ((data.map Fp.fin).getD (4096 * w + (0 + j)) .nan).sub ((data.map Fp.fin).getD (4096 * w + (0 + j)) .nan)) = List.replicate w (Fp.of 0) := by
    apply List.ext_getElem (by simp)
    intro j h1 h2
    rw [List.length_map, List.length_range] at h1
    have hj : 4096 * w + j < data.length := by omega
    have ea : (data.map Fp.fin).getD (4096 * w + (0 + j)) .nan = Fp.fin data[4096 * w + j] := by
      rw [Nat.zero_add, List.getD_eq_getElem?_getD, List.getElem?_map, List.getElem?_eq_getElem hj]; rfl
    rw [List.getElem_map, List.getElem_range, List.getElem_replicate, ea, fp_sub, sub_self]
  have hz : ∀ n, (List.replicate n (Fp.of 0 : Dbl)).foldl (fun s d => s.add (d.mul d)) (Fp.of 0) = Fp.of 0 := by
    have e : (Fp.of 0 : Dbl).add ((Fp.of 0 : Dbl).mul (Fp.of 0)) = Fp.of 0 := by decide +kernel
    intro n
    induction n with
    | zero => rfl
    | succ n ih => rw [List.replicate_succ, List.foldl_cons, e, ih]
  rw [h0, hz, Outcome.ok_bind, wr_ok (by omega)]
  have : (sqrtf (narrow (Fp.of 0))).widen = (Fp.of 0 : Dbl) := by decide +kernel
  rw [this]

/-- C90 fails for `distance_get`, which finds pairs elsewhere: with four rows it looks for the pair (3, 0) where the kernel put the pair (2, 1). -/
theorem C90_layout_violated : cellGet 4 0 3 = 2 ∧ pairOf 2 = (2, 1) := by decide +kernel

/-- C90 fails for distances whose squares are not in the range of `float`: the distance of the points 0 and 2 ^ -80 is 0, that of the points 0 and 2 ^ 70 is infinite. -/
theorem C90_range_violated :
    kernel [Fp.of 0, Fp.of (2 ^ (-80 : ℤ))] 1 1 [0] [none] = .ok [some (Fp.of 0)] ∧ kernel [Fp.of 0, Fp.of (2 ^ 70)] 1 1 [0] [none] = .ok [some (Fp.inf false)] ∧
      (Fp.of (2 ^ (-80 : ℤ)) : Dbl) ≠ Fp.of 0 ∧ ∃ y, (Fp.of (2 ^ 70) : Dbl) = Fp.fin y := by
  refine ⟨by decide +kernel, by decide +kernel, by decide +kernel, ?_⟩
  exact ⟨_, fp_of_binary (f := binary64) ⟨1, 70, by norm_num [binary64], by norm_num [binary64], by norm_num⟩ (by decide +kernel)⟩

end Verif.Props
