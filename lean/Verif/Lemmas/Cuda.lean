import Verif.Spec.Cuda
import Verif.Lemmas.Fp
import Mathlib.Tactic.IntervalCases
/-! The row number that a thread of the CUDA kernel computes with `float` arithmetic. -/
namespace Verif.Cuda
open Verif.Binary64 Verif.Spec Verif.Props

theorem binary_pred {s : ℚ} (hs : IsBinary binary32 s) (h1 : 1 ≤ s) (h2 : s < 2 ^ 24) : IsBinary binary32 (s - 1) := by
  obtain ⟨m, e, hm, he, rfl⟩ := hs
  have hp : (0 : ℚ) < 2 ^ e := two_zpow_pos e
  have hm0 : (0 : ℚ) < m := by
    by_contra h
    have : (m : ℚ) * 2 ^ e ≤ 0 := mul_nonpos_of_nonpos_of_nonneg (not_lt.1 h) hp.le
    linarith
  have hm0' : 0 < m := by exact_mod_cast hm0
  rw [abs_of_pos hm0'] at hm
  rcases le_or_gt e 0 with h | h
  · have hk : ((2 ^ (-e).toNat : ℤ) : ℚ) * 2 ^ e = 1 := by
      rw [two_zpow_int (by omega), ← zpow_add₀ (by norm_num)]
      simp
    have hle : (2 ^ (-e).toNat : ℤ) ≤ m := by
      have : ((2 ^ (-e).toNat : ℤ) : ℚ) ≤ m := by
        by_contra hc
        have := mul_lt_mul_of_pos_right (not_le.1 hc) hp
        linarith
      exact_mod_cast this
    have hpos : (0 : ℤ) < 2 ^ (-e).toNat := by positivity
    refine ⟨m - 2 ^ (-e).toNat, e, ?_, he, ?_⟩
    · rw [abs_of_nonneg (by omega)]; omega
    · push_cast at hk ⊢
      rw [sub_mul, hk]
  · have hi : (m : ℚ) * 2 ^ e = ((m * 2 ^ e.toNat : ℤ) : ℚ) := by
      push_cast
      rw [← two_zpow_int h.le]; push_cast; rfl
    refine ⟨m * 2 ^ e.toNat - 1, 0, ?_, by decide, ?_⟩
    · have h3 : m * 2 ^ e.toNat < 2 ^ 24 := by rw [hi] at h2; exact_mod_cast h2
      have h4 : 1 ≤ m * 2 ^ e.toNat := by rw [hi] at h1; exact_mod_cast h1
      rw [abs_of_nonneg (by omega)]
      show _ < (2 : ℤ) ^ 24
      omega
    · rw [hi]; push_cast; ring

theorem multiple_unit {s : ℚ} (hs : IsBinary binary32 s) (h1 : 1 ≤ s) : ∃ n : ℤ, s = n * 2 ^ (-23 : ℤ) := by
  refine binary_multiple hs ?_
  unfold lastDigit
  refine le_max_of_le_left ?_
  have h0 : 0 ≤ Int.log 2 |s| := by
    rw [abs_of_pos (by linarith)]
    have := (Int.zpow_le_iff_le_log (b := 2) (x := 0) (r := s) (by norm_num) (by linarith)).1 (by simpa using h1)
    exact this
  show (-23 : ℤ) ≤ _ - ((23 : ℕ) : ℤ)
  omega

theorem binary_half {u : ℚ} (hu : IsBinary binary32 u) (hn : ∃ n : ℤ, u = n * 2 ^ (-23 : ℤ)) : IsBinary binary32 (u / 2) := by
  obtain ⟨m, e, hm, he, rfl⟩ := hu
  rcases eq_or_lt_of_le he with h | h
  · obtain ⟨n, hn⟩ := hn
    have h0 : (m : ℚ) * 2 ^ e = 0 := by
      rw [← h] at hn ⊢
      have h1 : (m : ℚ) = ((n * 2 ^ 126 : ℤ) : ℚ) := by
        have : (m : ℚ) * 2 ^ (-149 : ℤ) * 2 ^ (149 : ℤ) = n * 2 ^ (-23 : ℤ) * 2 ^ (149 : ℤ) := by
          have e : binary32.least = -149 := rfl
          rw [e] at hn
          rw [hn]
        rw [mul_assoc, mul_assoc, ← zpow_add₀ (by norm_num), ← zpow_add₀ (by norm_num)] at this
        norm_num at this
        push_cast
        rw [this]
      have h2 : m = n * 2 ^ 126 := by exact_mod_cast h1
      have hm' : |m| < 2 ^ 24 := hm
      rw [abs_lt] at hm'
      have : n = 0 := by omega
      rw [h2, this]; simp
    rw [h0]
    simpa using isBinary_zero (K := ℚ) (f := binary32)
  · refine ⟨m, e - 1, hm, by omega, ?_⟩
    rw [zpow_sub_one₀ (by norm_num)]
    ring

theorem round_at {f : Format} {x : ℚ} {e : ℤ} (h : lastDigit f x = e) : round f x = roundEven (x / 2 ^ e) * 2 ^ e := by
  unfold Binary64.round; rw [h]

/-- The argument of `sqrtf`. -/
theorem argument {p : Nat} (h : 8 * p + 1 < 2 ^ 27) : (8 * p : ℚ) ≤ round binary32 ((8 * p + 1 : ℕ) : ℚ) ∧ round binary32 ((8 * p + 1 : ℕ) : ℚ) ≤ 8 * p + 1 := by
  by_cases h24 : 8 * p + 1 < 2 ^ 24
  · rw [round_binary (f := binary32) (by
      have := isBinary_int (K := ℚ) (f := binary32) (n := ((8 * p + 1 : ℕ) : ℤ)) (by rw [abs_of_nonneg (by positivity)]; show _ < (2 : ℤ) ^ 24; omega)
      exact_mod_cast this)]
    push_cast
    constructor <;> linarith
  · suffices hs : round binary32 ((8 * p + 1 : ℕ) : ℚ) = 8 * p by rw [hs]; constructor <;> linarith
    have hpos : (0 : ℚ) < ((8 * p + 1 : ℕ) : ℚ) := by positivity
    have key : ∀ e : ℕ, 1 ≤ e → e ≤ 3 → 2 ^ (e + 23) ≤ 8 * p + 1 → 8 * p + 1 < 2 ^ (e + 24) → round binary32 ((8 * p + 1 : ℕ) : ℚ) = 8 * p := by
      intro e h1 h3 ha hb
      have hl : lastDigit binary32 ((8 * p + 1 : ℕ) : ℚ) = (e : ℤ) := by
        unfold lastDigit
        rw [abs_of_pos hpos, log_unique hpos (l := (e + 23 : ℕ)) (by rw [zpow_natCast]; exact_mod_cast ha) (by
          have : ((e + 23 : ℕ) : ℤ) + 1 = ((e + 24 : ℕ) : ℤ) := by push_cast; ring
          rw [this, zpow_natCast]; exact_mod_cast hb)]
        show max (((e + 23 : ℕ) : ℤ) - ((23 : ℕ) : ℤ)) (-149) = _
        rw [max_eq_left (by omega)]
        omega
      rw [round_at hl]
      have hr : roundEven (((8 * p + 1 : ℕ) : ℚ) / 2 ^ (e : ℤ)) = (p * 2 ^ (3 - e) : ℕ) := by
        have hf : ⌊((8 * p + 1 : ℕ) : ℚ) / 2 ^ (e : ℤ)⌋ = ((p * 2 ^ (3 - e) : ℕ) : ℤ) := by
          rw [Int.floor_eq_iff]
          interval_cases e <;> constructor <;> push_cast <;> norm_num <;> linarith
        unfold roundEven
        rw [hf]
        rw [zpow_natCast]
        interval_cases e
        · rw [if_neg (by push_cast; norm_num; linarith), if_neg (by push_cast; norm_num; linarith), if_pos (by push_cast; omega)]
        · rw [if_pos (by push_cast; norm_num; linarith)]
        · rw [if_pos (by push_cast; norm_num; linarith)]
      rw [hr]
      interval_cases e <;> push_cast <;> norm_num <;> ring
    rcases lt_or_ge (8 * p + 1) (2 ^ 25) with a | a
    · exact key 1 (by omega) (by omega) (by omega) a
    rcases lt_or_ge (8 * p + 1) (2 ^ 26) with b | b
    · exact key 2 (by omega) (by omega) a b
    · exact key 3 (by omega) (by omega) b h

theorem binary_odd {n : ℤ} (h0 : 0 ≤ n) (h : n < 2 ^ 13) : IsBinary binary32 ((n : ℝ) + 2 ^ (-11 : ℤ)) :=
  ⟨n * 2 ^ 11 + 1, -11, by rw [abs_of_nonneg (by positivity)]; show _ < (2 : ℤ) ^ 24; omega, by decide, by push_cast; norm_num; ring⟩

/-- The square root that `sqrtf` returns for `p` between two triangular numbers. -/
theorem root_between {r : Nat} (hr : 1 ≤ r) (hr2 : r ≤ 4096) {x : ℚ} (h1 : (2 * r - 1 : ℚ) ^ 2 + 7 ≤ x) (h2 : x ≤ (2 * r + 1) ^ 2) :
    (2 * r - 1 : ℚ) < root binary32 x ∧ root binary32 x ≤ 2 * r + 1 := by
  have hx : 0 ≤ x := le_trans (by positivity) h1
  have hrq : (1 : ℝ) ≤ r := by exact_mod_cast hr
  have hrq2 : (r : ℝ) ≤ 4096 := by exact_mod_cast hr2
  have h1' : (2 * r - 1 : ℝ) ^ 2 + 7 ≤ x := by exact_mod_cast (Rat.cast_le (K := ℝ)).2 h1
  have h2' : (x : ℝ) ≤ (2 * r + 1) ^ 2 := by exact_mod_cast (Rat.cast_le (K := ℝ)).2 h2
  set y := Real.sqrt x with hy
  have up : y ≤ 2 * r + 1 := by rw [hy, Real.sqrt_le_left (by positivity)]; exact h2'
  have lo : (2 * r - 1 : ℝ) + 6 / 10 * 2 ^ (-11 : ℤ) ≤ y := by
    apply Real.le_sqrt_of_sq_le
    refine le_trans ?_ h1'
    norm_num
    nlinarith
  have hb1 : IsBinary binary32 (2 * r + 1 : ℝ) := by
    have := isBinary_int (K := ℝ) (f := binary32) (n := 2 * r + 1) (by rw [abs_of_nonneg (by positivity)]; show _ < (2 : ℤ) ^ 24; omega)
    push_cast at this
    exact this
  have hb2 : IsBinary binary32 ((2 * r - 1 : ℝ) + 2 ^ (-11 : ℤ)) := by
    have := binary_odd (n := 2 * r - 1) (by omega) (by omega)
    push_cast at this
    exact this
  have hs := root_sqrt binary32 hx
  constructor
  · have : (2 * r - 1 : ℝ) < (root binary32 x : ℚ) := by
      rw [hs, ← hy]
      rcases le_or_gt ((2 * r - 1 : ℝ) + 2 ^ (-11 : ℤ)) y with h | h
      · have := round_mono (f := binary32) h
        rw [round_binary hb2] at this
        refine lt_of_lt_of_le ?_ this
        have := two_zpow_pos (K := ℝ) (-11)
        linarith
      · by_contra hc
        rw [not_lt] at hc
        have h3 := (round_nearest binary32 y).2 _ hb2
        rw [abs_of_nonpos (by have := two_zpow_pos (K := ℝ) (-11); linarith), abs_of_pos (by linarith)] at h3
        norm_num at lo h3
        linarith
    rw [← Rat.cast_lt (K := ℝ)]
    push_cast
    exact this
  · have : ((root binary32 x : ℚ) : ℝ) ≤ 2 * r + 1 := by
      rw [hs, ← hy, ← round_binary hb1]
      exact round_mono up
    rw [← Rat.cast_le (K := ℝ)]
    push_cast
    exact this

/-- The row that belongs to the pair number `p`. -/
theorem first_triangle {p r : Nat} (hr : 1 ≤ r) (hr2 : r ≤ 4096) (h1 : r * (r - 1) / 2 < p) (h2 : p ≤ r * (r + 1) / 2) : firstTriangleNum p = r := by
  obtain ⟨k, rfl⟩ : ∃ k, r = k + 1 := ⟨r - 1, by omega⟩
  have t1 : (k + 1) * (k + 1 - 1) / 2 * 2 = (k + 1) * k := by
    rw [Nat.add_sub_cancel]
    exact Nat.div_mul_cancel (by rw [mul_comm]; exact (Nat.even_mul_succ_self k).two_dvd)
  have t2 : (k + 1) * (k + 1 + 1) / 2 * 2 = (k + 1) * (k + 2) := Nat.div_mul_cancel (Nat.even_mul_succ_self (k + 1)).two_dvd
  have l1 : (k + 1) * k + 2 ≤ 2 * p := by omega
  have l2 : 2 * p ≤ (k + 1) * (k + 2) := by omega
  have l3 : 8 * p + 1 < 2 ^ 27 := by nlinarith
  obtain ⟨a, b⟩ := argument l3
  have q1 : ((k + 1 : ℚ) * k + 2) ≤ 2 * p := by exact_mod_cast l1
  have q2 : (2 * p : ℚ) ≤ (k + 1) * (k + 2) := by exact_mod_cast l2
  unfold firstTriangleNum
  rw [Nat.mod_eq_of_lt (by omega)]
  set x := round binary32 ((8 * p + 1 : ℕ) : ℚ) with hx
  obtain ⟨c, d⟩ := root_between (r := k + 1) (x := x) (by omega) hr2 (by push_cast; nlinarith) (by push_cast; nlinarith)
  set s := root binary32 x with hs
  have hb : IsBinary binary32 s := isBinary_root _ _
  push_cast at c d
  have hk : (0 : ℚ) ≤ k := by positivity
  have hk2 : (k : ℚ) ≤ 4095 := by exact_mod_cast (by omega : k ≤ 4095)
  have hs1 : 1 ≤ s := by linarith
  have hu := binary_pred hb hs1 (by linarith)
  have hm : ∃ n : ℤ, s - 1 = n * 2 ^ (-23 : ℤ) := by
    obtain ⟨n, hn⟩ := multiple_unit hb hs1
    refine ⟨n - 2 ^ 23, ?_⟩
    rw [hn]; push_cast; norm_num; ring
  show ⌈round binary32 (round binary32 (s - 1) / 2)⌉.toNat = _
  rw [round_binary hu, round_binary (binary_half hu hm)]
  have : ⌈(s - 1) / 2⌉ = (k + 1 : ℤ) := by
    rw [Int.ceil_eq_iff]
    push_cast
    constructor <;> linarith
  rw [this]
  omega

theorem triangle_succ (r : Nat) : (r + 1) * r / 2 = r * (r - 1) / 2 + r := by
  obtain h | ⟨k, rfl⟩ : r = 0 ∨ ∃ k, r = k + 1 := by cases r; exact .inl rfl; exact .inr ⟨_, rfl⟩
  · subst h; rfl
  · rw [Nat.add_sub_cancel]
    have : (k + 1 + 1) * (k + 1) = (k + 1) * k + (k + 1) * 2 := by ring
    rw [this, Nat.add_mul_div_right _ _ (by omega)]

theorem triangle_mono {r s : Nat} (h : r ≤ s) : r * (r - 1) / 2 ≤ s * (s - 1) / 2 := Nat.div_le_div_right (Nat.mul_le_mul h (by omega))

/-- Every number is the number of a pair. -/
theorem pair_exists (i : Nat) : ∃ r c, c < r ∧ i = pairNumber r c := by
  induction i with
  | zero => exact ⟨1, 0, by omega, rfl⟩
  | succ i ih =>
    obtain ⟨r, c, h, e⟩ := ih
    by_cases hc : c + 1 < r
    · exact ⟨r, c + 1, hc, by rw [e]; rfl⟩
    · refine ⟨r + 1, 0, by omega, ?_⟩
      have := triangle_succ r
      unfold pairNumber at e ⊢
      rw [Nat.add_sub_cancel]
      omega

/-- A pair has one number. -/
theorem pair_unique {r c r' c' : Nat} (h : c < r) (h' : c' < r') (e : pairNumber r c = pairNumber r' c') : r = r' ∧ c = c' := by
  have aux : ∀ {r c r' c' : Nat}, c < r → r < r' → pairNumber r c < pairNumber r' c' := by
    intro r c r' c' h hr
    have h1 := triangle_mono (r := r + 1) (s := r') hr
    rw [Nat.add_sub_cancel, triangle_succ] at h1
    unfold pairNumber
    omega
  rcases Nat.lt_trichotomy r r' with hr | hr | hr
  · have := aux (c' := c') h hr; omega
  · subst hr
    exact ⟨rfl, by unfold pairNumber at e; omega⟩
  · have := aux (c' := c) h' hr; omega

theorem pair_row {r c n : Nat} (hl : pairNumber r c < n * (n - 1) / 2) : r < n := by
  by_contra hn
  have := triangle_mono (not_lt.1 hn)
  unfold pairNumber at hl
  omega

theorem pair_less {r c n : Nat} (h : c < r) (hr : r < n) : pairNumber r c < n * (n - 1) / 2 := by
  have := triangle_mono (r := r + 1) (s := n) hr
  rw [Nat.add_sub_cancel, triangle_succ] at this
  unfold pairNumber
  omega

/-- Thread `i` compares the rows of pair number `i`, up to row 4096. -/
theorem pairOf_spec {r c : Nat} (h : c < r) (hr : r ≤ 4096) : pairOf (pairNumber r c) = (r, c) := by
  have hi : pairNumber r c < 2 ^ 24 := lt_of_lt_of_le (pair_less (n := 4097) h (by omega)) (by norm_num)
  have hf : firstTriangleNum ((pairNumber r c + 1) % 2 ^ 32) = r := by
    rw [Nat.mod_eq_of_lt (by omega)]
    have e : r * (r + 1) / 2 = r * (r - 1) / 2 + r := by rw [← triangle_succ, mul_comm]
    exact first_triangle (by omega) hr (by unfold pairNumber; omega) (by rw [e]; unfold pairNumber; omega)
  have ht : triangularD r = r * (r - 1) / 2 + r := by
    unfold triangularD
    rw [Nat.mod_eq_of_lt (by nlinarith), ← triangle_succ, add_one_mul]
  unfold pairOf
  rw [hf]
  show (r, (pairNumber r c + r + 2 ^ 32 - triangularD r) % 2 ^ 32) = _
  rw [ht]
  refine Prod.ext rfl ?_
  show (pairNumber r c + r + 2 ^ 32 - _) % 2 ^ 32 = c
  have : pairNumber r c + r + 2 ^ 32 - (r * (r - 1) / 2 + r) = c + 2 ^ 32 := by unfold pairNumber; omega
  rw [this, Nat.add_mod_right, Nat.mod_eq_of_lt (by omega)]

theorem sumFrom_spec (data : List Dbl) (w r c : Nat) (hr : (r + 1) * w ≤ data.length) (hc : (c + 1) * w ≤ data.length) (hd : data.length < 2 ^ 32) (n : Nat) :
    ∀ k s, k + n = w → sumFrom data w r c n k s =
      .ok ((((List.range n).map fun j => (data.getD (r * w + (k + j)) .nan).sub (data.getD (c * w + (k + j)) .nan))).foldl (fun s d => s.add (d.mul d)) s) := by
  induction n with
  | zero => intro k s _; rfl
  | succ n ih =>
    intro k s hk
    rw [Nat.succ_mul] at hr hc
    have r1 : r * w + k < data.length := by omega
    have c1 : c * w + k < data.length := by omega
    unfold sumFrom
    rw [Nat.mod_eq_of_lt (by omega), Nat.mod_eq_of_lt (by omega)]
    have e1 : rd data (r * w + k) = .ok data[r * w + k] := by simp [rd, r1]
    have e2 : rd data (c * w + k) = .ok data[c * w + k] := by simp [rd, c1]
    rw [e1, Outcome.ok_bind, e2, Outcome.ok_bind]
    rw [ih (k + 1) _ (by omega)]
    rw [List.range_succ_eq_map, List.map_cons, List.map_map, List.foldl_cons]
    congr 2
    · simp only [Nat.add_zero, List.getD_eq_getElem?_getD, List.getElem?_eq_getElem r1, List.getElem?_eq_getElem c1, Option.getD_some]
    · refine List.map_congr_left fun j _ => ?_
      show _ = (data.getD (r * w + (k + (j + 1))) .nan).sub (data.getD (c * w + (k + (j + 1))) .nan)
      rw [show k + 1 + j = k + (j + 1) by omega]

/-- The threads fill the cells. -/
theorem kernel_spec {data : List Dbl} {w d : Nat} {val : Nat → Dbl} (hth : ∀ i, i < d → sumFrom data w (pairOf i).1 (pairOf i).2 w 0 (Fp.of 0) = .ok (val i)) (order : List Nat) :
    ∀ out : List (Option Dbl), out.length = d → ∃ out', kernel data w d order out = .ok out' ∧ out'.length = d ∧
      ∀ i, i < d → (i ∈ order ∨ out[i]? = some (some (sqrtf (narrow (val i))).widen)) → out'[i]? = some (some (sqrtf (narrow (val i))).widen) := by
  induction order with
  | nil => exact fun out h => ⟨out, rfl, h, fun i _ h => h.resolve_left (by simp)⟩
  | cons j r ih =>
    intro out hl
    unfold kernel thread
    by_cases hj : j < d
    · rw [if_pos hj, hth j hj, Outcome.ok_bind, wr_ok (by omega), Outcome.ok_bind]
      obtain ⟨out', e, l, h⟩ := ih (out.set j (some (sqrtf (narrow (val j))).widen)) (by rw [List.length_set]; exact hl)
      refine ⟨out', e, l, fun i hi hm => h i hi ?_⟩
      by_cases hij : j = i
      · subst hij
        right
        rw [List.getElem?_set_self (by omega)]
      · rcases hm with hm | hm
        · exact .inl ((List.mem_cons.1 hm).resolve_left (Ne.symm hij))
        · right; rw [List.getElem?_set_ne hij]; exact hm
    · rw [if_neg hj]
      obtain ⟨out', e, l, h⟩ := ih out hl
      refine ⟨out', e, l, fun i hi hm => h i hi (hm.imp_left fun hm => (List.mem_cons.1 hm).resolve_left (by omega))⟩

/-! ### Accuracy -/

theorem root_relative {x : ℚ} (h : x = 0 ∨ (2 : ℚ) ^ (-126 : ℤ) ≤ x) : |((root binary32 x : ℚ) : ℝ) - Real.sqrt x| ≤ 2 ^ (-24 : ℤ) * Real.sqrt x := by
  have hx : 0 ≤ x := by
    rcases h with h | h
    · exact h.ge
    · exact (two_zpow_pos _).le.trans h
  have hs := Real.sqrt_nonneg (x : ℝ)
  rw [root_sqrt binary32 hx]
  have := round_relative (f := binary32) (x := Real.sqrt x) (by
    rcases h with h | h
    · left; rw [h]; simp
    · right
      rw [abs_of_nonneg hs]
      apply Real.le_sqrt_of_sq_le
      have h' := (Rat.cast_le (K := ℝ)).2 h
      push_cast at h'
      refine le_trans ?_ h'
      show ((2 : ℝ) ^ (-149 + ((23 : ℕ) : ℤ))) ^ 2 ≤ _
      rw [← zpow_natCast, ← zpow_mul]
      exact zpow_le_zpow_right₀ (by norm_num) (by norm_num))
  rw [abs_of_nonneg hs] at this
  exact this

theorem sqrt_relative {s t v : ℝ} (hs : 0 ≤ s) (hv : 0 ≤ v) (hv1 : v ≤ 1) (h : |t - s| ≤ v * s) : |Real.sqrt t - Real.sqrt s| ≤ v * Real.sqrt s := by
  obtain ⟨h1, h2⟩ := abs_le.1 h
  have q := Real.sqrt_nonneg s
  have u : Real.sqrt t ≤ (1 + v) * Real.sqrt s := by
    rw [Real.sqrt_le_left (by positivity), mul_pow, Real.sq_sqrt hs]
    nlinarith
  have l : (1 - v) * Real.sqrt s ≤ Real.sqrt t := by
    apply Real.le_sqrt_of_sq_le
    rw [mul_pow, Real.sq_sqrt hs]
    nlinarith
  rw [abs_le]
  constructor <;> linarith

/-- Three relative errors. -/
theorem three_errors {d a b y w v : ℝ} (hv : 0 ≤ v) (h1 : |a - d| ≤ w * d) (h2 : |b - a| ≤ v * a) (h3 : |y - b| ≤ v * b) :
    |y - d| ≤ ((1 + v) ^ 2 * (1 + w) - 1) * d := by
  have a1 : a ≤ (1 + w) * d := by linarith [(abs_le.1 h1).2]
  have b1 : b ≤ (1 + v) * a := by linarith [(abs_le.1 h2).2]
  have b2 : b ≤ (1 + v) * ((1 + w) * d) := b1.trans (mul_le_mul_of_nonneg_left a1 (by linarith))
  have t1 := abs_sub_le y b d
  have t2 := abs_sub_le b a d
  have m1 : v * b ≤ v * ((1 + v) * ((1 + w) * d)) := mul_le_mul_of_nonneg_left b2 hv
  have m2 : v * a ≤ v * ((1 + w) * d) := mul_le_mul_of_nonneg_left a1 hv
  nlinarith

/-- The cell of a pair with moderate differences. -/
theorem cell_accurate (g : Nat → F64) (x : Nat → ℝ) (n : Nat) (hn : n < 2 ^ 32) (hg : ∀ k, k < n → ((g k).1 : ℝ) = fl (x k))
    (hx : ∀ k, k < n → x k = 0 ∨ (2 : ℝ) ^ (-60 : ℤ) ≤ |x k|) (hb : ∀ k, k < n → |x k| ≤ 2 ^ (46 : ℤ)) :
    ∃ y : Fin754 binary64, (sqrtf (narrow (((List.range n).map fun k => (Fp.of (g k).1 : Dbl)).foldl (fun s d => s.add (d.mul d)) (Fp.of 0)))).widen = Fp.fin y ∧ 0 ≤ y.1 ∧
      |((y.1 : ℚ) : ℝ) - Real.sqrt (∑ k ∈ Finset.range n, x k ^ 2)| ≤ ((1 + 2 ^ (-24 : ℤ)) ^ 2 * (1 + (n + 3) * 2 ^ (-53 : ℤ)) - 1) * Real.sqrt (∑ k ∈ Finset.range n, x k ^ 2) ∧
      (y.1 = 0 ↔ ∀ k, k < n → x k = 0) := by
  have hgb : ∀ k, k < n → |(g k).1| ≤ 2 ^ (481 : ℤ) := by
    intro k hk
    have h1 : |((g k).1 : ℝ)| ≤ 2 ^ (481 : ℤ) := by
      rw [hg k hk]
      have h0 : |x k| ≤ 2 ^ (481 : ℤ) := (hb k hk).trans (zpow_le_zpow_right₀ (by norm_num) (by norm_num))
      have d1 : IsDouble ((2 : ℝ) ^ (481 : ℤ)) := isDouble_pow (by norm_num)
      rw [abs_le] at h0 ⊢
      have l := fl_mono h0.1
      have u := fl_mono h0.2
      have d2 : IsDouble (-(2 : ℝ) ^ (481 : ℤ)) := ⟨-1, 481, by norm_num, by norm_num, by simp⟩
      rw [fl_double d2] at l
      rw [fl_double d1] at u
      exact ⟨l, u⟩
    have h2 : ((|(g k).1| : ℚ) : ℝ) ≤ ((2 ^ (481 : ℤ) : ℚ) : ℝ) := by push_cast; exact h1
    exact (Rat.cast_le (K := ℝ)).1 h2
  obtain ⟨e, s0, -⟩ := fp_fold g n hn hgb
  rw [e]
  obtain ⟨w, l⟩ := partialSum_spec g x n hg (fun k hk => (hx k hk).imp_right (le_trans (zpow_le_zpow_right₀ (by norm_num) (by norm_num))))
  generalize partialSum g n = s at *
  set q := ∑ k ∈ Finset.range n, x k ^ 2 with hq
  have q0 : 0 ≤ q := Finset.sum_nonneg fun _ _ => sq_nonneg _
  have s0' : (0 : ℝ) ≤ s.1 := by exact_mod_cast s0
  -- the sum is close to the exact one
  have hnu : ((n + 3 : ℕ) : ℝ) * 2 ^ (-53 : ℤ) ≤ 2 ^ (-20 : ℤ) := by
    have : ((n + 3 : ℕ) : ℝ) ≤ 2 ^ 33 := by exact_mod_cast (by omega : n + 3 ≤ 2 ^ 33)
    calc ((n + 3 : ℕ) : ℝ) * 2 ^ (-53 : ℤ) ≤ 2 ^ 33 * 2 ^ (-53 : ℤ) := mul_le_mul_of_nonneg_right this unit_pos.le
      _ = 2 ^ (-20 : ℤ) := by norm_num
  have hnu2 : ((n + 3 : ℕ) : ℝ) * 2 ^ (-53 : ℤ) ≤ 1 / 2 := hnu.trans (by norm_num)
  have hnu1 : ((n + 3 : ℕ) : ℝ) * 2 ^ (-53 : ℤ) ≤ 1 := hnu2.trans (by norm_num)
  have r1 := within_root (n := n + 3) (Real.sqrt_nonneg q) (Real.sqrt_nonneg s.1) (by rw [Real.sq_sqrt q0, Real.sq_sqrt s0']; exact w) hnu1
  have w1 : (s.1 : ℝ) ≤ 2 * q := by
    refine w.2.trans (mul_le_mul_of_nonneg_right ?_ q0)
    refine (pow_upper unit_pos.le hnu1).trans ?_
    generalize ((n + 3 : ℕ) : ℝ) * 2 ^ (-53 : ℤ) = z at *
    linarith
  have w2 : q / 2 ≤ s.1 := by
    refine le_trans ?_ w.1
    rw [div_eq_mul_inv, mul_comm]
    refine mul_le_mul_of_nonneg_right ?_ q0
    refine le_trans ?_ (pow_lower (n := n + 3) unit_lt.le)
    generalize ((n + 3 : ℕ) : ℝ) * 2 ^ (-53 : ℤ) = z at *
    norm_num
    linarith
  have qb : q ≤ 2 ^ (124 : ℤ) := by
    have h1 : q ≤ ∑ k ∈ Finset.range n, (2 : ℝ) ^ (92 : ℤ) := by
      refine Finset.sum_le_sum fun k hk => ?_
      rw [← sq_abs]
      calc |x k| ^ 2 ≤ ((2 : ℝ) ^ (46 : ℤ)) ^ 2 := pow_le_pow_left₀ (abs_nonneg _) (hb k (Finset.mem_range.1 hk)) 2
        _ = 2 ^ (92 : ℤ) := by norm_num
    rw [Finset.sum_const, Finset.card_range, nsmul_eq_mul] at h1
    refine h1.trans ?_
    have : (n : ℝ) ≤ 2 ^ 32 := by exact_mod_cast hn.le
    calc (n : ℝ) * 2 ^ (92 : ℤ) ≤ 2 ^ 32 * 2 ^ (92 : ℤ) := mul_le_mul_of_nonneg_right this (two_zpow_pos _).le
      _ = _ := by norm_num
  have qs : q = 0 ∨ (2 : ℝ) ^ (-120 : ℤ) ≤ q := by
    by_cases h : ∀ k, k < n → x k = 0
    · left
      exact Finset.sum_eq_zero fun k hk => by rw [h k (Finset.mem_range.1 hk)]; simp
    · right
      push Not at h
      obtain ⟨k, hk, h0⟩ := h
      have h1 := (hx k hk).resolve_left h0
      calc (2 : ℝ) ^ (-120 : ℤ) = (2 ^ (-60 : ℤ)) ^ 2 := by norm_num
        _ ≤ |x k| ^ 2 := pow_le_pow_left₀ (two_zpow_pos _).le h1 2
        _ = x k ^ 2 := sq_abs _
        _ ≤ q := Finset.single_le_sum (f := fun k => x k ^ 2) (fun _ _ => sq_nonneg _) (Finset.mem_range.2 hk)
  -- the sum as a `float`
  have sb : (s.1 : ℝ) ≤ 2 ^ (125 : ℤ) := w1.trans (by
    have : (2 : ℝ) ^ (125 : ℤ) = 2 * 2 ^ (124 : ℤ) := by norm_num
    rw [this]; linarith)
  have sb' : s.1 ≤ 2 ^ (125 : ℤ) := (Rat.cast_le (K := ℝ)).1 (by rw [Rat.cast_zpow, Rat.cast_ofNat]; exact sb)
  have ss : s.1 = 0 ∨ (2 : ℚ) ^ (-121 : ℤ) ≤ s.1 := by
    rcases qs with h | h
    · left
      rw [h] at w1
      have : (s.1 : ℝ) = 0 := le_antisymm (by linarith) s0'
      exact_mod_cast this
    · right
      refine (Rat.cast_le (K := ℝ)).1 ?_
      rw [Rat.cast_zpow, Rat.cast_ofNat]
      refine le_trans ?_ w2
      have : (2 : ℝ) ^ (-121 : ℤ) = 2 ^ (-120 : ℤ) / 2 := by norm_num
      rw [this]
      exact div_le_div_of_nonneg_right h (by norm_num)
  have d125 : IsBinary binary32 ((2 : ℚ) ^ (125 : ℤ)) := ⟨1, 125, by norm_num [binary32], by norm_num [binary32], by simp⟩
  have d121 : IsBinary binary32 ((2 : ℚ) ^ (-121 : ℤ)) := ⟨1, -121, by norm_num [binary32], by norm_num [binary32], by simp⟩
  set t := Binary64.round binary32 s.1 with ht
  have t0 : 0 ≤ t := round_nonneg s0
  have tb : t ≤ 2 ^ (125 : ℤ) := by rw [ht, ← round_binary d125]; exact round_mono sb'
  have ts : t = 0 ∨ (2 : ℚ) ^ (-121 : ℤ) ≤ t := by
    rcases ss with h | h
    · left; rw [ht, h, Binary64.round_zero]
    · right; rw [ht, ← round_binary d121]; exact round_mono h
  have trel : |(t : ℝ) - s.1| ≤ 2 ^ (-24 : ℤ) * s.1 := by
    have h := round_relative (f := binary32) (x := s.1) (ss.imp_right fun h => by
      rw [abs_of_nonneg s0]
      exact le_trans (zpow_le_zpow_right₀ (by norm_num) (by norm_num [binary32])) h)
    rw [abs_of_nonneg s0] at h
    have h' := (Rat.cast_le (K := ℝ)).2 h
    push_cast at h'
    exact h'
  have top : (2 : ℚ) ^ (125 : ℤ) < 2 ^ binary32.top := zpow_lt_zpow_right₀ (by norm_num) (by norm_num [binary32])
  have hnar : narrow (Fp.of s.1) = Fp.fin ⟨t, isBinary_round _ _, by rw [abs_of_nonneg t0]; exact lt_of_le_of_lt tb top⟩ := by
    rw [fp_f64 (by rw [abs_of_nonneg s0]; exact lt_of_le_of_lt sb' (zpow_lt_zpow_right₀ (by norm_num) (by norm_num)))]
    exact fp_of (f := binary32) (by rw [← ht, abs_of_nonneg t0]; exact lt_of_le_of_lt tb top)
  -- its root
  have t0' : (0 : ℝ) ≤ t := by exact_mod_cast t0
  have y0 : (0 : ℝ) ≤ (root binary32 t : ℚ) := by rw [root_sqrt binary32 t0]; exact round_nonneg (Real.sqrt_nonneg _)
  have y0' : 0 ≤ root binary32 t := by exact_mod_cast y0
  have d63 : IsBinary binary32 ((2 : ℝ) ^ (63 : ℤ)) := ⟨1, 63, by norm_num [binary32], by norm_num [binary32], by simp⟩
  have yb : root binary32 t ≤ 2 ^ (63 : ℤ) := by
    have : ((root binary32 t : ℚ) : ℝ) ≤ 2 ^ (63 : ℤ) := by
      rw [root_sqrt binary32 t0, ← round_binary d63]
      apply round_mono
      rw [Real.sqrt_le_left (by positivity)]
      have := (Rat.cast_le (K := ℝ)).2 tb
      rw [Rat.cast_zpow, Rat.cast_ofNat] at this
      refine this.trans ?_
      norm_num
    exact (Rat.cast_le (K := ℝ)).1 (by rw [Rat.cast_zpow, Rat.cast_ofNat]; exact this)
  have ylt : |root binary32 t| < 2 ^ (1024 : ℤ) := by
    rw [abs_of_nonneg y0']
    exact lt_of_le_of_lt yb (zpow_lt_zpow_right₀ (by norm_num) (by norm_num))
  have ylt32 : |root binary32 t| < 2 ^ binary32.top := by
    rw [abs_of_nonneg y0']
    exact lt_of_le_of_lt yb (zpow_lt_zpow_right₀ (by norm_num) (by norm_num [binary32]))
  have hroot : sqrtf (narrow (Fp.of s.1)) = Fp.fin ⟨root binary32 t, isBinary_root _ _, ylt32⟩ := by
    rw [hnar]
    show (if t < 0 then Ieee.nan else Fp.of (root binary32 t)) = _
    rw [if_neg (not_lt.2 t0)]
    exact fp_of_binary (isBinary_root _ _) ylt32
  refine ⟨⟨root binary32 t, isDouble_float (isBinary_root _ _), ylt⟩, ?_, y0', ?_, ?_⟩
  · rw [hroot]
    exact fp_of_binary (f := binary64) (isDouble_float (isBinary_root _ _)) ylt
  · have h3 := root_relative (x := t) (ts.imp_right (le_trans (zpow_le_zpow_right₀ (by norm_num) (by norm_num))))
    have h2 := sqrt_relative s0' (by positivity) (by norm_num) trel
    push_cast at r1
    exact three_errors (by positivity) r1 h2 h3
  · show root binary32 t = 0 ↔ _
    have z1 : root binary32 t = 0 ↔ t = 0 := by
      have h3 := root_relative (x := t) (ts.imp_right (le_trans (zpow_le_zpow_right₀ (by norm_num) (by norm_num))))
      constructor
      · intro h
        rw [h, Rat.cast_zero, zero_sub, abs_neg, abs_of_nonneg (Real.sqrt_nonneg _)] at h3
        have hq := Real.sqrt_nonneg (t : ℝ)
        norm_num at h3
        have : Real.sqrt (t : ℝ) = 0 := by linarith
        rw [Real.sqrt_eq_zero t0'] at this
        exact_mod_cast this
      · intro h
        rw [h] at h3 ⊢
        simp at h3
        exact_mod_cast h3
    have z2 : t = 0 ↔ s.1 = 0 := by
      constructor
      · intro h
        rcases ss with h' | h'
        · exact h'
        · have : (2 : ℚ) ^ (-121 : ℤ) ≤ t := by rw [ht, ← round_binary d121]; exact round_mono h'
          rw [h] at this
          exact absurd this (not_le.2 (two_zpow_pos _))
      · intro h; rw [ht, h, Binary64.round_zero]
    have z3 : s.1 = 0 ↔ q = 0 := by
      constructor
      · intro h
        rw [h, Rat.cast_zero] at w2
        linarith
      · intro h
        rw [h] at w1
        have : (s.1 : ℝ) = 0 := le_antisymm (by linarith) s0'
        exact_mod_cast this
    rw [z1, z2, z3, hq, Finset.sum_eq_zero_iff_of_nonneg fun _ _ => sq_nonneg _]
    simp [Finset.mem_range]

theorem cast_abs_le {q : ℚ} {e : ℤ} (h : |q| ≤ 2 ^ e) : |(q : ℝ)| ≤ 2 ^ e := by
  have := (Rat.cast_le (K := ℝ)).2 h
  rw [Rat.cast_zpow, Rat.cast_ofNat, Rat.cast_abs] at this
  exact this

theorem cast_ge_abs {q : ℚ} {e : ℤ} (h : 2 ^ e ≤ |q|) : 2 ^ e ≤ |(q : ℝ)| := by
  have := (Rat.cast_le (K := ℝ)).2 h
  rw [Rat.cast_zpow, Rat.cast_ofNat, Rat.cast_abs] at this
  exact this

/-- The same for exact differences. -/
theorem cell_of (D : Nat → ℚ) (n : Nat) (hn : n < 2 ^ 32) (h1 : ∀ k, k < n → D k = 0 ∨ 2 ^ (-60 : ℤ) ≤ |D k|) (h2 : ∀ k, k < n → |D k| ≤ 2 ^ (46 : ℤ)) :
    ∃ y : Fin754 binary64, (sqrtf (narrow (((List.range n).map fun k => (Fp.of (F64.of (D k)).1 : Dbl)).foldl (fun s d => s.add (d.mul d)) (Fp.of 0)))).widen = Fp.fin y ∧ 0 ≤ y.1 ∧
      |((y.1 : ℚ) : ℝ) - Real.sqrt (∑ k ∈ Finset.range n, ((D k : ℚ) : ℝ) ^ 2)| ≤
        ((1 + 2 ^ (-24 : ℤ)) ^ 2 * (1 + (n + 3) * 2 ^ (-53 : ℤ)) - 1) * Real.sqrt (∑ k ∈ Finset.range n, ((D k : ℚ) : ℝ) ^ 2) ∧
      (y.1 = 0 ↔ ∀ k, k < n → D k = 0) := by
  obtain ⟨y, ey, y0, acc, hz⟩ := cell_accurate (fun k => F64.of (D k)) (fun k => ((D k : ℚ) : ℝ)) n hn (fun k _ => of_cast (D k))
    (fun k hk => (h1 k hk).imp Rat.cast_eq_zero.2 cast_ge_abs) (fun k hk => cast_abs_le (h2 k hk))
  exact ⟨y, ey, y0, acc, hz.trans (forall₂_congr fun k _ => Rat.cast_eq_zero)⟩

end Verif.Cuda
