import Verif.Model.Distance
import Mathlib.Data.List.Nodup
import Mathlib.Data.List.Range
import Mathlib.Data.List.Perm.Subperm
import Mathlib.Tactic.Linarith
import Mathlib.Tactic.Ring
/-
Helper lemmas for the distance model.
-/
namespace Verif.Distance

/-! ### The packed index -/

/-- First cell of a row. -/
def rowStart (n : Nat) : Nat → Nat
  | 0 => 0
  | i + 1 => rowStart n i + (n - 1 - i)

theorem rowStart_eq (n : Nat) : ∀ i, i ≤ n → 2 * rowStart n i + i * (i + 1) = 2 * (n * i) := by
  intro i
  induction i with
  | zero => intro _; simp [rowStart]
  | succ i ih =>
    intro h
    have h1 := ih (by omega)
    simp only [rowStart]
    obtain ⟨d, rfl⟩ : ∃ d, n = i + 1 + d := ⟨n - (i + 1), by omega⟩
    have : i + 1 + d - 1 - i = d := by omega
    rw [this]
    nlinarith

theorem rowStart_mono (n : Nat) : ∀ {i j}, i ≤ j → rowStart n i ≤ rowStart n j := by
  intro i j h
  induction h with
  | refl => exact le_refl _
  | step _ ih => simp only [rowStart]; omega

theorem rowStart_total (n : Nat) : 2 * rowStart n n + n = n * n := by
  have := rowStart_eq n n (le_refl _)
  nlinarith

/-- The cell of a pair as it should be. -/
def cell (n i j : Nat) : Nat := rowStart n i + (j - i - 1)

theorem cell_bounds {n i j : Nat} (h : i < j) (hj : j < n) : rowStart n i ≤ cell n i j ∧ cell n i j < rowStart n (i + 1) := by
  simp only [cell, rowStart]; omega

theorem cell_lt {n i j : Nat} (h : i < j) (hj : j < n) : cell n i j < rowStart n n :=
  lt_of_lt_of_le (cell_bounds h hj).2 (rowStart_mono n (by omega))

theorem cell_inj {n i j i' j' : Nat} (h : i < j) (hj : j < n) (h' : i' < j') (hj' : j' < n)
    (e : cell n i j = cell n i' j') : i = i' ∧ j = j' := by
  have b := cell_bounds h hj
  have b' := cell_bounds h' hj'
  have hi : i = i' := by
    rcases Nat.lt_trichotomy i i' with hlt | he | hlt
    · have := rowStart_mono n (show i + 1 ≤ i' from hlt); omega
    · exact he
    · have := rowStart_mono n (show i' + 1 ≤ i from hlt); omega
  subst hi
  refine ⟨rfl, ?_⟩
  simp only [cell] at e; omega

theorem cell_surj {n : Nat} : ∀ m, m ≤ n → ∀ c, c < rowStart n m → ∃ i j, i < j ∧ j < n ∧ cell n i j = c := by
  intro m
  induction m with
  | zero => intro _ c hc; simp [rowStart] at hc
  | succ m ih =>
    intro hm c hc
    by_cases h : c < rowStart n m
    · exact ih (by omega) c h
    · simp only [rowStart] at hc
      exact ⟨m, m + 1 + (c - rowStart n m), by omega, by omega, by simp only [cell]; omega⟩

theorem triangularH_eq {n : Nat} (h : n < 65536) : 2 * triangularH n = n * (n + 1) := by
  unfold triangularH
  have hlt : n * n + n < 2 ^ 32 := by nlinarith
  rw [Nat.mod_eq_of_lt hlt]
  have he : (n * n + n) % 2 = 0 := by
    have := Nat.even_mul_succ_self n
    rw [Nat.even_iff] at this
    have h2 : n * n + n = n * (n + 1) := by ring
    rw [h2]; exact this
  have h2 : n * n + n = n * (n + 1) := by ring
  omega

theorem cell_idx {n i j : Nat} (h : i < j) (hj : j < n) :
    2 * (n * i + j) = 2 * cell n i j + (i + 1) * (i + 2) := by
  have := rowStart_eq n i (by omega)
  simp only [cell]
  obtain ⟨d, rfl⟩ : ∃ d, j = i + 1 + d := ⟨j - (i + 1), by omega⟩
  have e : i + 1 + d - i - 1 = d := by omega
  rw [e]
  nlinarith

theorem subSize_eq {a b : Nat} (h : b ≤ a) (ha : a < 2 ^ 64) : subSize a b = a - b := by
  unfold subSize
  rw [Nat.mod_eq_of_lt (by omega : b < 2 ^ 64)]
  have : a + 2 ^ 64 - b = (a - b) + 2 ^ 64 := by omega
  rw [this, Nat.add_mod_right, Nat.mod_eq_of_lt (by omega)]

theorem cellGet_eq {n i j : Nat} (hn : n ≤ 65536) (h : i < j) (hj : j < n) : cellGet n i j = cell n i j := by
  have hb : n * i + j < 2 ^ 32 := by
    have : n * i ≤ 65536 * 65534 := Nat.mul_le_mul hn (by omega)
    omega
  have ht := triangularH_eq (n := i + 1) (by omega)
  have hc := cell_idx h hj
  unfold cellGet
  rw [Nat.mod_eq_of_lt hb, Nat.mod_eq_of_lt (by omega : i + 1 < 2 ^ 32)]
  have e : (i + 1) * (i + 1 + 1) = (i + 1) * (i + 2) := by ring
  rw [e] at ht
  rw [subSize_eq (by omega) (by omega)]
  omega

theorem cellSet_eq {n i j : Nat} (hn : n ≤ 65536) (h : i < j) (hj : j < n) : cellSet n i j = cell n i j := by
  have hb : n * i + j < 2 ^ 32 := by
    have : n * i ≤ 65536 * 65534 := Nat.mul_le_mul hn (by omega)
    omega
  rw [← cellGet_eq hn h hj]
  unfold cellGet cellSet
  rw [Nat.mul_comm i n, Nat.mod_eq_of_lt hb, Nat.mod_eq_of_lt (by omega : n * i + j < 2 ^ 64)]

theorem subCells_eq {n : Nat} (hn : n ≤ 65536) : subCells n = rowStart n n := by
  have ht := rowStart_total n
  unfold subCells
  by_cases h : n = 65536
  · subst h
    have : (65536 * 65536 % 2 ^ 32 + 2 ^ 32 - 65536) % 2 ^ 32 / 2 = 2147450880 := by decide
    rw [this]; omega
  · have hlt : n * n < 2 ^ 32 := by
      have : n * n ≤ 65535 * 65535 := Nat.mul_le_mul (by omega) (by omega)
      omega
    rw [Nat.mod_eq_of_lt hlt]
    have : n * n + 2 ^ 32 - n = 2 * rowStart n n + 2 ^ 32 := by omega
    rw [this, Nat.add_mod_right, Nat.mod_eq_of_lt (by omega)]
    omega

/-! ### Filling the matrix -/

variable {D W : Type}

theorem mem_pairs {n i j : Nat} : (i, j) ∈ pairs n ↔ i < j ∧ j < n := by
  simp only [pairs, List.mem_flatMap, List.mem_map, List.mem_filter, List.mem_range, Prod.mk.injEq, decide_eq_true_eq]
  constructor
  · rintro ⟨a, _, b, ⟨hb, hab⟩, rfl, rfl⟩; exact ⟨hab, hb⟩
  · rintro ⟨h1, h2⟩; exact ⟨i, by omega, j, ⟨h2, h1⟩, rfl, rfl⟩

/-- The loop fills exactly the cells of the pairs it visits, each with the value its own iteration computes. -/
theorem computeLoop_rep {ops : DistOps D W} {data : List D} {cols n : Nat} (hn : n ≤ 65536) {f : Nat → Nat → W}
    (hf : ∀ i j, i < j → j < n → sumFrom ops data cols i j cols 0 ops.zero = .ok (f i j)) :
    ∀ (order : List (Nat × Nat)) (m : List (Option W)), (∀ p ∈ order, p.1 < p.2 ∧ p.2 < n) → m.length = rowStart n n →
    ∃ m', computeLoop ops data cols n order m = .ok m' ∧ m'.length = rowStart n n ∧
      ∀ i j, i < j → j < n →
        m'[cell n i j]? = if (i, j) ∈ order then some (some (ops.sqrt (f i j))) else m[cell n i j]? := by
  intro order
  induction order with
  | nil => intro m _ hm; exact ⟨m, rfl, hm, by simp⟩
  | cons p r ih =>
    intro m hp hm
    obtain ⟨i, j⟩ := p
    obtain ⟨h1, h2⟩ := hp (i, j) (by simp)
    simp only at h1 h2
    have hlt : cell n i j < m.length := by rw [hm]; exact cell_lt h1 h2
    obtain ⟨m', e, hl, hm'⟩ := ih (m.set (cell n i j) (some (ops.sqrt (f i j)))) (fun p hp' => hp p (by simp [hp'])) (by simp [hm])
    refine ⟨m', ?_, hl, ?_⟩
    · simp only [computeLoop, computeCell, hf i j h1 h2, Outcome.ok_bind, cellSet_eq hn h1 h2, wr_ok hlt, e]
    · intro i' j' h1' h2'
      rw [hm' i' j' h1' h2']
      by_cases hin : (i', j') ∈ r
      · simp [hin]
      · by_cases heq : i' = i ∧ j' = j
        · obtain ⟨rfl, rfl⟩ := heq
          rw [if_neg hin, if_pos (by simp)]
          simp [hlt]
        · have hne : cell n i j ≠ cell n i' j' := by
            intro he
            have := cell_inj h1 h2 h1' h2' he
            exact heq ⟨this.1.symm, this.2.symm⟩
          rw [if_neg hin, if_neg (by simp [hin]; exact fun a b => heq ⟨a, b⟩), List.getElem?_set_ne hne]

theorem coreAll_rows [CCmp W] {zero dmax : W} {dis : Distance W} {core : Nat → W}
    (hc : ∀ i, i < dis.rows → coreOf zero dmax dis i = .ok (core i)) :
    ∀ (order : List Nat) (c : List (Option W)), (∀ i ∈ order, i < dis.rows) → c.length = dis.rows →
    ∃ c', coreAll zero dmax dis order c = .ok c' ∧ c'.length = dis.rows ∧
      ∀ i, i < dis.rows → c'[i]? = if i ∈ order then some (some (core i)) else c[i]? := by
  intro order
  induction order with
  | nil => intro c _ hl; exact ⟨c, rfl, hl, by simp⟩
  | cons p r ih =>
    intro c hp hl
    have hpl : p < dis.rows := hp p (by simp)
    obtain ⟨c', e, hl', hc'⟩ := ih (c.set p (some (core p))) (fun i hi => hp i (by simp [hi])) (by simp [hl])
    refine ⟨c', ?_, hl', ?_⟩
    · simp only [coreAll, hc p hpl, Outcome.ok_bind, wr_ok (show p < c.length by rw [hl]; exact hpl), e]
    · intro i hi
      rw [hc' i hi]
      by_cases hin : i ∈ r
      · simp [hin]
      · by_cases he : i = p
        · subst he
          rw [if_neg hin, if_pos (by simp)]
          simp [hl, hi]
        · rw [if_neg hin, if_neg (by simp [hin, he]), List.getElem?_set_ne (Ne.symm he)]

end Verif.Distance
