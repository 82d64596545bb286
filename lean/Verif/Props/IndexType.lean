import Verif.Spec.IndexType
import Verif.Props.Limit
import Verif.Props.RaceMore
/-
C117: the types that the build offers for indices and labels.
-/
namespace Verif.Props
open Verif Spec Verif.Race
variable {D W S T : Type}

/-- For `unsigned int`, these are the functions of the model of distance.c. -/
theorem cells_int (rows : Nat) (h : rows < 2 ^ 32) : IndexType.int.cells rows = .ok (subCells rows) := by
  simp only [IndexType.cells, IndexType.arith, Outcome.ok_bind, subCells]
  generalize rows * rows = a
  exact congrArg Outcome.ok (by omega)

theorem cell_int (rows i j : Nat) : IndexType.int.cell rows i j = .ok (cellGet rows i j) := by
  simp only [IndexType.cell, IndexType.arith, Outcome.ok_bind, cellGet]
  generalize rows * i = a
  have e1 : (((((a : Int) % 2 ^ 32) + (j : Int)) % 2 ^ 32) % 2 ^ 64).toNat = (a + j) % 2 ^ 32 := by omega
  have e2 : ((((i + 1 : Nat) : Int) % 2 ^ 32) % 2 ^ 32).toNat = (i + 1) % 2 ^ 32 := by omega
  rw [e1, e2]
  rfl

theorem cells_exact (rows : Nat) (h : rows ≤ 65536) : subCells rows = rows * (rows - 1) / 2 := by
  rw [Distance.subCells_eq h]
  have := Distance.rowStart_total rows
  rw [Nat.mul_sub_one]
  omega

theorem square_short {rows : Nat} (h : rows ≤ 46340) : rows * rows < 2 ^ 31 := lt_of_le_of_lt (Nat.mul_le_mul h h) (by decide)

theorem cells_all (t : IndexType) (rows : Nat) (h : rows ≤ rowLimit t) : t.cells rows = .ok (subCells rows) := by
  cases t with
  | int => exact cells_int rows (by simp only [rowLimit] at h; omega)
  | short =>
    simp only [rowLimit] at h
    have hs := square_short h
    have hr : rows ≤ rows * rows := by
      rcases rows.eq_zero_or_pos with rfl | h0
      · exact Nat.le_refl _
      · exact Nat.le_mul_of_pos_left _ h0
    rw [← cells_int rows (by omega)]
    simp only [IndexType.cells, IndexType.arith, Outcome.ok_bind]
    generalize rows * rows = a at *
    rw [if_pos (by omega), Outcome.ok_bind, if_pos (by omega), Outcome.ok_bind]
    exact congrArg Outcome.ok (by omega)
  | long =>
    simp only [rowLimit] at h
    have hr : rows ≤ rows * rows := by
      rcases rows.eq_zero_or_pos with rfl | h0
      · exact Nat.le_refl _
      · exact Nat.le_mul_of_pos_left _ h0
    have hs : rows * rows ≤ 65536 * 65536 := Nat.mul_le_mul h h
    rw [cells_exact rows h, Nat.mul_sub_one]
    simp only [IndexType.cells, IndexType.arith, Outcome.ok_bind]
    generalize rows * rows = a at *
    exact congrArg Outcome.ok (by omega)

theorem cell_all (t : IndexType) (rows i j : Nat) (h : rows ≤ rowLimit t) (hij : i < j) (hj : j < rows) : t.cell rows i j = .ok (cellGet rows i j) := by
  cases t with
  | int => exact cell_int rows i j
  | short =>
    simp only [rowLimit] at h
    have hs := square_short h
    have hb : rows * i + j < rows * rows := by
      have := Nat.mul_le_mul_left rows (show i + 1 ≤ rows by omega)
      rw [Nat.mul_add_one] at this
      omega
    simp only [IndexType.cell, IndexType.arith, cellGet]
    generalize rows * i = a at *
    rw [if_pos (by omega), Outcome.ok_bind, if_pos (by omega), Outcome.ok_bind, if_pos (by omega), Outcome.ok_bind]
    have e1 : (((a : Int) + (j : Int)) % 2 ^ 64).toNat = (a + j) % 2 ^ 32 := by omega
    have e2 : (((i + 1 : Nat) : Int) % 2 ^ 32).toNat = (i + 1) % 2 ^ 32 := by omega
    rw [e1, e2]
    rfl
  | long =>
    simp only [rowLimit] at h
    have hs : rows * i ≤ 65536 * 65534 := Nat.mul_le_mul h (by omega)
    simp only [IndexType.cell, IndexType.arith, Outcome.ok_bind, cellGet]
    generalize rows * i = a at *
    have e1 : (((((a : Int) % 2 ^ 64) + (j : Int)) % 2 ^ 64) % 2 ^ 64).toNat = (a + j) % 2 ^ 32 := by omega
    have e2 : ((((i + 1 : Nat) : Int) % 2 ^ 64) % 2 ^ 32).toNat = (i + 1) % 2 ^ 32 := by omega
    rw [e1, e2]
    rfl

/-- **C117**, indices: up to 46340 rows for `unsigned short`, and up to 65536 rows for the others. -/
theorem C117_addresses_partial (t : IndexType) (rows : Nat) (h : rows ≤ rowLimit t) : Addresses t rows := by
  have h' : rows ≤ 65536 := by cases t <;> simp only [rowLimit] at h <;> omega
  obtain ⟨h1, -, h3, -, h5⟩ := C17_packed_bijection rows h'
  refine ⟨by rw [cells_all t rows h, cells_exact rows h'], fun i j hi hj => ?_, fun i j hi hj => ?_, fun i j i' j' hi hj hi' hj' e => ?_⟩
  · rw [cell_all t rows i j h hi hj, h5 i j hi hj, addressed, if_pos hi]
  · rw [← cells_exact rows h', h5 i j hi hj]
    exact h1 i j (by omega) hj (by omega)
  · rw [h5 i j hi hj, h5 i' j' hi' hj'] at e
    rcases h3 i j i' j' (by omega) hj (by omega) (by omega) hj' (by omega) e with h | h
    · exact h
    · omega

example := C117_addresses_partial .short 46340 (by decide)
example := C117_addresses_partial .long 65536 (by decide)

/-- **C117 is violated** for `unsigned short` by all larger numbers of rows that the type can hold: computing the size of the matrix is undefined behaviour. -/
theorem C117_short_violated (rows : Nat) (h : rowLimit .short < rows) (_ : rows ≤ largest .short) : (IndexType.short.cells rows).IsUB := by
  simp only [rowLimit] at h
  have hs : 46341 * 46341 ≤ rows * rows := Nat.mul_le_mul h h
  refine ⟨"signed overflow", ?_⟩
  simp only [IndexType.cells, IndexType.arith]
  generalize rows * rows = a at *
  rw [if_neg (by omega)]
  rfl

/-- **C117 is violated** for `unsigned int` by all larger numbers of rows: the distance of the last two rows is written behind the end of the matrix. -/
theorem C117_int_violated (rows : Nat) (h : rowLimit .int < rows) (h2 : rows ≤ largest .int) : ∃ n, IndexType.int.cells rows = .ok n ∧ n ≤ cellSet rows (rows - 2) (rows - 1) := by
  simp only [rowLimit, largest] at h h2
  exact ⟨_, cells_int rows (by omega), cell_outside rows h (by omega)⟩

/-- **C117 is violated** for `unsigned long`, which is offered for larger data sets, by the same numbers of rows: the matrix has the right size, and the distance of the last two rows is written behind
    its end, since the triangular number is computed with 32 bits. -/
theorem C117_long_violated (rows : Nat) (h : rowLimit .long < rows) (h2 : rows < 2 ^ 32) :
    IndexType.long.cells rows = .ok (rows * (rows - 1) / 2) ∧ rows * (rows - 1) / 2 ≤ cellSet rows (rows - 2) (rows - 1) := by
  simp only [rowLimit] at h
  have hs : rows * rows ≤ (2 ^ 32 - 1) * (2 ^ 32 - 1) := Nat.mul_le_mul (by omega) (by omega)
  have hr : rows ≤ rows * rows := Nat.le_mul_of_pos_left _ (by omega)
  have ht : triangularH ((rows - 2 + 1) % 2 ^ 32) < 2 ^ 31 := by
    rw [triangularH]
    have := Nat.mod_lt ((rows - 2 + 1) % 2 ^ 32 * ((rows - 2 + 1) % 2 ^ 32) + (rows - 2 + 1) % 2 ^ 32) (show 0 < 2 ^ 32 by decide)
    omega
  have hl : 65537 * 65536 ≤ rows * (rows - 1) := Nat.mul_le_mul h (by omega)
  rw [Nat.mul_sub_one] at hl ⊢
  have ha : (rows - 2) * rows + (rows - 1) = rows * rows - rows - 1 := by
    rw [Nat.sub_mul]
    have : 2 * rows ≤ rows * rows := Nat.mul_le_mul (by omega) (Nat.le_refl _)
    omega
  constructor
  · simp only [IndexType.cells, IndexType.arith, Outcome.ok_bind]
    generalize rows * rows = a at *
    exact congrArg Outcome.ok (by omega)
  · rw [cellSet, subSize, ha]
    generalize rows * rows = a at *
    generalize triangularH ((rows - 2 + 1) % 2 ^ 32) = b at *
    omega

/-- **C117**, labels: the labels of every run fit into the smallest type offered, `unsigned short`, in every interleaving of the threads. -/
theorem C117_labels [LinearOrder W] [CCmp S] [LinearOrder T] (env : Api.Env D W S T) (hq : SortsAscending env.qsort) (data : List D) (rows cols : Nat) (f : Nat → Nat → W)
    (h : Supported env data rows cols f) (h5 : 5 ≤ rows) (m : Nat) (hm : 2 ≤ m) (hmr : m ≤ rows) (th : Threads) (hth : Interleaves th) :
    ∃ obj : Api.Obj W S T, (∀ par, Complete rows rows par → Race.fresh th env par m data rows cols true = .ok obj) ∧ obj.results.clusters.length ≤ 2 ^ 16 ∧ ∀ l ∈ obj.results.labels, l < 2 ^ 16 := by
  obtain ⟨obj, h1, -, h2, -, h3⟩ := C64_threads env hq data rows cols f h h5 m hm hmr th hth
  have hfew := h.few
  have hc : obj.results.clusters.length * 2 ≤ obj.results.clusters.length * m := Nat.mul_le_mul_left _ hm
  exact ⟨obj, h1, by omega, fun l hl => by have := h3 l hl; omega⟩

/-- **C117**, order: values of the lower half of the type are compared as numbers, and so are values of the upper half. -/
theorem C117_order_partial (t : IndexType) (a b : Nat) (h : a < 2 ^ (t.bits - 1) ↔ b < 2 ^ (t.bits - 1)) : (t.compare a b < 0 ↔ a < b) ∧ (t.compare a b = 0 ↔ a = b) ∧ (0 < t.compare a b ↔ b < a) := by
  have e : t.signed a - t.signed b = (a : Int) - b := by
    rw [IndexType.signed, IndexType.signed]
    by_cases ha : a < 2 ^ (t.bits - 1)
    · rw [if_pos ha, if_pos (h.1 ha)]
    · rw [if_neg ha, if_neg fun hb => ha (h.2 hb)]
      omega
  rw [IndexType.compare, intCompare]
  split
  · omega
  · split <;> omega

/-- **C117 is violated**, order: every value of the upper half counts as smaller than every value of the lower half. For `unsigned short` that is the case for indices and labels from 32768 on. -/
theorem C117_order_violated (t : IndexType) (a b : Nat) (ha : a < 2 ^ (t.bits - 1)) (h1 : 2 ^ (t.bits - 1) ≤ b) (h2 : b < 2 ^ t.bits) : a < b ∧ t.compare b a < 0 := by
  refine ⟨by omega, ?_⟩
  have h2 : (b : Int) < 2 ^ t.bits := by exact_mod_cast h2
  have e1 : t.signed a = a := if_pos ha
  have e2 : t.signed b = b - 2 ^ t.bits := if_neg (by omega)
  rw [IndexType.compare, intCompare, e1, e2, if_neg (by omega), if_neg (by omega)]
  omega

example : IndexType.short.compare 32768 32767 = -1 ∧ IndexType.int.compare 32768 32767 = 1 := by decide

example := C117_labels lineEnv (isort_sorts _) linePts 5 1 _ linePts_supported (by decide) 2 (by decide) (by decide) hasty hasty_interleaves

example := C117_short_violated 50000 (by decide) (by decide)

/-- For 65537 rows: the matrix has 2147516416 cells, and cell 4295000063 is written. -/
example : IndexType.long.cells 65537 = .ok 2147516416 ∧ cellSet 65537 65535 65536 = 4295000063 := by decide

end Verif.Props
