import Verif.Spec.Groups
import Verif.Lemmas.Num
import Verif.Lemmas.CoreZero
import Verif.Props.Invariance
import Verif.Props.Flat
import Verif.Props.RaceMore
/-
C103: rows that are repeated at least `minPoints` times form clusters.
-/
namespace Verif.Props
open Verif Verif.Spec Verif.Binary64

/-- The sums of squares of a moderate data set. -/
def numSq (data : List (Fin754 binary64)) (cols i j : Nat) : Num754 binary64 :=
  ((List.range cols).map fun k => match data[i * cols + k]?, data[j * cols + k]? with
    | some a, some b => match numOps.diff a b with
      | .ok d => d
      | _ => .pinf
    | _, _ => .pinf).foldl (fun s d => numOps.add s (numOps.mul d d)) numOps.zero

theorem numSq_spec {data : List (Fin754 binary64)} {rows cols : Nat} (h : Sized data rows cols) {i j : Nat} (hi : i < rows) (hj : j < rows) :
    SqSum numOps data cols i j (numSq data cols i j) ∧
    ∃ s : Fin754 binary64, numSq data cols i j = .fin s ∧ 0 ≤ s.1 ∧ s.1 ≤ 2 ^ (836 : ℤ) ∧ (Moderate data rows cols → ¬ SameRow data data cols i j → (2 : ℚ) ^ (-1000 : ℤ) ≤ s.1) := by
  have hlt : ∀ {x k}, x < rows → k < cols → x * cols + k < data.length := by
    intro x k hx hk
    rw [h.cells]
    calc x * cols + k < x * cols + cols := by omega
      _ = (x + 1) * cols := by rw [Nat.add_mul, Nat.one_mul]
      _ ≤ rows * cols := Nat.mul_le_mul_right _ hx
  have hcell : ∀ k, k < cols → ∃ a b d, data[i * cols + k]? = some a ∧ data[j * cols + k]? = some b ∧ numOps.diff a b = .ok (.fin d) ∧ |d.1| ≤ 2 ^ (401 : ℤ) ∧
      (Moderate data rows cols → a ≠ b → (2 : ℚ) ^ (-500 : ℤ) ≤ |d.1|) := by
    intro k hk
    have ha := hlt hi hk
    have hb := hlt hj hk
    obtain ⟨d, d1, d2, d3⟩ := diff_spec (h.large _ (List.getElem_mem ha)) (h.large _ (List.getElem_mem hb))
    exact ⟨_, _, d, List.getElem?_eq_getElem ha, List.getElem?_eq_getElem hb, d1, d2, fun hM hne => d3 (hM.apart _ (List.getElem_mem ha) _ (List.getElem_mem hb) hne)⟩
  constructor
  · refine ⟨_, by rw [List.length_map, List.length_range], rfl, fun k d hd => ?_⟩
    rw [List.getElem?_map] at hd
    by_cases hk : k < cols
    · obtain ⟨a, b, d', e1, e2, e3, _⟩ := hcell k hk
      rw [List.getElem?_range hk, Option.map_some, e1, e2] at hd
      simp only [e3, Option.some.injEq] at hd
      exact ⟨a, b, e1, e2, by rw [e3, hd]⟩
    · rw [List.getElem?_eq_none (by rw [List.length_range]; omega)] at hd
      cases hd
  · have hnar := h.narrow
    have hz : numOps.zero = .fin ⟨0, isDouble_zero, zero_lt⟩ := num_zero
    obtain ⟨r, r1, r2, r3, r4⟩ := sum_spec ((List.range cols).map fun k => match data[i * cols + k]?, data[j * cols + k]? with
      | some a, some b => match numOps.diff a b with
        | .ok d => d
        | _ => .pinf
      | _, _ => .pinf) (by
        intro x hx
        obtain ⟨k, hk, rfl⟩ := List.mem_map.1 hx
        obtain ⟨a, b, d, e1, e2, e3, e4, _⟩ := hcell k (List.mem_range.1 hk)
        exact ⟨d, by simp only [e1, e2, e3], e4⟩) 0 ⟨0, isDouble_zero, zero_lt⟩ (by rw [List.length_map, List.length_range]; omega) (le_refl _) (by simp)
    refine ⟨r, ?_, r2, r3.trans ?_, fun hM hne => ?_⟩
    · rw [numSq, hz, ← r1]
    · rw [List.length_map, List.length_range, Nat.zero_add]
      calc (cols : ℚ) * 2 ^ (802 : ℤ) ≤ 2 ^ 32 * 2 ^ (802 : ℤ) := mul_le_mul_of_nonneg_right (by exact_mod_cast hnar.le) (two_zpow_pos _).le
        _ = 2 ^ (834 : ℤ) := by rw [← zpow_natCast, ← zpow_add₀ (by norm_num)]; norm_num
        _ ≤ 2 ^ (836 : ℤ) := zpow_le_zpow_right₀ (by norm_num) (by norm_num)
    · have : ∃ k, k < cols ∧ data[i * cols + k]? ≠ data[j * cols + k]? := by
        by_contra hc
        push Not at hc
        exact hne hc
      obtain ⟨k, hk, hkne⟩ := this
      obtain ⟨a, b, d, e1, e2, e3, e4, e5⟩ := hcell k hk
      refine r4 d (List.mem_map.2 ⟨k, List.mem_range.2 hk, by simp only [e1, e2, e3]⟩) (e5 hM ?_)
      rintro rfl
      exact hkne (by rw [e1, e2])

theorem moderate_supported {data : List (Fin754 binary64)} {rows cols : Nat} (h : Moderate data rows cols)
    (qsort : (OScore (Num754 binary64) (Num754 binary64) → OScore (Num754 binary64) (Num754 binary64) → Int) → List (OScore (Num754 binary64) (Num754 binary64)) → List (OScore (Num754 binary64) (Num754 binary64))) :
    Supported (numEnv qsort) data rows cols (numSq data cols) where
  few := h.few
  zero := rfl
  zero_lt := by
    obtain ⟨h1, _⟩ := sqrt_spec (s := ⟨0, isDouble_zero, zero_lt⟩) (le_refl _) (two_zpow_pos _).le
    exact lt_of_le_of_lt (sqrt_nonneg _) h1
  sum i j hij hj := (numSq_spec h.toSized (hij.trans hj) hj).1
  lt i j hij hj := by
    obtain ⟨_, s, e, s0, s1, _⟩ := numSq_spec h.toSized (hij.trans hj) hj
    show numOps.sqrt (numSq data cols i j) < numArith.dmax
    rw [e]
    exact (sqrt_spec s0 s1).1

/-- C103 for data whose distances are finite, and 0 for equal rows only. -/
theorem groups_of (qsort : (OScore (Num754 binary64) (Num754 binary64) → OScore (Num754 binary64) (Num754 binary64) → Int) →
      List (OScore (Num754 binary64) (Num754 binary64)) → List (OScore (Num754 binary64) (Num754 binary64))) (hq : SortsAscending qsort)
    (data : List (Fin754 binary64)) (rows cols : Nat) (hsup : Supported (numEnv qsort) data rows cols (numSq data cols))
    (hdpos : ∀ i j, i < rows → j < rows → distOf numOps (numSq data cols) i j = numArith.zeroW → SameRow data data cols i j) (h5 : 5 ≤ rows) (m : Nat) (hm : 2 ≤ m) (hmr : m ≤ rows) :
    ∃ obj : Api.Obj (Num754 binary64) Dbl (Num754 binary64), (∀ par, Complete rows rows par → Api.fresh (numEnv qsort) par m data rows cols true = .ok obj) ∧ obj.results.labels.length = rows ∧
      (∀ p q, p < rows → q < rows → SameRow data data cols p q → obj.results.labels[p]? = obj.results.labels[q]?) ∧
      (∀ p, p < rows → Repeated data rows cols m p → (∃ l, l ≠ 0 ∧ l ∈ obj.results.labels) → ∃ l, l ≠ 0 ∧ obj.results.labels[p]? = some l) ∧
      (∀ p q, p < rows → q < rows → Repeated data rows cols m p → Repeated data rows cols m q → ¬ SameRow data data cols p q →
        ∃ l l', l ≠ 0 ∧ l' ≠ 0 ∧ l ≠ l' ∧ obj.results.labels[p]? = some l ∧ obj.results.labels[q]? = some l') := by
  have hfew := hsup.few
  obtain ⟨obj, core, g, res, hf, r1, r2, hget, hcore, hmax, hgn, hin, hconn, hres, hhier, hfull⟩ := stages (env := numEnv qsort) hq hsup h5 hm hmr
  obtain ⟨e1, _⟩ := full_hierarchy (hfull seqSchedule (List.range rows) seqSchedule_complete (.refl _))
  have hseq : Complete rows rows ⟨Distance.pairs rows, List.range rows, seqSchedule, List.range rows⟩ := ⟨.refl _, .refl _, seqSchedule_complete, .refl _⟩
  have same : ∀ {x}, SameRow data data cols x x := fun k _ => rfl
  have flip : ∀ {x y}, SameRow data data cols x y → SameRow data data cols y x := fun h k hk => (h k hk).symm
  have trans : ∀ {x y z}, SameRow data data cols x y → SameRow data data cols y z → SameRow data data cols x z := fun h h' k hk => (h k hk).trans (h' k hk)
  have hd0 : ∀ i j, numArith.zeroW ≤ distOf numOps (numSq data cols) i j := by
    intro i j
    unfold distOf
    split
    · exact sqrt_nonneg _
    · split
      · exact le_refl _
      · exact sqrt_nonneg _
  have hdz : ∀ i j, i < rows → j < rows → SameRow data data cols i j → distOf numOps (numSq data cols) i j = numArith.zeroW := by
    intro i j hi hj hij
    have : distOf numOps (numSq data cols) i j = distOf numOps (numSq data cols) j j :=
      distOf_congr (env := numEnv qsort) numOps_plain hsup hsup hi hj hj hj hij same (fun e => by subst e; exact same) (fun _ => hij)
    rw [this]
    simp [distOf]
    rfl
  have hdw : ∀ i j, i < rows → j < rows → Weight (distOf numOps (numSq data cols) i j) := by
    intro i j hi hj
    have hzero : Weight numArith.zeroW := ⟨_, num_zero, .inl rfl⟩
    have key : ∀ i j, i < j → j < rows → Weight (numOps.sqrt (numSq data cols i j)) := by
      intro i j hij hj
      rcases sqrt_weight (numSq data cols i j) with h | h
      · exact h
      · have : numOps.sqrt (numSq data cols i j) < numArith.dmax := hsup.lt i j hij hj
        rw [h] at this
        exact absurd (num_le_pinf _) (not_le.2 this)
    unfold distOf
    split
    · exact key i j (by assumption) hj
    · split
      · exact hzero
      · exact key j i (by omega) hi
  have hcw : ∀ i, i < rows → Weight (core i) := by
    intro i hi
    obtain ⟨x, hx, h1⟩ := Distance.coreOf_safe (zero := numOps.zero) (dmax := numArith.dmax) (dis := obj.dis) (i := i) (d := fun j => distOf numOps (numSq data cols) i j) (by
      intro j hj; rw [r1] at hj; exact hget i j hi hj)
    have h2 := (hcore i hi).2
    rw [show (numEnv qsort).dops.zero = numOps.zero from rfl, show (numEnv qsort).ar.dmax = numArith.dmax from rfl, hx] at h2
    obtain rfl := Outcome.ok.inj h2
    rcases h1 with h1 | ⟨j, hj, h1⟩
    · exfalso
      obtain ⟨j, hj, hij⟩ : ∃ j, j < rows ∧ i ≠ j := ⟨if i = 0 then 1 else 0, by split <;> omega, by split <;> omega⟩
      have := hmax i j hi hj hij
      simp only [mutualReach, max_lt_iff] at this
      have h2 := this.1.2
      rw [h1] at h2
      exact absurd h2 (lt_irrefl _)
    · rw [r1] at hj
      rw [h1]
      exact hdw i j hi hj
  have hmw : ∀ i j, i < rows → j < rows → Weight (mutualReach (distOf numOps (numSq data cols)) core i j) := by
    intro i j hi hj
    unfold mutualReach
    rcases max_choice (max (distOf numOps (numSq data cols) i j) (core i)) (core j) with h1 | h1 <;> rw [h1]
    · rcases max_choice (distOf numOps (numSq data cols) i j) (core i) with h2 | h2 <;> rw [h2]
      · exact hdw i j hi hj
      · exact hcw i hi
    · exact hcw j hj
  have hgrp := out_groups numArith Fp.max seqSchedule seqSchedule_complete m hm obj.dis rows hmr (by omega) (distOf numOps (numSq data cols)) core
    (fun i j hi hj _ => hget i j hi hj) (distOf_symm _ _) (fun i hi => (hcore i hi).1) hmax (num_infinite rows (by omega)) hmw e1
  -- the core distance of a repeated row is 0
  have hc0 : ∀ p, p < rows → Repeated data rows cols m p → core p = numArith.zeroW := by
    intro p hp ⟨l, l1, l2, l3⟩
    have := Distance.coreOf_least (zero := numOps.zero) (dmax := numArith.dmax) (z := numArith.zeroW) (dis := obj.dis) (i := p) (d := fun j => distOf numOps (numSq data cols) p j)
      (fun j hj => ⟨hget p j hp (r1 ▸ hj), hd0 p j⟩) hsup.zero_lt.le (by
        rw [r1, r2]
        have := Distance.le_count (z := numArith.zeroW) (n := rows) (d := fun j => distOf numOps (numSq data cols) p j) l1 fun v hv => ⟨(l3 v hv).1, hdz p v hp (l3 v hv).1 (l3 v hv).2⟩
        omega)
    have h2 := (hcore p hp).2
    rw [show (numEnv qsort).dops.zero = numOps.zero from rfl, show (numEnv qsort).ar.dmax = numArith.dmax from rfl, this] at h2
    exact (Outcome.ok.inj h2).symm
  have hrep : ∀ p q, SameRow data data cols p q → Repeated data rows cols m p → Repeated data rows cols m q := fun p q hpq hp =>
    atLeast_mono (fun v hv => ⟨hv.1, trans (flip hpq) hv.2⟩) hp
  have hreach : ∀ p, p < rows → Repeated data rows cols m p → AtLeast m (fun v => Reachable rows (mutualReach (distOf numOps (numSq data cols)) core) numArith.zeroW p v) := by
    intro p hp hr
    refine atLeast_mono (fun v hv => ?_) hr
    by_cases e : p = v
    · subst e; exact .refl _
    · refine .rel _ _ ⟨hp, hv.1, e, ?_⟩
      simp only [mutualReach, hdz p v hp hv.1 hv.2, hc0 p hp hr, hc0 v hv.1 (hrep p v hv.2 hr), max_self, le_refl]
  have hsep : ∀ p q, Reachable rows (mutualReach (distOf numOps (numSq data cols)) core) numArith.zeroW p q → SameRow data data cols p q := by
    intro p q hr
    induction hr with
    | rel a b hab =>
      obtain ⟨ha, hb, _, hle⟩ := hab
      simp only [mutualReach, max_le_iff] at hle
      exact hdpos a b ha hb (le_antisymm hle.1.1 (hd0 a b))
    | refl a => exact same
    | symm a b _ ih => exact flip ih
    | trans a b c _ _ ih1 ih2 => exact trans ih1 ih2
  have hlen : obj.results.labels.length = rows := by
    obtain ⟨obj', core', hf', _, h2, _⟩ := C97_flat_partial (numEnv qsort) hq data rows cols _ hsup h5 m hm hmr
    have := hf' _ hseq
    rw [hf _ hseq] at this
    cases this
    exact h2
  refine ⟨obj, hf, hlen, fun p q hp hq' hpq => ?_, fun p hp hr hl => hgrp.1 p hp (hreach p hp hr) hl,
    fun p q hp hq' hrp hrq hne => hgrp.2 p q hp hq' (hreach p hp hrp) (hreach q hq' hrq) fun hr => hne (hsep p q hr)⟩
  obtain ⟨obj', hf', _, _, ⟨l, hl1, hl2⟩, _⟩ := C59_duplicates (numEnv qsort) hq numOps_plain data rows cols _ hsup h5 m hm hmr sqrt_nonneg p q hp hq' hpq
  have := hf' _ hseq
  rw [hf _ hseq] at this
  cases this
  rw [hl1, hl2]

/-- The same with threads: whatever the interleaving of the loop with the data race, equal rows have the same label, and repeated rows that differ do not share a label other than 0. -/
theorem threads_of (qsort : (OScore (Num754 binary64) (Num754 binary64) → OScore (Num754 binary64) (Num754 binary64) → Int) →
      List (OScore (Num754 binary64) (Num754 binary64)) → List (OScore (Num754 binary64) (Num754 binary64))) (hq : SortsAscending qsort)
    (data : List (Fin754 binary64)) (rows cols : Nat) (hsup : Supported (numEnv qsort) data rows cols (numSq data cols))
    (hdpos : ∀ i j, i < rows → j < rows → distOf numOps (numSq data cols) i j = numArith.zeroW → SameRow data data cols i j) (h5 : 5 ≤ rows) (m : Nat) (hm : 2 ≤ m) (hmr : m ≤ rows) (th : Race.Threads) (hth : Interleaves th) :
    ∃ obj : Api.Obj (Num754 binary64) Dbl (Num754 binary64), (∀ par, Complete rows rows par → Race.fresh th (numEnv qsort) par m data rows cols true = .ok obj) ∧ obj.results.labels.length = rows ∧
      (∀ p q, p < rows → q < rows → SameRow data data cols p q → obj.results.labels[p]? = obj.results.labels[q]?) ∧
      (∀ p q l, p < rows → q < rows → Repeated data rows cols m p → Repeated data rows cols m q → ¬ SameRow data data cols p q →
        obj.results.labels[p]? = some l → obj.results.labels[q]? = some l → l = 0) := by
  obtain ⟨o1, a1, a2, a3, _, a5⟩ := groups_of qsort hq data rows cols hsup hdpos h5 m hm hmr
  obtain ⟨o2, b1, b2, _⟩ := C63_threads_partial (numEnv qsort) hq data rows cols _ hsup h5 m hm hmr
  have e : o2 = o1 := fresh_same b1 a1
  subst e
  obtain ⟨obj, lost, s1, s2, s3⟩ := b2 th hth
  refine ⟨obj, s3, by rw [s2.labels, List.length_map, a2], fun p q hp hq' hpq => ?_, fun p q l hp hq' hrp hrq hne hlp hlq => ?_⟩
  · rw [s2.labels, List.getElem?_map, List.getElem?_map, a3 p q hp hq' hpq]
  · by_contra hl0
    obtain ⟨l1, l2, _, _, hne', e1, e2⟩ := a5 p q hp hq' hrp hrq hne
    have h1 := ((lost_label s2 p l hl0).1 hlp).1
    have h2 := ((lost_label s2 q l hl0).1 hlq).1
    rw [e1] at h1
    rw [e2] at h2
    exact hne' (Option.some.inj (h1.trans h2.symm))

/-! ### Concrete cases -/

def whole (k : Nat) (h : k < 2 ^ 33) : Fin754 binary64 := ⟨k, by
    have := isDouble_int (K := ℚ) (n := k) (by
      rw [abs_of_nonneg (by positivity)]
      have : ((k : ℕ) : ℤ) < 2 ^ 33 := by exact_mod_cast h
      exact this.trans (by norm_num))
    rw [Int.cast_natCast] at this; exact this, by
    rw [abs_of_nonneg (by positivity)]
    have h1 : (k : ℚ) < 2 ^ 33 := by exact_mod_cast h
    refine h1.trans ?_
    rw [← zpow_natCast]
    exact zpow_lt_zpow_right₀ (by norm_num) (by decide)⟩

theorem whole_moderate (ks : List Nat) (h : ∀ k ∈ ks, k < 2 ^ 33) (hr : ks.length ≤ 65536) : Moderate (ks.attach.map fun k => whole k.1 (h k.1 k.2)) ks.length 1 where
  few := hr
  narrow := by norm_num
  cells := by simp
  large := by
    intro x hx
    obtain ⟨⟨k, hk⟩, _, rfl⟩ := List.mem_map.1 hx
    show |(k : ℚ)| ≤ _
    rw [abs_of_nonneg (Nat.cast_nonneg k)]
    have h1 : (k : ℚ) < 2 ^ 33 := by exact_mod_cast h k hk
    refine h1.le.trans ?_
    rw [← zpow_natCast]
    exact zpow_le_zpow_right₀ (by norm_num) (by norm_num)
  apart := by
    intro x hx y hy hne
    obtain ⟨⟨k, hk⟩, _, rfl⟩ := List.mem_map.1 hx
    obtain ⟨⟨j, hj⟩, _, rfl⟩ := List.mem_map.1 hy
    have hkj : (k : ℤ) - j ≠ 0 := by
      intro h0
      have : k = j := by omega
      subst this
      exact hne rfl
    have h1 : (1 : ℚ) ≤ |(k : ℚ) - j| := by exact_mod_cast Int.one_le_abs hkj
    refine le_trans ?_ h1
    rw [← zpow_zero (2 : ℚ)]
    exact zpow_le_zpow_right₀ (by norm_num) (by norm_num)

/-- Seven values, two of them three times. -/
def grpPts : List (Fin754 binary64) := [3, 8, 3, 20, 8, 3, 8].attach.map fun k => whole k.1 ((by decide : ∀ k ∈ [3, 8, 3, 20, 8, 3, 8], k < 2 ^ 33) k.1 k.2)

theorem grpPts_moderate : Moderate grpPts 7 1 := whole_moderate [3, 8, 3, 20, 8, 3, 8] (by decide) (by decide)

end Verif.Props
