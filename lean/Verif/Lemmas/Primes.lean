import Verif.Model.Primes
import Mathlib.Data.Nat.Prime.Basic
import Mathlib.Data.Nat.Sqrt
import Mathlib.Data.List.Chain
import Mathlib.Tactic.Linarith
/-
Helper lemmas for the prime table search.
-/
namespace Verif

theorem primeInit_length : primeInit.length = 198 := by decide +kernel

theorem primes_length : primes.length = 200 := by
  simp [primes, primeInit_length]

theorem primeInit_chain : List.IsChain (· < ·) primeInit := by decide +kernel

theorem primeInit_sorted : primeInit.Pairwise (· < ·) := List.isChain_iff_pairwise.mp primeInit_chain

theorem primeInit_lt {i j : Nat} (hij : i < j) (hj : j < primeInit.length) :
    primeInit[i] < primeInit[j] := List.pairwise_iff_getElem.mp primeInit_sorted i j _ hj hij

theorem primeInit_le {i j : Nat} (hij : i ≤ j) (hj : j < primeInit.length) :
    primeInit[i] ≤ primeInit[j] := by
  rcases Nat.lt_or_eq_of_le hij with h | rfl
  · exact le_of_lt (primeInit_lt h hj)
  · exact le_refl _

theorem primeInit_zero : primeInit[0]'(by rw [primeInit_length]; omega) = 3 := by decide +kernel
theorem primeInit_196 : primeInit[196]'(by rw [primeInit_length]; omega) = 1213 := by decide +kernel
theorem primeInit_197 : primeInit[197]'(by rw [primeInit_length]; omega) = 1217 := by decide +kernel

theorem primeAt_init {i : Nat} (h : i < primeInit.length) : primeAt (i : Int) = .ok primeInit[i] := by
  unfold primeAt
  rw [if_neg (by omega), rd_ok (by rw [primes_length]; rw [primeInit_length] at h; omega)]
  simp [primes, List.getElem_append_left h]

theorem primeAt_tail {i : Nat} (h : 198 ≤ i) (h2 : i < 200) : primeAt (i : Int) = .ok 0 := by
  unfold primeAt
  rw [if_neg (by omega), rd_ok (by rw [primes_length]; omega)]
  have hl := primeInit_length
  simp only [primes, Int.toNat_natCast]
  rw [List.getElem_append_right (by omega)]
  simp

theorem primeAt_zero : primeAt 0 = .ok 3 := by
  have := primeAt_init (i := 0) (by rw [primeInit_length]; omega)
  rw [primeInit_zero] at this
  exact this

theorem primeAt_zero' : primeAt ((0 : Nat) : Int) = .ok 3 := primeAt_zero

/-- The result is 0, or a tabulated number directly below `x`. The table is never left. -/
theorem bsp_sound {x : Int} (hx : 3 < x) : ∀ (fuel l r : Nat), r < 200 → (r + 1 - l) < fuel →
    ∃ v, binarySearchPrimes fuel l r x = .ok v ∧
      (v = 0 ∨ ∃ (m : Nat) (h : m + 1 < primeInit.length), v = primeInit[m] ∧ primeInit[m] < x ∧ x ≤ primeInit[m + 1]) := by
  intro fuel
  have hl := primeInit_length
  induction fuel with
  | zero => intro l r h1 h2; omega
  | succ fuel ih =>
    intro l r hr hf
    rw [binarySearchPrimes, primeAt_zero]
    simp only [Outcome.ok_bind]
    rw [if_neg (by omega)]
    by_cases hrl : (r : Int) ≥ l
    · rw [if_pos hrl]
      have hd : (l : Int) + Int.tdiv (r - l) 2 = ((l + (r - l) / 2 : Nat) : Int) := by
        rw [Int.tdiv_eq_ediv_of_nonneg (by omega)]; omega
      have hb1 : l ≤ l + (r - l) / 2 := by omega
      have hb2 : l + (r - l) / 2 ≤ r := by omega
      rw [hd]
      generalize l + (r - l) / 2 = m at hb1 hb2
      by_cases hm : m < primeInit.length
      · rcases Nat.eq_zero_or_pos m with rfl | hm0
        · have e1 : primeHit ((0 : Nat) : Int) x = .ok false := by
            simp only [primeHit, primeAt_zero', Outcome.ok_bind]
            rw [if_neg (by omega), if_neg (by omega)]; rfl
          have e2 : primeLeft ((0 : Nat) : Int) x = .ok false := by
            simp only [primeLeft, primeAt_zero', Outcome.ok_bind]
            rw [if_neg (by omega)]; rfl
          simp only [e1, e2, Outcome.ok_bind, Bool.false_eq_true, if_false]
          exact ih 1 r hr (by omega)
        · obtain ⟨q, rfl⟩ : ∃ q, m = q + 1 := ⟨m - 1, by omega⟩
          have hq : ((q + 1 : Nat) : Int) - 1 = (q : Int) := by omega
          have hqlt := primeInit_lt (i := q) (j := q + 1) (by omega) hm
          have eh : primeHit ((q + 1 : Nat) : Int) x = .ok (decide (primeInit[q + 1] = x ∨ (primeInit[q + 1] ≥ x ∧ primeInit[q] < x))) := by
            simp only [primeHit, primeAt_init hm, Outcome.ok_bind, hq, primeAt_init (i := q) (by omega)]
            by_cases h1 : primeInit[q + 1] = x
            · simp [h1]
            · by_cases h2 : primeInit[q + 1] ≥ x
              · simp [h1, h2]
              · simp [h1, h2]
          rw [eh]
          simp only [Outcome.ok_bind, decide_eq_true_eq]
          by_cases hh : primeInit[q + 1] = x ∨ (primeInit[q + 1] ≥ x ∧ primeInit[q] < x)
          · rw [if_pos hh, hq, primeAt_init (i := q) (by omega)]
            refine ⟨_, rfl, Or.inr ⟨q, hm, rfl, ?_, ?_⟩⟩
            · rcases hh with h | h
              · omega
              · exact h.2
            · rcases hh with h | h
              · omega
              · exact h.1
          · rw [if_neg hh]
            have el : primeLeft ((q + 1 : Nat) : Int) x = .ok (decide (primeInit[q + 1] > x ∧ primeInit[q] > x)) := by
              simp only [primeLeft, primeAt_init hm, Outcome.ok_bind, hq, primeAt_init (i := q) (by omega)]
              by_cases h1 : primeInit[q + 1] > x
              · simp [h1]
              · simp [h1]
            rw [el]
            simp only [Outcome.ok_bind, decide_eq_true_eq]
            split
            · rw [hq]; exact ih l q (by omega) (by omega)
            · exact ih (q + 1 + 1) r hr (by omega)
      · have ht : primeAt (m : Int) = .ok 0 := primeAt_tail (by omega) (by omega)
        have e1 : primeHit (m : Int) x = .ok false := by
          simp only [primeHit, ht, Outcome.ok_bind]
          rw [if_neg (by omega), if_neg (by omega)]; rfl
        have e2 : primeLeft (m : Int) x = .ok false := by
          simp only [primeLeft, ht, Outcome.ok_bind]
          rw [if_neg (by omega)]; rfl
        simp only [e1, e2, Outcome.ok_bind, Bool.false_eq_true, if_false]
        exact ih (m + 1) r hr (by omega)
    · rw [if_neg hrl]; exact ⟨0, rfl, Or.inl rfl⟩

/-- If `x` lies strictly between two neighbours of the table (and not above entry 196), the lower one is found. -/
theorem bsp_complete {x : Int} (hx : 3 < x) {j : Nat} (hj : j + 1 ≤ 196) (h1 : primeInit[j]'(by rw [primeInit_length]; omega) < x)
    (h2 : x < primeInit[j + 1]'(by rw [primeInit_length]; omega)) :
    ∀ (fuel l r : Nat), r < 200 → (r + 1 - l) < fuel → l ≤ j + 1 → j + 1 ≤ r →
      binarySearchPrimes fuel l r x = .ok (primeInit[j]'(by rw [primeInit_length]; omega)) := by
  intro fuel
  have hl := primeInit_length
  induction fuel with
  | zero => intro l r h1 h2; omega
  | succ fuel ih =>
    intro l r hr hf hlj hjr
    rw [binarySearchPrimes, primeAt_zero]
    simp only [Outcome.ok_bind]
    rw [if_neg (by omega), if_pos (by omega)]
    have hd : (l : Int) + Int.tdiv (r - l) 2 = ((l + (r - l) / 2 : Nat) : Int) := by
      rw [Int.tdiv_eq_ediv_of_nonneg (by omega)]; omega
    have hb1 : l ≤ l + (r - l) / 2 := by omega
    have hb2 : l + (r - l) / 2 ≤ r := by omega
    have hb3 : l + (r - l) / 2 < 198 := by omega
    rw [hd]
    generalize l + (r - l) / 2 = m at hb1 hb2 hb3
    have hm : m < primeInit.length := by omega
    rcases Nat.lt_trichotomy m (j + 1) with hlt | heq | hgt
    · -- to the right
      have hle := primeInit_le (i := m) (j := j) (by omega) (by omega)
      have e1 : primeHit (m : Int) x = .ok false := by
        simp only [primeHit, primeAt_init hm, Outcome.ok_bind]
        rw [if_neg (by omega), if_neg (by omega)]; rfl
      have e2 : primeLeft (m : Int) x = .ok false := by
        simp only [primeLeft, primeAt_init hm, Outcome.ok_bind]
        rw [if_neg (by omega)]; rfl
      simp only [e1, e2, Outcome.ok_bind, Bool.false_eq_true, if_false]
      exact ih (m + 1) r hr (by omega) (by omega) (by omega)
    · subst heq
      have hq : ((j + 1 : Nat) : Int) - 1 = (j : Int) := by omega
      have e1 : primeHit ((j + 1 : Nat) : Int) x = .ok true := by
        simp only [primeHit, primeAt_init hm, Outcome.ok_bind, hq, primeAt_init (i := j) (by omega)]
        rw [if_neg (by omega), if_pos (by omega)]
        simp [h1]
      simp only [e1, Outcome.ok_bind, if_true, hq, primeAt_init (i := j) (by omega)]
    · have hq : ((m : Nat) : Int) - 1 = ((m - 1 : Nat) : Int) := by omega
      have hle := primeInit_le (i := j + 1) (j := m - 1) (by omega) (by omega)
      have hle2 := primeInit_lt (i := m - 1) (j := m) (by omega) (by omega)
      have e1 : primeHit (m : Int) x = .ok false := by
        simp only [primeHit, primeAt_init hm, Outcome.ok_bind, hq, primeAt_init (i := m - 1) (by omega)]
        rw [if_neg (by omega), if_pos (by omega)]
        have : ¬ primeInit[m - 1] < x := by omega
        simp [this]
      have e2 : primeLeft (m : Int) x = .ok true := by
        simp only [primeLeft, primeAt_init hm, Outcome.ok_bind, hq, primeAt_init (i := m - 1) (by omega)]
        rw [if_pos (by omega)]
        have : primeInit[m - 1] > x := by omega
        simp [this]
      simp only [e1, e2, Outcome.ok_bind, Bool.false_eq_true, if_false, if_true, hq]
      exact ih l (m - 1) (by omega) (by omega) hlj (by omega)

/-! The table holds exactly the primes from 3 to 1217. -/

/-- Trial division by 2..34, enough below 1225. -/
def trial (q : Nat) : Bool := 2 ≤ q && (List.range 35).all (fun d => Nat.ble d 1 || Nat.ble q d || Nat.blt 0 (q % d))

theorem trial_iff {q : Nat} (hq : q < 1225) : trial q = true ↔ q.Prime := by
  rw [Nat.prime_def_le_sqrt]
  unfold trial
  simp only [Bool.and_eq_true, decide_eq_true_eq, List.all_eq_true, List.mem_range, Bool.or_eq_true, Nat.ble_eq, Nat.blt_eq]
  constructor
  · rintro ⟨h1, h2⟩
    refine ⟨h1, fun m hm hms hdvd => ?_⟩
    have hs : m * m ≤ q := (Nat.le_sqrt).mp hms
    have hm35 : m < 35 := by nlinarith
    rcases h2 m hm35 with (h | h) | h
    · omega
    · have : 2 * m ≤ m * m := Nat.mul_le_mul_right m hm
      omega
    · have := Nat.mod_eq_zero_of_dvd hdvd; omega
  · rintro ⟨h1, h2⟩
    refine ⟨h1, fun d hd => ?_⟩
    by_contra hcon
    simp only [not_or, not_le, not_lt] at hcon
    obtain ⟨⟨hd1, hdq⟩, hmod⟩ := hcon
    have hdvd : d ∣ q := Nat.dvd_of_mod_eq_zero (by omega)
    obtain ⟨c, hc⟩ := hdvd
    by_cases hdc : d ≤ c
    · exact h2 d (by omega) ((Nat.le_sqrt).mpr (by rw [hc]; exact Nat.mul_le_mul_left d hdc)) ⟨c, hc⟩
    · have hc2 : 2 ≤ c := by
        rcases c with _ | _ | c
        · simp at hc; omega
        · simp at hc; omega
        · omega
      exact h2 c hc2 ((Nat.le_sqrt).mpr (by rw [hc]; exact Nat.mul_le_mul_right c (by omega))) ⟨d, by rw [hc, Nat.mul_comm]⟩

theorem primeInit_trial : primeInit = ((List.range 1218).filter (fun q => trial q && Nat.blt 2 q)).map Int.ofNat := by
  decide +kernel

theorem primeInit_mem {p : Int} : p ∈ primeInit ↔ ∃ q : Nat, p = q ∧ q.Prime ∧ 2 < q ∧ q ≤ 1217 := by
  rw [primeInit_trial]
  simp only [List.mem_map, List.mem_filter, List.mem_range, Bool.and_eq_true, Nat.blt_eq]
  constructor
  · rintro ⟨q, ⟨h1, h2, h3⟩, rfl⟩
    exact ⟨q, rfl, (trial_iff (by omega)).mp h2, h3, by omega⟩
  · rintro ⟨q, rfl, h1, h2, h3⟩
    exact ⟨q, ⟨by omega, (trial_iff (by omega)).mpr h1, h2⟩, rfl⟩

end Verif
