import Verif.Lemmas.Num
import Verif.Lemmas.OutTerms
/-
Helper lemmas: finite stabilities of `double` data are those of `doubleArith`.
-/
namespace Verif.Props
open Verif Verif.Spec Verif.Binary64

/-- A finite value as a number without upper limit. -/
def widen : Num754 binary64 → F64
  | .fin x => ⟨x.1, x.2.1⟩
  | _ => F64.of 0

theorem total_map {W W' : Type} {z d : W} {z' d' : W'} (φ : W → W') (es : List (Hier.Event W)) :
    Hier.total (Hier.tallyArith z' d') (es.map fun e => (e.1, φ e.2.1, e.2.2.map φ)) = (Hier.total (Hier.tallyArith z d) es).map fun x => (φ x.1, x.2.map φ) := by
  induction es using List.reverseRecOn with
  | nil => simp [Hier.total, Hier.tallyArith]
  | append_singleton es e ih =>
    obtain ⟨k, w, b⟩ := e
    rw [List.map_append, List.map_singleton, Hier.total_snoc, Hier.total_snoc, ih]
    simp [Hier.tallyArith, Multiset.map_add, Multiset.map_replicate]

/-- Finite stabilities. -/
theorem total_fin {β : Fin754 binary64} : ∀ (es : List (Hier.Event (Num754 binary64))),
    (∀ e ∈ es, e.2.2 = some (.fin β) ∧ ∃ x : Fin754 binary64, e.2.1 = .fin x ∧ (2 : ℚ) ^ (-537 : ℤ) ≤ x.1 ∧ x.1 < β.1) → (es.map (·.1)).sum < 2 ^ 32 →
    ∃ x : Fin754 binary64, Hier.total numArith es = Fp.fin x ∧ 0 ≤ x.1 ∧ x.1 ≤ ((es.map (·.1)).sum : Nat) * 2 ^ (537 : ℤ) ∧
      x.1 = (Hier.total doubleArith (es.map fun e => (e.1, widen e.2.1, e.2.2.map widen))).1 := by
  intro es
  induction es using List.reverseRecOn with
  | nil =>
    intro _ _
    refine ⟨_, of_zero_fin, le_refl _, by simp, ?_⟩
    show (0 : ℚ) = fl 0
    exact fl_zero.symm
  | append_singleton es e ih =>
    intro hes hsum
    obtain ⟨k, w, b⟩ := e
    obtain ⟨h2, x, h3, h4, h5⟩ := hes (k, w, b) (by simp)
    dsimp only at h2 h3
    subst h2 h3
    rw [List.map_append, List.sum_append] at hsum ⊢
    simp only [List.map_cons, List.map_nil, List.sum_cons, List.sum_nil, Nat.add_zero] at hsum ⊢
    obtain ⟨y, y1, y2, y3, y4⟩ := ih (fun e he => hes e (List.mem_append_left _ he)) (by omega)
    obtain ⟨t, t1, t2, t3, t4⟩ := term_fin (k := k) (by omega) h4 h5
    rw [List.map_append, List.map_singleton, Hier.total_snoc, Hier.total_snoc, y1, t1]
    have hle : y.1 + t.1 ≤ (((es.map (·.1)).sum + k : Nat) : ℚ) * 2 ^ (537 : ℤ) := by
      rw [Nat.cast_add, add_mul]
      exact add_le_add y3 t3
    obtain ⟨r, r1, r2, r3, r4⟩ := of_small (by omega) (add_nonneg y2 t2) hle
    refine ⟨r, r1, r3, r4, ?_⟩
    rw [r2, y4, t4]
    rfl

/-- Square roots of doubles are not large. -/
theorem sqrt_le {x : Num754 binary64} {y : Fin754 binary64} (h : numOps.sqrt x = .fin y) : y.1 ≤ 2 ^ (1000 : ℤ) := by
  match x, h with
  | .ninf, h => cases h
  | .pinf, h => cases h
  | .fin x, h =>
    change (if x.1 < 0 then Ieee.nan else Fp.of (flSqrt x.1) : Dbl).toNum = _ at h
    by_cases hx : x.1 < 0
    · rw [if_pos hx] at h; cases h
    · rw [if_neg hx] at h
      have h0 : 0 ≤ x.1 := not_lt.1 hx
      have hs := flSqrt_spec h0
      have hle : flSqrt x.1 ≤ 2 ^ (1000 : ℤ) := by
        have : ((flSqrt x.1 : ℚ) : ℝ) ≤ 2 ^ (1000 : ℤ) := by
          rw [hs, ← fl_double (pow_double (K := ℝ) (k := 1000) (by norm_num))]
          apply fl_mono
          apply Real.sqrt_le_iff.2
          refine ⟨(two_zpow_pos _).le, ?_⟩
          have h1 : x.1 ≤ (2 : ℚ) ^ (2000 : ℤ) := by
            have := x.2.2
            rw [abs_of_nonneg h0] at this
            exact this.le.trans (zpow_le_zpow_right₀ (by norm_num) (show (1024 : ℤ) ≤ 2000 by norm_num))
          have := (Rat.cast_le (K := ℝ)).2 h1
          push_cast at this
          refine this.trans (le_of_eq ?_)
          rw [← zpow_natCast, ← zpow_mul]; rfl
        have h2 : ((flSqrt x.1 : ℚ) : ℝ) ≤ (((2 : ℚ) ^ (1000 : ℤ) : ℚ) : ℝ) := by push_cast; exact this
        exact_mod_cast h2
      rcases of_cases (flSqrt x.1) with ⟨g, e⟩ | ⟨g, e⟩
      · rw [e] at h
        cases h
        show fl (flSqrt x.1) ≤ _
        rw [fl_double (isDouble_flSqrt _)]
        exact hle
      · rw [e] at h
        generalize decide (flSqrt x.1 < 0) = s at h
        cases s <;> cases h

/-- The terms of the root are NaN. -/
theorem root_stability (es : List (Nat × Num754 binary64)) :
    es.foldl (fun s e => numArith.add s (numArith.term e.1 e.2 none)) numArith.zeroS = if es = [] then Fp.of 0 else .nan := by
  have hnan : ∀ k w, numArith.term k w none = .nan := by
    intro k w
    show Fp.mul (Fp.of k) (((Fp.of 1).div (.num w)).sub ((Fp.of 1).div Ieee.nan)) = _
    have h1 : ∀ x : Dbl, x.div Ieee.nan = .nan := fun x => by match x with
      | .nan => rfl
      | .num .ninf => rfl
      | .num .pinf => rfl
      | .num (.fin _) => rfl
    have h2 : ∀ x : Dbl, x.sub Ieee.nan = .nan := fun x => by match x with
      | .nan => rfl
      | .num .ninf => rfl
      | .num .pinf => rfl
      | .num (.fin _) => rfl
    have h3 : ∀ x : Dbl, x.mul Ieee.nan = .nan := fun x => by match x with
      | .nan => rfl
      | .num .ninf => rfl
      | .num .pinf => rfl
      | .num (.fin _) => rfl
    rw [h1, h2, h3]
  have hadd : ∀ x : Dbl, numArith.add x .nan = .nan := fun x => by match x with
      | .nan => rfl
      | .num .ninf => rfl
      | .num .pinf => rfl
      | .num (.fin _) => rfl
  induction es using List.reverseRecOn with
  | nil => rfl
  | append_singleton es e ih =>
    rw [List.foldl_append]
    simp only [List.foldl_cons, List.foldl_nil, hnan, hadd]
    simp

theorem ieee_eq {V : Type} [LinearOrder V] {a b : V} (h : CCmp.eq (Ieee.num a) (Ieee.num b) = true) : a = b := of_decide_eq_true h

/-- The largest `double` is not among the stabilities of few points. -/
theorem not_max {x : Fin754 binary64} {k : Nat} (hk : k < 2 ^ 33) (h : x.1 ≤ k * 2 ^ (537 : ℤ)) : CCmp.eq (Fp.fin x : Dbl) Fp.max = false := by
  have hdm : (.fin ⟨2 ^ (600 : ℤ), pow_double (by norm_num), by rw [abs_of_pos (two_zpow_pos _)]; exact zpow_lt_zpow_right₀ (by norm_num) (by decide)⟩ : Num754 binary64) ≤ numArith.dmax := by
    decide +kernel
  have hmx : (Fp.max : Dbl) = .num numArith.dmax := by decide +kernel
  have hlt : Num754.fin x < numArith.dmax := by
    refine lt_of_lt_of_le ?_ hdm
    rw [num_fin_lt]
    refine lt_of_le_of_lt h ?_
    calc (k : ℚ) * 2 ^ (537 : ℤ) < 2 ^ 33 * 2 ^ (537 : ℤ) := mul_lt_mul_of_pos_right (by exact_mod_cast hk) (two_zpow_pos _)
      _ = 2 ^ (570 : ℤ) := by rw [← zpow_natCast, ← zpow_add₀ (by norm_num)]; norm_num
      _ < 2 ^ (600 : ℤ) := zpow_lt_zpow_right₀ (by norm_num) (by norm_num)
  rw [hmx]
  exact Bool.eq_false_iff.2 fun h => hlt.ne (ieee_eq h)

end Verif.Props
