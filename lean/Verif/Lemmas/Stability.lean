import Verif.Lemmas.Obs
import Verif.Spec.Exact
import Mathlib.Algebra.BigOperators.Group.Finset.Basic
import Mathlib.Algebra.BigOperators.Ring.Finset
import Mathlib.Algebra.Order.BigOperators.Group.Finset
/-
Helper lemmas for the stability formula.
-/
set_option linter.unusedSectionVars false
namespace Verif.Hier
open Spec

theorem exact_additive (K : Type) [Field K] (dmax : K) : Additive (exact K dmax) :=
  ⟨fun a b c => add_assoc a b c, fun a => add_zero a, fun w b => by simp [exact], fun j k w b => by simp [exact, add_mul]⟩

theorem cnt_sum {K : Type} [Field K] (n : Nat) (P : Nat → Prop) [DecidablePred P] :
    ((cnt n P : Nat) : K) = ∑ p ∈ Finset.range n, if P p then (1 : K) else 0 := by
  have h : cnt n P = ∑ p ∈ Finset.range n, if P p then 1 else 0 := by
    unfold cnt
    induction n with
    | zero => simp
    | succ n ih =>
      rw [List.range_succ, List.countP_append, Finset.sum_range_succ, ih]
      congr 1
      by_cases hp : P n <;> simp [hp]
  rw [h]
  push_cast
  rfl

/-- The last index with a property. -/
theorem exists_last (P : Nat → Prop) : ∀ (N a : Nat), a < N → P a → ∃ s, a ≤ s ∧ s < N ∧ P s ∧ ∀ t, s < t → t < N → ¬ P t := by
  intro N
  induction N with
  | zero => intro a h; omega
  | succ N ih =>
    intro a h1 h2
    by_cases hN : P N
    · exact ⟨N, by omega, by omega, hN, by omega⟩
    · have haN : a ≠ N := by rintro rfl; exact hN h2
      obtain ⟨s, q1, q2, q3, q4⟩ := ih a (by omega) h2
      refine ⟨s, q1, by omega, q3, fun t h3 h4 => ?_⟩
      by_cases ht : t = N
      · subst ht; exact hN
      · exact q4 t h3 (by omega)

section
variable {K : Type} [Field K] [LinearOrder K] [IsStrictOrderedRing K] {dmax : K}
  {n m M : Nat} {f : Nat → Nat × Nat × K} {res : Result K K} {hist : List (K × (Nat → Nat))}
  {cur : Nat → Nat} {noise : Nat → Option K} {last : Nat → Option Nat}

/-- The weight of step `s`. -/
def wAt (hist : List (K × (Nat → Nat))) (s : Nat) : K := match hist[s]? with
  | some h => h.1
  | none => 0

theorem stabSum_eq (l : Nat) (b : K) (N : Nat) (hN : N ≤ hist.length) :
    stabSum (exact K dmax) n hist cur l (some b) N = ∑ s ∈ Finset.range N, ∑ p ∈ Finset.range n,
      if lab hist cur s p = l ∧ lab hist cur (s + 1) p ≠ l then 1 / wAt hist s - 1 / b else 0 := by
  induction N with
  | zero => simp [stabSum, exact]
  | succ N ih =>
    rw [stabSum_succ, ih (by omega), Finset.sum_range_succ]
    have hg : hist[N]? = some hist[N] := List.getElem?_eq_getElem (by omega)
    have : stepTerm (exact K dmax) n hist cur l (some b) N = ∑ p ∈ Finset.range n,
        if lab hist cur N p = l ∧ lab hist cur (N + 1) p ≠ l then 1 / wAt hist N - 1 / b else 0 := by
      have hw : wAt hist N = hist[N].1 := by simp [wAt, hg]
      have hl : lab hist cur N = hist[N].2 := lab_get hg
      rw [stepTerm, hg]
      simp only [exact]
      rw [cnt_sum, Finset.sum_mul, hw, hl]
      apply Finset.sum_congr rfl
      intro p _
      split <;> simp
    rw [this]
    rfl

end

section
variable {W S : Type} [LinearOrder W] {ar : Arith W S} {n m : Nat} {res : Result W S} {hist : List (W × (Nat → Nat))}
  {cur : Nat → Nat} {noise : Nat → Option W} {last : Nat → Option Nat}

/-- Every point that ever carries `l` leaves exactly once. -/
theorem Base.leaves (h : Base ar n m res hist cur noise last) {l : Nat} (hl : l ≠ 0) {p : Nat} (hp : p < n) {s0 : Nat}
    (h0 : lab hist cur s0 p = l) :
    ∃ s, s0 ≤ s ∧ s < hist.length ∧ lab hist cur s p = l ∧ (∀ t, s < t → lab hist cur t p ≠ l) ∧
      ∀ t, (lab hist cur t p = l ∧ lab hist cur (t + 1) p ≠ l) ↔ t = s := by
  have hs0 := h.lt_hist (s := s0) hp (by rw [h0]; exact hl)
  obtain ⟨s, q1, q2, q3, q4⟩ := exists_last (fun t => lab hist cur t p = l) hist.length s0 hs0 h0
  have q5 : ∀ t, s < t → lab hist cur t p ≠ l := by
    intro t ht
    by_cases htl : t < hist.length
    · exact q4 t ht htl
    · rw [lab_end (by omega), h.zero p hp]; exact fun h => hl h.symm
  refine ⟨s, q1, q2, q3, q5, fun t => ⟨?_, ?_⟩⟩
  · rintro ⟨t1, t2⟩
    by_contra hne
    rcases Nat.lt_or_gt_of_ne hne with hlt | hgt
    · apply t2
      -- `l` was seen at `t`, so the point still carries it at `t + 1`
      by_cases htl : t < hist.length
      · rcases h.bk.mono t p hp htl with e | ⟨_, e | e⟩
        · rw [e]; exact t1
        · exact absurd (h.bk.noise_stays hp (show t + 1 ≤ s by omega) e) (by rw [q3]; exact hl)
        · exfalso
          -- the point would leave `l` and take it up again
          have hb := h.bk.back hp (s := t + 1) (t := s) (l := l) (by omega) hl
          by_cases hq : ∃ q, q < n ∧ lab hist cur (t + 1) q = l
          · exact t2 (hb hq q3)
          · -- nobody carries `l` at `t + 1`: then the first later step at which the point carries it contradicts freshness
            have : ∀ u, t + 1 ≤ u → lab hist cur u p ≠ l := by
              intro u hu
              induction u with
              | zero => omega
              | succ u ih =>
                by_cases hu' : t + 1 = u + 1
                · have : t = u := by omega
                  subst this; exact t2
                · have hih := ih (by omega)
                  by_cases hul : u < hist.length
                  · rcases h.bk.mono u p hp hul with e' | ⟨_, e' | e'⟩
                    · rw [e']; exact hih
                    · rw [e']; exact fun h => hl h.symm
                    · exact fun hx => e' t (by omega) p hp (by rw [hx]; exact t1)
                  · rw [lab_end (by omega), h.zero p hp]; exact fun h => hl h.symm
            exact this s (by omega) q3
      · omega
    · exact q5 t hgt t1
  · rintro rfl
    exact ⟨q3, q5 _ (by omega)⟩

end
end Verif.Hier
