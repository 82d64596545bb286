import Verif.Lemmas.Selection
import Verif.Lemmas.StabDouble
import Verif.Spec.Rounding
/-
Helper lemmas: rounding errors of propagated stabilities.
-/
namespace Verif.Sel
open Verif.Spec Verif.Binary64 Relation Verif.Props
open Verif.Hier (u u_pos u_val)

/-- The rounding errors of a sum over a descending list of labels: a number is rounded at most once for every label at or below its own. -/
theorem fold_bounds {W : Type} {ar : Arith W F64} (ha : AddsDouble ar) (x : Nat → F64) (ks : List Nat) : ∀ q, ks.Pairwise (· > ·) → (∀ l ∈ ks, q < l) → (∀ l ∈ ks, 0 ≤ (x l).1) →
    0 ≤ (ks.foldl (fun s l => ar.add s (x l)) ar.zeroS).1 ∧
    (ks.map fun l => (1 - u) ^ (l - q) * (x l).1).sum ≤ (ks.foldl (fun s l => ar.add s (x l)) ar.zeroS).1 ∧
    (ks.foldl (fun s l => ar.add s (x l)) ar.zeroS).1 ≤ (ks.map fun l => (1 + u) ^ (l - q) * (x l).1).sum := by
  have u0 : 0 < u := u_pos
  have u1 : u < 1 := by rw [u_val]; norm_num
  induction ks using List.reverseRecOn with
  | nil =>
    intro q _ _ _
    simp [ha.2, of_zero]
  | append_singleton ks l ih =>
    intro q hp hq hx
    rw [List.pairwise_append] at hp
    have hgt : ∀ a ∈ ks, l < a := fun a h => hp.2.2 a h l List.mem_cons_self
    have hlq := hq l (List.mem_append_right _ List.mem_cons_self)
    have hl0 := hx l (List.mem_append_right _ List.mem_cons_self)
    have hx' : ∀ a ∈ ks, 0 ≤ (x a).1 := fun a h => hx a (List.mem_append_left _ h)
    obtain ⟨i0, i1, i2⟩ := ih l hp.1 hgt hx'
    rw [List.foldl_append, List.foldl_cons, List.foldl_nil, ha.1, List.map_append, List.sum_append, List.map_append, List.sum_append]
    have e1 := Hier.of_add_relative (ks.foldl (fun s l => ar.add s (x l)) ar.zeroS) (x l)
    rw [abs_of_nonneg (add_nonneg i0 hl0)] at e1
    have h0 : 0 ≤ (F64.of ((ks.foldl (fun s l => ar.add s (x l)) ar.zeroS).1 + (x l).1)).1 := fl_nonneg (add_nonneg i0 hl0)
    have b1 := (abs_le.1 e1).1
    have b2 := (abs_le.1 e1).2
    generalize (F64.of ((ks.foldl (fun s l => ar.add s (x l)) ar.zeroS).1 + (x l).1)).1 = y at *
    generalize (ks.foldl (fun s l => ar.add s (x l)) ar.zeroS).1 = s at *
    have hpow : ∀ a ∈ ks, (l - q - 1) + (a - l) + 1 = a - q := by intro a h; have := hgt a h; omega
    have hl1 : ∃ m, l - q = m + 1 := ⟨l - q - 1, by omega⟩
    refine ⟨h0, ?_, ?_⟩
    · have h1 : (ks.map fun a => (1 - u) ^ (a - q) * (x a).1).sum ≤ (1 - u) * s := by
        calc (ks.map fun a => (1 - u) ^ (a - q) * (x a).1).sum ≤ (ks.map fun a => (1 - u) * ((1 - u) ^ (a - l) * (x a).1)).sum := by
              refine List.sum_le_sum fun a h => ?_
              rw [← hpow a h, pow_succ, pow_add]
              have h2 : (1 - u) ^ (l - q - 1) ≤ 1 := pow_le_one₀ (by linarith) (by linarith)
              have h3 : 0 ≤ (1 - u) * ((1 - u) ^ (a - l) * (x a).1) := mul_nonneg (by linarith) (mul_nonneg (pow_nonneg (by linarith) _) (hx' a h))
              calc _ = (1 - u) ^ (l - q - 1) * ((1 - u) * ((1 - u) ^ (a - l) * (x a).1)) := by ring
                _ ≤ _ := mul_le_of_le_one_left h3 h2
          _ = (1 - u) * (ks.map fun a => (1 - u) ^ (a - l) * (x a).1).sum := by rw [List.sum_map_mul_left]
          _ ≤ _ := mul_le_mul_of_nonneg_left i1 (by linarith)
      have h2 : (1 - u) ^ (l - q) * (x l).1 ≤ (1 - u) * (x l).1 := by
        obtain ⟨m, hm⟩ := hl1
        rw [hm, pow_succ]
        have : (1 - u) ^ m ≤ 1 := pow_le_one₀ (by linarith) (by linarith)
        exact mul_le_mul_of_nonneg_right (mul_le_of_le_one_left (by linarith) this) hl0
      simp only [List.map_cons, List.map_nil, List.sum_cons, List.sum_nil, add_zero]
      linarith
    · have h1 : (1 + u) * s ≤ (ks.map fun a => (1 + u) ^ (a - q) * (x a).1).sum := by
        calc (1 + u) * s ≤ (1 + u) * (ks.map fun a => (1 + u) ^ (a - l) * (x a).1).sum := mul_le_mul_of_nonneg_left i2 (by linarith)
          _ = (ks.map fun a => (1 + u) * ((1 + u) ^ (a - l) * (x a).1)).sum := by rw [List.sum_map_mul_left]
          _ ≤ _ := by
              refine List.sum_le_sum fun a h => ?_
              rw [← hpow a h, pow_succ, pow_add]
              have h2 : 1 ≤ (1 + u) ^ (l - q - 1) := one_le_pow₀ (by linarith)
              have h3 : 0 ≤ (1 + u) * ((1 + u) ^ (a - l) * (x a).1) := mul_nonneg (by linarith) (mul_nonneg (pow_nonneg (by linarith) _) (hx' a h))
              calc (1 + u) * ((1 + u) ^ (a - l) * (x a).1) ≤ (1 + u) ^ (l - q - 1) * ((1 + u) * ((1 + u) ^ (a - l) * (x a).1)) := le_mul_of_one_le_left h3 h2
                _ = _ := by ring
      have h2 : (1 + u) * (x l).1 ≤ (1 + u) ^ (l - q) * (x l).1 := by
        obtain ⟨m, hm⟩ := hl1
        rw [hm, pow_succ]
        have : 1 ≤ (1 + u) ^ m := one_le_pow₀ (by linarith)
        exact mul_le_mul_of_nonneg_right (le_mul_of_one_le_left (by linarith) this) hl0
      simp only [List.map_cons, List.map_nil, List.sum_cons, List.sum_nil, add_zero]
      linarith

section
variable {W : Type} [CCmp W] {ar : Arith W F64} {N : Nat} {K V : Nat → Cl W F64}
variable (ht : Tree N K) (hout : ∀ l, N ≤ l ∨ l = 0 → (K l).parent = none) (hv : VInv ar N K 0 V)
  (ha : AddsDouble ar) (hn : ∀ l, (K l).ncs = 0 ∧ (K l).pncs = 0) (hpos : ∀ l q, (K l).parent = some q → 0 ≤ (K l).stability.1)

omit [CCmp W] in
theorem kids_desc (q : Nat) : (kidsAbove N K 0 q).Pairwise (· > ·) := by
  rw [kidsAbove, List.pairwise_reverse]
  exact (List.pairwise_lt_range' (s := 1)).filter _

include ht hout hv ha hpos in
/-- The propagated stability is not much larger than the total of what is handed on. -/
theorem desc_upper (q : Nat) : 0 ≤ (V q).propStability.1 ∧
    (V q).propStability.1 ≤ (1 + u) ^ (N - q) * ((V q).desc.map fun l => (K l).stability.1).sum := by
  have hlt := par_lt ht hout
  have u0 : 0 < u := u_pos
  generalize hm : N - q = m
  induction m using Nat.strongRecOn generalizing q with
  | _ m ih =>
    have key : ∀ l ∈ kidsAbove N K 0 q, 0 ≤ (best V l).1 ∧ (best V l).1 ≤ (1 + u) ^ (N - l) * ((pick V l).map fun l => (K l).stability.1).sum := by
      intro l hl
      have hp := (mem_kids hout).1 hl
      have hb := mem_kidsAbove.1 hl
      have h0 := hlt _ _ hp
      unfold best pick
      cases hw : wins (V l) with
      | true =>
        have hst : (V l).stability = (K l).stability := by rw [hv.stat]
        have h1 := hpos l q hp
        simp only [if_true, hst, List.map_cons, List.map_nil, List.sum_cons, List.sum_nil, add_zero]
        exact ⟨h1, le_mul_of_one_le_left h1 (one_le_pow₀ (by linarith))⟩
      | false =>
        simp only [Bool.false_eq_true, if_false]
        exact ih (N - l) (by omega) l rfl
    have hq : ∀ l ∈ kidsAbove N K 0 q, q < l := fun l hl => hlt _ _ ((mem_kids hout).1 hl)
    obtain ⟨f0, -, f2⟩ := fold_bounds ha (best V) (kidsAbove N K 0 q) q (kids_desc q) hq fun l hl => (key l hl).1
    have hst : (V q).propStability = (kidsAbove N K 0 q).foldl (fun s l => ar.add s (best V l)) ar.zeroS := hv.stab q
    rw [hst]
    refine ⟨f0, f2.trans ?_⟩
    rw [show (V q).desc = (kidsAbove N K 0 q).flatMap (pick V) from hv.desc q, sum_flatMap', ← List.sum_map_mul_left]
    refine List.sum_le_sum fun l hl => ?_
    have hb := mem_kidsAbove.1 hl
    have h1 := hq l hl
    have e : m = (l - q) + (N - l) := by omega
    rw [e, pow_add, mul_assoc]
    exact mul_le_mul_of_nonneg_left (key l hl).2 (pow_nonneg (by linarith) _)

include ht hout hv ha hn hpos in
/-- No selection is much better than what is propagated. -/
theorem near_optimal (q : Nat) (T : List Nat) (hT : T.Nodup) (h1 : ∀ t ∈ T, TransGen (fun a b => (K a).parent = some b) t q)
    (h2 : ∀ s ∈ T, ∀ t ∈ T, ¬ TransGen (fun a b => (K a).parent = some b) t s)
    (h3 : ∀ l, (∀ l', (K l').parent ≠ some l) → TransGen (fun a b => (K a).parent = some b) l q → ∃ t ∈ T, ReflTransGen (fun a b => (K a).parent = some b) l t) :
    (1 - u) ^ (N - q) * (T.map (fun l => (K l).stability.1)).sum ≤ (V q).propStability.1 := by
  classical
  have hlt := par_lt ht hout
  have hun := par_un (K := K)
  have u0 : 0 < u := u_pos
  have u1 : u < 1 := by rw [u_val]; norm_num
  generalize hm : N - q = m
  induction m using Nat.strongRecOn generalizing q T with
  | _ m ih =>
    have hperm : T.Perm ((kidsAbove N K 0 q).flatMap (fun l => T.filter (fun t => decide (ReflTransGen (fun a b => (K a).parent = some b) t l)))) := by
      rw [List.perm_ext_iff_of_nodup hT]
      · intro t
        simp only [List.mem_flatMap, List.mem_filter, decide_eq_true_eq]
        constructor
        · intro h
          obtain ⟨l, p1, p2⟩ := below_child (h1 t h)
          exact ⟨l, (mem_kids hout).2 p1, h, p2⟩
        · rintro ⟨_, _, h, _⟩; exact h
      · rw [List.nodup_flatMap]
        refine ⟨fun l _ => hT.filter _, List.Pairwise.imp_of_mem (fun {a b} ha hb hne t p1 p2 => ?_) nodup_kids⟩
        simp only [List.mem_filter, decide_eq_true_eq] at p1 p2
        exact hne (children_disjoint hlt hun ((mem_kids hout).1 ha) ((mem_kids hout).1 hb) p1.2 p2.2)
    have hsum : (T.map (fun l => (K l).stability.1)).sum =
        ((kidsAbove N K 0 q).map (fun k => ((T.filter (fun t => decide (ReflTransGen (fun a b => (K a).parent = some b) t k))).map (fun l => (K l).stability.1)).sum)).sum := by
      rw [(hperm.map _).sum_eq, sum_flatMap']
    have key : ∀ l ∈ kidsAbove N K 0 q, (1 - u) ^ (N - l) * ((T.filter (fun t => decide (ReflTransGen (fun a b => (K a).parent = some b) t l))).map (fun l => (K l).stability.1)).sum ≤ (best V l).1 := by
      intro l hl
      have hp := (mem_kids hout).1 hl
      have hb := mem_kidsAbove.1 hl
      have h0 := hlt _ _ hp
      have hst : (V l).stability = (K l).stability := by rw [hv.stat]
      by_cases hlT : l ∈ T
      · have hf : T.filter (fun t => decide (ReflTransGen (fun a b => (K a).parent = some b) t l)) = [l] := by
          have : (T.filter (fun t => decide (ReflTransGen (fun a b => (K a).parent = some b) t l))).Perm [l] := by
            rw [List.perm_ext_iff_of_nodup (hT.filter _) (by simp)]
            intro t
            simp only [List.mem_filter, decide_eq_true_eq, List.mem_singleton]
            constructor
            · rintro ⟨p1, p2⟩
              rcases reflTransGen_iff_eq_or_transGen.1 p2 with h | h
              · exact h.symm
              · exact absurd h (h2 l hlT t p1)
            · rintro rfl; exact ⟨hlT, .refl⟩
          exact List.perm_singleton.1 this
        rw [hf]
        simp only [List.map_cons, List.map_nil, List.sum_cons, List.sum_nil, add_zero]
        have hge : (V l).stability.1 ≤ (best V l).1 := best_ge ht hout hv hn (l := l)
        rw [hst] at hge
        exact (mul_le_of_le_one_left (hpos l q hp) (pow_le_one₀ (by linarith) (by linarith))).trans hge
      · -- `l` is not chosen, so it is no leaf
        have hup : ∀ t ∈ T, ¬ TransGen (fun a b => (K a).parent = some b) l t := fun t p1 p2 => none_between hlt hun hp p2 (h1 t p1)
        have hkid : ∃ l', (K l').parent = some l := by
          by_contra hleaf
          obtain ⟨t, p1, p2⟩ := h3 l (fun l' h => hleaf ⟨l', h⟩) (.single hp)
          rcases reflTransGen_iff_eq_or_transGen.1 p2 with h | h
          · exact hlT (h ▸ p1)
          · exact hup t p1 h
        obtain ⟨l', hl'⟩ := hkid
        have i1 := ih (N - l) (by omega) l (T.filter (fun t => decide (ReflTransGen (fun a b => (K a).parent = some b) t l))) (hT.filter _)
          (by
            intro t p1
            simp only [List.mem_filter, decide_eq_true_eq] at p1
            rcases reflTransGen_iff_eq_or_transGen.1 p1.2 with h | h
            · exact absurd (h ▸ p1.1) hlT
            · exact h)
          (by
            intro s p1 t p2
            exact h2 s (List.mem_filter.1 p1).1 t (List.mem_filter.1 p2).1)
          (by
            intro l0 hleaf p1
            obtain ⟨t, p2, p3⟩ := h3 l0 hleaf (p1.tail hp)
            refine ⟨t, ?_, p3⟩
            simp only [List.mem_filter, decide_eq_true_eq]
            refine ⟨p2, ?_⟩
            rcases comparable hun p3 p1.to_reflTransGen with h | h
            · exact h
            · rcases reflTransGen_iff_eq_or_transGen.1 h with h | h
              · rw [h]
              · exact absurd h (hup t p2)) rfl
        have hge : (V l).propStability.1 ≤ (best V l).1 := best_ge' ht hout hv hn hl'
        exact i1.trans hge
    have hq : ∀ l ∈ kidsAbove N K 0 q, q < l := fun l hl => hlt _ _ ((mem_kids hout).1 hl)
    have hbest : ∀ l ∈ kidsAbove N K 0 q, 0 ≤ (best V l).1 := by
      intro l hl
      have hp := (mem_kids hout).1 hl
      have hst : (V l).stability = (K l).stability := by rw [hv.stat]
      have hge : (V l).stability.1 ≤ (best V l).1 := best_ge ht hout hv hn (l := l)
      rw [hst] at hge
      exact (hpos l q hp).trans hge
    obtain ⟨-, f1, -⟩ := fold_bounds ha (best V) (kidsAbove N K 0 q) q (kids_desc q) hq hbest
    have hst : (V q).propStability = (kidsAbove N K 0 q).foldl (fun s l => ar.add s (best V l)) ar.zeroS := hv.stab q
    rw [hst]
    refine le_trans ?_ f1
    rw [hsum, ← List.sum_map_mul_left]
    refine List.sum_le_sum fun l hl => ?_
    have hb := mem_kidsAbove.1 hl
    have h1 := hq l hl
    have e : m = (l - q) + (N - l) := by omega
    rw [e, pow_add, mul_assoc]
    exact mul_le_mul_of_nonneg_left (key l hl) (pow_nonneg (by linarith) _)
end

/-- Two bounds together. -/
theorem ratio_bound {n : Nat} {a b p : ℚ} (h1 : (1 - u) ^ n * a ≤ p) (h2 : p ≤ (1 + u) ^ n * b) (ha : 0 ≤ a) : (1 - 2 * n * u) * a ≤ b := by
  have u0 : 0 < u := u_pos
  have u1 : u ≤ 1 / 4 := by rw [u_val]; norm_num
  generalize u = v at *
  have hb : 1 - 2 * n * v ≤ (1 - 2 * v) ^ n := by
    have := one_add_mul_le_pow (a := -(2 * v)) (by linarith) n
    calc 1 - 2 * n * v = 1 + n * -(2 * v) := by ring
      _ ≤ (1 + -(2 * v)) ^ n := this
      _ = _ := by rw [← sub_eq_add_neg]
  have hc : (1 - 2 * v) ^ n * (1 + v) ^ n ≤ (1 - v) ^ n := by
    rw [← mul_pow]
    refine pow_le_pow_left₀ (mul_nonneg (by linarith) (by linarith)) ?_ n
    nlinarith [mul_pos u0 u0]
  have hp : 0 < (1 + v) ^ n := pow_pos (by linarith) n
  have h3 : (1 + v) ^ n * ((1 - 2 * n * v) * a) ≤ (1 + v) ^ n * b := by
    calc (1 + v) ^ n * ((1 - 2 * n * v) * a) ≤ (1 + v) ^ n * ((1 - 2 * v) ^ n * a) := mul_le_mul_of_nonneg_left (mul_le_mul_of_nonneg_right hb ha) hp.le
      _ = ((1 - 2 * v) ^ n * (1 + v) ^ n) * a := by ring
      _ ≤ (1 - v) ^ n * a := mul_le_mul_of_nonneg_right hc ha
      _ ≤ _ := h1.trans h2
  exact le_of_mul_le_mul_left h3 hp

end Verif.Sel
