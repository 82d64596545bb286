import Verif.Lemmas.ParamRun
import Verif.Lemmas.Propagate
import Mathlib.Algebra.BigOperators.Group.Finset.Basic
import Mathlib.Algebra.BigOperators.Group.Finset.Piecewise
import Mathlib.Algebra.Order.BigOperators.Group.Finset
/-
Two propagations that see related stabilities, where sums are only known to be related as long as they have few terms.
-/
namespace Verif.Param
open Verif Verif.Sel
variable {W W' S S' : Type} [CCmp W] [CCmp W'] [CCmp S] [CCmp S']

/-- Relations on sums of `p` terms, for `p` up to `B`. -/
structure Counted (B : Nat) (Qc : Nat → S → S' → Prop) (ar : Arith W S) (ar' : Arith W' S') : Prop where
  zero : Qc 0 ar.zeroS ar'.zeroS
  add : ∀ {p q s s' t t'}, Qc p s s' → Qc q t t' → p + q ≤ B → Qc (p + q) (ar.add s t) (ar'.add s' t')
  le : ∀ {p q s s' t t'}, Qc p s s' → Qc q t t' → CCmp.le s t = CCmp.le s' t'

theorem kidsAbove_all {N : Nat} {K : Nat → Cl W S} (ht : Tree N K) (l : Nat) : ∀ x, x ≤ l → kidsAbove N K x l = kidsAbove N K 0 l := by
  intro x
  induction x with
  | zero => intro _; rfl
  | succ x ih =>
    intro hx
    rw [← ih (by omega)]
    by_cases h : x + 1 < N
    · rw [kidsAbove_succ h]
      have : ¬ (K (x + 1)).parent = some l := fun hp => by
        have := ht.up (x + 1) l (by omega) h hp
        omega
      rw [if_neg this, List.append_nil]
    · rw [kidsAbove_top (by omega), kidsAbove_top (by omega)]

section
variable {ar : Arith W S} {ar' : Arith W' S'} {N : Nat} {K : Nat → Cl W S} {K' : Nat → Cl W' S'} {V : Nat → Cl W S} {V' : Nat → Cl W' S'}
variable {R R1 : W → W' → Prop} {B : Nat} {Qc : Nat → S → S' → Prop} {c : Nat → Nat}

omit [CCmp W] [CCmp W'] [CCmp S] [CCmp S'] in
theorem kids_same (hp : ∀ l, (K l).parent = (K' l).parent) (x l : Nat) : kidsAbove N K' x l = kidsAbove N K x l := by
  unfold kidsAbove
  congr 2
  funext l'
  rw [hp]

omit [CCmp W] [CCmp W'] [CCmp S] [CCmp S'] in
theorem foldl_rel {α β γ : Type} {P : α → β → Prop} {f : α → γ → α} {g : β → γ → β} {l : List γ} (h : ∀ x ∈ l, ∀ a b, P a b → P (f a x) (g b x)) :
    ∀ {a b}, P a b → P (l.foldl f a) (l.foldl g b) := by
  induction l with
  | nil => intro a b hab; exact hab
  | cons x l ih => intro a b hab; exact ih (fun y hy => h y (List.mem_cons_of_mem _ hy)) (h x List.mem_cons_self _ _ hab)

/-- What the propagation leaves alike in a cluster. -/
structure Chosen (R1 : W → W' → Prop) (B : Nat) (Qc : Nat → S → S' → Prop) (l : Nat) (a : Cl W S) (b : Cl W' S') : Prop where
  wins : l ≠ 1 → Sel.wins a = Sel.wins b
  pncs : a.pncs = b.pncs
  desc : a.desc = b.desc
  low : R1 a.propLowest b.propLowest
  prop : ∃ p, p ≤ B ∧ Qc p a.propStability b.propStability

omit [CCmp W] [CCmp W'] [CCmp S] [CCmp S'] in
theorem sum_step {x : Nat} {p c : Nat → Nat} {z : Nat} {q : Option Nat} :
    ∑ l ∈ Finset.range (x + 1), ((p l + if q = some l then z else 0) + c l) ≤ (∑ l ∈ Finset.range (x + 1), (p l + c l)) + z := by
  have h1 : ∀ l ∈ Finset.range (x + 1), ((p l + if q = some l then z else 0) + c l) = (p l + c l) + (if q = some l then z else 0) := fun l _ => by omega
  rw [Finset.sum_congr rfl h1, Finset.sum_add_distrib]
  apply Nat.add_le_add_left
  cases q with
  | none => simp
  | some q =>
    simp only [Option.some.injEq]
    rw [Finset.sum_ite_eq]
    split <;> omega

/-- Both propagations make the same choices. -/
theorem chosen (ht : Tree N K) (hcl : ∀ l, 1 ≤ l → l < N → ClRel R R1 (fun _ _ => True) (K l) (K' l))
    (hout : ∀ l, l < 1 ∨ N ≤ l → (K l).parent = none) (hout' : ∀ l, l < 1 ∨ N ≤ l → (K' l).parent = none) (hc : Alike R1) (hR : ∀ {a b}, R a b → R1 a b) (hm : R1 ar.dmax ar'.dmax)
    (hQ : Counted B Qc ar ar') (hs : ∀ l, 2 ≤ l → l < N → Qc (c l) (K l).stability (K' l).stability) (hB : ∑ l ∈ Finset.range N, c l ≤ B)
    (hv : VInv ar N K 0 V) (hv' : VInv ar' N K' 0 V') : ∀ l, 1 ≤ l → l < N → Chosen R1 B Qc l (V l) (V' l) := by
  have hpar : ∀ l, (K l).parent = (K' l).parent := by
    intro l
    by_cases h : 1 ≤ l ∧ l < N
    · exact (hcl l h.1 h.2).parent
    · rw [hout l (by omega), hout' l (by omega)]
  have hN := ht.two
  have key : ∀ j, j ≤ N - 1 → ∃ p : Nat → Nat,
      (∀ l, Qc (p l) ((kidsAbove N K (N - 1 - j) l).foldl (fun s l' => ar.add s (if wins (V l') then (V l').stability else (V l').propStability)) ar.zeroS)
        ((kidsAbove N K (N - 1 - j) l).foldl (fun s l' => ar'.add s (if wins (V' l') then (V' l').stability else (V' l').propStability)) ar'.zeroS)) ∧
      (∀ l, p l ≤ B) ∧ ∑ l ∈ Finset.range (N - 1 - j + 1), (p l + c l) ≤ B ∧ ∀ l, N - 1 - j < l → l < N → Chosen R1 B Qc l (V l) (V' l) := by
    intro j
    induction j with
    | zero =>
      intro _
      refine ⟨fun _ => 0, fun l => ?_, fun _ => Nat.zero_le _, ?_, fun l h1 h2 => by omega⟩
      · rw [kidsAbove_top (by omega)]; exact hQ.zero
      · simp only [Nat.zero_add]
        rw [show N - 1 - 0 + 1 = N by omega]
        exact hB
    | succ j ih =>
      intro hj
      obtain ⟨p, p1, p2, p3, p4⟩ := ih (by omega)
      obtain ⟨x, hx⟩ : ∃ x, N - 1 - j = x + 1 := ⟨N - 1 - j - 1, by omega⟩
      have hx' : N - 1 - (j + 1) = x := by omega
      have hxN : x + 1 < N := by omega
      rw [hx] at p1 p3 p4
      rw [hx']
      -- the cluster `x + 1` is finished
      have hK := hcl (x + 1) (by omega) hxN
      have hkids : ∀ l' ∈ kidsAbove N K 0 (x + 1), x + 1 < l' ∧ l' < N ∧ 1 < l' := by
        intro l' h'
        rw [mem_kidsAbove] at h'
        have := ht.up l' (x + 1) (by omega) h'.2.1 h'.2.2
        exact ⟨this.2, h'.2.1, by omega⟩
      have hall := kidsAbove_all ht (x + 1) (x + 1) le_rfl
      have hprop : Qc (p (x + 1)) (V (x + 1)).propStability (V' (x + 1)).propStability := by
        have h1 := p1 (x + 1)
        rw [hall] at h1
        rw [hv.stab, hv'.stab, kids_same hpar]
        exact h1
      have hpn : (V (x + 1)).pncs = (V' (x + 1)).pncs := by
        rw [hv.pncs, hv'.pncs, kids_same hpar, hK.pncs]
        apply foldl_congr'
        intro l' hl' b
        obtain ⟨k1, k2, k3⟩ := hkids l' hl'
        have h4 := p4 l' k1 k2
        have h5 : (V l').ncs = (V' l').ncs := by
          rw [hv.stat, hv'.stat]; exact (hcl l' (by omega) k2).ncs
        rw [h4.wins (by omega), h4.pncs, h5]
      have hds : (V (x + 1)).desc = (V' (x + 1)).desc := by
        rw [hv.desc, hv'.desc, kids_same hpar]
        apply flatMap_congr'
        intro l' hl'
        obtain ⟨k1, k2, k3⟩ := hkids l' hl'
        have h4 := p4 l' k1 k2
        rw [h4.wins (by omega), h4.desc]
      have hlow : R1 (V (x + 1)).propLowest (V' (x + 1)).propLowest := by
        have hf : R1 ((kidsAbove N K 0 (x + 1)).foldl (fun w l' => if CCmp.lt (V l').propLowest w then (V l').propLowest else w) ar.dmax)
            ((kidsAbove N K 0 (x + 1)).foldl (fun w l' => if CCmp.lt (V' l').propLowest w then (V' l').propLowest else w) ar'.dmax) := by
          refine foldl_rel (fun l' hl' a b hab => ?_) hm
          obtain ⟨k1, k2, k3⟩ := hkids l' hl'
          have h4 := (p4 l' k1 k2).low
          rw [hc.lt h4 hab]
          split
          · exact h4
          · exact hab
        rw [hv.low, hv'.low, kids_same hpar]
        dsimp only
        rw [← hpar, ← hc.eq hf hm]
        split
        · split
          · exact hR hK.death
          · exact hf
        · exact hf
      have hw : x + 1 ≠ 1 → wins (V (x + 1)) = wins (V' (x + 1)) := by
        intro h1
        have h2 : (V (x + 1)).ncs = (V' (x + 1)).ncs := by rw [hv.stat, hv'.stat]; exact hK.ncs
        have h3 : (V (x + 1)).hasChildren = (V' (x + 1)).hasChildren := by rw [hv.stat, hv'.stat]; exact hK.hasChildren
        have h4 : Qc (c (x + 1)) (V (x + 1)).stability (V' (x + 1)).stability := by rw [hv.stat, hv'.stat]; exact hs (x + 1) (by omega) hxN
        unfold wins
        rw [h2, h3, hpn, hQ.le hprop h4]
      have hch : Chosen R1 B Qc (x + 1) (V (x + 1)) (V' (x + 1)) := ⟨hw, hpn, hds, hlow, _, p2 _, hprop⟩
      -- its parent has seen it
      have hz : ∃ z, z ≤ p (x + 1) + c (x + 1) ∧ (x + 1 ≠ 1 → Qc z (if wins (V (x + 1)) then (V (x + 1)).stability else (V (x + 1)).propStability)
          (if wins (V' (x + 1)) then (V' (x + 1)).stability else (V' (x + 1)).propStability)) := by
        by_cases h1 : x + 1 = 1
        · exact ⟨0, Nat.zero_le _, fun h => absurd h1 h⟩
        · rw [← hw h1]
          by_cases h2 : wins (V (x + 1))
          · refine ⟨c (x + 1), by omega, fun _ => ?_⟩
            rw [if_pos h2, if_pos h2, hv.stat, hv'.stat]
            exact hs (x + 1) (by omega) hxN
          · refine ⟨p (x + 1), by omega, fun _ => ?_⟩
            rw [if_neg h2, if_neg h2]
            exact hprop
      obtain ⟨z, z1, z2⟩ := hz
      have hsum : ∑ l ∈ Finset.range (x + 1), ((p l + if (K (x + 1)).parent = some l then z else 0) + c l) ≤ B := by
        rw [Finset.sum_range_succ] at p3
        have := sum_step (x := x) (p := p) (c := c) (z := z) (q := (K (x + 1)).parent)
        omega
      have hle : ∀ q, (K (x + 1)).parent = some q → p q + z ≤ B := by
        intro q hq
        have h1 := ht.up (x + 1) q (by omega) hxN hq
        have h2 := Finset.single_le_sum (f := fun l => (p l + if (K (x + 1)).parent = some l then z else 0) + c l) (fun _ _ => Nat.zero_le _) (Finset.mem_range.2 (show q < x + 1 by omega))
        simp only [if_pos hq] at h2
        omega
      refine ⟨fun l => p l + if (K (x + 1)).parent = some l then z else 0, fun l => ?_, fun l => ?_, hsum, fun l h1 h2 => ?_⟩
      · dsimp only
        rw [kidsAbove_succ hxN]
        by_cases hq : (K (x + 1)).parent = some l
        · rw [if_pos hq, if_pos hq, List.foldl_append, List.foldl_append]
          have h1 : x + 1 ≠ 1 := fun h => by
            have := (ht.root (x + 1) (by omega) hxN).2 h
            rw [this] at hq; cases hq
          exact hQ.add (p1 l) (z2 h1) (hle l hq)
        · rw [if_neg hq, if_neg hq, List.append_nil]
          exact p1 l
      · dsimp only
        split
        · exact hle l ‹_›
        · exact p2 l
      · by_cases h3 : l = x + 1
        · rw [h3]; exact hch
        · exact p4 l (by omega) h2
  obtain ⟨_, _, _, _, h⟩ := key (N - 1) le_rfl
  intro l h1 h2
  exact h l (by omega) h2

end

end Verif.Param
