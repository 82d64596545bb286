import Verif.Lemmas.Selection
/-
Helper lemmas: leaves of infinite stability are selected.
-/
namespace Verif.Sel
open Spec Relation
variable {W S : Type} [CCmp W] [CCmp S] {ar : Arith W S} {N : Nat} {K V : Nat → Cl W S}

/-- Infinite and finite values of an arithmetic. -/
structure Infinities (ar : Arith W S) (Inf Fin : S → Prop) : Prop where
  zero : Fin ar.zeroS
  inf_inf : ∀ a b, Inf a → Inf b → Inf (ar.add a b)
  inf_fin : ∀ a b, Inf a → Fin b → Inf (ar.add a b)
  fin_inf : ∀ a b, Fin a → Inf b → Inf (ar.add a b)
  fin_fin : ∀ a b, Fin a → Fin b → Fin (ar.add a b) ∨ Inf (ar.add a b)
  le : ∀ a b, Inf a → Fin b → CCmp.le a b = false

variable {Inf Fin : S → Prop}

theorem fold_inf (hI : Infinities ar Inf Fin) (f : Nat → S) (ks : List Nat) : ∀ s, (Fin s ∨ Inf s) → (∀ k ∈ ks, Fin (f k) ∨ Inf (f k)) →
    (Fin (ks.foldl (fun s k => ar.add s (f k)) s) ∨ Inf (ks.foldl (fun s k => ar.add s (f k)) s)) ∧
    ((Inf s ∨ ∃ k ∈ ks, Inf (f k)) → Inf (ks.foldl (fun s k => ar.add s (f k)) s)) := by
  induction ks with
  | nil => intro s hs _; exact ⟨hs, fun h => by simpa using h⟩
  | cons k ks ih =>
    intro s hs hk
    have h1 := hk k (by simp)
    have h2 : Fin (ar.add s (f k)) ∨ Inf (ar.add s (f k)) := by
      rcases hs with hs | hs <;> rcases h1 with h1 | h1
      · exact hI.fin_fin _ _ hs h1
      · exact .inr (hI.fin_inf _ _ hs h1)
      · exact .inr (hI.inf_fin _ _ hs h1)
      · exact .inr (hI.inf_inf _ _ hs h1)
    obtain ⟨i1, i2⟩ := ih _ h2 fun k hk' => hk k (by simp [hk'])
    refine ⟨i1, fun h => i2 ?_⟩
    have add_left : Inf s → Inf (ar.add s (f k)) := fun h => h1.elim (hI.inf_fin _ _ h) (hI.inf_inf _ _ h)
    have add_right : Inf (f k) → Inf (ar.add s (f k)) := fun h => hs.elim (fun hs => hI.fin_inf _ _ hs h) (fun hs => hI.inf_inf _ _ hs h)
    rcases h with h | ⟨k', hk', h⟩
    · exact .inl (add_left h)
    · rcases List.mem_cons.1 hk' with rfl | hk'
      · exact .inl (add_right h)
      · exact .inr ⟨k', hk', h⟩

variable (ht : Tree N K) (hout : ∀ l, N ≤ l ∨ l = 0 → (K l).parent = none) (hv : VInv ar N K 0 V) (hn : ∀ l, (K l).ncs = 0 ∧ (K l).pncs = 0)

include ht hout hv in
theorem prop_num (hI : Infinities ar Inf Fin) (hstab : ∀ l q, (K l).parent = some q → Fin (K l).stability ∨ Inf (K l).stability) (q : Nat) :
    Fin (V q).propStability ∨ Inf (V q).propStability := by
  have hlt := par_lt ht hout
  generalize hm : N - q = m
  induction m using Nat.strongRecOn generalizing q with
  | _ m ih =>
    rw [hv.stab]
    refine (fold_inf hI (fun l' => if wins (V l') then (V l').stability else (V l').propStability) _ _ (.inl hI.zero) fun k hk => ?_).1
    have hp := (mem_kids hout).1 hk
    have hb := mem_kidsAbove.1 hk
    have h0 := hlt _ _ hp
    split
    · rw [hv.stat]; exact hstab k q hp
    · exact ih (N - k) (by omega) k rfl

include ht hout hv hn in
/-- A leaf of infinite stability reaches every cluster above it. -/
theorem inf_selected (hI : Infinities ar Inf Fin) (hstab : ∀ l q, (K l).parent = some q → Fin (K l).stability ∨ Inf (K l).stability)
    (hinner : ∀ l q l', (K l).parent = some q → (K l').parent = some l → Fin (K l).stability)
    {t : Nat} (hleaf : ∀ l', (K l').parent ≠ some t) (hinf : Inf (K t).stability) (q : Nat) (hq : TransGen (fun a b => (K a).parent = some b) t q) :
    t ∈ (V q).desc ∧ Inf (V q).propStability := by
  have hlt := par_lt ht hout
  generalize hm : N - q = m
  induction m using Nat.strongRecOn generalizing q with
  | _ m ih =>
    obtain ⟨l, hl, htl⟩ := below_child hq
    have hk := (mem_kids hout).2 hl
    have hb := mem_kidsAbove.1 hk
    have h0 := hlt _ _ hl
    have hst : (V l).stability = (K l).stability := by rw [hv.stat]
    have key : t ∈ (if wins (V l) then [l] else (V l).desc) ∧ Inf (if wins (V l) then (V l).stability else (V l).propStability) := by
      rcases reflTransGen_iff_eq_or_transGen.1 htl with h | h
      · subst h
        have hw : wins (V l) = true := by
          by_contra hne
          obtain ⟨l', hl'⟩ := not_wins ht hout hv (by omega) hb.2.1 (by simpa using hne)
          exact hleaf l' hl'
        rw [hw, if_pos rfl, if_pos rfl, hst]
        exact ⟨by simp, hinf⟩
      · obtain ⟨i1, i2⟩ := ih (N - l) (by omega) l h rfl
        obtain ⟨l', hl', _⟩ := below_child h
        have hb' := mem_kidsAbove.1 ((mem_kids hout).2 hl')
        have hc : (V l).hasChildren = true := by
          rw [hv.stat]
          exact (ht.kids l (by omega) hb.2.1).2 ⟨l', by omega, hb'.2.1, hl'⟩
        have hw : wins (V l) = false := by
          have hp := pncs_zero ht hout hv hn l
          have h2 : (V l).ncs = 0 := by rw [hv.stat]; exact (hn l).1
          have := hI.le _ _ i2 (hinner l q l' hl hl')
          rw [← hst] at this
          simp [wins, hp, h2, hc, this]
        rw [hw]
        exact ⟨i1, i2⟩
    constructor
    · rw [hv.desc, List.mem_flatMap]
      exact ⟨l, hk, key.1⟩
    · rw [hv.stab]
      refine (fold_inf hI (fun l' => if wins (V l') then (V l').stability else (V l').propStability) _ _ (.inl hI.zero) fun k hk' => ?_).2 (.inr ⟨l, hk, key.2⟩)
      split
      · rw [hv.stat]; exact hstab k q ((mem_kids hout).1 hk')
      · exact prop_num ht hout hv hI hstab k

end Verif.Sel
