import Verif.Lemmas.Selection
import Verif.Lemmas.Obs
import Verif.Model.Run
/-
Helper lemmas: from the hierarchy to the labels.
-/
namespace Verif.Sel
open Spec Relation Hier
variable {W S : Type}

section
variable [LinearOrder W] {ar : Arith W S} {n m : Nat} {res : Result W S} {hist : List (W × (Nat → Nat))}
    {cur : Nat → Nat} {noise : Nat → Option W} {last : Nat → Option Nat}

/-- The hierarchy construction leaves a cluster tree in which nothing has been propagated. -/
theorem obs_tree (h : Base ar n m res hist cur noise last) : ClusterTree res.clusters ∧ Unpropagated ar res.clusters ∧
    ∀ (l : Nat) (c : Cl W S), res.clusters[l]? = some (some c) → c.ncs = 0 ∧ c.pncs = 0 := by
  have hroot : ∀ (l : Nat) (c : Cl W S), res.clusters[l]? = some (some c) → (c.parent = none ↔ l = 1) := by
    intro l c hc
    obtain ⟨h1, h2, hi⟩ := h.bk.get hc
    refine ⟨fun hp => ?_, fun hl => (hi.root hl).2⟩
    by_contra hl
    obtain ⟨q, _, _, _, _, b2, _⟩ := hi.born hl
    rw [hp] at b2
    simp at b2
  refine ⟨⟨h.bk.zero, h.bk.two, ?_, hroot, ?_, fun l c hc => h.bk.kids l c hc⟩, ?_, ?_⟩
  · intro l h1 h2
    obtain ⟨c, hc, hi⟩ := h.bk.cl l h1 h2
    exact ⟨c, hc, hi.label⟩
  · rintro l q ⟨c, hc, hq⟩
    obtain ⟨h1, h2, hi⟩ := h.bk.get hc
    have hl : l ≠ 1 := fun hl => by
      have := (hroot l c hc).2 hl
      rw [hq] at this
      simp at this
    obtain ⟨q', _, _, _, _, b2, b3, b4, _⟩ := hi.born hl
    rw [hq] at b2
    simp only [Option.some.injEq] at b2
    subst b2
    exact ⟨b3, b4⟩
  · intro l c hc
    obtain ⟨p1, p2, p3, p4, p5⟩ := (h.bk.get hc).2.2.prop
    exact ⟨p1, p2, p5⟩
  · intro l c hc
    exact ⟨(h.bk.get hc).2.2.prop.2.2.1, (h.bk.get hc).2.2.prop.2.2.2.1⟩

/-- The labels a point carries in the course of time descend in the tree. -/
theorem carries_above (h : Base ar n m res hist cur noise last) {p s t : Nat} (hp : p < n) (hst : s ≤ t) (hl : lab hist cur t p ≠ 0) :
    AtOrAbove res.clusters (lab hist cur s p) (lab hist cur t p) := by
  induction t with
  | zero =>
    have : s = 0 := by omega
    subst this; exact .refl
  | succ t ih =>
    by_cases hs : s = t + 1
    · subst hs; exact .refl
    · have hlt : t < hist.length := by
        have := h.lt_hist hp hl
        omega
      rcases h.bk.mono t p hp hlt with h1 | ⟨h1, h2 | h2⟩
      · rw [h1] at hl ⊢
        exact ih (by omega) hl
      · exact absurd h2 hl
      · have hi := ih (by omega) h1
        -- the new label is a cluster born here
        have hlen := h.bk.lt (t + 1) p hp
        obtain ⟨c, hc, _⟩ := h.bk.cl _ (Nat.one_le_iff_ne_zero.2 hl) hlen
        have hne : lab hist cur (t + 1) p ≠ 1 := by
          intro he
          exact h2 0 (by omega) p hp (by rw [h.bk.one p hp, he])
        obtain ⟨q, s0, w, g, b1, b2, b3, b4, b5, b6, b7, b8, b9, ⟨p', b10, b11⟩, b12⟩ := h.birth hne hc
        have hs0 : s0 = t := by
          rcases Nat.lt_trichotomy s0 t with hlt' | heq | hgt
          · exact absurd b11 (h2 (s0 + 1) (by omega) p' b10)
          · exact heq
          · exact absurd rfl (b12 (t + 1) (by omega) p hp)
        subst hs0
        have hq : g p = q := b8 p hp rfl
        have hlab : lab hist cur s0 p = q := by rw [lab_get b1]; exact hq
        rw [hlab] at hi
        exact ReflTransGen.head ⟨c, hc, b2⟩ hi

/-- Two clusters with a point in common are comparable. -/
theorem common_point (h : Base ar n m res hist cur noise last) {p s t : Nat} (hp : p < n) (h1 : lab hist cur s p ≠ 0) (h2 : lab hist cur t p ≠ 0) :
    AtOrAbove res.clusters (lab hist cur s p) (lab hist cur t p) ∨ AtOrAbove res.clusters (lab hist cur t p) (lab hist cur s p) := by
  rcases Nat.le_total s t with hst | hst
  · exact .inl (carries_above h hp hst h2)
  · exact .inr (carries_above h hp hst h1)
end

/-! ### Grouping -/

theorem addTo_find (key label : Nat) : ∀ (m : List (Nat × List Nat)) (k : Nat),
    (addTo key label m).find? (fun e => e.1 = k) =
      if k = key then some (key, ((m.find? (fun e => e.1 = key)).elim [] (·.2)) ++ [label]) else m.find? (fun e => e.1 = k) := by
  intro m
  induction m with
  | nil =>
    intro k
    by_cases h : k = key
    · subst h; simp [addTo]
    · simp [addTo, h, Ne.symm h]
  | cons e r ih =>
    intro k
    obtain ⟨k0, ls⟩ := e
    by_cases h0 : k0 = key
    · subst h0
      by_cases h : k = k0
      · subst h; simp [addTo]
      · simp [addTo, h, Ne.symm h]
    · by_cases h1 : k0 = k
      · subst h1; simp [addTo, h0]
      · simp only [addTo, h0, if_false, List.find?_cons, h1, decide_false]
        exact ih k

theorem addTo_keys (key label : Nat) : ∀ (m : List (Nat × List Nat)) (k : Nat), k ∈ (addTo key label m).map (·.1) ↔ k = key ∨ k ∈ m.map (·.1) := by
  intro m
  induction m with
  | nil => intro k; simp [addTo]
  | cons e r ih =>
    intro k
    obtain ⟨k0, ls⟩ := e
    by_cases h0 : k0 = key
    · subst h0; simp [addTo]
    · simp only [addTo, h0, if_false, List.map_cons, List.mem_cons, ih]
      constructor
      · rintro (h | h | h) <;> simp [h]
      · rintro (h | h | h) <;> simp [h]

theorem group_rep {cs : List (Option (Cl W S))} {sol : List Nat} {off : Nat → Nat}
    (hsol : ∀ l ∈ sol, ∃ c : Cl W S, cs[l]? = some (some c) ∧ c.label = l ∧ c.offset = off l) :
    ∀ (order : List Nat), (∀ i ∈ order, i < sol.length) → ∀ m0 : List (Nat × List Nat),
    ∃ m, group cs sol order m0 = .ok m ∧
      (∀ k l, (∃ ls, m.find? (fun e => e.1 = k) = some (k, ls) ∧ l ∈ ls) ↔ (∃ ls, m0.find? (fun e => e.1 = k) = some (k, ls) ∧ l ∈ ls) ∨ ∃ i ∈ order, sol[i]? = some l ∧ off l = k) ∧
      (∀ k, k ∈ m.map (·.1) ↔ k ∈ m0.map (·.1) ∨ ∃ i ∈ order, ∃ l, sol[i]? = some l ∧ off l = k) := by
  intro order
  induction order with
  | nil => intro _ m0; exact ⟨m0, rfl, by simp, by simp⟩
  | cons i r ih =>
    intro hi m0
    have hlt := hi i (by simp)
    have hget : sol[i]? = some sol[i] := List.getElem?_eq_getElem hlt
    obtain ⟨c, hc, hl, ho⟩ := hsol sol[i] (List.getElem_mem hlt)
    obtain ⟨m, e, h1, h2⟩ := ih (fun j hj => hi j (by simp [hj])) (addTo c.offset c.label m0)
    refine ⟨m, ?_, ?_, ?_⟩
    · simp only [group, rd_ok hlt, Outcome.ok_bind, getCl_ok hc]; exact e
    · intro k l
      rw [h1, addTo_find, hl, ho]
      simp only [List.mem_cons, exists_eq_or_imp, hget, Option.some.injEq]
      by_cases hk : k = off sol[i]
      · subst hk
        simp only [if_true, Option.some.injEq, Prod.mk.injEq, true_and, exists_eq_left', List.mem_append, List.mem_singleton]
        cases hf : m0.find? (fun e => decide (e.1 = off sol[i])) with
        | none =>
          simp only [Option.elim_none, List.not_mem_nil, false_or, reduceCtorEq, false_and, exists_const]
          constructor
          · rintro (rfl | h); exacts [.inl ⟨rfl, rfl⟩, .inr h]
          · rintro (⟨rfl, _⟩ | h); exacts [.inl rfl, .inr h]
        | some e0 =>
          obtain ⟨k0, ls⟩ := e0
          have hk0 : k0 = off sol[i] := by simpa using List.find?_some hf
          subst hk0
          simp only [Option.elim_some, Option.some.injEq, Prod.mk.injEq, true_and, exists_eq_left']
          constructor
          · rintro ((h | rfl) | h); exacts [.inl h, .inr (.inl ⟨rfl, rfl⟩), .inr (.inr h)]
          · rintro (h | ⟨rfl, _⟩ | h); exacts [.inl (.inl h), .inl (.inr rfl), .inr h]
      · rw [if_neg hk]
        constructor
        · rintro (h | h); exacts [.inl h, .inr (.inr h)]
        · rintro (h | ⟨rfl, h⟩ | h); exacts [.inl h, absurd h.symm hk, .inr h]
    · intro k
      rw [h2, addTo_keys, ho]
      simp only [List.mem_cons, exists_eq_or_imp, hget, Option.some.injEq, exists_eq_left']
      constructor
      · rintro ((rfl | h) | h); exacts [.inr (.inl rfl), .inl h, .inr (.inr h)]
      · rintro (h | rfl | h); exacts [.inl (.inr h), .inl (.inl rfl), .inr h]

/-! ### Labelling -/

/-- A step of the labelling loop that hits label `l`. -/
def Hit (at' : Nat → Nat → Nat) (sel : Nat → Nat → Prop) (k j l : Nat) : Prop := at' k j = l ∧ sel k l

theorem labelAll_rep {lines : List (Nat × W × List Nat)} {m : List (Nat × List Nat)} {n : Nat} (at' : Nat → Nat → Nat)
    (hm : ∀ k, k ∈ m.map (·.1) → ∃ w A, lines.find? (fun h => h.1 = k + 1) = some (k + 1, w, A) ∧ A.length = n ∧ ∀ j, j < n → A[j]? = some (at' k j)) :
    ∀ (steps : List (Nat × Nat)), (∀ x ∈ steps, x.1 ∈ m.map (·.1) ∧ x.2 < n) → ∀ labels : List Nat, labels.length = n →
    ∃ labels', labelAll lines m steps labels = .ok labels' ∧ labels'.length = n ∧
      ∀ j, j < n → (∃ k ls, (k, j) ∈ steps ∧ m.find? (fun e => e.1 = k) = some (k, ls) ∧ at' k j ∈ ls ∧ labels'[j]? = some (at' k j)) ∨
        ((∀ k ls, (k, j) ∈ steps → m.find? (fun e => e.1 = k) = some (k, ls) → at' k j ∉ ls) ∧ labels'[j]? = labels[j]?) := by
  intro steps
  induction steps with
  | nil => intro _ labels hl; exact ⟨labels, rfl, hl, fun j _ => .inr ⟨by simp, rfl⟩⟩
  | cons x r ih =>
    intro hx labels hl
    obtain ⟨k, j⟩ := x
    obtain ⟨hk, hj⟩ := hx (k, j) (by simp)
    simp only at hk hj
    obtain ⟨w, A, e1, e2, e3⟩ := hm k hk
    have hfm : ∃ ls, m.find? (fun e => e.1 = k) = some (k, ls) := by
      cases hf : m.find? (fun e => decide (e.1 = k)) with
      | none =>
        obtain ⟨e, he, hek⟩ := List.mem_map.1 hk
        have := List.find?_eq_none.1 hf e he
        simp [hek] at this
      | some e =>
        obtain ⟨k0, ls⟩ := e
        have : k0 = k := by simpa using List.find?_some hf
        subst this
        exact ⟨ls, rfl⟩
    obtain ⟨ls, hls⟩ := hfm
    have hrd : rd A j = .ok (at' k j) := by simp [rd, e3 j hj]
    have hr : ∀ x ∈ r, x.1 ∈ m.map (·.1) ∧ x.2 < n := fun x h => hx x (by simp [h])
    by_cases hmem : at' k j ∈ ls
    · obtain ⟨l', q1, q2, q3⟩ := ih hr (labels.set j (at' k j)) (by simp [hl])
      refine ⟨l', ?_, q2, ?_⟩
      · simp only [labelAll, labelStep, hls, e1, hrd, Outcome.ok_bind, hmem, if_true, wr_ok (show j < labels.length by omega)]; exact q1
      · intro j' hj'
        rcases q3 j' hj' with ⟨k', ls', a1, a2⟩ | ⟨a1, a2⟩
        · exact .inl ⟨k', ls', by simp [a1], a2⟩
        · by_cases hjj : j' = j
          · subst hjj
            exact .inl ⟨k, ls, by simp, hls, hmem, by rw [a2, List.getElem?_set_self (by omega)]⟩
          · refine .inr ⟨fun k' ls' h1 h2 => ?_, by rw [a2, List.getElem?_set_ne (by omega)]⟩
            rcases List.mem_cons.1 h1 with h | h
            · simp only [Prod.mk.injEq] at h; exact absurd h.2 hjj
            · exact a1 k' ls' h h2
    · obtain ⟨l', q1, q2, q3⟩ := ih hr labels hl
      refine ⟨l', ?_, q2, ?_⟩
      · simp only [labelAll, labelStep, hls, e1, hrd, Outcome.ok_bind, hmem, if_false, Outcome.pure_eq]; exact q1
      · intro j' hj'
        rcases q3 j' hj' with ⟨k', ls', a1, a2⟩ | ⟨a1, a2⟩
        · exact .inl ⟨k', ls', by simp [a1], a2⟩
        · refine .inr ⟨fun k' ls' h1 h2 => ?_, a2⟩
          rcases List.mem_cons.1 h1 with h | h
          · simp only [Prod.mk.injEq] at h
            obtain ⟨rfl, rfl⟩ := h
            rw [hls] at h2
            simp only [Option.some.injEq, Prod.mk.injEq, true_and] at h2
            rw [← h2]; exact hmem
          · exact a1 k' ls' h h2

end Verif.Sel
