import Verif.Lemmas.Propagate
import Mathlib.Data.List.Sort
/-
Helper lemmas: the examination loop of propagation.
-/
namespace Verif.Sel
open Spec
set_option linter.unusedSectionVars false
variable {W S : Type}

theorem sorted_sInsert {xs : List Nat} (h : xs.Pairwise (· < ·)) (x : Nat) : (sInsert xs x).Pairwise (· < ·) := by
  unfold sInsert
  split
  · exact h
  · rw [List.pairwise_append, List.pairwise_cons]
    refine ⟨h.filter _, ⟨by simp, h.filter _⟩, ?_⟩
    intro a ha b hb
    simp only [List.mem_filter, decide_eq_true_eq, List.mem_cons] at ha hb
    omega

theorem sorted_ext {xs ys : List Nat} (h1 : xs.Pairwise (· < ·)) (h2 : ys.Pairwise (· < ·)) (h : ∀ x, x ∈ xs ↔ x ∈ ys) : xs = ys :=
  List.Pairwise.eq_of_mem_iff h1 h2 (fun x => h x)

variable [CCmp W] [CCmp S] {ar : Arith W S} {N : Nat} {K : Nat → Cl W S}

/-- A cluster has been queued when all labels above `x` are processed. -/
def ready (N : Nat) (K : Nat → Cl W S) (x l : Nat) : Bool := !(K l).hasChildren || !(kidsAbove N K x l).isEmpty

theorem ready_iff {x l : Nat} : ready N K x l = true ↔ (K l).hasChildren = false ∨ ∃ l', x < l' ∧ l' < N ∧ (K l').parent = some l := by
  simp only [ready, Bool.or_eq_true, Bool.not_eq_true', List.isEmpty_eq_false_iff_exists_mem, mem_kidsAbove]

/-- The leaf loop. -/
theorem leaves_rep (ht : Tree N K) {cs : List (Option (Cl W S))} (hr : Rep cs N K) : ∀ (order : List Nat), (∀ i ∈ order, i < N) →
    ∀ (ex : List Nat) (added : List Bool), ex.Pairwise (· < ·) → added.length = N →
    ∃ ex' added', leaves cs order (ex, added) = .ok (ex', added') ∧ ex'.Pairwise (· < ·) ∧ added'.length = N ∧
      (∀ l, l ∈ ex' ↔ l ∈ ex ∨ (1 ≤ l ∧ l ∈ order ∧ (K l).hasChildren = false)) ∧
      (∀ l, l < N → added'[l]? = some true ∨ added'[l]? = added[l]?) ∧
      (∀ l, l < N → (1 ≤ l ∧ l ∈ order ∧ (K l).hasChildren = false → added'[l]? = some true) ∧ (¬ (1 ≤ l ∧ l ∈ order ∧ (K l).hasChildren = false) → added'[l]? = added[l]?)) := by
  intro order
  induction order with
  | nil =>
    intro _ ex added h1 h2
    exact ⟨ex, added, rfl, h1, h2, by simp, by simp, by simp⟩
  | cons i r ih =>
    intro hi ex added h1 h2
    have hiN := hi i (by simp)
    rcases Nat.eq_zero_or_pos i with h0 | hpos
    · subst h0
      obtain ⟨ex', added', e, a1, a2, a3, a4, a5⟩ := ih (fun j hj => hi j (by simp [hj])) ex added h1 h2
      refine ⟨ex', added', ?_, a1, a2, ?_, a4, ?_⟩
      · simp only [leaves, rd, hr.zero, Outcome.ok_bind]; exact e
      · intro l
        rw [a3]
        simp only [List.mem_cons]
        constructor
        · rintro (h | ⟨h1, h2, h3⟩); exacts [.inl h, .inr ⟨h1, .inr h2, h3⟩]
        · rintro (h | ⟨h1, h2 | h2, h3⟩); exacts [.inl h, by omega, .inr ⟨h1, h2, h3⟩]
      · intro l hl
        have : (1 ≤ l ∧ l ∈ 0 :: r ∧ (K l).hasChildren = false) ↔ (1 ≤ l ∧ l ∈ r ∧ (K l).hasChildren = false) := by
          simp only [List.mem_cons]
          constructor
          · rintro ⟨h1, h2 | h2, h3⟩; exacts [by omega, ⟨h1, h2, h3⟩]
          · rintro ⟨h1, h2, h3⟩; exact ⟨h1, .inr h2, h3⟩
        rw [this]
        exact a5 l hl
    · have hlab := ht.label i hpos hiN
      cases hc : (K i).hasChildren with
      | true =>
        obtain ⟨ex', added', e, a1, a2, a3, a4, a5⟩ := ih (fun j hj => hi j (by simp [hj])) ex added h1 h2
        have hiff : ∀ l, (1 ≤ l ∧ l ∈ i :: r ∧ (K l).hasChildren = false) ↔ (1 ≤ l ∧ l ∈ r ∧ (K l).hasChildren = false) := by
          intro l
          simp only [List.mem_cons]
          constructor
          · rintro ⟨h1, h2 | h2, h3⟩
            · subst h2; rw [hc] at h3; simp at h3
            · exact ⟨h1, h2, h3⟩
          · rintro ⟨h1, h2, h3⟩; exact ⟨h1, .inr h2, h3⟩
        refine ⟨ex', added', ?_, a1, a2, ?_, a4, ?_⟩
        · simp only [leaves, rd, hr.at' i hpos hiN, Outcome.ok_bind, hc, Bool.true_eq_false, if_false]; exact e
        · intro l; rw [a3, hiff]
        · intro l hl; rw [hiff]; exact a5 l hl
      | false =>
        obtain ⟨ex', added', e, a1, a2, a3, a4, a5⟩ := ih (fun j hj => hi j (by simp [hj])) (sInsert ex i) (added.set i true) (sorted_sInsert h1 i) (by simp [h2])
        refine ⟨ex', added', ?_, a1, a2, ?_, ?_, ?_⟩
        · simp only [leaves, rd, hr.at' i hpos hiN, Outcome.ok_bind, hc, if_true, hlab, wr_ok (show i < added.length by omega)]; exact e
        · intro l
          rw [a3, mem_sInsert]
          simp only [List.mem_cons]
          constructor
          · rintro ((h | h) | ⟨h1, h2, h3⟩)
            · subst h; exact .inr ⟨hpos, .inl rfl, hc⟩
            · exact .inl h
            · exact .inr ⟨h1, .inr h2, h3⟩
          · rintro (h | ⟨h1, h2 | h2, h3⟩)
            · exact .inl (.inr h)
            · exact .inl (.inl h2)
            · exact .inr ⟨h1, h2, h3⟩
        · intro l hl
          rcases a4 l hl with h | h
          · exact .inl h
          · by_cases hli : l = i
            · subst hli
              left
              rw [h, List.getElem?_set_self (by omega)]
            · right
              rw [h, List.getElem?_set_ne (by omega)]
        · intro l hl
          by_cases hli : l = i
          · subst hli
            refine ⟨fun _ => ?_, fun hn => absurd ⟨hpos, by simp, hc⟩ hn⟩
            rcases a4 l hl with h | h
            · exact h
            · rw [h, List.getElem?_set_self (by omega)]
          · have hiff : (1 ≤ l ∧ l ∈ i :: r ∧ (K l).hasChildren = false) ↔ (1 ≤ l ∧ l ∈ r ∧ (K l).hasChildren = false) := by
              simp [hli]
            rw [hiff]
            have := a5 l hl
            rwa [List.getElem?_set_ne (by omega)] at this

/-- The invariant of the examination loop: the clusters with labels above `x` are processed. -/
structure XInv (ar : Arith W S) (smax : S) (N : Nat) (K : Nat → Cl W S) (x : Nat) (s : St W S) (V : Nat → Cl W S) : Prop where
  rep : Rep s.clusters N V
  inv : VInv ar N K x V
  ex : s.ex = (List.range' 1 x).filter (ready N K x)
  alen : s.added.length = N
  added : ∀ l, 1 ≤ l → l ≤ x → s.added[l]? = some (ready N K x l)
  trace : s.trace = (List.range' (x + 1) (N - 1 - x)).reverse
  inf : s.infinite = (List.range' (x + 1) (N - 1 - x)).any (fun l => CCmp.eq (K l).stability smax)

theorem ready_self (ht : Tree N K) {x : Nat} (h1 : 1 ≤ x) (h2 : x < N) : ready N K x x = true := by
  rw [ready_iff]
  cases h : (K x).hasChildren with
  | false => exact .inl rfl
  | true =>
    obtain ⟨l', q1, q2, q3⟩ := (ht.kids x h1 h2).1 h
    exact .inr ⟨l', (ht.up l' x q1 q2 q3).2, q2, q3⟩

theorem ready_succ {x l : Nat} (h : x + 1 < N) : ready N K x l = (ready N K (x + 1) l || decide ((K (x + 1)).parent = some l)) := by
  unfold ready
  rw [kidsAbove_succ h]
  by_cases hp : (K (x + 1)).parent = some l <;> simp [hp]

theorem XInv.step (ht : Tree N K) {smax : S} {x : Nat} {s : St W S} {V} (h : XInv ar smax N K (x + 1) s V) (hx : x + 1 < N) (fuel : Nat) :
    ∃ s', examine ar smax (fuel + 1) s = examine ar smax fuel s' ∧ XInv ar smax N K x s' (stepV ar V (x + 1)) := by
  have hpar : ∀ l, (V l).parent = (K l).parent := fun l => by rw [h.inv.stat l]
  have hup : ∀ q, (V (x + 1)).parent = some q → 1 ≤ q ∧ q < N := fun q hq => by
    rw [hpar] at hq
    have := ht.up (x + 1) q (by omega) hx hq
    omega
  obtain ⟨cs', e1, hr'⟩ := propagate_rep ar h.rep (x := x + 1) (by omega) hx hup
  have hv' := h.inv.step ht hx
  have hex : s.ex = (List.range' 1 x).filter (ready N K (x + 1)) ++ [x + 1] := by
    rw [h.ex, List.range'_concat, List.filter_append, List.filter_cons]
    simp [Nat.add_comm 1 x, ready_self ht (show 1 ≤ x + 1 by omega) hx]
  have hlast : s.ex.getLast? = some (x + 1) := by rw [hex]; simp
  have hdrop : s.ex.dropLast = (List.range' 1 x).filter (ready N K (x + 1)) := by rw [hex]; simp
  have hget := Hier.getCl_ok (hr'.at' (x + 1) (by omega) hx)
  have hst : (stepV ar V (x + 1) (x + 1)).stability = (K (x + 1)).stability := by rw [hv'.stat]
  have hpp : (stepV ar V (x + 1) (x + 1)).parent = (K (x + 1)).parent := by rw [hv'.stat]
  -- the parent is queued
  have hqueue : ∃ ex added, queueParent cs' (K (x + 1)).parent s.ex.dropLast s.added = .ok (ex, added) ∧
      ex = (List.range' 1 x).filter (ready N K x) ∧ added.length = N ∧ ∀ l, 1 ≤ l → l ≤ x → added[l]? = some (ready N K x l) := by
    cases hq : (K (x + 1)).parent with
    | none =>
      have hre : ∀ l, ready N K x l = ready N K (x + 1) l := fun l => by rw [ready_succ hx, hq]; simp
      refine ⟨_, _, rfl, ?_, h.alen, fun l h1 h2 => ?_⟩
      · rw [hdrop]; exact List.filter_congr (fun l _ => (hre l).symm)
      · rw [h.added l h1 (by omega), hre]
    | some q =>
      obtain ⟨q1, q2⟩ := ht.up (x + 1) q (by omega) hx hq
      have hlab : (stepV ar V (x + 1) q).label = q := by rw [hv'.stat]; exact ht.label q q1 (by omega)
      have ha := h.added q q1 (by omega)
      have hrd : rd s.added q = .ok (ready N K (x + 1) q) := by simp [rd, ha]
      simp only [queueParent, Hier.getCl_ok (hr'.at' q q1 (by omega)), Outcome.ok_bind, hlab, hrd]
      cases hrq : ready N K (x + 1) q with
      | true =>
        have hre : ∀ l, ready N K x l = ready N K (x + 1) l := fun l => by
          rw [ready_succ hx, hq]
          by_cases hl : q = l
          · subst hl; simp [hrq]
          · simp [hl]
        refine ⟨s.ex.dropLast, s.added, by simp, ?_, h.alen, fun l h1 h2 => ?_⟩
        · rw [hdrop]; exact List.filter_congr (fun l _ => (hre l).symm)
        · rw [h.added l h1 (by omega), hre]
      | false =>
        have hre : ∀ l, ready N K x l = true ↔ l = q ∨ ready N K (x + 1) l = true := fun l => by
          rw [ready_succ hx, hq]
          simp only [Option.some.injEq, Bool.or_eq_true, decide_eq_true_eq]
          constructor
          · rintro (h | h); exacts [.inr h, .inl h.symm]
          · rintro (h | h); exacts [.inr h.symm, .inl h]
        refine ⟨sInsert s.ex.dropLast q, s.added.set q true, by simp [wr_ok (show q < s.added.length by rw [h.alen]; omega)], ?_, by simp [h.alen], fun l h1 h2 => ?_⟩
        · refine sorted_ext (sorted_sInsert ?_ _) (List.Pairwise.filter _ (List.pairwise_lt_range' (s := 1) (n := x))) ?_
          · rw [hdrop]
            exact List.Pairwise.filter _ (List.pairwise_lt_range' (s := 1) (n := x))
          · intro l
            rw [mem_sInsert, hdrop, List.mem_filter, List.mem_filter, hre, List.mem_range'_1]
            constructor
            · rintro (h | h)
              · subst h; exact ⟨⟨q1, by omega⟩, .inl rfl⟩
              · exact ⟨h.1, .inr h.2⟩
            · rintro ⟨h1, h2 | h2⟩
              · exact .inl h2
              · exact .inr ⟨h1, h2⟩
        · by_cases hl : l = q
          · subst hl
            rw [List.getElem?_set_self (by rw [h.alen]; omega), (hre l).2 (.inl rfl)]
          · rw [List.getElem?_set_ne (by omega), h.added l h1 (by omega)]
            have := hre l
            simp only [hl, false_or] at this
            rw [Bool.eq_iff_iff.2 this]
  obtain ⟨ex, added, eq, a1, a2, a3⟩ := hqueue
  refine ⟨{ clusters := cs', ex := ex, added := added, infinite := s.infinite || CCmp.eq (K (x + 1)).stability smax, trace := s.trace ++ [x + 1] }, ?_,
    ⟨hr', hv', a1, a2, a3, ?_, ?_⟩⟩
  · simp only [examine, hlast, e1, Outcome.ok_bind, hget, hpp, eq, hst]
  · simp only [h.trace]
    rw [range_split hx]
    simp
  · simp only [h.inf]
    rw [range_split hx, List.any_cons, Bool.or_comm]

theorem examine_rep (ht : Tree N K) {smax : S} : ∀ (x : Nat) {s : St W S} {V} (_ : XInv ar smax N K x s V), x < N → ∀ fuel, x ≤ fuel →
    ∃ s' V', examine ar smax fuel s = .ok s' ∧ XInv ar smax N K 0 s' V' := by
  intro x
  induction x with
  | zero =>
    intro s V h _ fuel _
    have : s.ex = [] := by rw [h.ex]; simp
    cases fuel with
    | zero => exact ⟨s, V, by simp [examine, this], h⟩
    | succ f => exact ⟨s, V, by simp [examine, this], h⟩
  | succ x ih =>
    intro s V h hx fuel hf
    match fuel, hf with
    | fuel + 1, hf =>
      obtain ⟨s1, e1, h1⟩ := h.step ht hx fuel
      obtain ⟨s2, V2, e2, h2⟩ := ih h1 (by omega) fuel (by omega)
      exact ⟨s2, V2, by rw [e1, e2], h2⟩

/-- The whole of propagation. -/
theorem propagateTree_rep (ht : Tree N K) {cs : List (Option (Cl W S))} (hr : Rep cs N K)
    (hfresh : ∀ l, (K l).propStability = ar.zeroS ∧ (K l).propLowest = ar.dmax ∧ (K l).desc = [])
    (hout : ∀ l, N ≤ l → (K l).parent = none) (smax : S) {order : List Nat} (ho : order.Perm (List.range cs.length)) :
    ∃ s V, propagateTree ar smax order cs = .ok s ∧ XInv ar smax N K 0 s V := by
  have hN := ht.two
  have hmem : ∀ l, l ∈ order ↔ l < N := fun l => by rw [ho.mem_iff, List.mem_range, hr.len]
  obtain ⟨ex, added, e, a1, a2, a3, _, a5⟩ := leaves_rep ht hr order (fun i hi => (hmem i).1 hi) [] (List.replicate cs.length false) List.Pairwise.nil (by simp [hr.len])
  have hk : ∀ l, kidsAbove N K (N - 1) l = [] := fun l => kidsAbove_top (by omega)
  have hrd : ∀ l, ready N K (N - 1) l = !(K l).hasChildren := fun l => by simp [ready, hk]
  have hX : XInv ar smax N K (N - 1) { clusters := cs, ex := ex, added := added, infinite := false, trace := [] } K := by
    refine ⟨hr, VInv.start hfresh hout, ?_, a2, fun l h1 h2 => ?_, ?_, ?_⟩
    · refine sorted_ext a1 (List.Pairwise.filter _ (List.pairwise_lt_range' (s := 1) (n := N - 1))) (fun l => ?_)
      rw [a3, List.mem_filter, hrd, List.mem_range'_1, hmem]
      simp only [List.not_mem_nil, false_or, Bool.not_eq_true']
      constructor
      · rintro ⟨h1, h2, h3⟩; exact ⟨⟨h1, by omega⟩, h3⟩
      · rintro ⟨⟨h1, h2⟩, h3⟩; exact ⟨h1, by omega, h3⟩
    · rw [hrd]
      cases hc : (K l).hasChildren with
      | false => exact (a5 l (by omega)).1 ⟨h1, (hmem l).2 (by omega), hc⟩
      | true =>
        rw [(a5 l (by omega)).2 (fun h => by rw [hc] at h; simp at h), hr.len]
        simp [show l < N by omega]
    · simp [show N - 1 - (N - 1) = 0 by omega]
    · simp [show N - 1 - (N - 1) = 0 by omega]
  obtain ⟨s, V, e2, h2⟩ := examine_rep ht (N - 1) hX (by omega) cs.length (by rw [hr.len]; omega)
  exact ⟨s, V, by simp only [propagateTree, e, Outcome.ok_bind, e2], h2⟩

end Verif.Sel
