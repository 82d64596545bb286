import Verif.Model.Concrete
import Verif.Lemmas.SetT
import Verif.Props.Collections
import Mathlib.Data.List.Forall2
/-
Helper lemmas for the container-level model: a set of point numbers or labels below 2^31 in memory behaves like the increasing list of
its elements, and a loop over a list in memory like a loop over the sequence it holds.
-/
namespace Verif.Conc
open Spec AList
variable {α σ : Type}

/-- `c` does whatever `p` does: if `p` returns, so does `c`, with a related result. -/
def Refines {α β : Type} (R : α → β → Prop) (c : Outcome α) (p : Outcome β) : Prop := ∀ b, p = .ok b → ∃ a, c = .ok a ∧ R a b

theorem Refines.ok {α β : Type} {R : α → β → Prop} {a : α} {b : β} (h : R a b) : Refines R (.ok a) (.ok b) := by
  intro b' e
  cases e
  exact ⟨a, rfl, h⟩

theorem Refines.bind {α β α' β' : Type} {R : α → β → Prop} {Q : α' → β' → Prop} {c : Outcome α} {p : Outcome β} {f : α → Outcome α'}
    {g : β → Outcome β'} (h : Refines R c p) (k : ∀ a b, p = .ok b → R a b → Refines Q (f a) (g b)) : Refines Q (c >>= f) (p >>= g) := by
  intro b' e
  obtain ⟨b, e1, e2⟩ := Outcome.bind_eq_ok.1 e
  obtain ⟨a, e3, hr⟩ := h b e1
  obtain ⟨a', e4, hq⟩ := k a b e1 hr b' e2
  exact ⟨a', by rw [e3, Outcome.ok_bind, e4], hq⟩

/-- The concrete side makes a step the abstract side does not have. -/
theorem Refines.step {α α' β' : Type} {Q : α' → β' → Prop} {c : Outcome α} {a : α} {f : α → Outcome α'} {p : Outcome β'} (h : c = .ok a)
    (k : Refines Q (f a) p) : Refines Q (c >>= f) p := by
  rw [h, Outcome.ok_bind]
  exact k

/-- The abstract side fails. -/
theorem Refines.fail {α β : Type} {R : α → β → Prop} {c : Outcome α} {p : Outcome β} (h : ∀ b, p ≠ .ok b) : Refines R c p :=
  fun b e => absurd e (h b)

theorem Refines.mono {α β : Type} {R Q : α → β → Prop} {c : Outcome α} {p : Outcome β} (h : Refines R c p) (k : ∀ a b, p = .ok b → R a b → Q a b) :
    Refines Q c p := by
  intro b e
  obtain ⟨a, e1, hr⟩ := h b e
  exact ⟨a, e1, k a b e hr⟩

theorem Refines.rd {β : Type} {R : α → β → Prop} {as : List α} {bs : List β} (h : List.Forall₂ R as bs) (i : Nat) :
    Refines R (rd as i) (rd bs i) := by
  intro b e
  have hl := h.length_eq
  by_cases hi : i < bs.length
  · rw [rd_ok hi] at e
    cases e
    have hi' : i < as.length := by omega
    refine ⟨as[i], rd_ok hi', ?_⟩
    exact List.forall₂_iff_get.1 h |>.2 i hi' hi
  · simp [Verif.rd, hi] at e

theorem forall₂_set {β : Type} {R : α → β → Prop} : ∀ {as : List α} {bs : List β}, List.Forall₂ R as bs → ∀ {i : Nat} {a : α} {b : β}, R a b →
    List.Forall₂ R (as.set i a) (bs.set i b) := by
  intro as bs h
  induction h with
  | nil => intro i a b _; simp
  | cons h1 h2 ih =>
    intro i a b hr
    cases i with
    | zero => exact .cons hr h2
    | succ i => exact .cons h1 (ih hr)

theorem Refines.wr {β : Type} {R : α → β → Prop} {as : List α} {bs : List β} (h : List.Forall₂ R as bs) (i : Nat) {a : α} {b : β} (hr : R a b) :
    Refines (List.Forall₂ R) (wr as i a) (wr bs i b) := by
  intro b' e
  have hl := h.length_eq
  by_cases hi : i < bs.length
  · rw [wr_ok hi] at e
    cases e
    exact ⟨as.set i a, wr_ok (by omega), forall₂_set h hr⟩
  · simp [Verif.wr, hi] at e

/-! ### Loops over lists -/

theorem forFrom_rep {v : AList α} {xs : List α} (h : Rep v xs) (body : α → σ → Outcome σ) : ∀ (k i : Nat) (s : σ), i + k = xs.length →
    forFrom v body k i s = (xs.drop i).foldlM (fun s x => body x s) s := by
  intro k
  induction k with
  | zero =>
    intro i s e
    rw [List.drop_eq_nil_of_le (by omega)]
    rfl
  | succ k ih =>
    intro i s e
    have hi : i < xs.length := by omega
    rw [List.drop_eq_getElem_cons hi, List.foldlM_cons]
    simp only [forFrom, readSlot_rep h hi, Outcome.ok_bind]
    cases body xs[i] s with
    | ok s' => simp only [Outcome.ok_bind]; exact ih (i + 1) s' (by omega)
    | ub w => rfl
    | abort w => rfl
    | diverge => rfl

theorem forEach_rep {v : AList α} {xs : List α} (h : Rep v xs) (body : α → σ → Outcome σ) (s : σ) :
    forEach v body s = xs.foldlM (fun s x => body x s) s := by
  unfold forEach
  rw [forFrom_rep h body v.size 0 s (by rw [h.size]; omega)]
  rfl

/-! ### Sets of numbers -/

/-- The comparison of numbers. -/
def natCompare (a b : Nat) : Int := intCompare (a : Int) (b : Int)

theorem natCompare_lawful : LawfulCmp natCompare where
  swap := fun a b => Props.intCompare_lawful.swap a b
  le_trans := fun a b c => Props.intCompare_lawful.le_trans a b c
  eq_iff := fun a b => (Props.intCompare_lawful.eq_iff a b).trans (by omega)

theorem natCompare_neg (a b : Nat) : natCompare a b < 0 ↔ a < b := by
  unfold natCompare intCompare
  split
  · omega
  · split <;> omega

theorem natCompare_pos (a b : Nat) : natCompare a b > 0 ↔ b < a := by
  unfold natCompare intCompare
  split
  · omega
  · split <;> omega

theorem indexCompare_nat {a b : Nat} (ha : a < 2147483648) (hb : b < 2147483648) : indexCompare a b = natCompare a b := by
  have h : ∀ x : Nat, x < 2147483648 → asInt32 x = (x : Int) := by
    intro x hx
    unfold asInt32
    have e : x % 2 ^ 32 = x := Nat.mod_eq_of_lt (by omega)
    simp only [e]
    rw [if_pos (by omega)]
  unfold indexCompare natCompare
  rw [h a ha, h b hb]

theorem insertPos_congr {cmp cmp' : α → α → Int} {s : AList α} {xs : List α} (h : Rep s xs) {x : α} (hc : ∀ y ∈ xs, cmp y x = cmp' y x) :
    ∀ (fuel low high : Nat), high ≤ xs.length → low < high → SetT.insertPos cmp s x fuel low high = SetT.insertPos cmp' s x fuel low high := by
  intro fuel
  induction fuel with
  | zero => intro low high _ _; rfl
  | succ fuel ih =>
    intro low high hh hl
    have hm : low + (high - low) / 2 < xs.length := by omega
    simp only [SetT.insertPos, readSlot_rep h hm, Outcome.ok_bind, hc _ (List.getElem_mem hm)]
    by_cases c1 : cmp' xs[low + (high - low) / 2] x < 0
    · simp only [if_pos c1]
      by_cases c2 : low + (high - low) / 2 + 1 < high
      · simp only [if_pos c2]; exact ih _ _ hh c2
      · simp only [if_neg c2]
    · simp only [if_neg c1]
      by_cases c2 : cmp' xs[low + (high - low) / 2] x > 0
      · simp only [if_pos c2]
        by_cases c3 : low < low + (high - low) / 2
        · simp only [if_pos c3]; exact ih _ _ (by omega) c3
        · simp only [if_neg c3]
      · simp only [if_neg c2]

theorem insert_congr {cmp cmp' : α → α → Int} {s : AList α} {xs : List α} (h : Rep s xs) {x : α} (hc : ∀ y ∈ xs, cmp y x = cmp' y x) :
    SetT.insert cmp s x = SetT.insert cmp' s x := by
  unfold SetT.insert
  by_cases hs : s.size > 0
  · rw [if_pos hs, if_pos hs, insertPos_congr h hc _ 0 s.size (by rw [h.size]) hs]
  · rw [if_neg hs, if_neg hs]

theorem binarySearch_congr {cmp cmp' : α → α → Int} {s : AList α} {xs : List α} (h : Rep s xs) {x : α} (hc : ∀ y ∈ xs, cmp y x = cmp' y x) :
    ∀ (fuel : Nat) (lo hi : Int), 0 ≤ lo → hi < xs.length → AList.binarySearch cmp s x fuel lo hi = AList.binarySearch cmp' s x fuel lo hi := by
  intro fuel
  induction fuel with
  | zero => intro lo hi _ _; rfl
  | succ fuel ih =>
    intro lo hi h0 h1
    by_cases hle : hi ≥ lo
    · simp only [AList.binarySearch, if_pos hle]
      have e : Int.tdiv (hi - lo) 2 = (hi - lo) / 2 := Int.tdiv_eq_ediv_of_nonneg (by omega)
      rw [e]
      rw [if_neg (by omega), if_neg (by omega)]
      have hm : (lo + (hi - lo) / 2).toNat < xs.length := by omega
      simp only [readSlot_rep h hm, Outcome.ok_bind, hc _ (List.getElem_mem hm)]
      by_cases c1 : cmp' xs[(lo + (hi - lo) / 2).toNat] x = 0
      · simp only [if_pos c1]
      · simp only [if_neg c1]
        by_cases c2 : cmp' xs[(lo + (hi - lo) / 2).toNat] x > 0
        · simp only [if_pos c2]; exact ih _ _ h0 (by omega)
        · simp only [if_neg c2]; exact ih _ _ (by omega) h1
    · simp only [AList.binarySearch, if_neg hle]

theorem find_congr {cmp cmp' : α → α → Int} {s : AList α} {xs : List α} (h : Rep s xs) {x : α} (hc : ∀ y ∈ xs, cmp y x = cmp' y x) :
    SetT.find cmp s x = SetT.find cmp' s x := by
  unfold SetT.find AList.find
  simp only [if_true]
  exact binarySearch_congr h hc _ 0 _ (by omega) (by rw [h.size]; omega)

theorem remove_congr {cmp cmp' : α → α → Int} {s : AList α} {xs : List α} (h : Rep s xs) {x : α} (hc : ∀ y ∈ xs, cmp y x = cmp' y x) :
    SetT.remove cmp s x = SetT.remove cmp' s x := by
  unfold SetT.remove
  rw [find_congr h hc]

/-- The set in memory holds exactly the increasing sequence `xs` of numbers below 2^31. -/
structure URep (s : AList Nat) (xs : List Nat) : Prop where
  rep : Rep s xs
  sorted : xs.Pairwise (· < ·)
  small : ∀ x ∈ xs, x < 2147483648

theorem URep.strict {s : AList Nat} {xs : List Nat} (h : URep s xs) : StrictSorted natCompare xs :=
  h.sorted.imp (fun {a b} hab => (natCompare_neg a b).2 hab)

theorem URep.agree {s : AList Nat} {xs : List Nat} (h : URep s xs) {x : Nat} (hx : x < 2147483648) : ∀ y ∈ xs, indexCompare y x = natCompare y x :=
  fun y hy => indexCompare_nat (h.small y hy) hx

theorem setInsert_nat (xs : List Nat) (x : Nat) : setInsert natCompare xs x = sInsert xs x := by
  unfold setInsert sInsert
  simp only [natCompare_neg, natCompare_pos]

theorem URep.insert {s : AList Nat} {xs : List Nat} (h : URep s xs) {x : Nat} (hx : x < 2147483648) :
    ∃ s', SetT.insert indexCompare s x = .ok (if x ∈ xs then 0 else 1, s') ∧ URep s' (sInsert xs x) := by
  obtain ⟨s', e, hr, _⟩ := SetT.insert_rep natCompare_lawful h.rep h.strict x
  have hs := SetT.setInsert_sorted natCompare_lawful h.strict x
  have hm := SetT.setInsert_mem natCompare_lawful xs x
  rw [setInsert_nat] at hr hs
  refine ⟨s', by rw [insert_congr h.rep (h.agree hx)]; exact e, hr, hs.imp (fun {a b} hab => (natCompare_neg a b).1 hab), ?_⟩
  intro y hy
  rw [← setInsert_nat] at hy
  rcases (hm y).1 hy with hy | hy
  · subst hy; exact hx
  · exact h.small y hy

theorem URep.put {s : AList Nat} {xs : List Nat} (h : URep s xs) {x : Nat} (hx : x < 2147483648) :
    ∃ s', put x s = .ok s' ∧ URep s' (sInsert xs x) := by
  obtain ⟨s', e, hr⟩ := h.insert hx
  exact ⟨s', by unfold Conc.put; rw [e]; rfl, hr⟩

theorem URep.remove {s : AList Nat} {xs : List Nat} (h : URep s xs) {x : Nat} (hx : x < 2147483648) :
    ∃ r s', SetT.remove indexCompare s x = .ok (r, s') ∧ URep s' (sRemove xs x) := by
  obtain ⟨s', e, hr, _⟩ := SetT.remove_rep natCompare_lawful h.rep h.strict x
  refine ⟨_, s', by rw [remove_congr h.rep (h.agree hx)]; exact e, hr, ?_, ?_⟩
  · exact h.sorted.filter _
  · intro y hy
    exact h.small y (List.mem_of_mem_filter hy)

theorem URep.find {s : AList Nat} {xs : List Nat} (h : URep s xs) {x : Nat} (hx : x < 2147483648) :
    ∃ r, SetT.find indexCompare s x = .ok r ∧ (r > -1 ↔ x ∈ xs) := by
  have e := SetT.find_rep natCompare_lawful h.rep h.strict x
  refine ⟨_, by rw [find_congr h.rep (h.agree hx)]; exact e, ?_⟩
  by_cases hm : x ∈ xs
  · rw [if_pos hm]
    exact ⟨fun _ => hm, fun _ => by omega⟩
  · rw [if_neg hm]
    exact ⟨fun h => by omega, fun h => absurd h hm⟩

theorem URep.size {s : AList Nat} {xs : List Nat} (h : URep s xs) : s.size = xs.length := h.rep.size

theorem URep.empty_iff {s : AList Nat} {xs : List Nat} (h : URep s xs) : s.size = 0 ↔ xs = [] := by
  rw [h.size]; exact List.length_eq_zero_iff

theorem URep.removeLast {s : AList Nat} {xs : List Nat} (h : URep s xs) {x : Nat} (hx : xs.getLast? = some x) :
    ∃ s', (SetT.removeAt s (s.size - 1) >>= got) = .ok (x, s') ∧ URep s' xs.dropLast := by
  obtain ⟨s', e, hr, _⟩ := removeAt_rep h.rep (s.size - 1)
  have hne : xs ≠ [] := by rintro rfl; simp at hx
  have h1 : xs[s.size - 1]? = some x := by
    rw [h.size, ← List.getLast?_eq_getElem?]; exact hx
  have h2 : xs.eraseIdx (s.size - 1) = xs.dropLast := by
    rw [h.size]
    exact List.eraseIdx_length_sub_one
  rw [h1] at e
  rw [h2] at hr
  refine ⟨s', by rw [SetT.removeAt, e]; rfl, hr, ?_, ?_⟩
  · exact h.sorted.sublist (List.dropLast_sublist xs)
  · intro y hy; exact h.small y ((List.dropLast_sublist xs).mem hy)

theorem URep.clear {s : AList Nat} {xs : List Nat} (h : URep s xs) : URep (s.clear false) [] :=
  ⟨(clear_rep h.rep).1, List.Pairwise.nil, by simp⟩

theorem urep_init : ∃ s : AList Nat, SetT.init = .ok s ∧ URep s [] ∧ s.maxSize = 2 := by
  obtain ⟨s, e, h, hm⟩ := rep_init (α := Nat) (n := 2) (by omega)
  exact ⟨s, e, ⟨h, List.Pairwise.nil, by simp⟩, hm⟩

/-- Inserting all elements of a list into a set. -/
theorem putAll {v : AList Nat} {ps : List Nat} (hv : Rep v ps) (hb : ∀ p ∈ ps, p < 2147483648) {s : AList Nat} {xs : List Nat} (h : URep s xs) :
    ∃ s', forEach v put s = .ok s' ∧ URep s' (ps.foldl sInsert xs) := by
  rw [forEach_rep hv]
  clear hv
  induction ps generalizing s xs with
  | nil => exact ⟨s, rfl, h⟩
  | cons p r ih =>
    obtain ⟨s1, e1, h1⟩ := h.put (hb p (by simp))
    obtain ⟨s2, e2, h2⟩ := ih (fun q hq => hb q (by simp [hq])) h1
    exact ⟨s2, by rw [List.foldlM_cons, e1]; exact e2, h2⟩

/-- A list in memory holding numbers below 2^31, in any order. -/
structure LRep (s : AList Nat) (xs : List Nat) : Prop where
  rep : Rep s xs
  small : ∀ x ∈ xs, x < 2147483648

theorem URep.list {s : AList Nat} {xs : List Nat} (h : URep s xs) : LRep s xs := ⟨h.rep, h.small⟩

theorem LRep.append {s : AList Nat} {xs : List Nat} (h : LRep s xs) {x : Nat} (hx : x < 2147483648) :
    ∃ s', s.append x = .ok s' ∧ LRep s' (xs ++ [x]) := by
  obtain ⟨s', e, hr, _⟩ := append_rep h.rep x
  refine ⟨s', e, hr, ?_⟩
  intro y hy
  rcases List.mem_append.1 hy with hy | hy
  · exact h.small y hy
  · simp only [List.mem_singleton] at hy; subst hy; exact hx

theorem LRep.pop {s : AList Nat} {xs : List Nat} (h : LRep s xs) {x : Nat} (hx : xs.getLast? = some x) :
    ∃ s', (s.pop >>= got) = .ok (x, s') ∧ LRep s' xs.dropLast := by
  obtain ⟨s', e, hr, _⟩ := pop_rep h.rep
  rw [hx] at e
  exact ⟨s', by rw [e]; rfl, hr, fun y hy => h.small y ((List.dropLast_sublist xs).mem hy)⟩

theorem LRep.empty_iff {s : AList Nat} {xs : List Nat} (h : LRep s xs) : s.size = 0 ↔ xs = [] := by
  rw [h.rep.size]; exact List.length_eq_zero_iff

theorem LRep.clear {s : AList Nat} {xs : List Nat} (h : LRep s xs) : LRep (s.clear false) [] :=
  ⟨(clear_rep h.rep).1, by simp⟩

theorem LRep.remove {s : AList Nat} {xs : List Nat} (h : LRep s xs) {x : Nat} (hx : x < 2147483648) :
    ∃ r s', s.remove indexCompare x = .ok (r, s') ∧ LRep s' (xs.erase x) := by
  obtain ⟨s', e, hr, _⟩ := remove_rep indexCompare h.rep x
  have e2 : xs.eraseP (fun y => indexCompare y x == 0) = xs.erase x := by
    rw [List.erase_eq_eraseP']
    have key : ∀ ys : List Nat, (∀ y ∈ ys, y < 2147483648) → ys.eraseP (fun y => indexCompare y x == 0) = ys.eraseP (fun y => y == x) := by
      intro ys
      induction ys with
      | nil => intro _; rfl
      | cons y r ih =>
        intro hy
        have hc : (indexCompare y x == 0) = (y == x) := by
          rw [indexCompare_nat (hy y (by simp)) hx]
          have := natCompare_lawful.eq_iff y x
          by_cases hyx : y = x
          · subst hyx; simp [this]
          · have : natCompare y x ≠ 0 := fun e => hyx (this.1 e)
            simp [this, hyx]
        rw [List.eraseP_cons, List.eraseP_cons, hc, ih (fun z hz => hy z (by simp [hz]))]
    exact key xs h.small
  rw [e2] at hr
  exact ⟨_, s', e, hr, fun y hy => h.small y (List.mem_of_mem_erase hy)⟩

end Verif.Conc
