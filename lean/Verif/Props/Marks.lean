import Verif.Lemmas.Marks
import Verif.Props.LList
/-
Property C15, second part: exactly which histories of calls on a linked list go wrong.
-/
namespace Verif.Props
open Spec LList
variable {α : Type}

theorem marks_step (cmp : α → α → Int) {l : LList α} {its lost} (h : MRep l its lost) (op : LOp α) (hg : ¬ GoesWrong cmp ⟨its.map (·.2), lost⟩ op) :
    ∃ l' its' lost', l.step cmp op = .ok ((lStep cmp (vals its) op).1, l') ∧ MRep l' its' lost' ∧
      accountStep cmp ⟨its.map (·.2), lost⟩ op = ⟨its'.map (·.2), lost'⟩ ∧ vals its' = (lStep cmp (vals its) op).2 := by
  cases op with
  | frontAdd x =>
    obtain ⟨l', e, hr⟩ := frontAdd_mrep h x
    refine ⟨l', _, _, by simp [LList.step, e, lStep], hr, ?_, ?_⟩
    · simp [accountStep, setFirstItem_snd]
    · cases its <;> rfl
  | tailAdd x =>
    obtain ⟨l', e, hr⟩ := tailAdd_mrep h x (fun hx => hg ⟨hx.1, by simpa using hx.2⟩)
    exact ⟨l', _, _, by simp [LList.step, e, lStep], hr, by simp [accountStep], by simp [vals, lStep]⟩
  | valueAt pos => exact ⟨l, its, lost, by simp [LList.step, valueAt_mrep h, lStep], h, rfl, rfl⟩
  | lookup x =>
    refine ⟨l, its, lost, ?_, h, rfl, rfl⟩
    simp only [LList.step, lookup_mrep h, lStep, Outcome.ok_bind]
    cases (vals its).find? (fun y => cmp y x == 0) <;> rfl
  | head =>
    refine ⟨l, its, lost, ?_, h, rfl, rfl⟩
    simp only [LList.step, headData_mrep h, lStep, Outcome.ok_bind]
    cases (vals its).head? <;> rfl
  | tail =>
    refine ⟨l, its, lost, ?_, h, rfl, rfl⟩
    simp only [LList.step, tailData_mrep h, lStep, Outcome.ok_bind]
    cases its with
    | nil => cases lost <;> rfl
    | cons i r =>
      cases lost with
      | true => exact absurd ⟨rfl, by simp⟩ hg
      | false =>
        simp only [Bool.false_eq_true, if_false]
        cases (vals (i :: r)).getLast? <;> rfl
  | size => exact ⟨l, its, lost, by simp [LList.step, lStep, h.size, vals], h, rfl, rfl⟩
  | clear =>
    obtain ⟨l', e, hr⟩ := clear_mrep h
    exact ⟨l', [], false, by simp [LList.step, e, lStep], hr, rfl, rfl⟩
  | remove x =>
    obtain ⟨l', its', e, hr, he, hv⟩ := remove_mrep h x hg
    exact ⟨l', its', _, by simp [LList.step, e, lStep], hr, by simp [accountStep, he], hv⟩

theorem marks_run (cmp : α → α → Int) (ops : List (LOp α)) : ∀ {l : LList α} {its lost}, MRep l its lost → GoodHistory cmp ⟨its.map (·.2), lost⟩ ops →
    ∃ l' its' lost', l.run cmp ops = .ok ((lRun cmp (vals its) ops).1, l') ∧ MRep l' its' lost' ∧
      accountAfter cmp ⟨its.map (·.2), lost⟩ ops = ⟨its'.map (·.2), lost'⟩ ∧ vals its' = (lRun cmp (vals its) ops).2 := by
  induction ops with
  | nil => intro l its lost h _; exact ⟨l, its, lost, rfl, h, rfl, rfl⟩
  | cons op ops ih =>
    rintro l its lost h ⟨hg, hgs⟩
    obtain ⟨l1, its1, lost1, e1, h1, ha1, hv1⟩ := marks_step cmp h op hg
    rw [ha1] at hgs
    obtain ⟨l2, its2, lost2, e2, h2, ha2, hv2⟩ := ih h1 hgs
    refine ⟨l2, its2, lost2, ?_, h2, ?_, ?_⟩
    · rw [hv1] at e2
      simp [LList.run, e1, e2, lRun]
    · rw [← ha2, ← ha1]; rfl
    · rw [hv2, hv1]; rfl

theorem goodHistory_append (cmp : α → α → Int) (p q : List (LOp α)) : ∀ m, GoodHistory cmp m (p ++ q) ↔ GoodHistory cmp m p ∧ GoodHistory cmp (accountAfter cmp m p) q := by
  induction p with
  | nil => intro m; simp [GoodHistory, accountAfter]
  | cons op p ih =>
    intro m
    simp only [List.cons_append, GoodHistory, ih, accountAfter, List.foldl_cons]
    tauto

theorem llist_run_append (cmp : α → α → Int) (p q : List (LOp α)) : ∀ l : LList α,
    l.run cmp (p ++ q) = (l.run cmp p >>= fun a => a.2.run cmp q >>= fun b => pure (a.1 ++ b.1, b.2)) := by
  induction p with
  | nil =>
    intro l
    simp only [List.nil_append, LList.run, Outcome.ok_bind]
    cases l.run cmp q <;> rfl
  | cons op p ih =>
    intro l
    simp only [List.cons_append, LList.run]
    cases l.step cmp op with
    | ok a =>
      simp only [Outcome.ok_bind, ih]
      cases a.2.run cmp p with
      | ok b =>
        simp only [Outcome.ok_bind, Outcome.pure_eq]
        cases b.2.run cmp q <;> rfl
      | _ => rfl
    | _ => rfl

theorem lRun_append (cmp : α → α → Int) (p q : List (LOp α)) : ∀ xs,
    lRun cmp xs (p ++ q) = ((lRun cmp xs p).1 ++ (lRun cmp (lRun cmp xs p).2 q).1, (lRun cmp (lRun cmp xs p).2 q).2) := by
  induction p with
  | nil => intro xs; simp [lRun]
  | cons op p ih =>
    intro xs
    simp only [List.cons_append, lRun, ih]

/-- **C15 for every history in which no call goes wrong** (`GoodHistory`: no call for the last element after that was removed, and no removal of an element, other than the first,
    whose neighbour in front was removed): it gives back, call by call, what the ideal sequence gives. Missing: the other histories, which the next theorems show to fail. -/
theorem C15_good_history_partial (cmp : α → α → Int) (ops : List (LOp α)) (h : GoodHistory cmp ⟨[], false⟩ ops) :
    ∃ l', (LList.init : LList α).run cmp ops = .ok ((lRun cmp [] ops).1, l') := by
  obtain ⟨l', _, _, e, _⟩ := marks_run cmp ops mrep_init h
  exact ⟨l', e⟩

/-- Removals in the middle and at the end that do no harm. -/
def exGood : List (LOp Int) :=
  [.tailAdd 1, .tailAdd 2, .tailAdd 3, .tailAdd 4, .remove 2, .lookup 3, .remove 4, .size, .valueAt 1, .remove 1, .remove 3, .tailAdd 5, .tail]

theorem noHit {l r : List (Int × Bool)} {x : Int} (es : List (Int × Bool)) (hx : ∀ e ∈ es.tail, e.2 = true → e.1 ≠ x) {y : Int} (he : es = l ++ (y, true) :: r) (hl : l ≠ [])
    (hy : intCompare y x = 0) : False := by
  obtain ⟨a, l, rfl⟩ := List.exists_cons_of_ne_nil hl
  subst he
  refine hx (y, true) (by simp) rfl ?_
  unfold intCompare at hy
  simp only at hy ⊢
  split_ifs at hy <;> omega

example : GoodHistory intCompare ⟨[], false⟩ exGood := by
  simp only [exGood, GoodHistory, GoesWrong, not_false_eq_true, true_and, and_true, not_and, not_exists]
  refine ⟨by decide, by decide, by decide, by decide, ?_, ?_, ?_, ?_, by decide, by decide⟩
  all_goals
    rintro l y r he hl hy
    exact (noHit _ (by decide) he hl hy).elim

/-- **C15 is violated by every other history.** After a good history, whichever call goes wrong:
    * asking for the last element gives NULL although the list is not empty;
    * adding behind the last element follows NULL;
    * the removal reports success, but the last position of the list then holds nothing, although the elements that remain reach to there. -/
theorem C15_wrong_calls_violated (cmp : α → α → Int) (ops : List (LOp α)) (h : GoodHistory cmp ⟨[], false⟩ ops) (op : LOp α)
    (hw : GoesWrong cmp (accountAfter cmp ⟨[], false⟩ ops) op) :
    ∃ l, (LList.init : LList α).run cmp ops = .ok ((lRun cmp [] ops).1, l) ∧ (lRun cmp [] ops).2 ≠ [] ∧
      match op with
      | .tail => l.tailData = .ok none
      | .tailAdd x => (l.tailAdd x).IsUB
      | .remove x => ∃ l' y, l.remove cmp x = .ok (1, l') ∧ l'.valueAt ((lRun cmp [] ops).2.length - 2) = .ok (-1, none) ∧
          ((lRun cmp [] ops).2.eraseP (fun y => cmp y x == 0))[(lRun cmp [] ops).2.length - 2]? = some y
      | _ => False := by
  obtain ⟨l, its, lost, e, hr, ha, hv⟩ := marks_run cmp ops mrep_init h
  rw [show accountAfter cmp ⟨[], false⟩ ops = _ from ha] at hw
  rw [show vals ([] : List (MItem α)) = [] from rfl] at hv e
  have hne : ∀ b : Prop, (its.map (·.2) ≠ [] → b) → its ≠ [] → b := fun b f hi => f (by simpa using hi)
  refine ⟨l, e, ?_, ?_⟩
  · rw [← hv]
    cases op with
    | tail => obtain ⟨_, h2⟩ := hw; cases its <;> simp [vals] at *
    | tailAdd x => obtain ⟨_, h2⟩ := hw; cases its <;> simp [vals] at *
    | remove x => obtain ⟨u, y, r, he, _⟩ := hw; cases its <;> simp [vals] at *
    | _ => exact hw.elim
  · cases op with
    | tail =>
      obtain ⟨h1, h2⟩ := hw
      simp only at h1
      subst h1
      rw [tailData_mrep hr]
      rfl
    | tailAdd x =>
      obtain ⟨h1, h2⟩ := hw
      simp only at h1
      subst h1
      exact ⟨_, tailAdd_lost hr x (by simpa using h2)⟩
    | remove x =>
      obtain ⟨l', e1, e2, e3, e4⟩ := remove_cut hr x hw
      have hlen : (vals its).length = its.length := by simp [vals]
      obtain ⟨z, hz1, hz2⟩ := List.any_eq_true.mp e4
      have hlt : its.length - 2 < ((vals its).eraseP (fun y => cmp y x == 0)).length := by
        rw [List.length_eraseP_of_mem hz1 hz2, hlen]; omega
      rw [← hv, hlen]
      exact ⟨l', _, e1, e2, List.getElem?_eq_getElem hlt⟩
    | _ => exact hw.elim

/-- The three ways: after removing the last of two elements; after removing the second of three. -/
example : GoodHistory intCompare ⟨[], false⟩ [.tailAdd 1, .tailAdd 2, .remove 2] ∧
    GoesWrong intCompare (accountAfter intCompare ⟨[], false⟩ [.tailAdd 1, .tailAdd 2, .remove 2]) .tail ∧
    GoesWrong intCompare (accountAfter intCompare ⟨[], false⟩ [.tailAdd 1, .tailAdd 2, .remove 2]) (.tailAdd 3) := by
  refine ⟨⟨by simp [GoesWrong], by simp [GoesWrong, accountStep], ?_, trivial⟩, ⟨by decide, by decide⟩, by decide, by decide⟩
  rintro ⟨l, y, r, he, hl, hy, _⟩
  exact noHit _ (by decide) he hl hy

example : GoodHistory intCompare ⟨[], false⟩ [.tailAdd 1, .tailAdd 2, .tailAdd 3, .remove 2] ∧
    GoesWrong intCompare (accountAfter intCompare ⟨[], false⟩ [.tailAdd 1, .tailAdd 2, .tailAdd 3, .remove 2]) (.remove 3) := by
  refine ⟨⟨by simp [GoesWrong], by simp [GoesWrong, accountStep], by simp [GoesWrong, accountStep], ?_, trivial⟩, [(1, false)], 3, [], by decide, by decide, by decide, by decide⟩
  rintro ⟨l, y, r, he, hl, hy, _⟩
  exact noHit _ (by decide) he hl hy

theorem first_wrong (cmp : α → α → Int) (ops : List (LOp α)) : ∀ m, ¬ GoodHistory cmp m ops →
    ∃ p op q, ops = p ++ op :: q ∧ GoodHistory cmp m p ∧ GoesWrong cmp (accountAfter cmp m p) op := by
  induction ops with
  | nil => intro m h; exact absurd trivial h
  | cons op ops ih =>
    intro m h
    by_cases hw : GoesWrong cmp m op
    · exact ⟨[], op, ops, rfl, trivial, hw⟩
    · obtain ⟨p, op', q, rfl, h1, h2⟩ := ih (accountStep cmp m op) (fun hg => h ⟨hw, hg⟩)
      exact ⟨op :: p, op', q, rfl, ⟨hw, h1⟩, h2⟩

theorem valueAt_inside (cmp : α → α → Int) (xs : List α) (pos : Int) (h0 : 0 ≤ pos) (h1 : pos < xs.length) : (lStep cmp xs (.valueAt pos)).1.1 = pos := by
  simp only [lStep]
  rw [if_pos ⟨h0, h1⟩]

/-- **The boundary of C15 is exact**: a history is good if and only if, stopped after any number of its calls, the list has answered, and goes on to answer to any call of
    `linkedlist_value_at`, like the ideal sequence. -/
theorem C15_exact_partial (cmp : α → α → Int) (ops : List (LOp α)) :
    GoodHistory cmp ⟨[], false⟩ ops ↔
      ∀ p, p <+: ops → ∀ pos, ∃ l', (LList.init : LList α).run cmp (p ++ [.valueAt pos]) = .ok ((lRun cmp [] (p ++ [.valueAt pos])).1, l') := by
  constructor
  · rintro h p ⟨q, rfl⟩ pos
    refine C15_good_history_partial cmp _ ((goodHistory_append cmp _ _ _).mpr ⟨((goodHistory_append cmp _ _ _).mp h).1, ?_, trivial⟩)
    exact fun hf => hf
  · intro h
    by_contra hb
    obtain ⟨p, op, q, rfl, hp, hw⟩ := first_wrong cmp ops _ hb
    obtain ⟨l, e, hne, hm⟩ := C15_wrong_calls_violated cmp p hp op hw
    obtain ⟨l', e'⟩ := h (p ++ [op]) ⟨q, by simp⟩ ((lRun cmp [] p).2.length - 2)
    rw [List.append_assoc, llist_run_append, e, lRun_append] at e'
    simp only [Outcome.ok_bind, List.singleton_append, LList.run] at e'
    cases op with
    | tail =>
      simp only at hm
      simp only [LList.step, hm, Outcome.ok_bind, Outcome.pure_eq] at e'
      cases hv : l.valueAt ((lRun cmp [] p).2.length - 2) with
      | ok r =>
        rw [hv] at e'
        simp only [Outcome.ok_bind, Outcome.ok.injEq, Prod.mk.injEq, lRun] at e'
        have := (List.append_cancel_left_eq _ _ _).mp e'.1
        rw [List.cons.injEq] at this
        have h1 := this.1
        simp only [lStep, List.getLast?_eq_some_getLast hne] at h1
        simp at h1
      | _ => rw [hv] at e'; cases e'
    | tailAdd x =>
      simp only at hm
      obtain ⟨w, hw'⟩ := hm
      simp only [LList.step, hw'] at e'
      cases e'
    | remove x =>
      simp only at hm
      obtain ⟨l1, y, e1, e2, e3⟩ := hm
      simp only [LList.step, e1, e2, Outcome.ok_bind, Outcome.pure_eq, Outcome.ok.injEq, Prod.mk.injEq, lRun] at e'
      have := (List.append_cancel_left_eq _ _ _).mp e'.1
      rw [List.cons.injEq, List.cons.injEq] at this
      have h1 := this.2.1
      have hlt := (List.getElem?_eq_some_iff.mp e3).1
      by_cases h2l : 2 ≤ (lRun cmp [] p).2.length
      · have h3 := valueAt_inside cmp (lStep cmp (lRun cmp [] p).2 (.remove x)).2 ((lRun cmp [] p).2.length - 2 : Int) (by omega)
          (by simp only [lStep]; omega)
        rw [← h1] at h3
        simp only at h3
        omega
      · obtain ⟨u, y', r, he, hl, _⟩ := hw
        obtain ⟨_, its, lost, _, _, ha, hv⟩ := marks_run cmp p mrep_init hp
        rw [show accountAfter cmp ⟨[], false⟩ p = _ from ha] at he
        rw [show vals ([] : List (MItem α)) = [] from rfl] at hv
        have := congrArg List.length he
        simp only [List.length_map, List.length_append, List.length_cons] at this
        have hl' := List.length_pos_iff.mpr hl
        rw [← hv] at h2l
        simp only [vals, List.length_map] at h2l
        omega
    | _ => exact hw.elim

end Verif.Props
