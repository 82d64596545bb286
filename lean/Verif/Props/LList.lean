import Verif.Model.Histories
import Verif.Lemmas.LList
import Verif.Props.Collections
/-
Properties C14, C15: the linked list.
-/
namespace Verif.Props
open Spec
variable {α : Type}

theorem llist_step_rep (cmp : α → α → Int) {l : LList α} {its} (h : LList.LRep l its) (op : LOp α)
    (hf : match op with
      | .remove x => ∀ y ∈ (its.map (·.2)).tail, cmp y x = 0 → ∃ h ∈ (its.map (·.2)).head?, cmp h x = 0
      | _ => True) :
    ∃ l' its', l.step cmp op = .ok ((lStep cmp (its.map (·.2)) op).1, l') ∧ LList.LRep l' its' ∧
      its'.map (·.2) = (lStep cmp (its.map (·.2)) op).2 := by
  cases op with
  | frontAdd x =>
    obtain ⟨l', e, hr⟩ := LList.frontAdd_rep h x
    exact ⟨l', _, by simp [LList.step, e, lStep], hr, by simp [lStep]⟩
  | tailAdd x =>
    obtain ⟨l', e, hr⟩ := LList.tailAdd_rep h x
    exact ⟨l', _, by simp [LList.step, e, lStep], hr, by simp [lStep]⟩
  | valueAt pos => exact ⟨l, its, by simp [LList.step, LList.valueAt_rep h, lStep], h, rfl⟩
  | lookup x =>
    refine ⟨l, its, ?_, h, rfl⟩
    simp only [LList.step, LList.lookup_rep h, lStep, Outcome.ok_bind]
    cases (its.map (·.2)).find? (fun y => cmp y x == 0) <;> rfl
  | head =>
    refine ⟨l, its, ?_, h, rfl⟩
    simp only [LList.step, LList.headData_rep h, lStep, Outcome.ok_bind]
    cases (its.map (·.2)).head? <;> rfl
  | tail =>
    refine ⟨l, its, ?_, h, rfl⟩
    simp only [LList.step, LList.tailData_rep h, lStep, Outcome.ok_bind]
    cases (its.map (·.2)).getLast? <;> rfl
  | size => exact ⟨l, its, by simp [LList.step, lStep, h.size], h, rfl⟩
  | clear =>
    obtain ⟨l', e, hr⟩ := LList.clear_rep h
    exact ⟨l', [], by simp [LList.step, e, lStep], hr, rfl⟩
  | remove x =>
    obtain ⟨l', its', e, hr, he⟩ := LList.remove_rep h x hf
    exact ⟨l', its', by simp [LList.step, e, lStep], hr, he⟩

theorem llist_run_rep (cmp : α → α → Int) (ops : List (LOp α)) :
    ∀ {l : LList α} {its}, LList.LRep l its → removesAtFront cmp (its.map (·.2)) ops →
    ∃ l', l.run cmp ops = .ok ((lRun cmp (its.map (·.2)) ops).1, l') := by
  induction ops with
  | nil => intro l its h _; exact ⟨l, rfl⟩
  | cons op ops ih =>
    intro l its h hl
    obtain ⟨l1, its1, e1, h1, he⟩ := llist_step_rep cmp h op hl.1
    obtain ⟨l2, e2⟩ := ih h1 (by rw [he]; exact hl.2)
    rw [he] at e2
    exact ⟨l2, by simp [LList.run, e1, e2, lRun]⟩

theorem removesAtFront_of_no_remove (cmp : α → α → Int) (ops : List (LOp α)) :
    ∀ xs, (∀ op ∈ ops, ∀ x, op ≠ .remove x) → removesAtFront cmp xs ops := by
  induction ops with
  | nil => intro _ _; trivial
  | cons op ops ih =>
    intro xs h
    refine ⟨?_, ih _ (fun o ho => h o (by simp [ho]))⟩
    cases op with
    | remove x => exact absurd rfl (h _ (by simp) x)
    | _ => trivial

/-- C14: any history without removals gives back, call by call, what the ideal sequence gives, and never goes wrong. -/
theorem C14_linkedlist_sequence (cmp : α → α → Int) (ops : List (LOp α)) (h : ∀ op ∈ ops, ∀ x, op ≠ .remove x) :
    ∃ l', (LList.init : LList α).run cmp ops = .ok ((lRun cmp [] ops).1, l') :=
  llist_run_rep cmp ops LList.lrep_init (removesAtFront_of_no_remove cmp ops _ h)

/-- A history for C14 with all kinds of calls. -/
def exLHistory : List (LOp Int) :=
  [.tailAdd 4, .frontAdd 7, .tailAdd 9, .valueAt 1, .valueAt (-1), .valueAt 3, .lookup 9, .lookup 5, .head, .tail, .size,
   .clear, .head, .size, .tailAdd 1, .tail]

example : ∀ op ∈ exLHistory, ∀ x, op ≠ .remove x := by
  intro op hop x he; subst he; simp [exLHistory] at hop

example : (lRun intCompare [] exLHistory).1 =
    [(1, none), (1, none), (1, none), (1, some 4), (-1, none), (-1, none), (1, some 9), (0, none), (1, some 7), (1, some 9),
     (3, none), (0, none), (0, none), (0, none), (1, none), (1, some 1)] := by decide

/-- C15 fails: removing the last element leaves the list without a tail pointer, and the next `linkedlist_tail_add`
    dereferences NULL. -/
theorem C15_remove_tail_then_add_violated :
    ((LList.init : LList Int).run intCompare [.tailAdd 1, .tailAdd 2, .remove 2, .tailAdd 3]).IsUB := by
  exact ⟨_, rfl⟩

/-- C15 fails: removing a middle element and then its successor loses the elements before them: the list with 1, 2, 3, 4
    holds 1, 4 after removing 2 and 3, but the first element is reported to be 4, and 1 can no longer be found. -/
theorem C15_remove_middle_violated :
    (∃ l', (LList.init : LList Int).run intCompare
        [.tailAdd 1, .tailAdd 2, .tailAdd 3, .tailAdd 4, .remove 2, .remove 3, .head, .lookup 1, .size] =
      .ok ([(1, none), (1, none), (1, none), (1, none), (1, none), (1, none), (1, some 4), (0, none), (2, none)], l')) ∧
    (lRun intCompare [] [.tailAdd 1, .tailAdd 2, .tailAdd 3, .tailAdd 4, .remove 2, .remove 3, .head, .lookup 1, .size]).1 =
      [(1, none), (1, none), (1, none), (1, none), (1, none), (1, none), (1, some 1), (1, some 1), (2, none)] := by
  refine ⟨⟨_, rfl⟩, by decide⟩

/-- C15 for histories in which every removal is of the front element or of an absent one (the list as a stack or queue).
    Missing: removals further back, which do not keep the list intact. -/
theorem C15_remove_front_partial (cmp : α → α → Int) (ops : List (LOp α)) (h : removesAtFront cmp [] ops) :
    ∃ l', (LList.init : LList α).run cmp ops = .ok ((lRun cmp [] ops).1, l') :=
  llist_run_rep cmp ops LList.lrep_init h

example : removesAtFront intCompare [] [.tailAdd 1, .tailAdd 2, .remove 1, .tailAdd 3, .remove 7, .remove 2, .tail] := by
  simp [removesAtFront, lStep, intCompare]

end Verif.Props
