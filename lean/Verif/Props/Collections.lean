import Verif.Model.Histories
import Verif.Lemmas.SetT
/-
Properties C01-C05: `ArrayList` and `set_t`.
-/
namespace Verif.Props
open Spec
variable {α : Type}

/-- A legal caller keeps the list a faithful image of the ideal sequence (helper for C01). -/
theorem step_rep (cmp : α → α → Int) {l : AList α} {xs : List α} (h : AList.Rep l xs) (op : SeqOp α)
    (hl : seqLegal xs op) :
    ∃ l', l.step cmp op = .ok ((seqStep cmp xs op).1, l') ∧ AList.Rep l' (seqStep cmp xs op).2 := by
  cases op with
  | append x =>
    obtain ⟨l', e, hr, _⟩ := AList.append_rep h x
    exact ⟨l', by simp [AList.step, e, seqStep], hr⟩
  | insertAt x pos =>
    obtain ⟨l', e, hr, _⟩ := AList.insertAt_rep h x hl
    exact ⟨l', by simp [AList.step, e, seqStep], hr⟩
  | replaceAt x pos =>
    obtain ⟨l', e, hr, _⟩ := AList.replaceAt_rep h x pos
    exact ⟨l', by simp [AList.step, e, seqStep], hr⟩
  | removeAt pos =>
    obtain ⟨l', e, hr, _⟩ := AList.removeAt_rep h pos
    refine ⟨l', ?_, hr⟩
    by_cases hp : pos < xs.length <;> simp [AList.step, e, seqStep, hp]
  | remove x =>
    obtain ⟨l', e, hr, _⟩ := AList.remove_rep cmp h x
    exact ⟨l', by simp [AList.step, e, seqStep], hr⟩
  | pop =>
    obtain ⟨l', e, hr, _⟩ := AList.pop_rep h
    refine ⟨l', ?_, hr⟩
    rcases xs.eq_nil_or_concat with rfl | ⟨ys, y, rfl⟩ <;> simp [AList.step, e, seqStep]
  | valueAt pos =>
    refine ⟨l, ?_, h⟩
    by_cases hp : pos < xs.length <;> simp [AList.step, AList.valueAt_rep h, seqStep, hp]
  | find x =>
    refine ⟨l, ?_, h⟩
    simp [AList.step, AList.find, AList.unorderedSearch_rep cmp h, seqStep]
    cases xs.findIdx? (fun y => cmp y x == 0) <;> rfl
  | size => exact ⟨l, by simp [AList.step, seqStep, h.size], h⟩
  | clear => exact ⟨l.clear false, by simp [AList.step, seqStep], (AList.clear_rep h).1⟩

theorem run_rep (cmp : α → α → Int) (ops : List (SeqOp α)) :
    ∀ {l : AList α} {xs : List α}, AList.Rep l xs → seqLegalRun cmp xs ops →
    ∃ l', l.run cmp ops = .ok ((seqRun cmp xs ops).1, l') ∧ AList.Rep l' (seqRun cmp xs ops).2 := by
  induction ops with
  | nil => intro l xs h _; exact ⟨l, rfl, h⟩
  | cons op ops ih =>
    intro l xs h hl
    obtain ⟨l1, e1, h1⟩ := step_rep cmp h op hl.1
    obtain ⟨l2, e2, h2⟩ := ih h1 hl.2
    exact ⟨l2, by simp [AList.run, e1, e2, seqRun], h2⟩

theorem rep_contents {l : AList α} {xs : List α} (h : AList.Rep l xs) :
    l.contents = xs.map (fun x => .ok (some x)) := by
  unfold AList.contents
  apply List.ext_getElem
  · simp [h.size]
  · intro i h1 h2
    simp at h1 h2
    simp [AList.valueAt_rep h, h2]

/-- **C01.** Any legal history on a list made by `array_list_init` with a positive capacity never goes wrong, every
    call gives back exactly what the ideal sequence gives back, and at the end the list shows exactly the elements of
    the ideal sequence. -/
theorem C01_arraylist_is_sequence (cmp : α → α → Int) (cap : Nat) (hcap : 0 < cap) (ops : List (SeqOp α))
    (hl : seqLegalRun cmp [] ops) :
    ∃ l l' : AList α, AList.init cap = .ok l ∧
      l.run cmp ops = .ok ((seqRun cmp [] ops).1, l') ∧
      l'.size = (seqRun cmp [] ops).2.length ∧
      l'.contents = (seqRun cmp [] ops).2.map (fun x => .ok (some x)) := by
  obtain ⟨l, e, h, _⟩ := AList.rep_init (α := α) hcap
  obtain ⟨l', e', h'⟩ := run_rep cmp ops h hl
  exact ⟨l, l', e, e', h'.size, rep_contents h'⟩

/-- The history used as example: growth past the capacity, insertion in the middle, removals, a clear. -/
def exHistory : List (SeqOp Int) :=
  [.append 5, .append 7, .insertAt 6 1, .append 7, .removeAt 0, .remove 7, .find 7, .valueAt 9, .replaceAt 1 0, .pop,
   .clear, .pop, .append 2, .size]

example : seqLegalRun intCompare [] exHistory := by
  simp [exHistory, seqLegalRun, seqLegal, seqStep]

example : seqRun intCompare [] exHistory =
    ([(1, none), (1, none), (1, none), (1, none), (1, some 5), (1, none), (1, none), (0, none), (1, none), (1, some 7),
      (0, none), (-1, none), (1, none), (1, none)], [2]) := by decide

/-! ### C02 -/

/-- **C02 is violated.** A set filled with three elements and cleared with `set_clear` writes outside its allocation
    on the second insertion; a list cleared with `array_list_clear(list, 1)` does so on the second append. -/
theorem C02_clear_leaves_usable_violated :
    (do let s ← SetT.init
        let s ← SetT.insertAll intCompare s [1, 2, 3]
        SetT.insertAll intCompare (SetT.clear s) [1, 2]) = .ub "memmove outside the allocation" ∨
    (do let s ← SetT.init
        let s ← SetT.insertAll intCompare s [1, 2, 3]
        SetT.insertAll intCompare (SetT.clear s) [1, 2]) = .ub "write outside the allocation" := by
  decide

theorem C02_list_clear_violated :
    (do let l ← AList.init 4
        let l ← l.appendAll [(1 : Int), 2, 3]
        (l.clear true).appendAll [1, 2]) = .ub "write outside the allocation" := by
  decide

/-- General form of the violation: *every* list of recorded capacity at least 2 that is cleared with `resize` and then
    given two elements writes outside its allocation. -/
theorem C02_list_clear_always_violated {l : AList α} {xs : List α} (h : AList.Rep l xs) (hm : 2 ≤ l.maxSize)
    (x y : α) : ((l.clear true).appendAll [x, y]).IsUB := by
  obtain ⟨h1, h2, h3, r, hr⟩ := h
  have hb : ∃ a t, l.buf = a :: t := by
    cases hl : l.buf with
    | nil => rw [hl] at h2; simp at h2; omega
    | cons a t => exact ⟨a, t, rfl⟩
  obtain ⟨a, t, hb⟩ := hb
  have e1 : ¬ (0 = l.maxSize) := by omega
  have e2 : ¬ (1 = l.maxSize) := by omega
  refine ⟨"write outside the allocation", ?_⟩
  simp [AList.appendAll, AList.clear, AList.append, AList.ensureRoom, AList.insertionHelper, hb, e1, e2]

example : ∃ l : AList Int, AList.Rep l [] ∧ 2 ≤ l.maxSize := by
  obtain ⟨l, _, h, hm⟩ := AList.rep_init (α := Int) (n := 4) (by omega)
  exact ⟨l, h, by omega⟩

theorem appendAll_rep (ys : List α) : ∀ {l : AList α} {xs : List α}, AList.Rep l xs →
    ∃ l', l.appendAll ys = .ok l' ∧ AList.Rep l' (xs ++ ys) := by
  induction ys with
  | nil => intro l xs h; exact ⟨l, rfl, by simpa using h⟩
  | cons y ys ih =>
    intro l xs h
    obtain ⟨l1, e1, h1, _⟩ := AList.append_rep h y
    obtain ⟨l2, e2, h2⟩ := ih h1
    exact ⟨l2, by simp [AList.appendAll, e1, e2], by simpa using h2⟩

/-- **C02, the part that holds.** A list cleared without `resize` can be filled with anything afterwards and then holds
    exactly that. (Missing, and false: the same with `resize`, i.e. for `set_clear`, once the capacity is 2 or more.) -/
theorem C02_clear_without_resize_partial {l : AList α} {xs : List α} (h : AList.Rep l xs) (ys : List α) :
    ∃ l', (l.clear false).appendAll ys = .ok l' ∧ l'.contents = ys.map (fun x => .ok (some x)) := by
  obtain ⟨l', e, h'⟩ := appendAll_rep ys (AList.clear_rep h).1
  exact ⟨l', e, by simpa using rep_contents h'⟩

example : ∃ l : AList Int, AList.Rep l [1, 2, 3] := by
  obtain ⟨l, _, h, _⟩ := AList.rep_init (α := Int) (n := 1) (by omega)
  obtain ⟨l', _, h'⟩ := appendAll_rep [1, 2, 3] h
  exact ⟨l', by simpa using h'⟩

/-! ### C03 -/

/-- **C03.** Unsorted search: the result is -1 exactly when nothing matches, and otherwise the smallest matching index.
    `array_list_remove` takes out exactly that position. -/
theorem C03_unsorted_find_first (cmp : α → α → Int) {l : AList α} {xs : List α} (h : AList.Rep l xs) (x : α) :
    ∃ r : Int, l.find cmp x false = .ok r ∧
      ((r = -1 ∧ (∀ y ∈ xs, cmp y x ≠ 0) ∧ l.remove cmp x = .ok (-1, l)) ∨
       (∃ (i : Nat) (hi : i < xs.length), r = i ∧ cmp xs[i] x = 0 ∧
          (∀ (j : Nat) (hj : j < i), cmp (xs[j]'(by omega)) x ≠ 0) ∧
          ∃ l', l.remove cmp x = .ok (1, l') ∧
            l'.contents = (xs.take i ++ xs.drop (i + 1)).map (fun x => .ok (some x)))) := by
  refine ⟨_, by simp [AList.find, AList.unorderedSearch_rep cmp h x]; rfl, ?_⟩
  cases hf : xs.findIdx? (fun y => cmp y x == 0) with
  | none =>
    left
    rw [List.findIdx?_eq_none_iff] at hf
    refine ⟨rfl, fun y hy => by simpa using hf y hy, ?_⟩
    have e : xs.findIdx? (fun y => cmp y x == 0) = none := by rw [List.findIdx?_eq_none_iff]; exact hf
    simp [AList.remove, AList.find, AList.unorderedSearch_rep cmp h x, e]
  | some i =>
    right
    obtain ⟨hi, hz, hlt⟩ := List.findIdx?_eq_some_iff_getElem.mp hf
    refine ⟨i, hi, rfl, by simpa using hz, fun j hj => by simpa using hlt j hj, ?_⟩
    obtain ⟨l', e, hr, _⟩ := AList.remove_rep cmp h x
    have hany : xs.any (fun y => cmp y x == 0) = true := List.any_eq_true.mpr ⟨xs[i], List.getElem_mem hi, hz⟩
    refine ⟨l', by rw [e, hany]; rfl, ?_⟩
    rw [rep_contents hr, ← AList.eraseIdx_findIdx? _ _ hf, List.eraseIdx_eq_take_drop_succ]

/-! ### C04 -/

/-- **C04.** Sorted search: on a list in non-decreasing order the search returns, stays inside the list (no undefined
    behaviour, no divergence), and its result is the index of an equal element, or -1 exactly when there is none. -/
theorem C04_sorted_find_exact {cmp : α → α → Int} (hc : PreCmp cmp) {l : AList α} {xs : List α}
    (h : AList.Rep l xs) (hs : xs.Pairwise (fun a b => cmp a b ≤ 0)) (x : α) :
    ∃ r : Int, l.find cmp x true = .ok r ∧
      ((∃ (j : Nat) (hj : j < xs.length), r = j ∧ cmp xs[j] x = 0) ∨ (r = -1 ∧ ∀ y ∈ xs, cmp y x ≠ 0)) :=
  AList.find_sorted_rep hc h hs x

theorem intCompare_lawful : LawfulCmp intCompare where
  swap := by intro a b; unfold intCompare; split <;> split <;> (try split) <;> (try split) <;> omega
  le_trans := by
    intro a b c h1 h2
    unfold intCompare at *
    split at h1 <;> split at h2 <;> (try split at h1) <;> (try split at h2) <;> (try split) <;> (try split) <;> omega
  eq_iff := by intro a b; unfold intCompare; split <;> (try split) <;> omega

/-- The hypotheses of C03 and C04 are met, with duplicates present. -/
example : PreCmp intCompare ∧ ∃ l : AList Int, AList.Rep l [-3, 2, 2, 9] ∧
    [-3, 2, 2, 9].Pairwise (fun a b => intCompare a b ≤ 0) := by
  refine ⟨intCompare_lawful.toPreCmp, ?_⟩
  obtain ⟨l, _, h, _⟩ := AList.rep_init (α := Int) (n := 1) (by omega)
  obtain ⟨l', _, h'⟩ := appendAll_rep [-3, 2, 2, 9] h
  exact ⟨l', by simpa using h', by decide⟩

/-! ### C05 -/

theorem set_step_rep [DecidableEq α] {cmp : α → α → Int} (hc : LawfulCmp cmp) {s : AList α} {xs : List α}
    (h : AList.Rep s xs) (hs : StrictSorted cmp xs) (op : SetOp α) :
    ∃ s', SetT.step cmp s op = .ok ((setStep cmp xs op).1, s') ∧ AList.Rep s' (setStep cmp xs op).2 ∧
      StrictSorted cmp (setStep cmp xs op).2 := by
  cases op with
  | insert x =>
    obtain ⟨s', e, hr, _⟩ := SetT.insert_rep hc h hs x
    exact ⟨s', by simp [SetT.step, e, setStep], hr, SetT.setInsert_sorted hc hs x⟩
  | remove x =>
    obtain ⟨s', e, hr, _⟩ := SetT.remove_rep hc h hs x
    exact ⟨s', by simp [SetT.step, e, setStep], hr, List.Pairwise.filter _ hs⟩
  | removeAt pos =>
    obtain ⟨s', e, hr, _⟩ := AList.removeAt_rep h pos
    refine ⟨s', ?_, hr, SetT.eraseIdx_sorted hs pos⟩
    by_cases hp : pos < xs.length <;> simp [SetT.step, SetT.removeAt, e, setStep, hp]
  | find x => exact ⟨s, by simp [SetT.step, SetT.find_rep hc h hs, setStep], h, hs⟩
  | valueAt pos =>
    refine ⟨s, ?_, h, hs⟩
    by_cases hp : pos < xs.length <;> simp [SetT.step, SetT.valueAt, AList.valueAt_rep h, setStep, hp]
  | size => exact ⟨s, by simp [SetT.step, setStep, h.size], h, hs⟩

theorem set_run_rep [DecidableEq α] {cmp : α → α → Int} (hc : LawfulCmp cmp) (ops : List (SetOp α)) :
    ∀ {s : AList α} {xs : List α}, AList.Rep s xs → StrictSorted cmp xs →
    ∃ s', SetT.run cmp s ops = .ok ((setRun cmp xs ops).1, s') ∧ AList.Rep s' (setRun cmp xs ops).2 ∧
      StrictSorted cmp (setRun cmp xs ops).2 := by
  induction ops with
  | nil => intro s xs h hs; exact ⟨s, rfl, h, hs⟩
  | cons op ops ih =>
    intro s xs h hs
    obtain ⟨s1, e1, h1, hs1⟩ := set_step_rep hc h hs op
    obtain ⟨s2, e2, h2, hs2⟩ := ih h1 hs1
    exact ⟨s2, by simp [SetT.run, e1, e2, setRun], h2, hs2⟩

/-- **C05.** Any history of calls on a fresh set never goes wrong, gives back what the ideal ordered set gives back,
    and leaves the elements strictly increasing. -/
theorem C05_set_is_ordered_set [DecidableEq α] {cmp : α → α → Int} (hc : LawfulCmp cmp) (ops : List (SetOp α)) :
    ∃ s s' : AList α, SetT.init = .ok s ∧ SetT.run cmp s ops = .ok ((setRun cmp [] ops).1, s') ∧
      s'.contents = (setRun cmp [] ops).2.map (fun x => .ok (some x)) ∧
      (setRun cmp [] ops).2.Pairwise (fun a b => cmp a b < 0) := by
  obtain ⟨s, e, h, _⟩ := AList.rep_init (α := α) (n := 2) (by omega)
  obtain ⟨s', e', h', hs'⟩ := set_run_rep hc ops h List.Pairwise.nil
  exact ⟨s, s', e, e', rep_contents h', hs'⟩

/-- The ideal set operations used in C05 change membership in the mathematical way. -/
theorem C05_membership [DecidableEq α] {cmp : α → α → Int} (hc : LawfulCmp cmp) (xs : List α) (x y : α) :
    (y ∈ (setStep cmp xs (.insert x)).2 ↔ y = x ∨ y ∈ xs) ∧
    (y ∈ (setStep cmp xs (.remove x)).2 ↔ y ≠ x ∧ y ∈ xs) ∧
    (0 ≤ (setStep cmp xs (.find x)).1.1 ↔ x ∈ xs) ∧
    (setStep cmp xs (.insert x)).1.1 = (if x ∈ xs then 0 else 1) ∧
    (setStep cmp xs (.remove x)).1.1 = (if x ∈ xs then 1 else -1) := by
  refine ⟨SetT.setInsert_mem hc xs x y, ?_, ?_, rfl, rfl⟩
  · simp [setStep, and_comm]
  · simp only [setStep]
    split
    · simp [*]
    · simp [*]

example : LawfulCmp intCompare ∧
    setRun intCompare [] [.insert 4, .insert 1, .insert 4, .insert 9, .find 9, .remove 1, .remove 1, .valueAt 0, .size] =
      ([(1, none), (1, none), (0, none), (1, none), (2, none), (1, none), (-1, none), (1, some 4), (2, none)], [4, 9]) :=
  ⟨intCompare_lawful, by decide⟩

end Verif.Props
