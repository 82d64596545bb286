import Verif.Spec.Sort
import Verif.Spec.Outlier
import Verif.Props.Collections
import Verif.Props.Compare
import Verif.Props.Outlier
/-
Property C94: sorting a list makes the search in sorted lists exact.
-/
namespace Verif.Props
open Spec
variable {α : Type}

theorem readFrom_rep {l : AList α} {xs : List α} (h : AList.Rep l xs) : ∀ (k i : Nat), i + k = xs.length → l.readFrom k i = .ok (xs.drop i)
  | 0, i, e => by rw [List.drop_eq_nil_of_le (by omega)]; rfl
  | k + 1, i, e => by
    have hi : i < xs.length := by omega
    simp only [AList.readFrom]
    rw [AList.readSlot_rep h hi, Outcome.ok_bind, readFrom_rep h k (i + 1) (by omega), Outcome.ok_bind, List.drop_eq_getElem_cons hi]
    rfl

theorem sort_rep {q : (α → α → Int) → List α → List α} (hq : SortsAscending q) {cmp : α → α → Int} (hc : PreCmp cmp) {l : AList α} {xs : List α} (h : AList.Rep l xs) :
    ∃ l', l.sort q cmp = .ok l' ∧ AList.Rep l' (q cmp xs) ∧ (q cmp xs).Perm xs ∧ (q cmp xs).Pairwise (fun a b => cmp a b ≤ 0) := by
  obtain ⟨hp, hs⟩ := hq cmp xs ⟨fun a _ b _ => hc.swap a b, fun a _ b _ c _ => hc.le_trans a b c⟩
  refine ⟨{ l with buf := (q cmp xs).map some ++ l.buf.drop l.size }, ?_, ?_, hp, hs⟩
  · simp only [AList.sort]
    rw [readFrom_rep h l.size 0 (by rw [h.size]; omega), Outcome.ok_bind, List.drop_zero]
    rfl
  · refine ⟨?_, ?_, h.2.2.1, ⟨_, rfl⟩⟩
    · rw [h.size, hp.length_eq]
    · have := h.le
      have hs := h.size
      simp only [List.length_append, List.length_map, List.length_drop, hp.length_eq]
      rw [h.2.1]
      omega

theorem search_any {cmp : α → α → Int} {l : AList α} {xs : List α} (h : AList.Rep l xs) (x : α) :
    ∀ (fuel : Nat) (lo hi : Int), 0 < fuel → 0 ≤ lo → hi < xs.length → hi - lo + 1 < fuel →
      ∃ r, l.binarySearch cmp x fuel lo hi = .ok r ∧ ((∃ (j : Nat) (hj : j < xs.length), r = j ∧ cmp xs[j] x = 0) ∨ r = -1) := by
  intro fuel
  induction fuel with
  | zero => intro lo hi h0; omega
  | succ fuel ih =>
    intro lo hi _ h0 h1 h2
    rw [AList.binarySearch]
    by_cases hge : hi ≥ lo
    · rw [if_pos hge]
      have htd : Int.tdiv (hi - lo) 2 = (hi - lo) / 2 := Int.tdiv_eq_ediv_of_nonneg (by omega)
      simp only [htd]
      have hm0 : 0 ≤ lo + (hi - lo) / 2 := by omega
      have hmlo : lo ≤ lo + (hi - lo) / 2 := by omega
      have hmhi : lo + (hi - lo) / 2 ≤ hi := by omega
      generalize lo + (hi - lo) / 2 = mid at hm0 hmlo hmhi
      rw [if_neg (by omega)]
      obtain ⟨m, rfl⟩ := Int.eq_ofNat_of_zero_le hm0
      have hml : m < xs.length := by omega
      rw [show Int.toNat (m : Int) = m from rfl, AList.readSlot_rep h hml]
      simp only [Outcome.ok_bind]
      by_cases hz : cmp xs[m] x = 0
      · rw [if_pos hz]
        exact ⟨m, rfl, Or.inl ⟨m, hml, rfl, hz⟩⟩
      · rw [if_neg hz]
        by_cases hp : cmp xs[m] x > 0
        · rw [if_pos hp]
          exact ih lo (m - 1) (by omega) h0 (by omega) (by omega)
        · rw [if_neg hp]
          exact ih (m + 1) hi (by omega) (by omega) h1 (by omega)
    · rw [if_neg hge]
      exact ⟨-1, rfl, Or.inr rfl⟩

theorem findSorted_rep {cmp : α → α → Int} (hc : PreCmp cmp) {l : AList α} {xs : List α} (h : AList.Rep l xs) (o : Bool)
    (ho : o = true → xs.Pairwise (fun a b => cmp a b ≤ 0)) (x : α) : ∃ r, l.find cmp x true = .ok r ∧ SearchResult cmp xs o x r := by
  cases o with
  | true =>
    obtain ⟨r, e, hr⟩ := C04_sorted_find_exact hc h (ho rfl) x
    exact ⟨r, e, hr.imp_right fun ⟨a, b⟩ => ⟨a, fun _ => b⟩⟩
  | false =>
    obtain ⟨r, e, hr⟩ := search_any (cmp := cmp) h x (l.size + 1) 0 ((l.size : Int) - 1) (by omega) (by omega) (by rw [h.size]; omega) (by omega)
    exact ⟨r, by simpa only [AList.find, if_true] using e, hr.imp_right fun a => ⟨a, fun b => absurd b (by decide)⟩⟩

/-- Calls that keep the order. -/
theorem keepsOrder_sorted {cmp : α → α → Int} {xs : List α} {R : α → α → Prop} (hs : xs.Pairwise R) {op : SeqOp α} (hk : keepsOrder op = true) :
    (seqStep cmp xs op).2.Pairwise R := by
  cases op with
  | append x => exact absurd hk (by simp [keepsOrder])
  | insertAt x pos => exact absurd hk (by simp [keepsOrder])
  | replaceAt x pos => exact absurd hk (by simp [keepsOrder])
  | removeAt pos => exact hs.sublist (List.eraseIdx_sublist _ _)
  | remove x => exact hs.sublist List.eraseP_sublist
  | pop => exact hs.sublist (List.dropLast_sublist _)
  | valueAt pos => exact hs
  | find x => exact hs
  | size => exact hs
  | clear => exact List.Pairwise.nil

theorem sortRun_rep {q : (α → α → Int) → List α → List α} (hq : SortsAscending q) {cmp : α → α → Int} (hc : PreCmp cmp) :
    ∀ (ops : List (SortOp α)) (l : AList α) (xs : List α) (o : Bool), AList.Rep l xs → (o = true → xs.Pairwise (fun a b => cmp a b ≤ 0)) →
      LegalHistory q cmp xs ops → ∃ rs l' ys, l.sortRun q cmp ops = .ok (rs, l') ∧ RightAnswers cmp xs o ops rs ys ∧ AList.Rep l' ys
  | [], l, xs, o, h, _, _ => ⟨[], l, xs, rfl, ⟨rfl, rfl⟩, h⟩
  | .plain op :: ops, l, xs, o, h, ho, hl => by
    obtain ⟨l1, e1, h1⟩ := step_rep cmp h op hl.1
    have ho1 : (o && keepsOrder op || (seqStep cmp xs op).2.isEmpty) = true → (seqStep cmp xs op).2.Pairwise (fun a b => cmp a b ≤ 0) := by
      intro hb
      rcases (Bool.or_eq_true _ _).mp hb with hb | hb
      · obtain ⟨h1, h2⟩ := (Bool.and_eq_true _ _).mp hb
        exact keepsOrder_sorted (ho h1) h2
      · rw [List.isEmpty_iff.mp hb]
        exact List.Pairwise.nil
    obtain ⟨rs, l', ys, e2, hr, h2⟩ := sortRun_rep hq hc ops l1 _ _ h1 ho1 hl.2
    refine ⟨(seqStep cmp xs op).1 :: rs, l', ys, ?_, ⟨rs, rfl, hr⟩, h2⟩
    simp only [AList.sortRun, AList.sortStep, e1, Outcome.ok_bind, e2]
    rfl
  | .sort :: ops, l, xs, o, h, ho, hl => by
    obtain ⟨l1, e1, h1, hp, hs⟩ := sort_rep hq hc h
    obtain ⟨rs, l', ys, e2, hr, h2⟩ := sortRun_rep hq hc ops l1 _ true h1 (fun _ => hs) hl
    refine ⟨(0, none) :: rs, l', ys, ?_, ⟨rs, q cmp xs, rfl, hp, hs, hr⟩, h2⟩
    simp only [AList.sortRun, AList.sortStep, e1, Outcome.ok_bind, Outcome.pure_eq, e2]
  | .findSorted x :: ops, l, xs, o, h, ho, hl => by
    obtain ⟨r, e1, h1⟩ := findSorted_rep hc h o ho x
    obtain ⟨rs, l', ys, e2, hr, h2⟩ := sortRun_rep hq hc ops l xs o h ho hl
    refine ⟨(r, none) :: rs, l', ys, ?_, ⟨rs, r, rfl, h1, hr⟩, h2⟩
    simp only [AList.sortRun, AList.sortStep, e1, Outcome.ok_bind, Outcome.pure_eq, e2]

/-- **C94.** On a list made by `array_list_init`, after any history of calls with sorting and with searches in the sorted list, for every `qsort` that keeps to its
    contract: nothing is undefined; sorting rearranges the elements into ascending order; a search in the sorted list finds an equal element if there is one, as long
    as nothing was put into the list since it was sorted, and never gives back the position of an element that is not equal. All other calls behave as in C01. -/
theorem C94_sorted_history {q : (α → α → Int) → List α → List α} (hq : SortsAscending q) {cmp : α → α → Int} (hc : PreCmp cmp) (cap : Nat) (hcap : 0 < cap)
    (ops : List (SortOp α)) (hl : LegalHistory q cmp [] ops) :
    ∃ (l l' : AList α) (rs : List (Ret α)) (ys : List α), AList.init cap = .ok l ∧ l.sortRun q cmp ops = .ok (rs, l') ∧ RightAnswers cmp [] true ops rs ys ∧
      l'.contents = ys.map (fun x => .ok (some x)) := by
  obtain ⟨l, e, h, _⟩ := AList.rep_init (α := α) hcap
  obtain ⟨rs, l', ys, e2, hr, h2⟩ := sortRun_rep hq hc ops l [] true h (fun _ => List.Pairwise.nil) hl
  exact ⟨l, l', rs, ys, e, e2, hr, rep_contents h2⟩

/-- Elements are put in, sorted, searched, removed, searched again; an element put in behind them is not found. -/
example : (do
    let l ← AList.init 2
    let (rs, _) ← l.sortRun isort intCompare [.plain (.append 5), .plain (.append 9), .plain (.append 2), .plain (.append 5), .findSorted 2, .sort, .findSorted 2, .findSorted 9,
      .plain (.removeAt 0), .findSorted 2, .findSorted 9, .plain (.append 1), .findSorted 1, .sort, .findSorted 1]
    return rs) = .ok [(1, none), (1, none), (1, none), (1, none), (-1, none), (0, none), (0, none), (3, none), (1, some 2), (-1, none), (2, none), (1, none), (-1, none), (0, none),
      (0, none)] := by decide +kernel

/-- **C94 (sets).** `set_sort` changes nothing: the elements of a set are in ascending order already. -/
theorem C94_set_sort [DecidableEq α] {q : (α → α → Int) → List α → List α} (hq : SortsAscending q) {cmp : α → α → Int} (hc : LawfulCmp cmp) (ops : List (SetOp α)) :
    ∃ s s', (do let s ← SetT.init; SetT.run cmp s ops) = .ok ((setRun cmp [] ops).1, s) ∧ SetT.sort q cmp s = .ok s' ∧
      s.contents = (setRun cmp [] ops).2.map (fun x => .ok (some x)) ∧ s'.contents = s.contents := by
  obtain ⟨s0, e0, h0, _⟩ := AList.rep_init (α := α) (n := 2) (by decide)
  obtain ⟨s, e, h, hs⟩ := set_run_rep hc ops h0 List.Pairwise.nil
  obtain ⟨s', e2, h2, hp, hs2⟩ := sort_rep hq hc.toPreCmp h
  have : q cmp (setRun cmp [] ops).2 = (setRun cmp [] ops).2 := by
    refine hp.eq_of_pairwise (le := fun a b => cmp a b ≤ 0) ?_ hs2 (hs.imp fun h => by omega)
    intro a b _ _ h1 h2
    apply (hc.eq_iff a b).mp
    have := hc.swap a b
    omega
  refine ⟨s, s', ?_, e2, rep_contents h, ?_⟩
  · rw [show (SetT.init : Outcome (AList α)) = .ok s0 from e0, Outcome.ok_bind, e]
  · rw [rep_contents h2, rep_contents h, this]

example : LawfulCmp intCompare ∧ SortsAscending (isort (α := Int)) := ⟨intCompare_lawful, isort_sorts _⟩

/-- **C94 (lists of pointers).** The comparison functions for lists of pointers are orders that a list can be sorted by: they compare what the pointers point to. -/
theorem C94_pointers (mem : Nat → Int) : PreCmp (intPtrCompare mem) ∧ ∀ a b, intPtrCompare mem a b = intCompare (mem a) (mem b) :=
  have e : ∀ a b, intPtrCompare mem a b = intCompare (mem a) (mem b) := fun _ _ => rfl
  ⟨⟨fun a b => intCompare_lawful.swap (mem a) (mem b), fun a b c => intCompare_lawful.le_trans (mem a) (mem b) (mem c)⟩, e⟩

/-- Pointers to 7, 3 and 5. -/
example : (do
    let l ← AList.init 4
    let (rs, l') ← l.sortRun isort (intPtrCompare (fun a => if a = 100 then 7 else if a = 200 then 3 else 5))
      [.plain (.append 100), .plain (.append 200), .plain (.append 300), .sort, .findSorted 300]
    return (rs, l'.contents)) = .ok ([(1, none), (1, none), (1, none), (0, none), (1, none)], [.ok (some 200), .ok (some 300), .ok (some 100)]) := by decide +kernel

end Verif.Props
