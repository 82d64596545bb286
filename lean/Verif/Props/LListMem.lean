import Verif.Lemmas.LListMem
import Verif.Props.Marks
/-
Property C109: a linked list gives back the memory of all its nodes.
-/
namespace Verif.Props
open Spec LList
variable {α : Type}

/-- **The size is the number of nodes**: after any history of calls without `take` in which no call went wrong badly enough to stop the program, as many nodes are allocated as the
    list reports to hold. In particular nodes are given back neither twice nor while the list still counts them. -/
theorem C109_size (cmp : α → α → Int) (ops : List (LOp α)) (rs : List (Ret α)) (l : LList α) (h : (LList.init : LList α).run cmp ops = .ok (rs, l)) :
    0 ≤ l.size ∧ NodesLeft l.heap l.size.toNat := by
  obtain ⟨k, hk, hs⟩ := books_run ops (⟨0, counted_init, rfl⟩ : Books (LList.init : LList α) 0) h
  have e : l.size = k := by omega
  exact ⟨by omega, by rw [e]; exact hk.left⟩

/-- A history that goes wrong: the second of three elements is removed, then the third, and the first is lost. The list then reports one element and finds none; its node is allocated. -/
example : ∃ rs l, (LList.init : LList Int).run intCompare [.tailAdd 1, .tailAdd 2, .tailAdd 3, .remove 2, .remove 3, .size, .valueAt 0] = .ok (rs, l) ∧
    rs.drop 5 = [(1, none), (-1, none)] ∧ l.size = 1 := ⟨_, _, rfl, by decide, by decide⟩

theorem calls_step (cmp : α → α → Int) {l : LList α} {its lost t} (h : MRep l its lost) (hb : Books l t) (c : LCall α)
    (hg : ¬ GoesWrong cmp ⟨its.map (·.2), lost⟩ c.asOp) :
    ∃ l' its' lost', l.call cmp c = .ok ((lCallStep cmp (vals its) c).1, l') ∧ MRep l' its' lost' ∧
      Books l' (t + taken [c] [(lCallStep cmp (vals its) c).1]) ∧
      accountStep cmp ⟨its.map (·.2), lost⟩ c.asOp = ⟨its'.map (·.2), lost'⟩ ∧ vals its' = (lCallStep cmp (vals its) c).2 := by
  obtain ⟨l', its', lost', e, hr, ha, hv⟩ := marks_step cmp h c.asOp hg
  cases c with
  | op o =>
    refine ⟨l', its', lost', e, hr, ?_, ha, hv⟩
    show Books l' (t + 0)
    simp only [LCall.asOp] at e
    cases o with
    | frontAdd x =>
      simp only [LList.step] at e
      obtain ⟨l1, e1, e⟩ := Outcome.bind_eq_ok.mp e
      obtain ⟨-, rfl⟩ := Prod.mk.inj (Outcome.ok.inj e)
      exact books_frontAdd hb x e1
    | tailAdd x =>
      simp only [LList.step] at e
      obtain ⟨l1, e1, e⟩ := Outcome.bind_eq_ok.mp e
      obtain ⟨-, rfl⟩ := Prod.mk.inj (Outcome.ok.inj e)
      exact books_tailAdd hb x e1
    | clear =>
      simp only [LList.step] at e
      obtain ⟨l1, e1, e⟩ := Outcome.bind_eq_ok.mp e
      obtain ⟨-, rfl⟩ := Prod.mk.inj (Outcome.ok.inj e)
      obtain ⟨l2, e2, _, hb2⟩ := books_clear_mrep h hb
      rw [e1] at e2
      obtain rfl := Outcome.ok.inj e2
      exact hb2
    | remove x =>
      simp only [LList.step] at e
      obtain ⟨⟨r, l1⟩, e1, e⟩ := Outcome.bind_eq_ok.mp e
      obtain ⟨-, rfl⟩ := Prod.mk.inj (Outcome.ok.inj e)
      rcases take_of_remove e1 with ⟨_, rfl, _⟩ | ⟨a, l2, n, _, _, h3, h4, h5, _, h6⟩
      · exact hb
      · exact (books_drop hb (found_pos h h6).1 h3 h4).1
    | size =>
      simp only [LList.step] at e
      obtain ⟨-, rfl⟩ := Prod.mk.inj (Outcome.ok.inj e)
      exact hb
    | valueAt _ | lookup _ | head | tail =>
      simp only [LList.step] at e
      obtain ⟨o, e1, e⟩ := Outcome.bind_eq_ok.mp e
      obtain ⟨-, rfl⟩ := Prod.mk.inj (Outcome.ok.inj e)
      exact hb
  | take x =>
    simp only [LCall.asOp, LList.step] at e
    obtain ⟨⟨r, l1⟩, e1, e⟩ := Outcome.bind_eq_ok.mp e
    obtain ⟨-, rfl⟩ := Prod.mk.inj (Outcome.ok.inj e)
    rcases take_of_remove e1 with ⟨_, rfl, h3, h4⟩ | ⟨a, l2, n, _, rfl, h3, h4, h5, h6, h7⟩
    · have hf := lookup_mrep (cmp := cmp) h x
      rw [h4] at hf
      have hf := (Outcome.ok.inj hf).symm
      refine ⟨l1, its', lost', ?_, hr, ?_, ha, hv⟩
      · simp [LList.call, h3, lCallStep, hf]
      · simpa [lCallStep, hf, taken] using hb
    · obtain ⟨hs, hf⟩ := found_pos h h7
      refine ⟨l2, its', lost', ?_, mrep_unfree hr, ?_, ha, hv⟩
      · simp [LList.call, h6, lCallStep, hf]
      · have hd := unhook_data h3
        obtain ⟨k, hk, hkt⟩ := hb
        refine ⟨k, unhook_counted hk h3, ?_⟩
        rw [hd.2.2, if_neg (by omega)]
        simp only [lCallStep, hf, taken, if_true]
        push_cast
        omega

theorem calls_run (cmp : α → α → Int) (cs : List (LCall α)) : ∀ {l : LList α} {its lost t}, MRep l its lost → Books l t →
    GoodHistory cmp ⟨its.map (·.2), lost⟩ (cs.map LCall.asOp) →
    ∃ l' its' lost', l.calls cmp cs = .ok ((lCalls cmp (vals its) cs).1, l') ∧ MRep l' its' lost' ∧
      Books l' (t + taken cs (lCalls cmp (vals its) cs).1) := by
  induction cs with
  | nil => intro l its lost t h hb _; exact ⟨l, its, lost, rfl, h, hb⟩
  | cons c cs ih =>
    rintro l its lost t h hb ⟨hg, hgs⟩
    obtain ⟨l1, its1, lost1, e1, h1, hb1, ha1, hv1⟩ := calls_step cmp h hb c hg
    rw [ha1] at hgs
    obtain ⟨l2, its2, lost2, e2, h2, hb2⟩ := ih h1 hb1 hgs
    rw [hv1] at e2 hb2
    refine ⟨l2, its2, lost2, ?_, h2, ?_⟩
    · simp [LList.calls, e1, e2, lCalls]
    · have : taken (c :: cs) (lCalls cmp (vals its) (c :: cs)).1 =
          taken [c] [(lCallStep cmp (vals its) c).1] + taken cs (lCalls cmp (lCallStep cmp (vals its) c).2 cs).1 := by
        cases c <;> simp [lCalls, taken]
      rw [this, ← Nat.add_assoc]
      exact hb2

/-- **What `linkedlist_delete` leaves.** After any history in which no call goes wrong (as in C15), with elements taken out by `linkedlist_lookup(…, remove = 1)` among the calls: the
    calls give back what they should, no node is used after it was given back, and after `linkedlist_delete` exactly those nodes are still allocated that were taken out by lookup:
    one for every such call that found something. Their number is 0 without such calls (`C109_delete_partial`). -/
theorem C109_left (cmp : α → α → Int) (cs : List (LCall α)) (h : GoodHistory cmp ⟨[], false⟩ (cs.map LCall.asOp)) :
    ∃ l heap, (LList.init : LList α).calls cmp cs = .ok ((lCalls cmp [] cs).1, l) ∧ l.delete = .ok heap ∧ NodesLeft heap (taken cs (lCalls cmp [] cs).1) := by
  obtain ⟨l, its, lost, e, hr, hb⟩ := calls_run cmp cs mrep_init (⟨0, counted_init, rfl⟩ : Books (LList.init : LList α) 0) h
  obtain ⟨l', e', hr', k, hk, hs⟩ := books_clear_mrep hr hb
  refine ⟨l, l'.heap, e, by simp [LList.delete, e'], ?_⟩
  have hz : l'.size = 0 := by rw [hr'.size]; rfl
  have hk' : k = taken cs (lCalls cmp [] cs).1 := by
    rw [hz] at hs
    have : (k : Int) = ((0 + taken cs (lCalls cmp (vals ([] : List (MItem α))) cs).1 : Nat) : Int) := by omega
    simpa [vals] using this
  rw [← hk']
  exact hk.left

theorem nodesLeft_zero {heap : Nat → Option (LNode α)} : NodesLeft heap 0 ↔ ∀ a, heap a = none := by
  constructor
  · rintro ⟨D, hD, h0⟩ a
    by_contra hne
    have := (hD a).mpr hne
    rw [Finset.card_eq_zero] at h0
    simp [h0] at this
  · intro h
    exact ⟨∅, fun a => by simp [h a], rfl⟩

theorem calls_ops (cmp : α → α → Int) (ops : List (LOp α)) : ∀ l : LList α, l.calls cmp (ops.map .op) = l.run cmp ops := by
  induction ops with
  | nil => intro l; rfl
  | cons o ops ih =>
    intro l
    simp only [List.map_cons, LList.calls, LList.run, LList.call]
    cases l.step cmp o with
    | ok a => simp only [Outcome.ok_bind, ih]
    | _ => rfl

theorem taken_ops (ops : List (LOp α)) : ∀ rs : List (Ret α), taken (ops.map .op) rs = 0 := by
  induction ops with
  | nil => intro rs; rfl
  | cons o ops ih =>
    intro rs
    cases rs with
    | nil => rfl
    | cons r rs => exact ih rs

/-- **C109 for histories in which no call goes wrong and nothing is taken out by lookup**: `linkedlist_delete` gives everything back. Missing: the other histories, which
    `C109_lookup_violated` and `C109_cut_violated` show to leak. -/
theorem C109_delete_partial (cmp : α → α → Int) (ops : List (LOp α)) (h : GoodHistory cmp ⟨[], false⟩ ops) :
    ∃ rs l heap, (LList.init : LList α).run cmp ops = .ok (rs, l) ∧ l.delete = .ok heap ∧ ∀ a, heap a = none := by
  obtain ⟨l, heap, e1, e2, e3⟩ := C109_left cmp (ops.map .op) (by
    rw [List.map_map]
    have : (LCall.asOp ∘ LCall.op : LOp α → LOp α) = id := rfl
    rw [this, List.map_id]
    exact h)
  rw [calls_ops] at e1
  rw [taken_ops] at e3
  exact ⟨_, l, heap, e1, e2, nodesLeft_zero.mp e3⟩

/-- Beside the theorem: the history `exGood` of C15, with removals in the middle and at the end. -/
example : ∃ rs l heap, (LList.init : LList Int).run intCompare exGood = .ok (rs, l) ∧ l.delete = .ok heap ∧ l.size = 1 ∧ l.fresh = 5 ∧ heap 4 = none :=
  ⟨_, _, _, rfl, rfl, by decide, by decide, by decide⟩

/-- **`linkedlist_lookup` with removal leaks.** Whenever, after a history in which nothing goes wrong, an element is taken out by lookup, its node stays allocated for ever: after
    `linkedlist_delete` there is a node left, and no pointer the caller was given leads to it. -/
theorem C109_lookup_violated (cmp : α → α → Int) (ops : List (LOp α)) (x : α) (h : GoodHistory cmp ⟨[], false⟩ (ops ++ [.remove x]))
    (hx : ∃ y ∈ (lRun cmp [] ops).2, cmp y x = 0) :
    ∃ rs l heap, (LList.init : LList α).calls cmp (ops.map .op ++ [.take x]) = .ok (rs, l) ∧ l.delete = .ok heap ∧ NodesLeft heap 1 := by
  have hmap : (ops.map LCall.op ++ [LCall.take x]).map LCall.asOp = ops ++ [.remove x] := by
    rw [List.map_append, List.map_map]
    have : (LCall.asOp ∘ LCall.op : LOp α → LOp α) = id := rfl
    rw [this, List.map_id]
    rfl
  obtain ⟨l, heap, e1, e2, e3⟩ := C109_left cmp (ops.map .op ++ [.take x]) (by rw [hmap]; exact h)
  refine ⟨_, l, heap, e1, e2, ?_⟩
  suffices ht : ∀ (ops : List (LOp α)) (xs : List α), (∃ y ∈ (lRun cmp xs ops).2, cmp y x = 0) →
      taken (ops.map LCall.op ++ [LCall.take x]) (lCalls cmp xs (ops.map LCall.op ++ [LCall.take x])).1 = 1 by
    rw [ht ops [] hx] at e3
    exact e3
  intro ops
  induction ops with
  | nil =>
    rintro xs ⟨y, hy, hyx⟩
    simp only [lRun] at hy
    obtain ⟨z, hz⟩ : ∃ z, xs.find? (fun y => cmp y x == 0) = some z := by
      rw [← Option.isSome_iff_exists, List.find?_isSome]
      exact ⟨y, hy, by simp [hyx]⟩
    simp [lCalls, lCallStep, hz, taken]
  | cons o ops ih =>
    intro xs hy
    exact ih (lStep cmp xs o).2 hy

/-- One element, put in and taken out. -/
example : GoodHistory intCompare ⟨[], false⟩ ([.tailAdd 7] ++ [.remove 7]) ∧ ∃ y ∈ (lRun intCompare [] [.tailAdd 7]).2, intCompare y 7 = 0 := by
  refine ⟨⟨by simp [GoesWrong], ?_, trivial⟩, 7, by simp [lRun, lStep], by decide⟩
  rintro ⟨l, y, r, he, hl, hy, _⟩
  exact noHit _ (by decide) he hl hy

/-- **Removals that cut the list leak.** Whenever, after a history in which nothing goes wrong, an element that is not the first is removed whose neighbour in front was removed before
    (`GoesWrong`), all the elements in front of it stay allocated for ever: `linkedlist_delete` leaves exactly their nodes, at least one. -/
theorem C109_cut_violated (cmp : α → α → Int) (ops : List (LOp α)) (x : α) (h : GoodHistory cmp ⟨[], false⟩ ops)
    (hw : GoesWrong cmp (accountAfter cmp ⟨[], false⟩ ops) (.remove x)) :
    ∃ rs l heap, (LList.init : LList α).run cmp (ops ++ [.remove x]) = .ok (rs, l) ∧ l.delete = .ok heap ∧
      NodesLeft heap ((lRun cmp [] ops).2.findIdx (fun y => cmp y x == 0)) ∧ 0 < (lRun cmp [] ops).2.findIdx (fun y => cmp y x == 0) := by
  obtain ⟨l, its, lost, e, hr, ha, hv⟩ := marks_run cmp ops mrep_init h
  rw [show accountAfter cmp ⟨[], false⟩ ops = _ from ha] at hw
  rw [show vals ([] : List (MItem α)) = [] from rfl] at hv e
  obtain ⟨l', l'', e1, e2, hs, hpos⟩ := clear_cut hr x hw
  rw [hv] at hs hpos
  have hrun : (LList.init : LList α).run cmp (ops ++ [.remove x]) = .ok ((lRun cmp [] ops).1 ++ [(1, none)], l') := by
    rw [llist_run_append, e]
    simp [LList.run, LList.step, e1]
  refine ⟨_, l', l''.heap, hrun, by simp [LList.delete, e2], ?_, hpos⟩
  have hb := books_run (ops ++ [.remove x]) (⟨0, counted_init, rfl⟩ : Books (LList.init : LList α) 0) hrun
  obtain ⟨k, hk, hks⟩ := books_clear hb e2
  have : k = (lRun cmp [] ops).2.findIdx (fun y => cmp y x == 0) := by omega
  rw [← this]
  exact hk.left

/-- The removal of the second and then the third of three elements. -/
example : GoodHistory intCompare ⟨[], false⟩ [.tailAdd 1, .tailAdd 2, .tailAdd 3, .remove 2] ∧
    GoesWrong intCompare (accountAfter intCompare ⟨[], false⟩ [.tailAdd 1, .tailAdd 2, .tailAdd 3, .remove 2]) (.remove 3) ∧
    (lRun intCompare [] [.tailAdd 1, .tailAdd 2, .tailAdd 3, .remove 2]).2.findIdx (fun y => intCompare y 3 == 0) = 1 := by
  refine ⟨⟨by simp [GoesWrong], by simp [GoesWrong, accountStep], by simp [GoesWrong, accountStep], ?_, trivial⟩, ⟨[(1, false)], 3, [], by decide, by decide, by decide, by decide⟩, by decide⟩
  rintro ⟨l, y, r, he, hl, hy, _⟩
  exact noHit _ (by decide) he hl hy

end Verif.Props
