import Verif.Spec.Marks
import Verif.Lemmas.LList
/-
Helper lemmas for the second part of C15: linked lists whose `prev` and `tail` pointers agree with the account of `Spec.Account`.
-/
namespace Verif.LList
open Spec
variable {α : Type}

/-- A node of the list: address, value, mark. -/
abbrev MItem (α : Type) := Nat × α × Bool

/-- A segment of a list whose `prev` pointers are as the marks say. -/
def MSeg (heap : Nat → Option (LNode α)) : Option Nat → Option Nat → List (MItem α) → Option Nat → Option Nat → Prop
  | prev, start, [], last, stop => start = stop ∧ prev = last
  | prev, start, i :: t, last, stop =>
    start = some i.1 ∧ ∃ n, heap i.1 = some n ∧ n.data = i.2.1 ∧ n.prev = (if i.2.2 then none else prev) ∧ MSeg heap (some i.1) n.next t last stop

theorem mseg_append {heap : Nat → Option (LNode α)} (l1 l2 : List (MItem α)) :
    ∀ {prev start last stop}, MSeg heap prev start (l1 ++ l2) last stop ↔
      ∃ p q, MSeg heap prev start l1 p q ∧ MSeg heap p q l2 last stop := by
  induction l1 with
  | nil =>
    intro prev start last stop
    constructor
    · intro h; exact ⟨prev, start, ⟨rfl, rfl⟩, h⟩
    · rintro ⟨p, q, ⟨rfl, rfl⟩, h⟩; exact h
  | cons i t ih =>
    intro prev start last stop
    constructor
    · rintro ⟨h1, e, h2, h3, h4, h5⟩
      obtain ⟨p, q, h7, h8⟩ := ih.mp h5
      exact ⟨p, q, ⟨h1, e, h2, h3, h4, h7⟩, h8⟩
    · rintro ⟨p, q, ⟨h1, e, h2, h3, h4, h7⟩, h8⟩
      exact ⟨h1, e, h2, h3, h4, ih.mpr ⟨p, q, h7, h8⟩⟩

theorem mseg_congr {heap heap' : Nat → Option (LNode α)} (l : List (MItem α)) :
    ∀ {prev start last stop}, (∀ i ∈ l, heap' i.1 = heap i.1) → MSeg heap prev start l last stop →
      MSeg heap' prev start l last stop := by
  induction l with
  | nil => intro prev start last stop _ h; exact h
  | cons i t ih =>
    rintro prev start last stop hc ⟨h1, e, h2, h3, h4, h5⟩
    exact ⟨h1, e, by rw [hc i (by simp), h2], h3, h4, ih (fun j hj => hc j (by simp [hj])) h5⟩

theorem mseg_last {heap : Nat → Option (LNode α)} (l : List (MItem α)) (i : MItem α) :
    ∀ {prev start last stop}, MSeg heap prev start (l ++ [i]) last stop → last = some i.1 := by
  intro prev start last stop h
  obtain ⟨p, q, _, _, n, _, _, _, _, h2⟩ := (mseg_append _ _).mp h
  exact h2.symm

theorem mseg_mem {heap : Nat → Option (LNode α)} (l : List (MItem α)) :
    ∀ {prev start last stop}, MSeg heap prev start l last stop → ∀ i ∈ l, ∃ n, heap i.1 = some n ∧ n.data = i.2.1 := by
  induction l with
  | nil => intro _ _ _ _ _ i hi; simp at hi
  | cons j t ih =>
    rintro prev start last stop ⟨h1, e, h2, h3, h4, h5⟩ i hi
    rcases List.mem_cons.mp hi with rfl | hi
    · exact ⟨e, h2, h3⟩
    · exact ih h5 i hi

/-- The values of the nodes. -/
def vals (its : List (MItem α)) : List α := its.map (·.2.1)

/-- The list holds the values of `its`, with `prev` pointers as marked; the pointer to the last node is lost if `lost`. -/
structure MRep (l : LList α) (its : List (MItem α)) (lost : Bool) : Prop where
  seg : ∃ last, MSeg l.heap none l.head its last none ∧ l.tail = if lost then none else last
  nodup : (its.map (·.1)).Nodup
  lt : ∀ i ∈ its, i.1 < l.fresh
  size : l.size = its.length

theorem MRep.length_le {l : LList α} {its lost} (h : MRep l its lost) : its.length ≤ l.fresh := by
  have hsub : its.map (·.1) ⊆ List.range l.fresh := by
    intro a ha
    obtain ⟨i, hi, rfl⟩ := List.mem_map.mp ha
    exact List.mem_range.mpr (h.lt i hi)
  have := (List.subperm_of_subset h.nodup hsub).length_le
  simpa using this

theorem mrep_init : MRep (init : LList α) [] false := ⟨⟨none, ⟨rfl, rfl⟩, rfl⟩, by simp, by simp, rfl⟩

/-- Change the mark of the first node. -/
def setFirstItem (lost : Bool) : List (MItem α) → List (MItem α)
  | [] => []
  | (a, x, _) :: r => (a, x, lost) :: r

theorem setFirstItem_addr (lost : Bool) (its : List (MItem α)) : (setFirstItem lost its).map (·.1) = its.map (·.1) := by cases its <;> rfl
theorem setFirstItem_snd (lost : Bool) (its : List (MItem α)) : (setFirstItem lost its).map (·.2) = setFirst lost (its.map (·.2)) := by cases its <;> rfl
theorem setFirstItem_length (lost : Bool) (its : List (MItem α)) : (setFirstItem lost its).length = its.length := by cases its <;> rfl
theorem setFirstItem_mem {lost : Bool} {its : List (MItem α)} {i : MItem α} (h : i ∈ setFirstItem lost its) : ∃ j ∈ its, j.1 = i.1 := by
  have : i.1 ∈ its.map (·.1) := by rw [← setFirstItem_addr lost]; exact List.mem_map.mpr ⟨i, h, rfl⟩
  obtain ⟨j, hj, e⟩ := List.mem_map.mp this
  exact ⟨j, hj, e⟩

theorem frontAdd_mrep {l : LList α} {its lost} (h : MRep l its lost) (x : α) :
    ∃ l', l.frontAdd x = .ok l' ∧ MRep l' ((l.fresh, x, false) :: setFirstItem false its) (lost && !its.isEmpty) := by
  have hne : ∀ i ∈ its, i.1 ≠ l.fresh := fun i hi => Nat.ne_of_lt (h.lt i hi)
  have hnd : (((l.fresh, x, false) :: setFirstItem false its).map (·.1)).Nodup := by
    rw [List.map_cons, List.nodup_cons, setFirstItem_addr]
    refine ⟨fun hm => ?_, h.nodup⟩
    obtain ⟨i, hi, he⟩ := List.mem_map.mp hm
    exact hne i hi he
  have hltt : ∀ i ∈ (l.fresh, x, false) :: setFirstItem false its, i.1 < l.fresh + 1 := by
    intro i hi
    rcases List.mem_cons.mp hi with rfl | hi
    · simp
    · obtain ⟨j, hj, e⟩ := setFirstItem_mem hi
      have := h.lt j hj; omega
  obtain ⟨last, hseg, htail⟩ := h.seg
  cases its with
  | nil =>
    have hs : ¬ l.size > 0 := by rw [h.size]; simp
    refine ⟨{ store l l.fresh { data := x, next := none, prev := none } with
      fresh := l.fresh + 1, tail := some l.fresh, head := some l.fresh, size := l.size + 1 }, ?_, ?_⟩
    · simp [frontAdd, nodeCreator, store, hs]
    · refine ⟨⟨some l.fresh, ⟨rfl, ⟨x, none, none⟩, by simp [store], rfl, rfl, rfl, rfl⟩, by simp⟩, hnd, hltt, ?_⟩
      simp only [setFirstItem, List.length_singleton]; rw [h.size]; rfl
  | cons i r =>
    obtain ⟨ia, iv, ic⟩ := i
    have hs : l.size > 0 := by rw [h.size]; simp
    obtain ⟨h1, n, h2, h3, h4, h5⟩ := hseg
    simp only at h1 h2 h3 h4 h5
    have hia : ia ≠ l.fresh := hne (ia, iv, ic) (by simp)
    have hir : ∀ j ∈ r, j.1 ≠ ia := by
      have := h.nodup
      rw [List.map_cons, List.nodup_cons] at this
      exact fun j hj he => this.1 (List.mem_map.mpr ⟨j, hj, he⟩)
    refine ⟨{ l with
      heap := fun y => if y = l.fresh then some { data := x, next := some ia, prev := none }
        else if y = ia then some { n with prev := some l.fresh } else l.heap y
      fresh := l.fresh + 1, head := some l.fresh, size := l.size + 1 }, ?_, ?_⟩
    · simp only [frontAdd, nodeCreator, store, deref, h1, hs, if_true, hia, if_false, h2, Outcome.ok_bind, Ne.symm hia, Outcome.pure_eq]
      congr 2
      funext y
      by_cases hy : y = l.fresh
      · simp [hy]
      · simp [hy]
    · refine ⟨⟨last, ⟨rfl, _, by simp only [if_true]; rfl, rfl, by simp, ?_⟩, by simpa using htail⟩, hnd, hltt, ?_⟩
      · refine ⟨rfl, { n with prev := some l.fresh }, by simp [hia], h3, by simp, ?_⟩
        refine mseg_congr _ ?_ h5
        intro j hj
        simp [hne j (by simp [hj]), hir j hj]
      · simp only [List.length_cons, setFirstItem]; rw [h.size]; simp

theorem tailAdd_mrep {l : LList α} {its lost} (h : MRep l its lost) (x : α) (hg : ¬ (lost = true ∧ its ≠ [])) :
    ∃ l', l.tailAdd x = .ok l' ∧ MRep l' (its ++ [(l.fresh, x, false)]) false := by
  have hne : ∀ i ∈ its, i.1 ≠ l.fresh := fun i hi => Nat.ne_of_lt (h.lt i hi)
  have hnd : ((its ++ [(l.fresh, x, false)]).map (·.1)).Nodup := by
    rw [List.map_append, List.nodup_append]
    refine ⟨h.nodup, by simp, ?_⟩
    intro a ha b hb
    obtain ⟨i, hi, rfl⟩ := List.mem_map.mp ha
    simp at hb
    rw [hb]; exact hne i hi
  have hltt : ∀ i ∈ its ++ [(l.fresh, x, false)], i.1 < l.fresh + 1 := by
    intro i hi
    rcases List.mem_append.mp hi with hi | hi
    · have := h.lt i hi; omega
    · simp at hi; rw [hi]; simp
  obtain ⟨last, hseg, htail⟩ := h.seg
  rcases List.eq_nil_or_concat its with rfl | ⟨pre, t, rfl⟩
  · have hs : ¬ l.size > 0 := by rw [h.size]; simp
    refine ⟨{ store l l.fresh { data := x, next := none, prev := none } with
      fresh := l.fresh + 1, tail := some l.fresh, head := some l.fresh, size := l.size + 1 }, ?_, ?_⟩
    · simp [tailAdd, nodeCreator, store, hs]
    · refine ⟨⟨some l.fresh, ⟨rfl, ⟨x, none, none⟩, by simp [store], rfl, rfl, rfl, rfl⟩, by simp⟩, hnd, hltt, ?_⟩
      simp only [List.nil_append, List.length_singleton]; rw [h.size]; rfl
  · rw [List.concat_eq_append] at *
    have hlost : lost = false := by
      cases lost with
      | false => rfl
      | true => exact absurd ⟨rfl, by simp⟩ hg
    have hs : l.size > 0 := by rw [h.size]; simp
    have hlast := mseg_last _ _ hseg
    rw [hlost, hlast] at htail
    simp only [Bool.false_eq_true, if_false] at htail
    obtain ⟨p, q, hp, rfl, n, hn, hnd', hnp, hnn, _⟩ := (mseg_append _ _).mp hseg
    have hta : t.1 ≠ l.fresh := hne t (by simp)
    have hpt : ∀ j ∈ pre, j.1 ≠ t.1 := by
      have := h.nodup
      rw [List.map_append, List.nodup_append] at this
      exact fun j hj he => this.2.2 _ (List.mem_map.mpr ⟨j, hj, rfl⟩) _ (by simp) he
    refine ⟨{ l with
      heap := fun y => if y = l.fresh then some { data := x, next := none, prev := some t.1 }
        else if y = t.1 then some { n with next := some l.fresh } else l.heap y
      fresh := l.fresh + 1, tail := some l.fresh, size := l.size + 1 }, ?_, ?_⟩
    · simp only [tailAdd, nodeCreator, store, deref, htail, hs, if_true, hta, if_false, hn, Outcome.ok_bind, Ne.symm hta, Outcome.pure_eq]
      congr 2
      funext y
      by_cases hy : y = l.fresh
      · simp [hy]
      · simp [hy]
    · refine ⟨⟨some l.fresh, ?_, by simp⟩, hnd, hltt, ?_⟩
      · refine (mseg_append _ _).mpr ⟨some t.1, some l.fresh, (mseg_append _ _).mpr ⟨p, some t.1, ?_, ?_⟩, ?_⟩
        · refine mseg_congr _ ?_ hp
          intro j hj
          simp [hne j (by simp [hj]), hpt j hj]
        · exact ⟨rfl, { n with next := some l.fresh }, by simp [hta], hnd', hnp, rfl, rfl⟩
        · exact ⟨rfl, { data := x, next := none, prev := some t.1 }, by simp, rfl, by simp, rfl, rfl⟩
      · simp only [List.length_append, List.length_singleton]; rw [h.size]; simp

/-- With the pointer to the last node lost, adding behind it follows NULL. -/
theorem tailAdd_lost {l : LList α} {its} (h : MRep l its true) (x : α) (hne : its ≠ []) : l.tailAdd x = .ub "null pointer" := by
  obtain ⟨last, hseg, htail⟩ := h.seg
  simp only [if_true] at htail
  have hs : l.size > 0 := by
    rw [h.size]
    have := List.length_pos_iff.mpr hne
    omega
  simp only [tailAdd, nodeCreator, store, deref, htail, hs, if_true]
  rfl

theorem lookupFrom_mrep {cmp : α → α → Int} {l : LList α} (x : α) (its : List (MItem α)) :
    ∀ {fuel prev start last}, its.length ≤ fuel → MSeg l.heap prev start its last none →
      lookupFrom cmp l x fuel start = .ok ((its.find? (fun i => cmp i.2.1 x = 0)).map (·.1)) := by
  induction its with
  | nil => rintro fuel prev start last _ ⟨rfl, _⟩; cases fuel <;> rfl
  | cons i r ih =>
    rintro fuel prev start last hf ⟨rfl, n, h2, h3, h4, h5⟩
    cases fuel with
    | zero => simp at hf
    | succ fuel =>
      simp only [lookupFrom, deref, h2, Outcome.ok_bind, h3]
      by_cases hz : cmp i.2.1 x = 0
      · simp [hz]
      · rw [if_neg hz, ih (by simpa using hf) h5]
        simp [hz]

theorem lookupHelper_mrep {cmp : α → α → Int} {l : LList α} {its lost} (h : MRep l its lost) (x : α) :
    lookupHelper cmp l x = .ok ((its.find? (fun i => cmp i.2.1 x = 0)).map (·.1)) := by
  obtain ⟨last, hseg, _⟩ := h.seg
  exact lookupFrom_mrep x its (by have := h.length_le; omega) hseg

theorem find?_vals {cmp : α → α → Int} (x : α) (its : List (MItem α)) :
    (vals its).find? (fun y => cmp y x == 0) = (its.find? (fun i => cmp i.2.1 x = 0)).map (·.2.1) := by
  induction its with
  | nil => rfl
  | cons i r ih =>
    unfold vals at *
    by_cases hz : cmp i.2.1 x = 0
    · simp [hz]
    · simp only [List.map_cons]
      rw [List.find?_cons_of_neg (by simpa using hz), List.find?_cons_of_neg (by simpa using hz), ih]

theorem lookup_mrep {cmp : α → α → Int} {l : LList α} {its lost} (h : MRep l its lost) (x : α) :
    lookup cmp l x = .ok ((vals its).find? (fun y => cmp y x == 0)) := by
  rw [find?_vals]
  unfold lookup
  rw [lookupHelper_mrep h x]
  obtain ⟨last, hseg, _⟩ := h.seg
  cases hf : its.find? (fun i => cmp i.2.1 x = 0) with
  | none => rfl
  | some i =>
    obtain ⟨n, h1, h2⟩ := mseg_mem _ hseg i (List.mem_of_find?_eq_some hf)
    simp only [Option.map_some, Outcome.ok_bind, deref, h1, h2]
    rfl

theorem valueFrom_mrep {l : LList α} (pos : Int) (its : List (MItem α)) :
    ∀ {fuel i prev start last}, its.length ≤ fuel → i ≤ pos → pos < i + its.length →
      MSeg l.heap prev start its last none →
      ∃ x, (vals its)[(pos - i).toNat]? = some x ∧ valueFrom l pos fuel i start = .ok (pos, some x) := by
  induction its with
  | nil => intro fuel i prev start last _ h1 h2; simp at h2; omega
  | cons it r ih =>
    rintro fuel i prev start last hf h1 h2 ⟨rfl, n, h3, h4, h5, h6⟩
    cases fuel with
    | zero => simp at hf
    | succ fuel =>
      simp only [valueFrom, deref, h3, Outcome.ok_bind, h4]
      by_cases hz : i = pos
      · subst hz
        refine ⟨it.2.1, by simp [vals], by simp⟩
      · rw [if_neg hz]
        obtain ⟨x, e1, e2⟩ := ih (fuel := fuel) (i := i + 1) (by simpa using hf) (by omega) (by simp only [List.length_cons] at h2; push_cast at h2; omega) h6
        refine ⟨x, ?_, e2⟩
        have : (pos - i).toNat = (pos - (i + 1)).toNat + 1 := by omega
        rw [this]
        simpa [vals] using e1

/-- Positions outside the chain. -/
theorem valueFrom_out {l : LList α} (pos : Int) (its : List (MItem α)) :
    ∀ {fuel i prev start last}, its.length ≤ fuel → pos < i ∨ i + its.length ≤ pos →
      MSeg l.heap prev start its last none → valueFrom l pos fuel i start = .ok (-1, none) := by
  induction its with
  | nil => rintro fuel i prev start last _ _ ⟨rfl, _⟩; cases fuel <;> rfl
  | cons it r ih =>
    rintro fuel i prev start last hf h1 ⟨rfl, n, h3, h4, h5, h6⟩
    cases fuel with
    | zero => simp at hf
    | succ fuel =>
      simp only [valueFrom, deref, h3, Outcome.ok_bind]
      rw [if_neg (by simp only [List.length_cons] at h1; push_cast at h1; omega)]
      exact ih (by simpa using hf) (by simp only [List.length_cons] at h1; push_cast at h1; omega) h6

theorem valueAt_mrep {l : LList α} {its lost} (h : MRep l its lost) (pos : Int) :
    valueAt l pos = .ok (if 0 ≤ pos ∧ pos < (vals its).length then (pos, (vals its)[pos.toNat]?) else (-1, none)) := by
  obtain ⟨last, hseg, _⟩ := h.seg
  unfold valueAt
  have hl : (vals its).length = its.length := by simp [vals]
  rw [hl, h.size]
  by_cases h1 : pos ≥ its.length
  · rw [if_pos h1, if_neg (by omega)]
  · rw [if_neg h1]
    by_cases h0 : 0 ≤ pos
    · obtain ⟨x, e1, e2⟩ := valueFrom_mrep (l := l) pos its (fuel := l.fresh + 1) (i := 0) (by have := h.length_le; omega) h0 (by omega) hseg
      rw [e2, if_pos ⟨h0, by omega⟩]
      rw [Int.sub_zero] at e1
      rw [e1]
    · rw [valueFrom_out pos its (by have := h.length_le; omega) (by omega) hseg, if_neg (by omega)]

theorem headData_mrep {l : LList α} {its lost} (h : MRep l its lost) : headData l = .ok (vals its).head? := by
  obtain ⟨last, hseg, _⟩ := h.seg
  unfold headData empty
  rw [h.size]
  cases its with
  | nil => simp [vals]
  | cons i r =>
    obtain ⟨h1, n, h2, h3, h4, h5⟩ := hseg
    have : ¬ (((i :: r).length : Nat) : Int) ≤ 0 := by simp
    simp only [this, if_false]
    rw [if_neg (by omega), h1]
    simp [deref, h2, h3, vals]

theorem tailData_mrep {l : LList α} {its lost} (h : MRep l its lost) : tailData l = .ok (if lost then none else (vals its).getLast?) := by
  obtain ⟨last, hseg, htail⟩ := h.seg
  unfold tailData empty
  rw [h.size]
  rcases List.eq_nil_or_concat its with rfl | ⟨pre, t, rfl⟩
  · cases lost <;> simp [vals]
  · rw [List.concat_eq_append] at *
    have : ¬ (((pre ++ [t]).length : Nat) : Int) ≤ 0 := by simp
    simp only [this, if_false]
    rw [if_neg (by omega)]
    cases lost with
    | true =>
      simp only [if_true] at htail
      rw [htail]
      rfl
    | false =>
      have hlast := mseg_last _ _ hseg
      obtain ⟨n, h1, h2⟩ := mseg_mem _ hseg t (by simp)
      simp only [Bool.false_eq_true, if_false] at htail
      rw [htail, hlast]
      simp [deref, h1, h2, vals]

/-- Unhooking the first node. -/
theorem unhook_front_mrep {l : LList α} {i : MItem α} {r lost} (h : MRep l (i :: r) lost) :
    ∃ l', unhook l i.1 = .ok l' ∧ MRep (free l' i.1) (setFirstItem true r) lost ∧ l'.fresh = l.fresh ∧
      (∃ n, l.heap i.1 = some n ∧ n.next = (free l' i.1).head) := by
  obtain ⟨last, ⟨h1, n, h2, h3, h4, h5⟩, htail⟩ := h.seg
  have h4 : n.prev = none := by rw [h4]; split <;> rfl
  have hs : l.size ≠ 0 := by rw [h.size]; simp; omega
  have hnd := h.nodup
  rw [List.map_cons, List.nodup_cons] at hnd
  have hir : ∀ j ∈ r, j.1 ≠ i.1 := fun j hj he => hnd.1 (List.mem_map.mpr ⟨j, hj, he⟩)
  cases r with
  | nil =>
    obtain ⟨hn, ht⟩ := h5
    refine ⟨{ l with head := none, tail := none, size := l.size - 1 }, ?_, ?_, rfl, n, h2, hn⟩
    · simp [unhook, hs, unhookPrev, unhookNext, deref, h2, h4, hn]
    · refine ⟨⟨none, ⟨rfl, rfl⟩, by cases lost <;> rfl⟩, by simp [setFirstItem], by simp [setFirstItem], ?_⟩
      show l.size - 1 = 0
      rw [h.size]; simp
  | cons j r =>
    obtain ⟨ja, jv, jc⟩ := j
    obtain ⟨hn, m, hm, hm3, hm4, hm5⟩ := h5
    simp only at hn hm hm3 hm4 hm5
    have hji : ja ≠ i.1 := hir (ja, jv, jc) (by simp)
    have hjr : ∀ k ∈ r, k.1 ≠ ja := by
      have := hnd.2
      rw [List.map_cons, List.nodup_cons] at this
      exact fun k hk he => this.1 (List.mem_map.mpr ⟨k, hk, he⟩)
    refine ⟨{ l with
      head := some ja
      heap := fun y => if y = i.1 then some { n with next := none } else if y = ja then some { m with prev := none } else l.heap y
      size := l.size - 1 }, ?_, ?_, rfl, n, h2, hn⟩
    · simp only [unhook, hs, if_false, unhookPrev, unhookNext, deref, store, h2, h4, hn, hm, Outcome.ok_bind, Outcome.pure_eq, Ne.symm hji, if_true]
      congr 2
      funext y
      by_cases hy : y = i.1
      · simp [hy]
      · by_cases hy2 : y = ja <;> simp [hy, hy2]
    · refine ⟨⟨last, ⟨rfl, { m with prev := none }, ?_, hm3, rfl, ?_⟩, htail⟩, hnd.2, fun k hk => ?_, ?_⟩
      · simp [free, hji]
      · refine mseg_congr _ ?_ hm5
        intro k hk
        simp [free, hir k (by simp [hk]), hjr k hk]
      · obtain ⟨j, hj, e⟩ := setFirstItem_mem (its := (ja, jv, jc) :: r) hk
        rw [← e]
        exact h.lt j (List.mem_cons_of_mem _ hj)
      · show l.size - 1 = _
        rw [h.size]; simp [setFirstItem]

theorem clearFrom_mrep (k : Nat) : ∀ {its : List (MItem α)} {l : LList α} {fuel lost}, its.length = k → its.length ≤ fuel → MRep l its lost →
    ∃ l', clearFrom fuel l l.head = .ok l' ∧ l'.size = 0 ∧ l'.fresh = l.fresh := by
  induction k with
  | zero =>
    intro its l fuel lost hk _ h
    obtain rfl := List.length_eq_zero_iff.mp hk
    obtain ⟨last, ⟨h1, _⟩, _⟩ := h.seg
    refine ⟨l, by rw [h1]; cases fuel <;> rfl, by rw [h.size]; rfl, rfl⟩
  | succ k ih =>
    intro its l fuel lost hk hf h
    cases its with
    | nil => simp at hk
    | cons i r =>
      cases fuel with
      | zero => simp at hf
      | succ fuel =>
        obtain ⟨l1, e1, h1, hfr, n, hn, hnn⟩ := unhook_front_mrep h
        obtain ⟨l2, e2, h2, hfr2⟩ := ih (fuel := fuel) (by rw [setFirstItem_length]; simpa using hk) (by rw [setFirstItem_length]; simpa using hf) h1
        obtain ⟨last, ⟨hh, _⟩, _⟩ := h.seg
        refine ⟨l2, ?_, h2, by rw [hfr2]; exact hfr⟩
        rw [hh]
        simp only [clearFrom, deref, hn, Outcome.ok_bind, e1, destroy_ok e1 hn]
        rw [hnn]
        exact e2

theorem clear_mrep {l : LList α} {its lost} (h : MRep l its lost) : ∃ l', clear l = .ok l' ∧ MRep l' [] false := by
  obtain ⟨l1, e1, h1, _⟩ := clearFrom_mrep _ rfl (fuel := l.fresh + 1) (by have := h.length_le; omega) h
  exact ⟨{ l1 with head := none, tail := none }, by simp [clear, e1], ⟨⟨none, ⟨rfl, rfl⟩, rfl⟩, by simp, by simp, h1⟩⟩

/-- Changing the `next` pointer of the last node of a segment. -/
theorem mseg_stop {heap heap' : Nat → Option (LNode α)} (pre : List (MItem α)) (p : MItem α) {prev start last stop stop' : Option Nat}
    (h : MSeg heap prev start (pre ++ [p]) last stop)
    (hc : ∀ i ∈ pre, heap' i.1 = heap i.1) (hp : ∀ n, heap p.1 = some n → heap' p.1 = some { n with next := stop' }) :
    MSeg heap' prev start (pre ++ [p]) last stop' := by
  obtain ⟨a, b, h1, h2, n, h3, h4, h5, h6, h7⟩ := (mseg_append _ _).mp h
  exact (mseg_append _ _).mpr ⟨a, b, mseg_congr _ hc h1, h2, _, hp n h3, h4, h5, rfl, h7⟩

/-- Unhooking a node that is not the first and whose link is intact. -/
theorem unhook_inner_mrep {l : LList α} {pre : List (MItem α)} {p : MItem α} {a : Nat} {y : α} {post lost}
    (h : MRep l (pre ++ [p] ++ (a, y, false) :: post) lost) :
    ∃ l', unhook l a = .ok l' ∧ MRep (free l' a) (pre ++ [p] ++ setFirstItem true post) (lost || post.isEmpty) := by
  obtain ⟨last, hseg, htail⟩ := h.seg
  obtain ⟨q, st, hpre, h1, n, h2, h3, h4, h5⟩ := (mseg_append _ _).mp hseg
  have hq : q = some p.1 := mseg_last _ _ hpre
  simp only at h1 h2 h3 h4 h5
  subst hq h1
  simp only [Bool.false_eq_true, if_false] at h4
  have hs : l.size ≠ 0 := by rw [h.size]; simp; omega
  obtain ⟨mp, hmp, hmpd⟩ := mseg_mem _ hpre p (by simp)
  have hnd := h.nodup
  rw [List.map_append, List.nodup_append] at hnd
  obtain ⟨hnd1, hnd2, hnd3⟩ := hnd
  rw [List.map_cons, List.nodup_cons] at hnd2
  have hpa : ∀ j ∈ pre ++ [p], j.1 ≠ a := fun j hj he => hnd3 _ (List.mem_map.mpr ⟨j, hj, rfl⟩) a (by simp) he
  have hposta : ∀ j ∈ post, j.1 ≠ a := fun j hj he => hnd2.1 (List.mem_map.mpr ⟨j, hj, he⟩)
  have hprepost : ∀ j ∈ pre ++ [p], ∀ k ∈ post, j.1 ≠ k.1 := fun j hj k hk =>
    hnd3 _ (List.mem_map.mpr ⟨j, hj, rfl⟩) _ (List.mem_map.mpr ⟨k, List.mem_cons_of_mem _ hk, rfl⟩)
  have hpp : ∀ j ∈ pre, j.1 ≠ p.1 := by
    rw [List.map_append, List.nodup_append] at hnd1
    exact fun j hj => hnd1.2.2 _ (List.mem_map.mpr ⟨j, hj, rfl⟩) _ (by simp)
  have hp1a : p.1 ≠ a := hpa p (by simp)
  have hnodup' : ((pre ++ [p] ++ setFirstItem true post).map (·.1)).Nodup := by
    rw [List.map_append, setFirstItem_addr, List.nodup_append]
    exact ⟨hnd1, hnd2.2, fun u hu v hv => hnd3 u hu v (List.mem_cons_of_mem _ hv)⟩
  have hlt' : ∀ i ∈ pre ++ [p] ++ setFirstItem true post, i.1 < l.fresh := by
    intro i hi
    rcases List.mem_append.mp hi with hi | hi
    · exact h.lt i (List.mem_append.mpr (Or.inl hi))
    · obtain ⟨j, hj, e⟩ := setFirstItem_mem hi
      rw [← e]
      exact h.lt j (List.mem_append.mpr (Or.inr (List.mem_cons_of_mem _ hj)))
  have hsz' : l.size - 1 = ((pre ++ [p] ++ setFirstItem true post).length : Int) := by
    rw [h.size, List.length_append, List.length_append (as := pre ++ [p]), setFirstItem_length, List.length_cons]
    push_cast; omega
  cases post with
  | nil =>
    obtain ⟨hn, _⟩ := h5
    refine ⟨{ l with
      heap := fun z => if z = a then some { n with prev := none } else if z = p.1 then some { mp with next := none } else l.heap z
      tail := none, size := l.size - 1 }, ?_, ?_⟩
    · simp only [unhook, hs, if_false, unhookPrev, unhookNext, deref, store, h2, h4, hn, hmp, Outcome.ok_bind, Outcome.pure_eq, Ne.symm hp1a, if_true]
    · refine ⟨⟨some p.1, ?_, by simp [free]⟩, hnodup', hlt', hsz'⟩
      simp only [setFirstItem, List.append_nil]
      refine mseg_stop pre p hpre ?_ ?_
      · intro j hj
        simp [free, hpa j (by simp [hj]), hpp j hj]
      · intro n' hn'
        rw [hmp] at hn'
        simp [free, hp1a, Option.some.inj hn']
  | cons j r =>
    obtain ⟨ja, jv, jc⟩ := j
    obtain ⟨hn, m, hm, hm3, hm4, hm5⟩ := h5
    simp only at hn hm hm3 hm4 hm5
    have hja : ja ≠ a := hposta (ja, jv, jc) (by simp)
    have hpj : p.1 ≠ ja := hprepost p (by simp) (ja, jv, jc) (by simp)
    have hjr : ∀ k ∈ r, k.1 ≠ ja := by
      have := hnd2.2
      rw [List.map_cons, List.nodup_cons] at this
      exact fun k hk he => this.1 (List.mem_map.mpr ⟨k, hk, he⟩)
    refine ⟨{ l with
      heap := fun z => if z = a then some { n with prev := none, next := none } else if z = ja then some { m with prev := none } else
        if z = p.1 then some { mp with next := some ja } else l.heap z
      size := l.size - 1 }, ?_, ?_⟩
    · simp only [unhook, hs, if_false, unhookPrev, unhookNext, deref, store, h2, h4, hn, hmp, hm, Outcome.ok_bind, Outcome.pure_eq, Ne.symm hp1a, if_true,
        hja, Ne.symm hpj, Ne.symm hja]
      congr 2
      funext z
      by_cases hz : z = a
      · simp [hz]
      · by_cases hz2 : z = ja <;> simp [hz, hz2]
    · refine ⟨⟨last, ?_, by simpa [free] using htail⟩, hnodup', hlt', hsz'⟩
      refine (mseg_append _ _).mpr ⟨some p.1, some ja, mseg_stop pre p hpre ?_ ?_, ?_⟩
      · intro k hk
        simp [free, hpa k (by simp [hk]), hpp k hk, hprepost k (by simp [hk]) (ja, jv, jc) (by simp)]
      · intro n' hn'
        rw [hmp] at hn'
        simp [free, hp1a, hpj, Option.some.inj hn']
      · refine ⟨rfl, { m with prev := none }, by simp [free, hja], hm3, rfl, ?_⟩
        refine mseg_congr _ ?_ hm5
        intro k hk
        have := hprepost p (by simp) k (by simp [hk])
        simp [free, hposta k (by simp [hk]), hjr k hk, Ne.symm this]

/-- Unhooking a node that is not the first and whose link is lost: the nodes in front of it are cut off. -/
theorem unhook_cut {l : LList α} {pre : List (MItem α)} {a : Nat} {y : α} {post lost}
    (h : MRep l (pre ++ (a, y, true) :: post) lost) :
    ∃ l' last, unhook l a = .ok l' ∧ (free l' a).size = (pre ++ post).length ∧ (free l' a).fresh = l.fresh ∧
      MSeg (free l' a).heap none (free l' a).head (setFirstItem true post) last none := by
  obtain ⟨last, hseg, htail⟩ := h.seg
  obtain ⟨q, st, hpre, h1, n, h2, h3, h4, h5⟩ := (mseg_append _ _).mp hseg
  simp only at h1 h2 h3 h4 h5
  subst h1
  simp only [if_true] at h4
  have hs : l.size ≠ 0 := by rw [h.size]; simp; omega
  have hnd := h.nodup
  rw [List.map_append, List.nodup_append] at hnd
  obtain ⟨hnd1, hnd2, hnd3⟩ := hnd
  rw [List.map_cons, List.nodup_cons] at hnd2
  have hposta : ∀ j ∈ post, j.1 ≠ a := fun j hj he => hnd2.1 (List.mem_map.mpr ⟨j, hj, he⟩)
  have hsz' : l.size - 1 = ((pre ++ post).length : Int) := by
    rw [h.size, List.length_append, List.length_append, List.length_cons]
    push_cast; omega
  cases post with
  | nil =>
    obtain ⟨hn, _⟩ := h5
    refine ⟨{ l with head := none, tail := none, size := l.size - 1 }, none, ?_, hsz', rfl, rfl, rfl⟩
    simp [unhook, hs, unhookPrev, unhookNext, deref, h2, h4, hn]
  | cons j r =>
    obtain ⟨ja, jv, jc⟩ := j
    obtain ⟨hn, m, hm, hm3, hm4, hm5⟩ := h5
    simp only at hn hm hm3 hm4 hm5
    have hja : ja ≠ a := hposta (ja, jv, jc) (by simp)
    have hjr : ∀ k ∈ r, k.1 ≠ ja := by
      have := hnd2.2
      rw [List.map_cons, List.nodup_cons] at this
      exact fun k hk he => this.1 (List.mem_map.mpr ⟨k, hk, he⟩)
    refine ⟨{ l with
      head := some ja
      heap := fun y => if y = a then some { n with next := none } else if y = ja then some { m with prev := none } else l.heap y
      size := l.size - 1 }, last, ?_, hsz', rfl, ?_⟩
    · simp only [unhook, hs, if_false, unhookPrev, unhookNext, deref, store, h2, h4, hn, hm, Outcome.ok_bind, Outcome.pure_eq, Ne.symm hja, if_true]
      congr 2
      funext y
      by_cases hy : y = a
      · simp [hy]
      · by_cases hy2 : y = ja <;> simp [hy, hy2]
    · refine ⟨rfl, { m with prev := none }, by simp [free, hja], hm3, rfl, ?_⟩
      refine mseg_congr _ ?_ hm5
      intro k hk
      simp [free, hposta k (by simp [hk]), hjr k hk]

/-- The first node for which `p` holds splits the list. -/
theorem split_item (p : α → Bool) (its : List (MItem α)) :
    (∃ pre i post, its = pre ++ i :: post ∧ p i.2.1 = true ∧ (∀ j ∈ pre, p j.2.1 = false)) ∨ ∀ i ∈ its, p i.2.1 = false := by
  induction its with
  | nil => right; simp
  | cons i r ih =>
    by_cases hi : p i.2.1 = true
    · exact Or.inl ⟨[], i, r, rfl, hi, by simp⟩
    · rcases ih with ⟨pre, k, post, rfl, h1, h2⟩ | h
      · refine Or.inl ⟨i :: pre, k, post, rfl, h1, ?_⟩
        intro j hj
        rcases List.mem_cons.mp hj with rfl | hj
        · simpa using hi
        · exact h2 j hj
      · right
        intro j hj
        rcases List.mem_cons.mp hj with rfl | hj
        · simpa using hi
        · exact h j hj

theorem takeOut_split (p : α → Bool) (pre : List (α × Bool)) (e : α × Bool) (post : List (α × Bool)) (he : p e.1 = true)
    (hp : ∀ j ∈ pre, p j.1 = false) : takeOut p (pre ++ e :: post) = pre ++ setFirst true post := by
  induction pre with
  | nil => obtain ⟨x, c⟩ := e; simp only [List.nil_append, takeOut]; rw [if_pos he]
  | cons i r ih =>
    obtain ⟨x, c⟩ := i
    simp only [List.cons_append, takeOut]
    rw [if_neg (by simpa using hp (x, c) (by simp)), ih (fun j hj => hp j (by simp [hj]))]

theorem takesLast_split (p : α → Bool) (pre : List (α × Bool)) (e : α × Bool) (post : List (α × Bool)) (he : p e.1 = true)
    (hp : ∀ j ∈ pre, p j.1 = false) : takesLast p (pre ++ e :: post) = (post.isEmpty && !pre.isEmpty) := by
  unfold takesLast
  rw [List.dropWhile_append_of_pos (by intro j hj; simp [hp j hj]), List.dropWhile_cons_of_neg (by simp [he])]
  cases pre <;> cases post <;> simp

theorem takeOut_none (p : α → Bool) (l : List (α × Bool)) (hp : ∀ j ∈ l, p j.1 = false) : takeOut p l = l := by
  induction l with
  | nil => rfl
  | cons i r ih =>
    obtain ⟨x, c⟩ := i
    simp only [takeOut]
    rw [if_neg (by simpa using hp (x, c) (by simp)), ih (fun j hj => hp j (by simp [hj]))]

theorem takesLast_none (p : α → Bool) (l : List (α × Bool)) (hp : ∀ j ∈ l, p j.1 = false) : takesLast p l = false := by
  unfold takesLast
  have : l.dropWhile (fun e => !p e.1) = [] := by
    induction l with
    | nil => rfl
    | cons i r ih =>
      rw [List.dropWhile_cons_of_pos (by simp [hp i (by simp)])]
      exact ih (fun j hj => hp j (by simp [hj]))
  rw [this]
  rfl

theorem remove_mrep {cmp : α → α → Int} {l : LList α} {its lost} (h : MRep l its lost) (x : α)
    (hg : ¬ GoesWrong cmp ⟨its.map (·.2), lost⟩ (.remove x)) :
    ∃ l' its', remove cmp l x = .ok (if (vals its).any (fun y => cmp y x == 0) then 1 else 0, l') ∧
      MRep l' its' (lost || takesLast (fun y => cmp y x == 0) (its.map (·.2))) ∧
      its'.map (·.2) = takeOut (fun y => cmp y x == 0) (its.map (·.2)) ∧ vals its' = (vals its).eraseP (fun y => cmp y x == 0) := by
  unfold remove
  rw [lookupHelper_mrep h x]
  rcases split_item (fun y => cmp y x == 0) its with ⟨pre, i, post, rfl, hi, hpre⟩ | hno
  · have hf : (pre ++ i :: post).find? (fun i => cmp i.2.1 x = 0) = some i := by
      rw [List.find?_append, List.find?_eq_none.mpr (by intro j hj; simpa using hpre j hj), List.find?_cons_of_pos (by simpa using hi)]
      rfl
    have hany : (vals (pre ++ i :: post)).any (fun y => cmp y x == 0) = true := by
      simp only [vals, List.any_map, List.any_append, List.any_cons]
      simp only [Function.comp, hi]
      simp
    have htake : takeOut (fun y => cmp y x == 0) ((pre ++ i :: post).map (·.2)) = (pre ++ setFirstItem true post).map (·.2) := by
      rw [List.map_append, List.map_cons, takeOut_split _ _ _ _ hi, List.map_append, setFirstItem_snd]
      intro j hj
      obtain ⟨k, hk, rfl⟩ := List.mem_map.mp hj
      exact hpre k hk
    have hlast : takesLast (fun y => cmp y x == 0) ((pre ++ i :: post).map (·.2)) = (post.isEmpty && !pre.isEmpty) := by
      rw [List.map_append, List.map_cons, takesLast_split _ _ _ _ hi]
      · cases pre <;> cases post <;> rfl
      · intro j hj
        obtain ⟨k, hk, rfl⟩ := List.mem_map.mp hj
        exact hpre k hk
    have herase : vals (pre ++ setFirstItem true post) = (vals (pre ++ i :: post)).eraseP (fun y => cmp y x == 0) := by
      have hv : vals (setFirstItem true post) = vals post := by cases post <;> rfl
      have happ : ∀ u v : List (MItem α), vals (u ++ v) = vals u ++ vals v := fun u v => List.map_append
      rw [happ, happ, hv, List.eraseP_append_right]
      · show _ = _ ++ (i.2.1 :: vals post).eraseP _
        rw [List.eraseP_cons_of_pos (p := fun y => cmp y x == 0) hi]
      · intro y hy
        obtain ⟨k, hk, rfl⟩ := List.mem_map.mp hy
        simpa using hpre k hk
    rw [hf, hany, htake, hlast, ← herase]
    simp only [Option.map_some, Outcome.ok_bind, if_true]
    rcases List.eq_nil_or_concat pre with rfl | ⟨pre, p, rfl⟩
    · obtain ⟨l1, e1, h1, _, n, hn, _⟩ := unhook_front_mrep h
      exact ⟨free l1 i.1, setFirstItem true post, by simp only [e1, Outcome.ok_bind, destroy_ok e1 hn]; rfl, by simpa using h1, rfl, rfl⟩
    · rw [List.concat_eq_append] at *
      obtain ⟨a, y, c⟩ := i
      cases c with
      | true =>
        refine absurd ⟨(pre ++ [p]).map (·.2), y, post.map (·.2), by simp, by simp, by simpa using hi, ?_⟩ hg
        intro z hz
        obtain ⟨k, hk, rfl⟩ := List.mem_map.mp hz
        simpa using hpre k hk
      | false =>
        obtain ⟨l1, e1, h1⟩ := unhook_inner_mrep h
        obtain ⟨_, hseg, _⟩ := h.seg
        obtain ⟨n, hn, _⟩ := mseg_mem _ hseg (a, y, false) (by simp)
        refine ⟨free l1 a, pre ++ [p] ++ setFirstItem true post, by simp only [e1, Outcome.ok_bind, destroy_ok e1 hn]; rfl, ?_, rfl, rfl⟩
        have : (!(pre ++ [p]).isEmpty) = true := by simp
        rw [this, Bool.and_true]
        exact h1
  · have hf : its.find? (fun i => cmp i.2.1 x = 0) = none := by
      rw [List.find?_eq_none]; intro j hj; simpa using hno j hj
    have hv : ∀ y ∈ vals its, (cmp y x == 0) = false := by
      intro y hy
      obtain ⟨k, hk, rfl⟩ := List.mem_map.mp hy
      exact hno k hk
    have hm : ∀ j ∈ its.map (·.2), (fun y => cmp y x == 0) j.1 = false := by
      intro j hj
      obtain ⟨k, hk, rfl⟩ := List.mem_map.mp hj
      exact hno k hk
    have hany : (vals its).any (fun y => cmp y x == 0) = false := by
      rw [List.any_eq_false]
      intro y hy
      simp [hv y hy]
    rw [hf, hany, takeOut_none _ _ hm, takesLast_none _ _ hm, Bool.or_false, List.eraseP_of_forall_not (by intro y hy; simp [hv y hy])]
    exact ⟨l, its, rfl, h, rfl, rfl⟩

/-- Removing a node whose link is lost: the list still reports the right size, but the positions behind the remaining chain are gone. -/
theorem remove_cut {cmp : α → α → Int} {l : LList α} {its lost} (h : MRep l its lost) (x : α)
    (hg : GoesWrong cmp ⟨its.map (·.2), lost⟩ (.remove x)) :
    ∃ l', remove cmp l x = .ok (1, l') ∧ valueAt l' (its.length - 2) = .ok (-1, none) ∧ 2 ≤ its.length ∧ (vals its).any (fun y => cmp y x == 0) = true := by
  obtain ⟨u, y, r, he, hne, hy, hu⟩ := hg
  simp only at he
  obtain ⟨pre, rest, rfl, rfl, h2⟩ := List.map_eq_append_iff.mp he
  obtain ⟨i, post, rfl, h3, rfl⟩ := List.map_eq_cons_iff.mp h2
  obtain ⟨a, y', c⟩ := i
  obtain ⟨rfl, rfl⟩ := Prod.mk.inj h3
  have hpre : ∀ j ∈ pre, cmp j.2.1 x ≠ 0 := fun j hj => hu j.2 (List.mem_map.mpr ⟨j, hj, rfl⟩)
  have hf : (pre ++ (a, y', true) :: post).find? (fun i => cmp i.2.1 x = 0) = some (a, y', true) := by
    rw [List.find?_append, List.find?_eq_none.mpr (by intro j hj; simpa using hpre j hj), List.find?_cons_of_pos (by simpa using hy)]
    rfl
  obtain ⟨l1, last, e1, hs, hfr, hseg⟩ := unhook_cut h
  have hlen : 0 < pre.length := List.length_pos_iff.mpr (by rintro rfl; simp at hne)
  refine ⟨free l1 a, ?_, ?_, ?_, ?_⟩
  · unfold remove
    obtain ⟨_, hseg', _⟩ := h.seg
    obtain ⟨n, hn, _⟩ := mseg_mem _ hseg' (a, y', true) (by simp)
    rw [lookupHelper_mrep h x, hf]
    simp only [Option.map_some, Outcome.ok_bind, e1, destroy_ok e1 hn]
    rfl
  · unfold valueAt
    have hl := h.length_le
    rw [List.length_append, List.length_cons] at hl
    have e : (((pre ++ (a, y', true) :: post).length : Nat) : Int) = pre.length + post.length + 1 := by
      rw [List.length_append, List.length_cons]; push_cast; omega
    rw [e, hs, List.length_append]
    rw [if_neg (by push_cast; omega), hfr]
    exact valueFrom_out _ _ (by rw [setFirstItem_length]; omega) (by right; rw [setFirstItem_length]; omega) hseg
  · rw [List.length_append, List.length_cons]; omega
  · simp only [vals, List.any_map, List.any_append, List.any_cons]
    simp [hy]

end Verif.LList
