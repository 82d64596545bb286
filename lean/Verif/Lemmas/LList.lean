import Verif.Model.LList
import Verif.Spec.LList
import Mathlib.Data.List.Nodup
import Mathlib.Data.List.Range
import Mathlib.Data.List.Perm.Subperm
import Mathlib.Tactic.Linarith
/-
Helper lemmas for the linked list model.
-/
namespace Verif.LList
open Spec
variable {α : Type}

theorem deref_ok {l : LList α} {p : Option Nat} {r : Nat × LNode α} (h : deref l p = .ok r) : p = some r.1 ∧ l.heap r.1 = some r.2 := by
  unfold deref at h
  cases p with
  | none => simp at h
  | some a =>
    simp only at h
    cases hn : l.heap a with
    | none => simp [hn] at h
    | some n => simp only [hn, Outcome.ok.injEq] at h; subst h; exact ⟨rfl, hn⟩

theorem store_data {l : LList α} {a : Nat} {n m : LNode α} (h : l.heap a = some n) (hm : m.data = n.data) (b : Nat) :
    ((store l a m).heap b).map LNode.data = (l.heap b).map LNode.data := by
  simp only [store]
  by_cases hb : b = a
  · subst hb; simp [h, hm]
  · simp [hb]

theorem unhookPrev_data {l l' : LList α} {a : Nat} (h : unhookPrev l a = .ok l') :
    (∀ b, (l'.heap b).map LNode.data = (l.heap b).map LNode.data) ∧ l'.fresh = l.fresh ∧ l'.size = l.size ∧ (l.heap a).isSome := by
  unfold unhookPrev at h
  obtain ⟨⟨a1, n⟩, e1, h⟩ := Outcome.bind_eq_ok.mp h
  obtain ⟨ha, hn⟩ := deref_ok e1
  obtain rfl := Option.some.inj ha
  simp only at h hn ⊢
  have hs : (l.heap a).isSome := by rw [hn]; rfl
  cases hp : n.prev with
  | some p =>
    simp only [hp] at h
    obtain ⟨⟨p1, m⟩, e2, h⟩ := Outcome.bind_eq_ok.mp h
    obtain ⟨hp1, hm⟩ := deref_ok e2
    obtain rfl := Option.some.inj hp1
    obtain ⟨⟨a2, n1⟩, e3, h⟩ := Outcome.bind_eq_ok.mp h
    obtain ⟨ha2, hn1⟩ := deref_ok e3
    obtain rfl := Option.some.inj ha2
    simp only [Outcome.pure_eq, Outcome.ok.injEq] at h
    subst h
    exact ⟨fun b => Eq.trans (store_data hn1 (by rfl) b) (store_data hm (by rfl) b), rfl, rfl, hs⟩
  | none =>
    simp only [hp] at h
    cases hx : n.next with
    | some b =>
      simp only [hx] at h
      obtain ⟨⟨b1, m⟩, e2, h⟩ := Outcome.bind_eq_ok.mp h
      obtain ⟨hb1, hm⟩ := deref_ok e2
      obtain rfl := Option.some.inj hb1
      simp only [Outcome.pure_eq, Outcome.ok.injEq] at h
      subst h
      exact ⟨fun b => store_data (l := { l with head := some _ }) hm (by rfl) b, rfl, rfl, hs⟩
    | none =>
      simp only [hx, Outcome.pure_eq, Outcome.ok.injEq] at h
      subst h
      exact ⟨fun _ => rfl, rfl, rfl, hs⟩

theorem unhookNext_data {l l' : LList α} {a : Nat} (h : unhookNext l a = .ok l') :
    (∀ b, (l'.heap b).map LNode.data = (l.heap b).map LNode.data) ∧ l'.fresh = l.fresh ∧ l'.size = l.size - 1 := by
  unfold unhookNext at h
  obtain ⟨⟨a1, n⟩, e1, h⟩ := Outcome.bind_eq_ok.mp h
  obtain ⟨ha, hn⟩ := deref_ok e1
  obtain rfl := Option.some.inj ha
  simp only at h hn
  cases hp : n.next with
  | some p =>
    simp only [hp] at h
    obtain ⟨⟨p1, m⟩, e2, h⟩ := Outcome.bind_eq_ok.mp h
    obtain ⟨hp1, hm⟩ := deref_ok e2
    obtain rfl := Option.some.inj hp1
    obtain ⟨⟨a2, n1⟩, e3, h⟩ := Outcome.bind_eq_ok.mp h
    obtain ⟨ha2, hn1⟩ := deref_ok e3
    obtain rfl := Option.some.inj ha2
    simp only [Outcome.pure_eq, Outcome.ok.injEq] at h
    subst h
    exact ⟨fun b => Eq.trans (store_data hn1 (by rfl) b) (store_data hm (by rfl) b), rfl, rfl⟩
  | none =>
    simp only [hp] at h
    cases hx : n.prev with
    | some b =>
      simp only [hx] at h
      obtain ⟨⟨b1, m⟩, e2, h⟩ := Outcome.bind_eq_ok.mp h
      obtain ⟨hb1, hm⟩ := deref_ok e2
      obtain rfl := Option.some.inj hb1
      simp only [Outcome.pure_eq, Outcome.ok.injEq] at h
      subst h
      exact ⟨fun b => store_data (l := { l with tail := some _ }) hm (by rfl) b, rfl, rfl⟩
    | none =>
      simp only [hx, Outcome.pure_eq, Outcome.ok.injEq] at h
      subst h
      exact ⟨fun _ => rfl, rfl, rfl⟩

/-- Unhooking a node changes no data and gives nothing back. -/
theorem unhook_data {l l' : LList α} {a : Nat} (h : unhook l a = .ok l') :
    (∀ b, (l'.heap b).map LNode.data = (l.heap b).map LNode.data) ∧ l'.fresh = l.fresh ∧ l'.size = if l.size = 0 then 0 else l.size - 1 := by
  unfold unhook at h
  split_ifs at h with h0
  · obtain rfl := Outcome.ok.inj h
    exact ⟨fun _ => rfl, rfl, by simp [h0]⟩
  · obtain ⟨l1, e1, h⟩ := Outcome.bind_eq_ok.mp h
    obtain ⟨d1, f1, s1, _⟩ := unhookPrev_data e1
    obtain ⟨d2, f2, s2⟩ := unhookNext_data h
    exact ⟨fun b => (d2 b).trans (d1 b), f2.trans f1, by rw [s2, s1, if_neg h0]⟩

theorem destroy_ok {l l' : LList α} {a : Nat} {n : LNode α} (h : unhook l a = .ok l') (hn : l.heap a = some n) : destroy l' a = .ok (free l' a) := by
  have := (unhook_data h).1 a
  rw [hn] at this
  cases hm : l'.heap a with
  | none => rw [hm] at this; simp at this
  | some m => simp [destroy, deref, hm]

/-- A doubly linked segment. -/
def Seg (heap : Nat → Option (LNode α)) : Option Nat → Option Nat → List (Nat × α) → Option Nat → Option Nat → Prop
  | prev, start, [], last, stop => start = stop ∧ prev = last
  | prev, start, i :: t, last, stop =>
    start = some i.1 ∧ ∃ n, heap i.1 = some n ∧ n.data = i.2 ∧ n.prev = prev ∧ Seg heap (some i.1) n.next t last stop

theorem seg_append {heap : Nat → Option (LNode α)} (l1 l2 : List (Nat × α)) :
    ∀ {prev start last stop}, Seg heap prev start (l1 ++ l2) last stop ↔
      ∃ p q, Seg heap prev start l1 p q ∧ Seg heap p q l2 last stop := by
  induction l1 with
  | nil =>
    intro prev start last stop
    constructor
    · intro h; exact ⟨prev, start, ⟨rfl, rfl⟩, h⟩
    · rintro ⟨p, q, ⟨rfl, rfl⟩, h⟩; exact h
  | cons i t ih =>
    intro prev start last stop
    constructor
    · rintro ⟨h1, e, h2, h3, h4, h5⟩
      obtain ⟨p, q, h7, h8⟩ := ih.mp h5
      exact ⟨p, q, ⟨h1, e, h2, h3, h4, h7⟩, h8⟩
    · rintro ⟨p, q, ⟨h1, e, h2, h3, h4, h7⟩, h8⟩
      exact ⟨h1, e, h2, h3, h4, ih.mpr ⟨p, q, h7, h8⟩⟩

theorem seg_congr {heap heap' : Nat → Option (LNode α)} (l : List (Nat × α)) :
    ∀ {prev start last stop}, (∀ i ∈ l, heap' i.1 = heap i.1) → Seg heap prev start l last stop →
      Seg heap' prev start l last stop := by
  induction l with
  | nil => intro prev start last stop _ h; exact h
  | cons i t ih =>
    rintro prev start last stop hc ⟨h1, e, h2, h3, h4, h5⟩
    exact ⟨h1, e, by rw [hc i (by simp), h2], h3, h4, ih (fun j hj => hc j (by simp [hj])) h5⟩

theorem seg_last {heap : Nat → Option (LNode α)} (l : List (Nat × α)) (i : Nat × α) :
    ∀ {prev start last stop}, Seg heap prev start (l ++ [i]) last stop → last = some i.1 := by
  intro prev start last stop h
  obtain ⟨p, q, _, _, n, _, _, _, _, h2⟩ := (seg_append _ _).mp h
  exact h2.symm

/-- The list represents the sequence of the second components of `its`. -/
structure LRep (l : LList α) (its : List (Nat × α)) : Prop where
  seg : Seg l.heap none l.head its l.tail none
  nodup : (its.map (·.1)).Nodup
  lt : ∀ i ∈ its, i.1 < l.fresh
  size : l.size = its.length

theorem LRep.length_le {l : LList α} {its} (h : LRep l its) : its.length ≤ l.fresh := by
  have hsub : its.map (·.1) ⊆ List.range l.fresh := by
    intro a ha
    obtain ⟨i, hi, rfl⟩ := List.mem_map.mp ha
    exact List.mem_range.mpr (h.lt i hi)
  have := (List.subperm_of_subset h.nodup hsub).length_le
  simpa using this

theorem lrep_init : LRep (init : LList α) [] := ⟨⟨rfl, rfl⟩, by simp, by simp, rfl⟩

theorem frontAdd_rep {l : LList α} {its} (h : LRep l its) (x : α) :
    ∃ l', l.frontAdd x = .ok l' ∧ LRep l' ((l.fresh, x) :: its) := by
  have hne : ∀ i ∈ its, i.1 ≠ l.fresh := fun i hi => Nat.ne_of_lt (h.lt i hi)
  have hnd : (((l.fresh, x) :: its).map (·.1)).Nodup := by
    rw [List.map_cons, List.nodup_cons]
    refine ⟨fun hm => ?_, h.nodup⟩
    obtain ⟨i, hi, he⟩ := List.mem_map.mp hm
    exact hne i hi he
  have hltt : ∀ i ∈ (l.fresh, x) :: its, i.1 < l.fresh + 1 := by
    intro i hi
    rcases List.mem_cons.mp hi with rfl | hi
    · simp
    · have := h.lt i hi; omega
  cases its with
  | nil =>
    have hs : ¬ l.size > 0 := by rw [h.size]; simp
    refine ⟨{ store l l.fresh { data := x, next := none, prev := none } with
      fresh := l.fresh + 1, tail := some l.fresh, head := some l.fresh, size := l.size + 1 }, ?_, ?_⟩
    · simp [frontAdd, nodeCreator, store, hs]
    · refine ⟨⟨rfl, ⟨x, none, none⟩, by simp [store], rfl, rfl, rfl, rfl⟩, hnd, hltt, ?_⟩
      simp only [List.length_singleton]; rw [h.size]; rfl
  | cons i r =>
    have hs : l.size > 0 := by rw [h.size]; simp
    obtain ⟨h1, n, h2, h3, h4, h5⟩ := h.seg
    have hia : i.1 ≠ l.fresh := hne i (by simp)
    have hir : ∀ j ∈ r, j.1 ≠ i.1 := by
      have := h.nodup
      rw [List.map_cons, List.nodup_cons] at this
      exact fun j hj he => this.1 (List.mem_map.mpr ⟨j, hj, he⟩)
    refine ⟨{ l with
      heap := fun y => if y = l.fresh then some { data := x, next := some i.1, prev := none }
        else if y = i.1 then some { n with prev := some l.fresh } else l.heap y
      fresh := l.fresh + 1, head := some l.fresh, size := l.size + 1 }, ?_, ?_⟩
    · simp only [frontAdd, nodeCreator, store, deref, h1, hs, if_true, hia, if_false, h2, Outcome.ok_bind, Ne.symm hia, Outcome.pure_eq]
      congr 2
      funext y
      by_cases hy : y = l.fresh
      · simp [hy]
      · simp [hy]
    · refine ⟨⟨rfl, _, by simp only [if_true]; rfl, rfl, rfl, ?_⟩, hnd, hltt, ?_⟩
      · refine ⟨rfl, { n with prev := some l.fresh }, by simp [hia], h3, rfl, ?_⟩
        refine seg_congr _ ?_ h5
        intro j hj
        simp [hne j (by simp [hj]), hir j hj]
      · simp only [List.length_cons]; rw [h.size]; simp

theorem tailAdd_rep {l : LList α} {its} (h : LRep l its) (x : α) :
    ∃ l', l.tailAdd x = .ok l' ∧ LRep l' (its ++ [(l.fresh, x)]) := by
  have hne : ∀ i ∈ its, i.1 ≠ l.fresh := fun i hi => Nat.ne_of_lt (h.lt i hi)
  have hnd : ((its ++ [(l.fresh, x)]).map (·.1)).Nodup := by
    rw [List.map_append, List.nodup_append]
    refine ⟨h.nodup, by simp, ?_⟩
    intro a ha b hb
    obtain ⟨i, hi, rfl⟩ := List.mem_map.mp ha
    simp at hb
    rw [hb]; exact hne i hi
  have hltt : ∀ i ∈ its ++ [(l.fresh, x)], i.1 < l.fresh + 1 := by
    intro i hi
    rcases List.mem_append.mp hi with hi | hi
    · have := h.lt i hi; omega
    · simp at hi; rw [hi]; simp
  rcases List.eq_nil_or_concat its with rfl | ⟨pre, t, rfl⟩
  · have hs : ¬ l.size > 0 := by rw [h.size]; simp
    refine ⟨{ store l l.fresh { data := x, next := none, prev := none } with
      fresh := l.fresh + 1, tail := some l.fresh, head := some l.fresh, size := l.size + 1 }, ?_, ?_⟩
    · simp [tailAdd, nodeCreator, store, hs]
    · refine ⟨⟨rfl, ⟨x, none, none⟩, by simp [store], rfl, rfl, rfl, rfl⟩, hnd, hltt, ?_⟩
      simp only [List.nil_append, List.length_singleton]; rw [h.size]; rfl
  · rw [List.concat_eq_append] at *
    have hs : l.size > 0 := by rw [h.size]; simp
    have hlast := seg_last _ _ h.seg
    obtain ⟨p, q, hp, rfl, n, hn, hnd', hnp, hnn, _⟩ := (seg_append _ _).mp h.seg
    have hta : t.1 ≠ l.fresh := hne t (by simp)
    have hpt : ∀ j ∈ pre, j.1 ≠ t.1 := by
      have := h.nodup
      rw [List.map_append, List.nodup_append] at this
      exact fun j hj he => this.2.2 _ (List.mem_map.mpr ⟨j, hj, rfl⟩) _ (by simp) he
    refine ⟨{ l with
      heap := fun y => if y = l.fresh then some { data := x, next := none, prev := some t.1 }
        else if y = t.1 then some { n with next := some l.fresh } else l.heap y
      fresh := l.fresh + 1, tail := some l.fresh, size := l.size + 1 }, ?_, ?_⟩
    · simp only [tailAdd, nodeCreator, store, deref, hlast, hs, if_true, hta, if_false, hn, Outcome.ok_bind, Ne.symm hta, Outcome.pure_eq]
      congr 2
      funext y
      by_cases hy : y = l.fresh
      · simp [hy]
      · simp [hy]
    · refine ⟨?_, hnd, hltt, ?_⟩
      · refine (seg_append _ _).mpr ⟨some t.1, some l.fresh, (seg_append _ _).mpr ⟨p, some t.1, ?_, ?_⟩, ?_⟩
        · refine seg_congr _ ?_ hp
          intro j hj
          simp [hne j (by simp [hj]), hpt j hj]
        · exact ⟨rfl, { n with next := some l.fresh }, by simp [hta], hnd', hnp, rfl, rfl⟩
        · exact ⟨rfl, { data := x, next := none, prev := some t.1 }, by simp, rfl, rfl, rfl, rfl⟩
      · simp only [List.length_append, List.length_singleton]; rw [h.size]; simp

theorem lookupFrom_rep {cmp : α → α → Int} {l : LList α} (x : α) (its : List (Nat × α)) :
    ∀ {fuel prev start last}, its.length ≤ fuel → Seg l.heap prev start its last none →
      lookupFrom cmp l x fuel start = .ok ((its.find? (fun i => cmp i.2 x = 0)).map (·.1)) := by
  induction its with
  | nil => rintro fuel prev start last _ ⟨rfl, _⟩; cases fuel <;> rfl
  | cons i r ih =>
    rintro fuel prev start last hf ⟨rfl, n, h2, h3, h4, h5⟩
    cases fuel with
    | zero => simp at hf
    | succ fuel =>
      simp only [lookupFrom, deref, h2, Outcome.ok_bind, h3]
      by_cases hz : cmp i.2 x = 0
      · simp [hz]
      · rw [if_neg hz, ih (by simpa using hf) h5]
        simp [hz]

theorem lookupHelper_rep {cmp : α → α → Int} {l : LList α} {its} (h : LRep l its) (x : α) :
    lookupHelper cmp l x = .ok ((its.find? (fun i => cmp i.2 x = 0)).map (·.1)) :=
  lookupFrom_rep x its (by have := h.length_le; omega) h.seg

theorem seg_mem {heap : Nat → Option (LNode α)} (l : List (Nat × α)) :
    ∀ {prev start last stop}, Seg heap prev start l last stop → ∀ i ∈ l, ∃ n, heap i.1 = some n ∧ n.data = i.2 := by
  induction l with
  | nil => intro _ _ _ _ _ i hi; simp at hi
  | cons j t ih =>
    rintro prev start last stop ⟨h1, e, h2, h3, h4, h5⟩ i hi
    rcases List.mem_cons.mp hi with rfl | hi
    · exact ⟨e, h2, h3⟩
    · exact ih h5 i hi

theorem find?_map_snd {cmp : α → α → Int} (x : α) (its : List (Nat × α)) :
    (its.map (·.2)).find? (fun y => cmp y x == 0) = (its.find? (fun i => cmp i.2 x = 0)).map (·.2) := by
  induction its with
  | nil => rfl
  | cons i r ih =>
    by_cases hz : cmp i.2 x = 0
    · simp [hz]
    · simp only [List.map_cons]
      rw [List.find?_cons_of_neg (by simpa using hz), List.find?_cons_of_neg (by simpa using hz), ih]

theorem lookup_rep {cmp : α → α → Int} {l : LList α} {its} (h : LRep l its) (x : α) :
    lookup cmp l x = .ok ((its.map (·.2)).find? (fun y => cmp y x == 0)) := by
  rw [find?_map_snd]
  unfold lookup
  rw [lookupHelper_rep h x]
  cases hf : its.find? (fun i => cmp i.2 x = 0) with
  | none => rfl
  | some i =>
    obtain ⟨n, h1, h2⟩ := seg_mem _ h.seg i (List.mem_of_find?_eq_some hf)
    simp only [Option.map_some, Outcome.ok_bind, deref, h1, h2]
    rfl

theorem valueFrom_rep {l : LList α} (pos : Int) (its : List (Nat × α)) :
    ∀ {fuel i prev start last}, its.length ≤ fuel → i ≤ pos → pos < i + its.length →
      Seg l.heap prev start its last none →
      ∃ x, (its.map (·.2))[(pos - i).toNat]? = some x ∧ valueFrom l pos fuel i start = .ok (pos, some x) := by
  induction its with
  | nil => intro fuel i prev start last _ h1 h2; simp at h2; omega
  | cons it r ih =>
    rintro fuel i prev start last hf h1 h2 ⟨rfl, n, h3, h4, h5, h6⟩
    cases fuel with
    | zero => simp at hf
    | succ fuel =>
      simp only [valueFrom, deref, h3, Outcome.ok_bind, h4]
      by_cases hz : i = pos
      · subst hz
        refine ⟨it.2, by simp, by simp⟩
      · rw [if_neg hz]
        obtain ⟨x, e1, e2⟩ := ih (fuel := fuel) (i := i + 1) (by simpa using hf) (by omega) (by simp only [List.length_cons] at h2; push_cast at h2; omega) h6
        refine ⟨x, ?_, e2⟩
        have : (pos - i).toNat = (pos - (i + 1)).toNat + 1 := by omega
        rw [this]; simpa using e1

theorem valueFrom_neg {l : LList α} (pos : Int) (its : List (Nat × α)) :
    ∀ {fuel i prev start last}, its.length ≤ fuel → pos < i →
      Seg l.heap prev start its last none → valueFrom l pos fuel i start = .ok (-1, none) := by
  induction its with
  | nil => rintro fuel i prev start last _ _ ⟨rfl, _⟩; cases fuel <;> rfl
  | cons it r ih =>
    rintro fuel i prev start last hf h1 ⟨rfl, n, h3, h4, h5, h6⟩
    cases fuel with
    | zero => simp at hf
    | succ fuel =>
      simp only [valueFrom, deref, h3, Outcome.ok_bind]
      rw [if_neg (by omega)]
      exact ih (by simpa using hf) (by omega) h6

theorem valueAt_rep {l : LList α} {its} (h : LRep l its) (pos : Int) :
    valueAt l pos = .ok (if 0 ≤ pos ∧ pos < (its.map (·.2)).length then (pos, (its.map (·.2))[pos.toNat]?) else (-1, none)) := by
  unfold valueAt
  have hl : (its.map (·.2)).length = its.length := by simp
  rw [hl, h.size]
  by_cases h1 : pos ≥ its.length
  · rw [if_pos h1, if_neg (by omega)]
  · rw [if_neg h1]
    by_cases h0 : 0 ≤ pos
    · obtain ⟨x, e1, e2⟩ := valueFrom_rep (l := l) pos its (fuel := l.fresh + 1) (i := 0) (by have := h.length_le; omega) h0 (by omega) h.seg
      rw [e2, if_pos ⟨h0, by omega⟩]
      rw [Int.sub_zero] at e1
      rw [e1]
    · rw [valueFrom_neg pos its (by have := h.length_le; omega) (by omega) h.seg, if_neg (by omega)]

theorem headData_rep {l : LList α} {its} (h : LRep l its) : headData l = .ok (its.map (·.2)).head? := by
  unfold headData empty
  rw [h.size]
  cases its with
  | nil => simp
  | cons i r =>
    obtain ⟨h1, n, h2, h3, h4, h5⟩ := h.seg
    have : ¬ (((i :: r).length : Nat) : Int) ≤ 0 := by simp
    simp only [this, if_false]
    rw [if_neg (by omega), h1]
    simp [deref, h2, h3]

theorem tailData_rep {l : LList α} {its} (h : LRep l its) : tailData l = .ok (its.map (·.2)).getLast? := by
  unfold tailData empty
  rw [h.size]
  rcases List.eq_nil_or_concat its with rfl | ⟨pre, t, rfl⟩
  · simp
  · rw [List.concat_eq_append] at *
    have hlast := seg_last _ _ h.seg
    obtain ⟨n, h1, h2⟩ := seg_mem _ h.seg t (by simp)
    have : ¬ (((pre ++ [t]).length : Nat) : Int) ≤ 0 := by simp
    simp only [this, if_false]
    rw [if_neg (by omega), hlast]
    simp [deref, h1, h2]

/-- Unhooking the first node is exact. -/
theorem unhook_front {l : LList α} {i : Nat × α} {r} (h : LRep l (i :: r)) :
    ∃ l', unhook l i.1 = .ok l' ∧ LRep (free l' i.1) r ∧ l'.fresh = l.fresh ∧
      (∃ n, l.heap i.1 = some n ∧ n.next = (free l' i.1).head) := by
  obtain ⟨h1, n, h2, h3, h4, h5⟩ := h.seg
  have hs : l.size ≠ 0 := by rw [h.size]; simp; omega
  have hnd := h.nodup
  rw [List.map_cons, List.nodup_cons] at hnd
  have hir : ∀ j ∈ r, j.1 ≠ i.1 := fun j hj he => hnd.1 (List.mem_map.mpr ⟨j, hj, he⟩)
  cases r with
  | nil =>
    obtain ⟨hn, ht⟩ := h5
    refine ⟨{ l with head := none, tail := none, size := l.size - 1 }, ?_, ?_, rfl, n, h2, hn⟩
    · simp [unhook, hs, unhookPrev, unhookNext, deref, h2, h4, hn]
    · refine ⟨⟨rfl, rfl⟩, by simp, by simp, ?_⟩
      show l.size - 1 = 0
      rw [h.size]; simp
  | cons j r =>
    obtain ⟨hn, m, hm, hm3, hm4, hm5⟩ := h5
    have hji : j.1 ≠ i.1 := hir j (by simp)
    have hjr : ∀ k ∈ r, k.1 ≠ j.1 := by
      have := hnd.2
      rw [List.map_cons, List.nodup_cons] at this
      exact fun k hk he => this.1 (List.mem_map.mpr ⟨k, hk, he⟩)
    refine ⟨{ l with
      head := some j.1
      heap := fun y => if y = i.1 then some { n with next := none } else if y = j.1 then some { m with prev := none } else l.heap y
      size := l.size - 1 }, ?_, ?_, rfl, n, h2, hn⟩
    · simp only [unhook, hs, if_false, unhookPrev, unhookNext, deref, store, h2, h4, hn, hm, Outcome.ok_bind, Outcome.pure_eq, Ne.symm hji, if_true]
      congr 2
      funext y
      by_cases hy : y = i.1
      · simp [hy]
      · by_cases hy2 : y = j.1 <;> simp [hy, hy2]
    · refine ⟨⟨rfl, { m with prev := none }, ?_, hm3, rfl, ?_⟩, hnd.2, fun k hk => h.lt k (by simp [hk]), ?_⟩
      · simp [free, hji]
      · refine seg_congr _ ?_ hm5
        intro k hk
        simp [free, hir k (by simp [hk]), hjr k hk]
      · show l.size - 1 = _
        rw [h.size]; simp

theorem clearFrom_rep (its : List (Nat × α)) : ∀ {l : LList α} {fuel}, its.length ≤ fuel → LRep l its →
    ∃ l', clearFrom fuel l l.head = .ok l' ∧ l'.size = 0 ∧ l'.fresh = l.fresh := by
  induction its with
  | nil =>
    intro l fuel _ h
    obtain ⟨h1, _⟩ := h.seg
    refine ⟨l, by rw [h1]; cases fuel <;> rfl, by rw [h.size]; rfl, rfl⟩
  | cons i r ih =>
    intro l fuel hf h
    cases fuel with
    | zero => simp at hf
    | succ fuel =>
      obtain ⟨l1, e1, h1, hfr, n, hn, hnn⟩ := unhook_front h
      obtain ⟨l2, e2, h2, hfr2⟩ := ih (fuel := fuel) (by simpa using hf) h1
      have hh : l.head = some i.1 := h.seg.1
      refine ⟨l2, ?_, h2, by rw [hfr2]; exact hfr⟩
      rw [hh]
      simp only [clearFrom, deref, hn, Outcome.ok_bind, e1, destroy_ok e1 hn]
      rw [hnn]
      exact e2

theorem clear_rep {l : LList α} {its} (h : LRep l its) : ∃ l', clear l = .ok l' ∧ LRep l' [] := by
  obtain ⟨l1, e1, h1, _⟩ := clearFrom_rep its (fuel := l.fresh + 1) (by have := h.length_le; omega) h
  exact ⟨{ l1 with head := none, tail := none }, by simp [clear, e1], ⟨⟨rfl, rfl⟩, by simp, by simp, h1⟩⟩

theorem remove_rep {cmp : α → α → Int} {l : LList α} {its} (h : LRep l its) (x : α)
    (hf : ∀ y ∈ (its.map (·.2)).tail, cmp y x = 0 → ∃ z ∈ (its.map (·.2)).head?, cmp z x = 0) :
    ∃ l' its', remove cmp l x = .ok (if (its.map (·.2)).any (fun y => cmp y x == 0) then 1 else 0, l') ∧ LRep l' its' ∧
      its'.map (·.2) = (its.map (·.2)).eraseP (fun y => cmp y x == 0) := by
  unfold remove
  rw [lookupHelper_rep h x]
  cases its with
  | nil => exact ⟨l, [], by simp, h, rfl⟩
  | cons i r =>
    by_cases hz : cmp i.2 x = 0
    · obtain ⟨l1, e1, h1, _, n, hn, _⟩ := unhook_front h
      refine ⟨free l1 i.1, r, ?_, h1, by simp [hz]⟩
      simp [hz, e1, destroy_ok e1 hn]
    · have hno : ∀ j ∈ r, cmp j.2 x ≠ 0 := by
        intro j hj he
        obtain ⟨z, hz1, hz2⟩ := hf j.2 (by simp; exact ⟨j.1, hj⟩) he
        simp at hz1
        subst hz1
        exact hz hz2
      have hfind : (i :: r).find? (fun i => cmp i.2 x = 0) = none := by
        rw [List.find?_eq_none]
        intro j hj
        rcases List.mem_cons.mp hj with rfl | hj
        · simpa using hz
        · simpa using hno j hj
      have hall : ∀ y ∈ (i :: r).map (·.2), (cmp y x == 0) = false := by
        intro y hy
        obtain ⟨j, hj, rfl⟩ := List.mem_map.mp hy
        rcases List.mem_cons.mp hj with rfl | hj
        · simpa using hz
        · simpa using hno j hj
      have hany : ((i :: r).map (·.2)).any (fun y => cmp y x == 0) = false := by
        rw [List.any_eq_false]
        intro y hy
        simp [hall y hy]
      refine ⟨l, i :: r, ?_, h, ?_⟩
      · rw [hfind, hany]; rfl
      · rw [List.eraseP_of_forall_not]
        intro y hy
        simp [hall y hy]

end Verif.LList
