import Verif.Model.LListCalls
import Verif.Lemmas.Marks
import Mathlib.Data.Finset.Card
/-
Helper lemmas for C109: the nodes a linked list has allocated and not given back.
-/
namespace Verif.LList
open Spec
variable {α : Type}

/-- `k` nodes are allocated, all below the next address. -/
structure Counted (l : LList α) (k : Nat) : Prop where
  left : NodesLeft l.heap k
  lt : ∀ a, l.fresh ≤ a → l.heap a = none

theorem counted_init : Counted (init : LList α) 0 := ⟨⟨∅, by simp [init], rfl⟩, fun _ _ => rfl⟩

theorem map_data_none {o o' : Option (LNode α)} (h : o.map LNode.data = o'.map LNode.data) : o = none ↔ o' = none := by
  cases o <;> cases o' <;> simp_all

theorem Counted.same {l l' : LList α} {k : Nat} (h : Counted l k) (hd : ∀ b, (l'.heap b).map LNode.data = (l.heap b).map LNode.data)
    (hf : l'.fresh = l.fresh) : Counted l' k := by
  obtain ⟨D, hD, hk⟩ := h.left
  refine ⟨⟨D, fun a => ?_, hk⟩, fun a ha => ?_⟩
  · rw [hD a, Ne, Ne, map_data_none (hd a)]
  · rw [map_data_none (hd a)]; exact h.lt a (by omega)

theorem Counted.create {l : LList α} {k : Nat} (h : Counted l k) (x : α) : Counted (nodeCreator l x).2 (k + 1) := by
  obtain ⟨D, hD, hk⟩ := h.left
  have hn : l.fresh ∉ D := by rw [hD]; simp [h.lt _ le_rfl]
  refine ⟨⟨insert l.fresh D, fun a => ?_, by rw [Finset.card_insert_of_notMem hn, hk]⟩, fun a ha => ?_⟩
  · simp only [nodeCreator, store, Finset.mem_insert, hD]
    by_cases ha : a = l.fresh <;> simp [ha]
  · simp only [nodeCreator, store] at ha ⊢
    rw [if_neg (by omega)]
    exact h.lt a (by omega)

theorem Counted.freed {l : LList α} {k a : Nat} {n : LNode α} (h : Counted l k) (hn : l.heap a = some n) : Counted (free l a) (k - 1) ∧ 0 < k := by
  obtain ⟨D, hD, hk⟩ := h.left
  have ha : a ∈ D := (hD a).mpr (by simp [hn])
  refine ⟨⟨⟨D.erase a, fun b => ?_, by rw [Finset.card_erase_of_mem ha, hk]⟩, fun b hb => ?_⟩, hk ▸ Finset.card_pos.mpr ⟨a, ha⟩⟩
  · simp only [free, Finset.mem_erase, hD]
    by_cases hb : b = a <;> simp [hb]
  · simp only [free] at hb ⊢
    split_ifs
    · rfl
    · exact h.lt b hb

theorem Counted.unique {l : LList α} {j k : Nat} (h : NodesLeft l.heap j) (h' : NodesLeft l.heap k) : j = k := by
  obtain ⟨D, hD, rfl⟩ := h
  obtain ⟨E, hE, rfl⟩ := h'
  rw [show D = E from Finset.ext fun a => (hD a).trans (hE a).symm]

/-- The bookkeeping: the nodes are those of the size and those taken out. -/
def Books (l : LList α) (t : Nat) : Prop := ∃ k, Counted l k ∧ (k : Int) = l.size + t

theorem Books.size_nonneg_of {l : LList α} {t : Nat} (h : Books l t) : ∃ k : Nat, NodesLeft l.heap k ∧ (k : Int) = l.size + t := by
  obtain ⟨k, h1, h2⟩ := h
  exact ⟨k, h1.left, h2⟩

theorem books_frontAdd {l l' : LList α} {t : Nat} (h : Books l t) (x : α) (e : l.frontAdd x = .ok l') : Books l' t := by
  obtain ⟨k, hk, hs⟩ := h
  have hc := hk.create x
  unfold frontAdd at e
  simp only at e
  have hsz : (nodeCreator l x).2.size = l.size := rfl
  split_ifs at e with h0
  · obtain ⟨⟨b, n⟩, e1, e⟩ := Outcome.bind_eq_ok.mp e
    obtain ⟨⟨c, m⟩, e2, e⟩ := Outcome.bind_eq_ok.mp e
    obtain ⟨_, hn⟩ := deref_ok e1
    obtain ⟨hc', hm⟩ := deref_ok e2
    obtain rfl := Option.some.inj hc'
    obtain rfl := Outcome.ok.inj e
    refine ⟨k + 1, hc.same (fun d => Eq.trans (store_data hm (by rfl) d) (store_data hn (by rfl) d)) rfl, ?_⟩
    show ((k + 1 : Nat) : Int) = l.size + 1 + t
    push_cast; omega
  · obtain rfl := Outcome.ok.inj e
    refine ⟨k + 1, hc.same (fun d => rfl) rfl, ?_⟩
    show ((k + 1 : Nat) : Int) = l.size + 1 + t
    push_cast; omega

theorem books_tailAdd {l l' : LList α} {t : Nat} (h : Books l t) (x : α) (e : l.tailAdd x = .ok l') : Books l' t := by
  obtain ⟨k, hk, hs⟩ := h
  have hc := hk.create x
  unfold tailAdd at e
  simp only at e
  split_ifs at e with h0
  · obtain ⟨⟨b, n⟩, e1, e⟩ := Outcome.bind_eq_ok.mp e
    obtain ⟨⟨c, m⟩, e2, e⟩ := Outcome.bind_eq_ok.mp e
    obtain ⟨_, hn⟩ := deref_ok e1
    obtain ⟨hc', hm⟩ := deref_ok e2
    obtain rfl := Option.some.inj hc'
    obtain rfl := Outcome.ok.inj e
    refine ⟨k + 1, hc.same (fun d => Eq.trans (store_data hm (by rfl) d) (store_data hn (by rfl) d)) rfl, ?_⟩
    show ((k + 1 : Nat) : Int) = l.size + 1 + t
    push_cast; omega
  · obtain rfl := Outcome.ok.inj e
    refine ⟨k + 1, hc.same (fun d => rfl) rfl, ?_⟩
    show ((k + 1 : Nat) : Int) = l.size + 1 + t
    push_cast; omega

/-- Unhooking a node of a list that is not empty. -/
theorem unhook_counted {l l' : LList α} {k a : Nat} (h : Counted l k) (e : unhook l a = .ok l') : Counted l' k :=
  h.same (unhook_data e).1 (unhook_data e).2.1

theorem destroy_inv {l l' : LList α} {a : Nat} (e : destroy l a = .ok l') : l' = free l a ∧ ∃ n, l.heap a = some n := by
  unfold destroy at e
  obtain ⟨⟨b, n⟩, e1, e⟩ := Outcome.bind_eq_ok.mp e
  obtain ⟨h1, h2⟩ := deref_ok e1
  obtain rfl := Option.some.inj h1
  exact ⟨(Outcome.ok.inj e).symm, n, h2⟩

/-- Unhooking and giving back. -/
theorem books_drop {l l1 l2 : LList α} {a t : Nat} (h : Books l t) (hs : 0 < l.size) (e1 : unhook l a = .ok l1) (e2 : destroy l1 a = .ok l2) :
    Books l2 t ∧ l2.size = l.size - 1 := by
  obtain ⟨k, hk, hkt⟩ := h
  obtain ⟨rfl, n, hn⟩ := destroy_inv e2
  obtain ⟨h1, h2⟩ := (unhook_counted hk e1).freed hn
  have h3 := (unhook_data e1).2.2
  rw [if_neg (by omega)] at h3
  have h4 : (free l1 a).size = l.size - 1 := h3
  exact ⟨⟨k - 1, h1, by rw [h4]; omega⟩, h4⟩

theorem lookupFrom_some {cmp : α → α → Int} {l : LList α} {x : α} {a : Nat} (fuel : Nat) : ∀ {p}, lookupFrom cmp l x fuel p = .ok (some a) → ∃ n, l.heap a = some n := by
  induction fuel with
  | zero => intro p h; cases p <;> simp [lookupFrom] at h
  | succ f ih =>
    intro p h
    cases p with
    | none => simp [lookupFrom] at h
    | some b =>
      simp only [lookupFrom] at h
      obtain ⟨⟨c, n⟩, e1, h⟩ := Outcome.bind_eq_ok.mp h
      obtain ⟨h1, h2⟩ := deref_ok e1
      obtain rfl := Option.some.inj h1
      simp only at h h2
      split_ifs at h with h0
      · obtain rfl := Option.some.inj (Outcome.ok.inj h)
        exact ⟨n, h2⟩
      · exact ih h

theorem books_pos {l : LList α} {a : Nat} {n : LNode α} (h : Books l 0) (hn : l.heap a = some n) : 0 < l.size := by
  obtain ⟨k, hk, hs⟩ := h
  have := (hk.freed hn).2
  omega

theorem books_remove {cmp : α → α → Int} {l l' : LList α} {x : α} {r : Int} (h : Books l 0) (e : remove cmp l x = .ok (r, l')) : Books l' 0 := by
  unfold remove at e
  obtain ⟨o, e1, e⟩ := Outcome.bind_eq_ok.mp e
  cases o with
  | none =>
    obtain ⟨-, rfl⟩ := Prod.mk.inj (Outcome.ok.inj e)
    exact h
  | some a =>
    obtain ⟨l1, e2, e⟩ := Outcome.bind_eq_ok.mp e
    obtain ⟨l2, e3, e⟩ := Outcome.bind_eq_ok.mp e
    obtain ⟨-, rfl⟩ := Prod.mk.inj (Outcome.ok.inj e)
    obtain ⟨n, hn⟩ := lookupFrom_some _ e1
    exact (books_drop h (books_pos h hn) e2 e3).1

theorem books_clearFrom (fuel : Nat) : ∀ {l l' : LList α} {p}, Books l 0 → clearFrom fuel l p = .ok l' → Books l' 0 := by
  induction fuel with
  | zero =>
    intro l l' p h e
    cases p with
    | none => obtain rfl := Outcome.ok.inj e; exact h
    | some a => simp [clearFrom] at e
  | succ f ih =>
    intro l l' p h e
    cases p with
    | none => obtain rfl := Outcome.ok.inj e; exact h
    | some a =>
      simp only [clearFrom] at e
      obtain ⟨⟨b, n⟩, e1, e⟩ := Outcome.bind_eq_ok.mp e
      obtain ⟨l1, e2, e⟩ := Outcome.bind_eq_ok.mp e
      obtain ⟨l2, e3, e⟩ := Outcome.bind_eq_ok.mp e
      obtain ⟨_, hn⟩ := deref_ok e1
      exact ih (books_drop h (books_pos h hn) e2 e3).1 e

theorem books_clear {l l' : LList α} (h : Books l 0) (e : clear l = .ok l') : Books l' 0 := by
  unfold clear at e
  obtain ⟨l1, e1, e⟩ := Outcome.bind_eq_ok.mp e
  obtain rfl := Outcome.ok.inj e
  obtain ⟨k, hk, hs⟩ := books_clearFrom _ h e1
  exact ⟨k, ⟨hk.left, hk.lt⟩, hs⟩

theorem books_step {cmp : α → α → Int} {l l' : LList α} {r : Ret α} (op : LOp α) (h : Books l 0) (e : l.step cmp op = .ok (r, l')) : Books l' 0 := by
  cases op with
  | frontAdd x =>
    simp only [LList.step] at e
    obtain ⟨l1, e1, e⟩ := Outcome.bind_eq_ok.mp e
    obtain ⟨-, rfl⟩ := Prod.mk.inj (Outcome.ok.inj e)
    exact books_frontAdd h x e1
  | tailAdd x =>
    simp only [LList.step] at e
    obtain ⟨l1, e1, e⟩ := Outcome.bind_eq_ok.mp e
    obtain ⟨-, rfl⟩ := Prod.mk.inj (Outcome.ok.inj e)
    exact books_tailAdd h x e1
  | clear =>
    simp only [LList.step] at e
    obtain ⟨l1, e1, e⟩ := Outcome.bind_eq_ok.mp e
    obtain ⟨-, rfl⟩ := Prod.mk.inj (Outcome.ok.inj e)
    exact books_clear h e1
  | remove x =>
    simp only [LList.step] at e
    obtain ⟨⟨i, l1⟩, e1, e⟩ := Outcome.bind_eq_ok.mp e
    obtain ⟨-, rfl⟩ := Prod.mk.inj (Outcome.ok.inj e)
    exact books_remove h e1
  | size =>
    simp only [LList.step] at e
    obtain ⟨-, rfl⟩ := Prod.mk.inj (Outcome.ok.inj e)
    exact h
  | valueAt _ | lookup _ | head | tail =>
    simp only [LList.step] at e
    obtain ⟨o, e1, e⟩ := Outcome.bind_eq_ok.mp e
    obtain ⟨-, rfl⟩ := Prod.mk.inj (Outcome.ok.inj e)
    exact h

theorem books_run {cmp : α → α → Int} (ops : List (LOp α)) : ∀ {l l' : LList α} {rs}, Books l 0 → l.run cmp ops = .ok (rs, l') → Books l' 0 := by
  induction ops with
  | nil =>
    intro l l' rs h e
    obtain ⟨-, rfl⟩ := Prod.mk.inj (Outcome.ok.inj e)
    exact h
  | cons op ops ih =>
    intro l l' rs h e
    simp only [LList.run] at e
    obtain ⟨⟨r, l1⟩, e1, e⟩ := Outcome.bind_eq_ok.mp e
    obtain ⟨⟨q, l2⟩, e2, e⟩ := Outcome.bind_eq_ok.mp e
    obtain ⟨-, rfl⟩ := Prod.mk.inj (Outcome.ok.inj e)
    exact ih (books_step op h e1) e2

/-! Histories with `take`, when no call goes wrong. -/

/-- What `remove` does, `take` does without giving the node back. -/
theorem take_of_remove {cmp : α → α → Int} {l l' : LList α} {x : α} {r : Int} (e : remove cmp l x = .ok (r, l')) :
    (r = 0 ∧ l' = l ∧ take cmp l x = .ok (none, l) ∧ lookup cmp l x = .ok none) ∨
      ∃ a l1 n, r = 1 ∧ l' = free l1 a ∧ unhook l a = .ok l1 ∧ destroy l1 a = .ok l' ∧ l.heap a = some n ∧ take cmp l x = .ok (some n.data, l1) ∧
        lookup cmp l x = .ok (some n.data) := by
  unfold remove at e
  obtain ⟨o, e1, e⟩ := Outcome.bind_eq_ok.mp e
  cases o with
  | none =>
    obtain ⟨rfl, rfl⟩ := Prod.mk.inj (Outcome.ok.inj e)
    exact .inl ⟨rfl, rfl, by simp [take, e1], by simp [lookup, e1]⟩
  | some a =>
    obtain ⟨l1, e2, e⟩ := Outcome.bind_eq_ok.mp e
    obtain ⟨l2, e3, e⟩ := Outcome.bind_eq_ok.mp e
    obtain ⟨rfl, rfl⟩ := Prod.mk.inj (Outcome.ok.inj e)
    obtain ⟨n, hn⟩ := lookupFrom_some _ e1
    obtain ⟨rfl, m, hm⟩ := destroy_inv e3
    have hd := (unhook_data e2).1 a
    rw [hn, hm] at hd
    have hd : m.data = n.data := by simpa using hd
    refine .inr ⟨a, l1, n, rfl, rfl, e2, e3, hn, ?_, ?_⟩
    · simp [take, e1, e2, deref, hm, hd]
    · simp [lookup, e1, deref, hn]

theorem mseg_free {l : LList α} {a : Nat} (its : List (MItem α)) : ∀ {prev start last stop}, MSeg (free l a).heap prev start its last stop → MSeg l.heap prev start its last stop := by
  induction its with
  | nil => intro _ _ _ _ h; exact h
  | cons i t ih =>
    rintro prev start last stop ⟨h1, e, h2, h3, h4, h5⟩
    refine ⟨h1, e, ?_, h3, h4, ih h5⟩
    simp only [free] at h2
    split_ifs at h2
    exact h2

theorem mrep_unfree {l : LList α} {a : Nat} {its lost} (h : MRep (free l a) its lost) : MRep l its lost := by
  obtain ⟨last, h1, h2⟩ := h.seg
  exact ⟨⟨last, mseg_free _ h1, h2⟩, h.nodup, h.lt, h.size⟩

/-- A list in which something is found is not empty. -/
theorem found_pos {cmp : α → α → Int} {l : LList α} {its lost} {x y : α} (h : MRep l its lost) (e : lookup cmp l x = .ok (some y)) :
    0 < l.size ∧ (vals its).find? (fun y => cmp y x == 0) = some y := by
  have hf := lookup_mrep (cmp := cmp) h x
  rw [e] at hf
  have hf := (Outcome.ok.inj hf).symm
  refine ⟨?_, hf⟩
  rw [h.size]
  cases its with
  | nil => simp [vals] at hf
  | cons i r => simp

/-- Clearing in the presence of nodes taken out. -/
theorem books_clearFrom_mrep (k : Nat) {t : Nat} : ∀ {its : List (MItem α)} {l : LList α} {fuel lost}, its.length = k → its.length ≤ fuel → MRep l its lost → Books l t →
    ∃ l', clearFrom fuel l l.head = .ok l' ∧ l'.size = 0 ∧ Books l' t := by
  induction k with
  | zero =>
    intro its l fuel lost hk _ h hb
    obtain rfl := List.length_eq_zero_iff.mp hk
    obtain ⟨last, ⟨h1, _⟩, _⟩ := h.seg
    refine ⟨l, by rw [h1]; cases fuel <;> rfl, by rw [h.size]; rfl, hb⟩
  | succ k ih =>
    intro its l fuel lost hk hf h hb
    cases its with
    | nil => simp at hk
    | cons i r =>
      cases fuel with
      | zero => simp at hf
      | succ fuel =>
        obtain ⟨l1, e1, h1, hfr, n, hn, hnn⟩ := unhook_front_mrep h
        have hb1 := (books_drop hb (by rw [h.size]; simp) e1 (destroy_ok e1 hn)).1
        obtain ⟨l2, e2, h2, hb2⟩ := ih (fuel := fuel) (by rw [setFirstItem_length]; simpa using hk) (by rw [setFirstItem_length]; simpa using hf) h1 hb1
        obtain ⟨last, ⟨hh, _⟩, _⟩ := h.seg
        refine ⟨l2, ?_, h2, hb2⟩
        rw [hh]
        simp only [clearFrom, deref, hn, Outcome.ok_bind, e1, destroy_ok e1 hn]
        rw [hnn]
        exact e2

theorem books_clear_mrep {t : Nat} {l : LList α} {its lost} (h : MRep l its lost) (hb : Books l t) :
    ∃ l', clear l = .ok l' ∧ MRep l' [] false ∧ Books l' t := by
  obtain ⟨l1, e1, h1, k, hk, hs⟩ := books_clearFrom_mrep _ rfl (fuel := l.fresh + 1) (by have := h.length_le; omega) h hb
  exact ⟨{ l1 with head := none, tail := none }, by simp [clear, e1], ⟨⟨none, ⟨rfl, rfl⟩, rfl⟩, by simp, by simp, h1⟩, k, ⟨hk.left, hk.lt⟩, hs⟩

/-- Lists with the same nodes and first node, one of whose sizes is `k` more than that of the other. -/
structure Alike (k : Int) (l m : LList α) : Prop where
  heap : m.heap = l.heap
  head : m.head = l.head
  fresh : m.fresh = l.fresh
  size : m.size = l.size + k

theorem alike_deref {k : Int} {l m : LList α} (h : Alike k l m) (p : Option Nat) : deref m p = deref l p := by
  unfold deref
  rw [h.heap]

theorem alike_store {k : Int} {l m : LList α} (h : Alike k l m) (a : Nat) (n : LNode α) : Alike k (store l a n) (store m a n) :=
  ⟨by simp [store, h.heap], h.head, h.fresh, h.size⟩

theorem alike_unhookPrev {k : Int} {l m l' : LList α} {a : Nat} (h : Alike k l m) (e : unhookPrev l a = .ok l') :
    ∃ m', unhookPrev m a = .ok m' ∧ Alike k l' m' := by
  unfold unhookPrev at e ⊢
  rw [alike_deref h]
  obtain ⟨⟨a1, n⟩, e1, e⟩ := Outcome.bind_eq_ok.mp e
  rw [e1]
  simp only [Outcome.ok_bind] at e ⊢
  cases hp : n.prev with
  | some p =>
    simp only [hp] at e ⊢
    rw [alike_deref h]
    obtain ⟨⟨p1, q⟩, e2, e⟩ := Outcome.bind_eq_ok.mp e
    rw [e2]
    simp only [Outcome.ok_bind] at e ⊢
    rw [alike_deref (alike_store h p _)]
    obtain ⟨⟨a2, n1⟩, e3, e⟩ := Outcome.bind_eq_ok.mp e
    rw [e3]
    obtain rfl := Outcome.ok.inj e
    exact ⟨_, rfl, alike_store (alike_store h _ _) _ _⟩
  | none =>
    simp only [hp] at e ⊢
    have h' : Alike k { l with head := n.next } { m with head := n.next } := ⟨h.heap, rfl, h.fresh, h.size⟩
    cases hx : n.next with
    | some b =>
      simp only [hx] at e h' ⊢
      rw [alike_deref h']
      obtain ⟨⟨b1, q⟩, e2, e⟩ := Outcome.bind_eq_ok.mp e
      rw [e2]
      obtain rfl := Outcome.ok.inj e
      exact ⟨_, rfl, alike_store h' _ _⟩
    | none =>
      simp only [hx] at e h' ⊢
      obtain rfl := Outcome.ok.inj e
      exact ⟨_, rfl, h'⟩

theorem alike_unhookNext {k : Int} {l m l' : LList α} {a : Nat} (h : Alike k l m) (e : unhookNext l a = .ok l') :
    ∃ m', unhookNext m a = .ok m' ∧ Alike k l' m' := by
  unfold unhookNext at e ⊢
  rw [alike_deref h]
  obtain ⟨⟨a1, n⟩, e1, e⟩ := Outcome.bind_eq_ok.mp e
  rw [e1]
  simp only [Outcome.ok_bind] at e ⊢
  have hdec : ∀ {u v : LList α}, Alike k u v → Alike k { u with size := u.size - 1 } { v with size := v.size - 1 } := fun h =>
    ⟨h.heap, h.head, h.fresh, by simp only; rw [h.size]; omega⟩
  cases hp : n.next with
  | some p =>
    simp only [hp] at e ⊢
    rw [alike_deref h]
    obtain ⟨⟨p1, q⟩, e2, e⟩ := Outcome.bind_eq_ok.mp e
    rw [e2]
    simp only [Outcome.ok_bind] at e ⊢
    rw [alike_deref (alike_store h p _)]
    obtain ⟨⟨a2, n1⟩, e3, e⟩ := Outcome.bind_eq_ok.mp e
    rw [e3]
    obtain rfl := Outcome.ok.inj e
    exact ⟨_, rfl, hdec (alike_store (alike_store h _ _) _ _)⟩
  | none =>
    simp only [hp] at e ⊢
    have h' : Alike k { l with tail := n.prev } { m with tail := n.prev } := ⟨h.heap, h.head, h.fresh, h.size⟩
    cases hx : n.prev with
    | some b =>
      simp only [hx] at e h' ⊢
      rw [alike_deref h']
      obtain ⟨⟨b1, q⟩, e2, e⟩ := Outcome.bind_eq_ok.mp e
      rw [e2]
      obtain rfl := Outcome.ok.inj e
      exact ⟨_, rfl, hdec (alike_store h' _ _)⟩
    | none =>
      simp only [hx] at e h' ⊢
      obtain rfl := Outcome.ok.inj e
      exact ⟨_, rfl, hdec h'⟩

theorem alike_unhook {k : Int} {l m l' : LList α} {a : Nat} (h : Alike k l m) (hk : 0 ≤ k) (hs : 0 < l.size) (e : unhook l a = .ok l') :
    ∃ m', unhook m a = .ok m' ∧ Alike k l' m' := by
  unfold unhook at e ⊢
  rw [if_neg (by omega)] at e
  rw [if_neg (by rw [h.size]; omega)]
  obtain ⟨l1, e1, e⟩ := Outcome.bind_eq_ok.mp e
  obtain ⟨m1, f1, h1⟩ := alike_unhookPrev h e1
  obtain ⟨m2, f2, h2⟩ := alike_unhookNext h1 e
  exact ⟨m2, by rw [f1]; exact f2, h2⟩

/-- Clearing a list whose size is too large by `d`: that many are missed. -/
theorem clearFrom_alike (k : Nat) {d : Nat} : ∀ {its : List (MItem α)} {l m : LList α} {fuel lost}, its.length = k → its.length ≤ fuel → MRep l its lost → Alike d l m →
    ∃ m', clearFrom fuel m l.head = .ok m' ∧ m'.size = d := by
  induction k with
  | zero =>
    intro its l m fuel lost hk _ h ha
    obtain rfl := List.length_eq_zero_iff.mp hk
    obtain ⟨last, ⟨h1, _⟩, _⟩ := h.seg
    refine ⟨m, by rw [h1]; cases fuel <;> rfl, by rw [ha.size, h.size]; simp⟩
  | succ k ih =>
    intro its l m fuel lost hk hf h ha
    cases its with
    | nil => simp at hk
    | cons i r =>
      cases fuel with
      | zero => simp at hf
      | succ fuel =>
        obtain ⟨l1, e1, h1, hfr, n, hn, hnn⟩ := unhook_front_mrep h
        obtain ⟨m1, f1, ha1⟩ := alike_unhook ha (by omega) (by rw [h.size]; simp) e1
        have hmn : m.heap i.1 = some n := by rw [ha.heap]; exact hn
        have ha2 : Alike d (free l1 i.1) (free m1 i.1) := ⟨by simp [free, ha1.heap], ha1.head, ha1.fresh, ha1.size⟩
        obtain ⟨l2, e2, h2⟩ := ih (fuel := fuel) (by rw [setFirstItem_length]; simpa using hk) (by rw [setFirstItem_length]; simpa using hf) h1 ha2
        obtain ⟨last, ⟨hh, _⟩, _⟩ := h.seg
        refine ⟨l2, ?_, h2⟩
        rw [hh]
        simp only [clearFrom, deref, hmn, Outcome.ok_bind, f1, destroy_ok f1 hmn]
        rw [hnn]
        exact e2

/-- Clearing after the removal of a node whose link was lost: as many nodes stay as were in front of it. -/
theorem clear_cut {cmp : α → α → Int} {l : LList α} {its lost} (h : MRep l its lost) (x : α)
    (hg : GoesWrong cmp ⟨its.map (·.2), lost⟩ (.remove x)) :
    ∃ l' l'', remove cmp l x = .ok (1, l') ∧ clear l' = .ok l'' ∧ l''.size = (vals its).findIdx (fun y => cmp y x == 0) ∧ 0 < (vals its).findIdx (fun y => cmp y x == 0) := by
  obtain ⟨u, y, r, he, hne, hy, hu⟩ := hg
  simp only at he
  obtain ⟨pre, rest, rfl, rfl, h2⟩ := List.map_eq_append_iff.mp he
  obtain ⟨i, post, rfl, h3, rfl⟩ := List.map_eq_cons_iff.mp h2
  obtain ⟨a, y', c⟩ := i
  obtain ⟨rfl, rfl⟩ := Prod.mk.inj h3
  have hpre : ∀ j ∈ pre, cmp j.2.1 x ≠ 0 := fun j hj => hu j.2 (List.mem_map.mpr ⟨j, hj, rfl⟩)
  have hf : (pre ++ (a, y', true) :: post).find? (fun i => cmp i.2.1 x = 0) = some (a, y', true) := by
    rw [List.find?_append, List.find?_eq_none.mpr (by intro j hj; simpa using hpre j hj), List.find?_cons_of_pos (by simpa using hy)]
    rfl
  obtain ⟨l1, last, e1, hs, hfr, hseg⟩ := unhook_cut h
  have hlen : 0 < pre.length := List.length_pos_iff.mpr (by rintro rfl; simp at hne)
  obtain ⟨_, hseg', _⟩ := h.seg
  obtain ⟨n, hn, _⟩ := mseg_mem _ hseg' (a, y', true) (by simp)
  have hidx : (vals (pre ++ (a, y', true) :: post)).findIdx (fun y => cmp y x == 0) = pre.length := by
    have happ : vals (pre ++ (a, y', true) :: post) = vals pre ++ y' :: vals post := by simp [vals]
    have hno : ¬ (vals pre).findIdx (fun y => cmp y x == 0) < (vals pre).length := by
      rw [List.findIdx_lt_length]
      rintro ⟨z, hz, hzx⟩
      obtain ⟨j, hj, rfl⟩ := List.mem_map.mp hz
      exact hpre j hj (by simpa using hzx)
    rw [happ, List.findIdx_append, if_neg hno, List.findIdx_cons]
    simp [hy, vals]
  have hnd : ((setFirstItem true post).map (·.1)).Nodup := by
    have := h.nodup
    rw [List.map_append, List.map_cons, List.nodup_append] at this
    rw [setFirstItem_addr]
    exact (List.nodup_cons.mp this.2.1).2
  have hM : MRep { free l1 a with tail := none, size := post.length } (setFirstItem true post) true := by
    refine ⟨⟨last, hseg, rfl⟩, hnd, fun j hj => ?_, by rw [setFirstItem_length]⟩
    obtain ⟨k, hk, hkj⟩ := setFirstItem_mem hj
    have : k.1 < l.fresh := h.lt k (by simp [hk])
    rw [← hkj]
    show k.1 < (free l1 a).fresh
    rw [hfr]
    exact this
  have hA : Alike pre.length { free l1 a with tail := none, size := post.length } (free l1 a) :=
    ⟨rfl, rfl, rfl, by rw [hs]; simp; omega⟩
  obtain ⟨m', e2, hm⟩ := clearFrom_alike _ rfl (fuel := (free l1 a).fresh + 1) (by have := hM.length_le; simp only at this; omega) hM hA
  refine ⟨free l1 a, { m' with head := none, tail := none }, ?_, ?_, ?_, by rw [hidx]; exact hlen⟩
  · unfold remove
    rw [lookupHelper_mrep h x, hf]
    simp only [Option.map_some, Outcome.ok_bind, e1, destroy_ok e1 hn]
    rfl
  · unfold clear
    rw [show clearFrom ((free l1 a).fresh + 1) (free l1 a) (free l1 a).head = .ok m' from e2]
    rfl
  · rw [hidx]; exact hm

end Verif.LList
