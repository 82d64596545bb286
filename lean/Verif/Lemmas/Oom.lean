import Verif.Model.Oom
import Verif.Props.Collections
/-
Helper lemmas for the out-of-memory model: what each step does with the heap.
-/
namespace Verif.Oom
open Spec
open Mem (Ptr)
variable {α β : Type}

theorem bind_apply (m : M α) (k : α → M β) (h : Heap) : (m >>= k) h = (m h >>= fun p => k p.1 p.2) := rfl
theorem pure_apply (a : α) (h : Heap) : (pure a : M α) h = .ok (a, h) := rfl
theorem lift_ok {o : Outcome α} {a : α} (e : o = .ok a) (h : Heap) : lift o h = .ok (a, h) := by subst e; rfl

theorem alloc_no {refuses : Nat → Bool} {h : Heap} (e : refuses h.asked = true) :
    alloc refuses h = .ok (none, { h with asked := h.asked + 1 }) := by simp [alloc, e]

theorem alloc_yes {refuses : Nat → Bool} {h : Heap} (e : refuses h.asked = false) :
    alloc refuses h = .ok (some h.fresh, { live := h.fresh ::ₘ h.live, fresh := h.fresh + 1, asked := h.asked + 1 }) := by simp [alloc, e]

theorem free_head {h : Heap} {b : Nat} {rest : Multiset Nat} (e : h.live = b ::ₘ rest) : free b h = .ok ((), { h with live := rest }) := by
  simp [free, e]

theorem free_eq {h : Heap} {b : Nat} (e : b ∈ h.live) : free b h = .ok ((), { h with live := h.live.erase b }) := by
  simp [free, e]

/-- `realloc` of a live block. -/
theorem realloc_some {refuses : Nat → Bool} {h : Heap} {d : Nat} {rest : Multiset Nat} (e : h.live = d ::ₘ rest) :
    (refuses h.asked = true ∧ realloc refuses (some d) h = .ok (none, { h with asked := h.asked + 1 })) ∨
    (refuses h.asked = false ∧ realloc refuses (some d) h = .ok (some h.fresh, { live := h.fresh ::ₘ rest, fresh := h.fresh + 1, asked := h.asked + 1 })) := by
  cases r : refuses h.asked with
  | true =>
    left
    refine ⟨rfl, ?_⟩
    simp only [realloc]
    rw [bind_apply, alloc_no r]
    rfl
  | false =>
    right
    refine ⟨rfl, ?_⟩
    simp only [realloc]
    rw [bind_apply, alloc_yes r]
    simp only [Outcome.ok_bind, freeOpt]
    rw [bind_apply, free_eq (b := d) (by simp [e])]
    simp only [Outcome.ok_bind]
    rw [pure_apply]
    simp only [Outcome.ok.injEq, Prod.mk.injEq, Heap.mk.injEq, and_true, true_and]
    rw [e, Multiset.cons_swap, Multiset.erase_cons_head]

/-- Storing behind the last element. -/
theorem store_rep {l : OList α} {xs : List α} (hr : AList.Rep l.list xs) (hroom : xs.length < l.list.buf.length) (x : α) (h : Heap) :
    ∃ a, store l x h = .ok (((1, none), { l with list := a }), h) ∧ AList.Rep a (xs ++ [x]) := by
  obtain ⟨h1, h2, h3, r, hr'⟩ := hr
  have e : l.list.insertionHelper x l.list.size = .ok { l.list with buf := l.list.buf.set l.list.size (some x) } :=
    AList.insertionHelper_set x (by rw [h1]; exact hroom)
  refine ⟨{ l.list with buf := l.list.buf.set l.list.size (some x), size := l.list.size + 1 }, ?_, ?_⟩
  · simp only [store]
    rw [bind_apply, lift_ok e]
    rfl
  · refine ⟨by simp [h1], by simp [h2], h3, r.tail, ?_⟩
    cases r with
    | nil => simp [hr'] at hroom
    | cons a r => simp [hr', h1]

/-- `array_list_append`: done, or reported as failed with the elements lost and their block leaked. -/
theorem append_cases {refuses : Nat → Bool} {l : OList α} {d : Nat} {xs : List α} {rest : Multiset Nat} {h : Heap} (hr : AList.Rep l.list xs)
    (hd : l.data = some d) (hl : h.live = d ::ₘ l.self ::ₘ rest) (x : α) :
    (∃ a d' h', append refuses l x h = .ok (((1, none), ⟨l.self, some d', a⟩), h') ∧ AList.Rep a (xs ++ [x]) ∧ h'.live = d' ::ₘ l.self ::ₘ rest ∧
      h.asked ≤ h'.asked) ∨
    (∃ a h', append refuses l x h = .ok (((0, none), ⟨l.self, none, a⟩), h') ∧ h'.live = d ::ₘ l.self ::ₘ rest ∧ refuses h.asked = true ∧
      l.list.size = l.list.maxSize) := by
  obtain ⟨self, data, list⟩ := l
  simp only at hd hr hl
  subst hd
  by_cases hs : list.size = list.maxSize
  · obtain ⟨g, eg, hg, hsz, hm⟩ := AList.grow_rep hr
    rcases realloc_some (refuses := refuses) (d := d) hl with ⟨hn, er⟩ | ⟨hy, er⟩
    · right
      refine ⟨{ list with buf := [] }, { h with asked := h.asked + 1 }, ?_, hl, hn, hs⟩
      simp only [append, ensureRoom, hs, if_true, grow]
      rw [bind_apply, bind_apply, lift_ok eg]
      simp only [Outcome.ok_bind]
      rw [bind_apply, er]
      rfl
    · left
      have hroom : xs.length < g.buf.length := by
        have := hg.2.1; have := hr.1; omega
      obtain ⟨a, ea, ra⟩ := store_rep (l := ⟨self, some h.fresh, g⟩) hg hroom x
        { live := h.fresh ::ₘ self ::ₘ rest, fresh := h.fresh + 1, asked := h.asked + 1 }
      refine ⟨a, h.fresh, { live := h.fresh ::ₘ self ::ₘ rest, fresh := h.fresh + 1, asked := h.asked + 1 }, ?_, ra, rfl, Nat.le_succ _⟩
      simp only [append, ensureRoom, hs, if_true, grow]
      rw [bind_apply, bind_apply, lift_ok eg]
      simp only [Outcome.ok_bind]
      rw [bind_apply, er]
      simp only [Outcome.ok_bind, pure_apply]
      rw [if_neg (by decide)]
      exact ea
  · left
    have hroom : xs.length < list.buf.length := by
      have := hr.1; have := hr.2.1; have := hr.le; omega
    obtain ⟨a, ea, ra⟩ := store_rep (l := ⟨self, some d, list⟩) hr hroom x h
    refine ⟨a, d, h, ?_, ra, hl, le_refl _⟩
    simp only [append, ensureRoom, hs, if_false]
    rw [bind_apply, pure_apply]
    simp only [Outcome.ok_bind]
    rw [if_neg (by decide)]
    exact ea

/-- The calls that make no request. -/
theorem step_other {refuses : Nat → Bool} (cmp : α → α → Int) {l : OList α} {xs : List α} (hr : AList.Rep l.list xs) (op : SeqOp α)
    (h1 : ∀ x, op ≠ .append x) (h2 : ∀ x pos, op ≠ .insertAt x pos) (h : Heap) :
    ∃ a, step refuses cmp l op h = .ok (((seqStep cmp xs op).1, { l with list := a }), h) ∧ AList.Rep a (seqStep cmp xs op).2 := by
  have hleg : seqLegal xs op := by
    cases op <;> first | trivial | exact absurd rfl (h2 _ _)
  obtain ⟨a, e, r⟩ := Props.step_rep cmp hr op hleg
  refine ⟨a, ?_, r⟩
  cases op <;> first
    | exact absurd rfl (h1 _)
    | exact absurd rfl (h2 _ _)
    | (simp only [step]
       rw [bind_apply, lift_ok e]
       rfl)

theorem listDelete_ok {l : OList α} {d : Nat} {rest : Multiset Nat} {h : Heap} (hd : l.data = some d) (hl : h.live = d ::ₘ l.self ::ₘ rest) :
    listDelete l h = .ok ((), { h with live := rest }) := by
  simp only [listDelete, hd, freeOpt]
  rw [bind_apply, free_head hl]
  simp only [Outcome.ok_bind]
  rw [free_head rfl]

theorem listDelete_null {l : OList α} {d : Nat} {rest : Multiset Nat} {h : Heap} (hd : l.data = none) (hl : h.live = d ::ₘ l.self ::ₘ rest) :
    listDelete l h = .ok ((), { h with live := d ::ₘ rest }) := by
  simp only [listDelete, hd, freeOpt]
  rw [bind_apply, pure_apply]
  simp only [Outcome.ok_bind]
  rw [free_head (rest := d ::ₘ rest) (by rw [hl, Multiset.cons_swap])]

/-- `array_list_init` for every allocator. -/
theorem listInit_cases (refuses : Nat → Bool) {n : Nat} (hn : 0 < n) (h : Heap) :
    (refuses h.asked = true ∧ listInit (α := α) refuses n h = .ok (none, { h with asked := h.asked + 1 })) ∨
    (refuses h.asked = false ∧ refuses (h.asked + 1) = true ∧
      listInit (α := α) refuses n h = .ok (none, { h with fresh := h.fresh + 1, asked := h.asked + 2 })) ∨
    (refuses h.asked = false ∧ refuses (h.asked + 1) = false ∧
      ∃ a, AList.init n = .ok a ∧ AList.Rep a ([] : List α) ∧
      listInit (α := α) refuses n h = .ok (some ⟨h.fresh, some (h.fresh + 1), a⟩,
        { live := (h.fresh + 1) ::ₘ h.fresh ::ₘ h.live, fresh := h.fresh + 2, asked := h.asked + 2 })) := by
  obtain ⟨a, ea, ra, _⟩ := AList.rep_init (α := α) hn
  cases r : refuses h.asked with
  | true =>
    left
    refine ⟨rfl, ?_⟩
    simp only [listInit]
    rw [bind_apply, lift_ok ea]
    simp only [Outcome.ok_bind]
    rw [bind_apply, alloc_no r]
    rfl
  | false =>
    right
    cases r2 : refuses (h.asked + 1) with
    | true =>
      left
      refine ⟨rfl, rfl, ?_⟩
      simp only [listInit]
      rw [bind_apply, lift_ok ea]
      simp only [Outcome.ok_bind]
      rw [bind_apply, alloc_yes r]
      simp only [Outcome.ok_bind]
      rw [bind_apply, alloc_no (by exact r2)]
      simp only [Outcome.ok_bind]
      rw [bind_apply, free_head rfl]
      rfl
    | false =>
      right
      refine ⟨rfl, rfl, a, ea, ra, ?_⟩
      simp only [listInit]
      rw [bind_apply, lift_ok ea]
      simp only [Outcome.ok_bind]
      rw [bind_apply, alloc_yes r]
      simp only [Outcome.ok_bind]
      rw [bind_apply, alloc_yes (by exact r2)]
      rfl

theorem failed_iff {op : SeqOp α} {r : Ret α} (h1 : ∀ x, op ≠ .append x) : failed op r = false := by
  cases op <;> first | rfl | exact absurd rfl (h1 _)

/-- A caller that stops at the first failed `append`. -/
theorem work_cases {refuses : Nat → Bool} (cmp : α → α → Int) {rest : Multiset Nat} :
    ∀ (ops : List (SeqOp α)) (l : OList α) (d : Nat) (xs : List α) (h : Heap), (∀ op ∈ ops, ∀ x pos, op ≠ .insertAt x pos) → AList.Rep l.list xs →
      l.data = some d → h.live = d ::ₘ l.self ::ₘ rest →
      ∃ rs h', work refuses cmp l ops h = .ok (rs, h') ∧
        ((rs = (seqRun cmp xs ops).1 ∧ h'.live = rest) ∨
         ∃ k x b, ops[k]? = some (.append x) ∧ rs = (seqRun cmp xs ops).1.take k ++ [(0, none)] ∧ h'.live = b ::ₘ rest ∧
           ∃ j, h.asked ≤ j ∧ refuses j = true)
  | [], l, d, xs, h, _, hr, hd, hl => by
    refine ⟨[], { h with live := rest }, ?_, Or.inl ⟨rfl, rfl⟩⟩
    simp only [work]
    rw [bind_apply, listDelete_ok hd hl]
    rfl
  | op :: ops, l, d, xs, h, hops, hr, hd, hl => by
    have hops' : ∀ op ∈ ops, ∀ x pos, op ≠ .insertAt x pos := fun o ho => hops o (List.mem_cons_of_mem _ ho)
    by_cases ha : ∃ x, op = .append x
    · obtain ⟨x, rfl⟩ := ha
      rcases append_cases (refuses := refuses) hr hd hl x with ⟨a, d', h1, e, ra, hl1, hle⟩ | ⟨a, h1, e, hl1, href, _⟩
      · obtain ⟨rs, h2, e2, hres⟩ := work_cases (refuses := refuses) cmp ops ⟨l.self, some d', a⟩ d' (xs ++ [x]) h1 hops' ra rfl hl1
        refine ⟨(1, none) :: rs, h2, ?_, ?_⟩
        · simp only [work, step]
          rw [bind_apply, e]
          simp only [Outcome.ok_bind]
          rw [show failed (SeqOp.append x) ((1 : Int), (none : Option α)) = false from rfl, if_neg (by decide), bind_apply, e2]
          rfl
        · rcases hres with ⟨e3, hl3⟩ | ⟨k, y, b, hk, e3, hl3, j, hj, hj'⟩
          · exact Or.inl ⟨by rw [e3]; rfl, hl3⟩
          · exact Or.inr ⟨k + 1, y, b, by simpa using hk, by rw [e3]; rfl, hl3, j, hle.trans hj, hj'⟩
      · refine ⟨[(0, none)], { h1 with live := d ::ₘ rest }, ?_, Or.inr ⟨0, x, d, rfl, rfl, rfl, h.asked, le_refl _, href⟩⟩
        simp only [work, step]
        rw [bind_apply, e]
        simp only [Outcome.ok_bind]
        rw [show failed (SeqOp.append x) ((0 : Int), (none : Option α)) = true from rfl, if_pos rfl, bind_apply, listDelete_null (l := ⟨l.self, none, a⟩) rfl hl1]
        rfl
    · have h1 : ∀ x, op ≠ .append x := fun x hx => ha ⟨x, hx⟩
      obtain ⟨a, e, ra⟩ := step_other (refuses := refuses) cmp hr op h1 (hops op (List.mem_cons_self ..)) h
      obtain ⟨rs, h2, e2, hres⟩ := work_cases (refuses := refuses) cmp ops { l with list := a } d _ h hops' ra hd hl
      refine ⟨(seqStep cmp xs op).1 :: rs, h2, ?_, ?_⟩
      · simp only [work]
        rw [bind_apply, e]
        simp only [Outcome.ok_bind]
        rw [failed_iff h1, if_neg (by decide), bind_apply, e2]
        rfl
      · rcases hres with ⟨e3, hl3⟩ | ⟨k, y, b, hk, e3, hl3, j, hj, hj'⟩
        · exact Or.inl ⟨by rw [e3]; rfl, hl3⟩
        · exact Or.inr ⟨k + 1, y, b, by simpa using hk, by rw [e3]; rfl, hl3, j, hj, hj'⟩

theorem listInit_yes {refuses : Nat → Bool} {n : Nat} (hn : 0 < n) {h : Heap} (h0 : refuses h.asked = false) (h1 : refuses (h.asked + 1) = false) :
    ∃ a, listInit (α := α) refuses n h = .ok (some ⟨h.fresh, some (h.fresh + 1), a⟩,
        { live := (h.fresh + 1) ::ₘ h.fresh ::ₘ h.live, fresh := h.fresh + 2, asked := h.asked + 2 }) := by
  rcases listInit_cases (α := α) refuses hn h with ⟨e, _⟩ | ⟨_, e, _⟩ | ⟨_, _, a, _, _, e⟩
  · rw [h0] at e; exact absurd e (by decide)
  · rw [h1] at e; exact absurd e (by decide)
  · exact ⟨a, e⟩

theorem tableInit_yes {refuses : Nat → Bool} {h : Heap} (hj : ∀ j < 4, refuses (h.asked + j) = false) :
    ∃ a, tableInit refuses h = .ok (some ⟨h.fresh, h.fresh + 1, some ⟨h.fresh + 2, some (h.fresh + 3), a⟩⟩,
        { live := (h.fresh + 3) ::ₘ (h.fresh + 2) ::ₘ (h.fresh + 1) ::ₘ h.fresh ::ₘ h.live, fresh := h.fresh + 4, asked := h.asked + 4 }) := by
  obtain ⟨a, e⟩ := listInit_yes (α := Nat) (refuses := refuses) (n := 2) (by decide)
    (h := { live := (h.fresh + 1) ::ₘ h.fresh ::ₘ h.live, fresh := h.fresh + 2, asked := h.asked + 2 }) (hj 2 (by decide)) (hj 3 (by decide))
  refine ⟨a, ?_⟩
  simp only [tableInit]
  rw [bind_apply, alloc_yes (hj 0 (by decide))]
  simp only [Outcome.ok_bind]
  rw [bind_apply, alloc_yes (by exact hj 1 (by decide))]
  simp only [Outcome.ok_bind]
  rw [bind_apply, e]
  rfl

theorem csize_pos {n : Nat} (hn : 5 ≤ n) : 0 < csize n := by
  unfold csize
  split <;> omega

/-- The blocks named `f`, ..., `f + k - 1` on top of `L`. -/
def upTo (L : Multiset Nat) (f : Nat) : Nat → Multiset Nat
  | 0 => L
  | k + 1 => (f + k) ::ₘ upTo L f k

/-- `hdbscan_init` and the part of `hdbscan_run` before the spanning tree, nothing refused. -/
theorem start_front {refuses : Nat → Bool} {n : Nat} (hn : 5 ≤ n) {h : Heap} (hj : ∀ j < 13, refuses (h.asked + j) = false) :
    ∃ a b c, start refuses n h =
      (do
        let (r, h') ← constructMst refuses n ⟨h.fresh, some (h.fresh + 1), some (h.fresh + 2), .indet, some ⟨h.fresh + 3, some (h.fresh + 4), a⟩,
            some ⟨h.fresh + 5, h.fresh + 6, some ⟨h.fresh + 7, some (h.fresh + 8), b⟩⟩,
            some ⟨h.fresh + 9, h.fresh + 10, some ⟨h.fresh + 11, some (h.fresh + 12), c⟩⟩⟩
          { live := upTo h.live h.fresh 13, fresh := h.fresh + 13, asked := h.asked + 13 }
        return ((r.1, some r.2), h')) := by
  obtain ⟨a, ea⟩ := listInit_yes (α := Nat) (refuses := refuses) (csize_pos hn)
    (h := { live := upTo h.live h.fresh 3, fresh := h.fresh + 3, asked := h.asked + 3 }) (hj 3 (by decide)) (hj 4 (by decide))
  obtain ⟨b, eb⟩ := tableInit_yes (refuses := refuses)
    (h := { live := upTo h.live h.fresh 5, fresh := h.fresh + 5, asked := h.asked + 5 }) (fun j hj' => by
      have := hj (5 + j) (by omega); simpa [Nat.add_assoc] using this)
  obtain ⟨c, ec⟩ := tableInit_yes (refuses := refuses)
    (h := { live := upTo h.live h.fresh 9, fresh := h.fresh + 9, asked := h.asked + 9 }) (fun j hj' => by
      have := hj (9 + j) (by omega); simpa [Nat.add_assoc] using this)
  refine ⟨a, b, c, ?_⟩
  simp only [start, objInit]
  rw [bind_apply, bind_apply, alloc_yes (hj 0 (by decide))]
  simp only [Outcome.ok_bind, pure_apply, runPtr, run]
  rw [bind_apply, bind_apply, alloc_yes (by exact hj 1 (by decide))]
  simp only [Outcome.ok_bind]
  rw [bind_apply, alloc_yes (by exact hj 2 (by decide))]
  simp only [Outcome.ok_bind, deref]
  rw [bind_apply, pure_apply]
  simp only [Outcome.ok_bind]
  rw [bind_apply, pure_apply]
  simp only [Outcome.ok_bind]
  rw [bind_apply]
  erw [ea]
  simp only [Outcome.ok_bind]
  rw [bind_apply]
  erw [eb]
  simp only [Outcome.ok_bind]
  rw [bind_apply]
  erw [ec]
  rfl

theorem listInit_null {refuses : Nat → Bool} {n : Nat} (hn : 0 < n) {h : Heap} (h0 : refuses h.asked = true ∨ refuses h.asked = false ∧ refuses (h.asked + 1) = true) :
    ∃ h', listInit (α := α) refuses n h = .ok (none, h') ∧ h'.live = h.live ∧ h'.asked ≤ h.asked + 2 := by
  rcases listInit_cases (α := α) refuses hn h with ⟨_, e⟩ | ⟨_, _, e⟩ | ⟨e0, e1, _⟩
  · exact ⟨_, e, rfl, Nat.le_succ _⟩
  · exact ⟨_, e, rfl, le_refl _⟩
  · rcases h0 with e | ⟨_, e⟩
    · rw [e0] at e; exact absurd e (by decide)
    · rw [e1] at e; exact absurd e (by decide)

/-- `array_list_init` returns, whatever the allocator does. -/
theorem listInit_returns (refuses : Nat → Bool) {n : Nat} (hn : 0 < n) (h : Heap) : ∃ p h', listInit (α := α) refuses n h = .ok (p, h') := by
  rcases listInit_cases (α := α) refuses hn h with ⟨_, e⟩ | ⟨_, _, e⟩ | ⟨_, _, a, _, _, e⟩
  exacts [⟨_, _, e⟩, ⟨_, _, e⟩, ⟨_, _, e⟩]

theorem mst_first {refuses : Nat → Bool} {n : Nat} (hn : 5 ≤ n) {h : Heap} (o : Obj)
    (h0 : refuses h.asked = true ∨ refuses h.asked = false ∧ refuses (h.asked + 1) = true) :
    ∃ h', constructMst refuses n o h = .ok ((.error, o), h') := by
  obtain ⟨h1, e1, _, _⟩ := listInit_null (α := Nat) (refuses := refuses) (n := 2 * n - 1) (by omega) h0
  obtain ⟨p, h2, e2⟩ := listInit_returns (α := Nat) refuses (n := 2 * n - 1) (by omega) h1
  refine ⟨h2, ?_⟩
  simp only [constructMst]
  rw [bind_apply, e1]
  simp only [Outcome.ok_bind]
  rw [bind_apply, e2]
  rfl

theorem mst_second {refuses : Nat → Bool} {n : Nat} (hn : 5 ≤ n) {h : Heap} (o : Obj) (h0 : refuses h.asked = false) (h1 : refuses (h.asked + 1) = false)
    (h2 : refuses (h.asked + 2) = true ∨ refuses (h.asked + 2) = false ∧ refuses (h.asked + 3) = true) :
    ∃ h', constructMst refuses n o h = .ok ((.error, o), h') := by
  obtain ⟨a, e1⟩ := listInit_yes (α := Nat) (refuses := refuses) (n := 2 * n - 1) (by omega) h0 h1
  obtain ⟨h3, e2, _, _⟩ := listInit_null (α := Nat) (refuses := refuses) (n := 2 * n - 1) (by omega)
    (h := { live := (h.fresh + 1) ::ₘ h.fresh ::ₘ h.live, fresh := h.fresh + 2, asked := h.asked + 2 }) h2
  refine ⟨h3, ?_⟩
  simp only [constructMst]
  rw [bind_apply, e1]
  simp only [Outcome.ok_bind]
  rw [bind_apply, e2]
  rfl

/-- The spanning tree with the first two lists granted. -/
theorem mst_third {refuses : Nat → Bool} {n : Nat} (hn : 5 ≤ n) {h : Heap} (o : Obj) (hj : ∀ j < 4, refuses (h.asked + j) = false)
    (h2 : refuses (h.asked + 4) = true ∨ refuses (h.asked + 4) = false ∧ refuses (h.asked + 5) = true) :
    (constructMst refuses n o h).IsUB := by
  obtain ⟨a, e1⟩ := listInit_yes (α := Nat) (refuses := refuses) (n := 2 * n - 1) (by omega) (hj 0 (by decide)) (hj 1 (by decide))
  obtain ⟨b, e2⟩ := listInit_yes (α := Nat) (refuses := refuses) (n := 2 * n - 1) (by omega)
    (h := { live := (h.fresh + 1) ::ₘ h.fresh ::ₘ h.live, fresh := h.fresh + 2, asked := h.asked + 2 }) (hj 2 (by decide)) (hj 3 (by decide))
  obtain ⟨h3, e3, _, _⟩ := listInit_null (α := Nat) (refuses := refuses) (n := 2 * n - 1) (by omega)
    (h := { live := (h.fresh + 2 + 1) ::ₘ (h.fresh + 2) ::ₘ (h.fresh + 1) ::ₘ h.fresh ::ₘ h.live, fresh := h.fresh + 2 + 2, asked := h.asked + 2 + 2 }) h2
  refine ⟨"null pointer", ?_⟩
  simp only [constructMst]
  rw [bind_apply, e1]
  simp only [Outcome.ok_bind]
  rw [bind_apply, e2]
  simp only [Outcome.ok_bind]
  rw [bind_apply, e3]
  rfl

/-- The spanning tree with the three lists granted. -/
theorem mst_lists {refuses : Nat → Bool} {n : Nat} (hn : 5 ≤ n) {h : Heap} (o : Obj) (hj : ∀ j < 6, refuses (h.asked + j) = false) :
    ∃ a b c, constructMst refuses n o h =
      finishMst refuses n ⟨h.fresh, some (h.fresh + 1), a⟩ ⟨h.fresh + 2, some (h.fresh + 3), b⟩ ⟨h.fresh + 4, some (h.fresh + 5), c⟩ o
        { live := upTo h.live h.fresh 6, fresh := h.fresh + 6, asked := h.asked + 6 } := by
  obtain ⟨a, e1⟩ := listInit_yes (α := Nat) (refuses := refuses) (n := 2 * n - 1) (by omega) (hj 0 (by decide)) (hj 1 (by decide))
  obtain ⟨b, e2⟩ := listInit_yes (α := Nat) (refuses := refuses) (n := 2 * n - 1) (by omega)
    (h := { live := (h.fresh + 1) ::ₘ h.fresh ::ₘ h.live, fresh := h.fresh + 2, asked := h.asked + 2 }) (hj 2 (by decide)) (hj 3 (by decide))
  obtain ⟨c, e3⟩ := listInit_yes (α := Nat) (refuses := refuses) (n := 2 * n - 1) (by omega)
    (h := { live := (h.fresh + 2 + 1) ::ₘ (h.fresh + 2) ::ₘ (h.fresh + 1) ::ₘ h.fresh ::ₘ h.live, fresh := h.fresh + 2 + 2, asked := h.asked + 2 + 2 })
    (hj 4 (by decide)) (hj 5 (by decide))
  refine ⟨a, b, c, ?_⟩
  simp only [constructMst]
  rw [bind_apply, e1]
  simp only [Outcome.ok_bind]
  rw [bind_apply, e2]
  simp only [Outcome.ok_bind]
  rw [bind_apply, e3]
  rfl

theorem finish_graph {refuses : Nat → Bool} {n : Nat} {va vb wt : OList Nat} {h : Heap} (o : Obj)
    (h0 : refuses h.asked = true ∨ refuses h.asked = false ∧ refuses (h.asked + 1) = true) :
    ∃ h', finishMst refuses n va vb wt o h = .ok ((.error, { o with mst := .null }), h') := by
  cases r : refuses h.asked with
  | true =>
    refine ⟨{ h with asked := h.asked + 1 }, ?_⟩
    · simp only [finishMst, graphInit]
      rw [bind_apply, bind_apply, alloc_no r]
      rfl
  | false =>
    rcases h0 with e | ⟨_, e⟩
    · rw [r] at e; exact absurd e (by decide)
    · refine ⟨{ live := h.fresh ::ₘ h.live, fresh := h.fresh + 1, asked := h.asked + 1 + 1 }, ?_⟩
      simp only [finishMst, graphInit]
      rw [bind_apply, bind_apply, alloc_yes r]
      simp only [Outcome.ok_bind]
      rw [bind_apply, alloc_no (by exact e)]
      rfl

/-- The adjacency lists: the first refused request is undefined behaviour. -/
theorem adj_ub {refuses : Nat → Bool} : ∀ (m : Nat) (h : Heap) (k : Nat), k < 2 * m → (∀ j < k, refuses (h.asked + j) = false) → refuses (h.asked + k) = true →
    (adjInit refuses m h).IsUB
  | 0, _, _, hk, _, _ => absurd hk (by omega)
  | m + 1, h, k, hk, hj, hr => by
    by_cases hk2 : k < 2
    · have h0 : refuses h.asked = true ∨ refuses h.asked = false ∧ refuses (h.asked + 1) = true := by
        rcases (show k = 0 ∨ k = 1 by omega) with rfl | rfl
        · exact Or.inl hr
        · exact Or.inr ⟨hj 0 (by decide), hr⟩
      obtain ⟨h1, e, _, _⟩ := listInit_null (α := Nat) (refuses := refuses) (n := 16) (by decide) h0
      refine ⟨"null pointer", ?_⟩
      simp only [adjInit]
      rw [bind_apply, e]
      rfl
    · obtain ⟨a, e⟩ := listInit_yes (α := Nat) (refuses := refuses) (n := 16) (by decide) (h := h) (hj 0 (by omega)) (hj 1 (by omega))
      obtain ⟨s, es⟩ := adj_ub m { live := (h.fresh + 1) ::ₘ h.fresh ::ₘ h.live, fresh := h.fresh + 2, asked := h.asked + 2 } (k - 2) (by omega)
        (fun j hj' => by have := hj (2 + j) (by omega); simpa [Nat.add_assoc] using this)
        (by have : h.asked + 2 + (k - 2) = h.asked + k := by omega
            show refuses (h.asked + 2 + (k - 2)) = true
            rw [this]; exact hr)
      refine ⟨s, ?_⟩
      simp only [adjInit]
      rw [bind_apply, e]
      simp only [Outcome.ok_bind, deref]
      rw [bind_apply, pure_apply]
      simp only [Outcome.ok_bind]
      rw [bind_apply, es]
      rfl

theorem finish_ub {refuses : Nat → Bool} {n : Nat} {va vb wt : OList Nat} {h : Heap} (o : Obj) {k : Nat} (hk : k < 2 * n)
    (hj : ∀ j < 2 + k, refuses (h.asked + j) = false) (hr : refuses (h.asked + (2 + k)) = true) : (finishMst refuses n va vb wt o h).IsUB := by
  obtain ⟨s, es⟩ := adj_ub (refuses := refuses) n { live := (h.fresh + 1) ::ₘ h.fresh ::ₘ h.live, fresh := h.fresh + 2, asked := h.asked + 2 } k hk
    (fun j hj' => by have := hj (2 + j) (by omega); simpa [Nat.add_assoc] using this) (by simpa [Nat.add_assoc] using hr)
  refine ⟨s, ?_⟩
  simp only [finishMst, graphInit]
  rw [bind_apply, bind_apply, alloc_yes (by exact hj 0 (by omega))]
  simp only [Outcome.ok_bind]
  rw [bind_apply, alloc_yes (by exact hj 1 (by omega))]
  simp only [Outcome.ok_bind]
  rw [bind_apply]
  erw [es]
  rfl

/-- The adjacency lists when nothing is refused. -/
theorem adj_ok {refuses : Nat → Bool} : ∀ (m : Nat) (h : Heap), (∀ j < 2 * m, refuses (h.asked + j) = false) → ∃ l h', adjInit refuses m h = .ok (l, h')
  | 0, h, _ => ⟨[], h, rfl⟩
  | m + 1, h, hj => by
    obtain ⟨a, e⟩ := listInit_yes (α := Nat) (refuses := refuses) (n := 16) (by decide) (h := h) (hj 0 (by omega)) (hj 1 (by omega))
    obtain ⟨l, h', es⟩ := adj_ok (refuses := refuses) m { live := (h.fresh + 1) ::ₘ h.fresh ::ₘ h.live, fresh := h.fresh + 2, asked := h.asked + 2 }
      (fun j hj' => by have := hj (2 + j) (by omega); simpa [Nat.add_assoc] using this)
    refine ⟨⟨h.fresh, some (h.fresh + 1), a⟩ :: l, h', ?_⟩
    simp only [adjInit]
    rw [bind_apply, e]
    simp only [Outcome.ok_bind, deref]
    rw [bind_apply, pure_apply]
    simp only [Outcome.ok_bind]
    rw [bind_apply, es]
    rfl

theorem finish_ok {refuses : Nat → Bool} {n : Nat} {va vb wt : OList Nat} {h : Heap} (o : Obj) (hj : ∀ j < 2 + 2 * n, refuses (h.asked + j) = false) :
    ∃ o' h', finishMst refuses n va vb wt o h = .ok ((.goesOn, o'), h') := by
  obtain ⟨l, h', es⟩ := adj_ok (refuses := refuses) n { live := (h.fresh + 1) ::ₘ h.fresh ::ₘ h.live, fresh := h.fresh + 2, asked := h.asked + 2 }
    (fun j hj' => by have := hj (2 + j) (by omega); simpa [Nat.add_assoc] using this)
  refine ⟨{ o with mst := .at ⟨h.fresh, va, vb, wt, h.fresh + 1, l⟩ }, h', ?_⟩
  simp only [finishMst, graphInit]
  rw [bind_apply, bind_apply, alloc_yes (by exact hj 0 (by omega))]
  simp only [Outcome.ok_bind]
  rw [bind_apply, alloc_yes (by exact hj 1 (by omega))]
  simp only [Outcome.ok_bind]
  rw [bind_apply]
  erw [es]
  rfl

end Verif.Oom
