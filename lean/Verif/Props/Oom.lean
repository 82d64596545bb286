import Verif.Lemmas.Oom
import Verif.Spec.Oom
import Mathlib.Tactic.IntervalCases
/-
Property C93: running out of memory. The intended property is that a refused request is reported by the call that made it, and that nothing is lost: no
undefined behaviour, no elements lost, no memory leaked.
-/
namespace Verif.Props
open Spec Oom
variable {α : Type}

/-! ### Lists -/

/-- **C93 (lists, partial).** A caller creates a list, works on it without `array_list_insert_at` until an `array_list_append` returns 0, and releases it.
    For every allocator this is defined: either no list is created and nothing stays allocated; or every call gives back what the ideal sequence gives back
    and nothing stays allocated; or some `array_list_append` returns 0 because of a refused request, all calls before gave back what the ideal sequence gives
    back, and one block (that of the elements) stays allocated.
    Missing: `array_list_insert_at`, the leaked block, the lost elements; see the violations. -/
theorem C93_list_partial (refuses : Nat → Bool) (cmp : α → α → Int) (n : Nat) (hn : 0 < n) (ops : List (SeqOp α))
    (hops : ∀ op ∈ ops, ∀ x pos, op ≠ .insertAt x pos) (h : Oom.Heap) :
    ∃ r h', session refuses cmp n ops h = .ok (r, h') ∧
      ((r = none ∧ h'.live = h.live ∧ ∃ j, h.asked ≤ j ∧ refuses j = true) ∨
       (r = some (seqRun cmp [] ops).1 ∧ h'.live = h.live) ∨
       ∃ k x b, ops[k]? = some (.append x) ∧ r = some ((seqRun cmp [] ops).1.take k ++ [(0, none)]) ∧ h'.live = b ::ₘ h.live ∧
         ∃ j, h.asked ≤ j ∧ refuses j = true) := by
  rcases listInit_cases (α := α) refuses hn h with ⟨e0, e⟩ | ⟨_, e1, e⟩ | ⟨_, _, a, _, ra, e⟩
  · refine ⟨none, { h with asked := h.asked + 1 }, ?_, Or.inl ⟨rfl, rfl, h.asked, le_refl _, e0⟩⟩
    simp only [session]
    rw [Oom.bind_apply, e]
    rfl
  · refine ⟨none, { h with fresh := h.fresh + 1, asked := h.asked + 2 }, ?_, Or.inl ⟨rfl, rfl, h.asked + 1, Nat.le_succ _, e1⟩⟩
    simp only [session]
    rw [Oom.bind_apply, e]
    rfl
  · obtain ⟨rs, h', e', hres⟩ := work_cases (refuses := refuses) cmp (rest := h.live) ops ⟨h.fresh, some (h.fresh + 1), a⟩ (h.fresh + 1) []
      { live := (h.fresh + 1) ::ₘ h.fresh ::ₘ h.live, fresh := h.fresh + 2, asked := h.asked + 2 } hops ra rfl rfl
    refine ⟨some rs, h', ?_, Or.inr ?_⟩
    · simp only [session]
      rw [Oom.bind_apply, e]
      simp only [Outcome.ok_bind]
      rw [Oom.bind_apply, e']
      rfl
    · rcases hres with ⟨e3, hl⟩ | ⟨k, x, b, hk, e3, hl, j, hj, hj'⟩
      · exact Or.inl ⟨by rw [e3], hl⟩
      · exact Or.inr ⟨k, x, b, hk, by rw [e3], hl, j, by simp only at hj; omega, hj'⟩

/-- A list with room for one element; the third request (the growth) is refused: the second `array_list_append` returns 0, block 1 is leaked. -/
example : session (fun k => k == 2) intCompare 1 [.append 5, .find 5, .append 6, .append 7] ⟨0, 0, 0⟩ = .ok (some [(1, none), (0, none), (0, none)], ⟨{1}, 2, 3⟩) := by
  rfl

/-- The same history when nothing is refused. -/
example : session (fun _ => false) intCompare 1 [.append 5, .find 5, .append 6, .append 7] ⟨0, 0, 0⟩ =
    .ok (some [(1, none), (0, none), (1, none), (1, none)], ⟨0, 3, 3⟩) := by
  rfl

/-- A list with one element that has no room for another. -/
def fullList : OList Int := ⟨0, some 1, ⟨[some 5], 1, 1⟩⟩

/-- **C93 is violated (lists).** An `array_list_append` that returns 0 has lost the elements the list had: looking at the first one is undefined. -/
theorem C93_violated_lost : ∃ l h, append (fun _ => true) fullList 6 ⟨{0, 1}, 2, 0⟩ = .ok (((0, none), l), h) ∧ l.list.size = 1 ∧
    (step (fun _ => false) intCompare l (.valueAt 0) h).IsUB :=
  ⟨⟨0, none, ⟨[], 1, 1⟩⟩, ⟨{0, 1}, 2, 1⟩, rfl, rfl, "read outside the allocation", rfl⟩

/-- **C93 is violated (lists).** `array_list_insert_at` into a full list is undefined when the request is refused. -/
theorem C93_violated_insert : (insertAt (fun _ => true) fullList 6 0 ⟨{0, 1}, 2, 0⟩).IsUB := ⟨_, rfl⟩

/-! ### Linked lists and tables -/

/-- **C93 (linked lists, partial).** When the first request of `linkedlist_front_add` or `linkedlist_tail_add` is refused, the call reports it (the node is
    NULL, the call returns 0) and nothing stays allocated. Missing: the second request, see below. -/
theorem C93_node_partial (refuses : Nat → Bool) (h : Oom.Heap) (h0 : FirstRefused refuses h.asked 0) :
    nodeCreate refuses h = .ok (none, { h with asked := h.asked + 1 }) := by
  simp only [nodeCreate]
  rw [Oom.bind_apply, alloc_no h0.2]
  rfl

example : FirstRefused (fun k => k == 3) 3 0 := ⟨by omega, rfl⟩

/-- **C93 is violated (linked lists).** When the request for the data of the node is refused, the call is undefined. -/
theorem C93_violated_node (refuses : Nat → Bool) (h : Oom.Heap) (h0 : FirstRefused refuses h.asked 1) : (nodeCreate refuses h).IsUB := by
  refine ⟨"null pointer", ?_⟩
  simp only [nodeCreate]
  rw [Oom.bind_apply, alloc_yes (h0.1 0 (by decide))]
  simp only [Outcome.ok_bind]
  rw [Oom.bind_apply, alloc_no (by exact h0.2)]
  rfl

/-- **C93 is violated (tables).** Inserting a new key makes three requests; whichever of them is refused first, the call is undefined. -/
theorem C93_violated_entry (refuses : Nat → Bool) (h : Oom.Heap) (k : Nat) (hk : k < 3) (h0 : FirstRefused refuses h.asked k) : (entryCreate refuses h).IsUB := by
  refine ⟨"null pointer", ?_⟩
  obtain ⟨hj, hr⟩ := h0
  rcases (show k = 0 ∨ k = 1 ∨ k = 2 by omega) with rfl | rfl | rfl
  · simp only [entryCreate]
    rw [Oom.bind_apply, alloc_no hr]
    rfl
  · simp only [entryCreate]
    rw [Oom.bind_apply, alloc_yes (hj 0 (by decide))]
    simp only [Outcome.ok_bind, deref]
    rw [Oom.bind_apply, Oom.pure_apply]
    simp only [Outcome.ok_bind]
    rw [Oom.bind_apply, alloc_no (by exact hr)]
    simp only [Outcome.ok_bind]
    cases r : refuses (h.asked + 2) with
    | true =>
      rw [Oom.bind_apply, alloc_no (by exact r)]
      rfl
    | false =>
      rw [Oom.bind_apply, alloc_yes (by exact r)]
      rfl
  · simp only [entryCreate]
    rw [Oom.bind_apply, alloc_yes (hj 0 (by decide))]
    simp only [Outcome.ok_bind, deref]
    rw [Oom.bind_apply, Oom.pure_apply]
    simp only [Outcome.ok_bind]
    rw [Oom.bind_apply, alloc_yes (by exact hj 1 (by decide))]
    simp only [Outcome.ok_bind]
    rw [Oom.bind_apply, alloc_no (by exact hr)]
    rfl

/-! ### Runs -/


/-- The state in front of `hdbscan_construct_mst` when the first thirteen requests are granted. -/
theorem oom_front {refuses : Nat → Bool} {n : Nat} (hn : 5 ≤ n) {h : Oom.Heap} (hj : ∀ j < 13, refuses (h.asked + j) = false) :
    ∃ o H, o.mst = .indet ∧ H.asked = h.asked + 13 ∧
      start refuses n h = (constructMst refuses n o H >>= fun x => (pure ((x.1.1, some x.1.2), x.2) : Outcome _)) := by
  obtain ⟨a, b, c, e⟩ := start_front (refuses := refuses) hn (h := h) hj
  exact ⟨_, _, rfl, rfl, e⟩

theorem oom_lists {refuses : Nat → Bool} {n : Nat} (hn : 5 ≤ n) {h : Oom.Heap} (o : Obj) (hj : ∀ j < 6, refuses (h.asked + j) = false) :
    ∃ va vb wt H, H.asked = h.asked + 6 ∧ constructMst refuses n o h = finishMst refuses n va vb wt o H := by
  obtain ⟨a, b, c, e⟩ := mst_lists (refuses := refuses) hn (h := h) o hj
  exact ⟨_, _, _, _, rfl, e⟩

/-- The error of `hdbscan_construct_mst`, with the object. -/
theorem oom_mst_error {refuses : Nat → Bool} {n : Nat} (hn : 5 ≤ n) {h : Oom.Heap} (o : Obj) {k : Nat} (hk : k < 4) (hj : ∀ j < k, refuses (h.asked + j) = false)
    (hr : refuses (h.asked + k) = true) : ∃ h', constructMst refuses n o h = .ok ((.error, o), h') := by
  rcases (show k = 0 ∨ k = 1 ∨ k = 2 ∨ k = 3 by omega) with rfl | rfl | rfl | rfl
  · exact mst_first hn o (Or.inl hr)
  · exact mst_first hn o (Or.inr ⟨hj 0 (by decide), hr⟩)
  · exact mst_second hn o (hj 0 (by decide)) (hj 1 (by decide)) (Or.inl hr)
  · exact mst_second hn o (hj 0 (by decide)) (hj 1 (by decide)) (Or.inr ⟨hj 2 (by decide), hr⟩)

theorem oom_shift {refuses : Nat → Bool} {a b : Nat} {c : Nat} (e : b = a + c) (j : Nat) {v : Bool} (h : refuses (a + (c + j)) = v) : refuses (b + j) = v := by
  rw [e, Nat.add_assoc]; exact h

/-- **C93 (runs, partial).** `hdbscan_init` and `hdbscan_run` on at least five points: when the first refused request is one of `reportedRequests`, no
    undefined behaviour occurs and `hdbscan_run` returns `HDBSCAN_ERROR`. Missing: all other requests, see the violations. -/
theorem C93_run_partial (refuses : Nat → Bool) (n : Nat) (hn : 5 ≤ n) (h : Oom.Heap) (k : Nat) (hk : k ∈ reportedRequests)
    (h0 : FirstRefused refuses h.asked k) : ∃ p h', start refuses n h = .ok ((.error, p), h') := by
  obtain ⟨hj, hr⟩ := h0
  simp only [reportedRequests, List.mem_cons, List.not_mem_nil, or_false] at hk
  by_cases hz : k = 0
  · subst hz
    refine ⟨none, { h with asked := h.asked + 1 }, ?_⟩
    simp only [start, objInit]
    rw [Oom.bind_apply, Oom.bind_apply, alloc_no hr]
    rfl
  · obtain ⟨o, H, _, hA, e⟩ := oom_front (refuses := refuses) hn (h := h) (fun j hj' => hj j (by omega))
    rw [e]
    by_cases h17 : k < 17
    · obtain ⟨h', e'⟩ := oom_mst_error (refuses := refuses) hn (h := H) o (k := k - 13) (by omega) (fun j hj' => oom_shift hA j (hj (13 + j) (by omega)))
        (oom_shift hA _ (by rw [show 13 + (k - 13) = k by omega]; exact hr))
      exact ⟨some o, h', by rw [e']; rfl⟩
    · obtain ⟨va, vb, wt, H2, hA2, e2⟩ := oom_lists (refuses := refuses) hn (h := H) o (fun j hj' => oom_shift hA j (hj (13 + j) (by omega)))
      have hA3 : H2.asked = h.asked + 19 := by omega
      have : ∃ h', finishMst refuses n va vb wt o H2 = .ok ((.error, { o with mst := .null }), h') := by
        apply finish_graph
        rcases (show k = 19 ∨ k = 20 by omega) with rfl | rfl
        · exact Or.inl (oom_shift hA3 0 hr)
        · exact Or.inr ⟨oom_shift hA3 0 (hj 19 (by decide)), oom_shift hA3 1 hr⟩
      obtain ⟨h', e'⟩ := this
      exact ⟨some { o with mst := .null }, h', by rw [e2, e']; rfl⟩

/-- The array of adjacency lists is refused. -/
example : 20 ∈ reportedRequests ∧ FirstRefused (fun k => 20 ≤ k) 0 20 := ⟨by decide, by intro j hj; simp; omega, by simp⟩

/-- **C93 (runs).** When none of the requests is refused, the run goes on. -/
theorem C93_granted (refuses : Nat → Bool) (n : Nat) (hn : 5 ≤ n) (h : Oom.Heap) (hj : ∀ j < 21 + 2 * n, refuses (h.asked + j) = false) :
    ∃ p h', start refuses n h = .ok ((.goesOn, some p), h') := by
  obtain ⟨o, H, _, hA, e⟩ := oom_front (refuses := refuses) hn (h := h) (fun j hj' => hj j (by omega))
  obtain ⟨va, vb, wt, H2, hA2, e2⟩ := oom_lists (refuses := refuses) hn (h := H) o (fun j hj' => oom_shift hA j (hj (13 + j) (by omega)))
  have hA3 : H2.asked = h.asked + 19 := by omega
  obtain ⟨o', h', e'⟩ := finish_ok (refuses := refuses) (n := n) (va := va) (vb := vb) (wt := wt) (h := H2) o
    (fun j hj' => oom_shift hA3 j (hj (19 + j) (by omega)))
  exact ⟨o', h', by rw [e, e2, e']; rfl⟩

example : ∀ j < 21 + 2 * 5, (fun _ => false : Nat → Bool) (0 + j) = false := fun _ _ => rfl

/-- **C93 is violated (runs).** When the first refused request is the one for the distances, the core distances, the weights of the tree or any adjacency
    list, the call is undefined. -/
theorem C93_violated_run (refuses : Nat → Bool) (n : Nat) (hn : 5 ≤ n) (h : Oom.Heap) (k : Nat)
    (hk : k = 1 ∨ k = 2 ∨ k = 17 ∨ k = 18 ∨ (21 ≤ k ∧ k < 21 + 2 * n)) (h0 : FirstRefused refuses h.asked k) : (start refuses n h).IsUB := by
  obtain ⟨hj, hr⟩ := h0
  by_cases hz : k < 3
  · refine ⟨"null pointer", ?_⟩
    simp only [start, objInit]
    rw [Oom.bind_apply, Oom.bind_apply, alloc_yes (hj 0 (by omega))]
    simp only [Outcome.ok_bind]
    rw [Oom.pure_apply]
    simp only [Outcome.ok_bind, runPtr, run]
    rw [Oom.bind_apply, Oom.bind_apply]
    rcases (show k = 1 ∨ k = 2 by omega) with rfl | rfl
    · rw [alloc_no (by exact hr)]
      simp only [Outcome.ok_bind]
      cases r : refuses (h.asked + 2) with
      | true =>
        rw [Oom.bind_apply, alloc_no (by exact r)]
        rfl
      | false =>
        rw [Oom.bind_apply, alloc_yes (by exact r)]
        rfl
    · rw [alloc_yes (by exact hj 1 (by decide))]
      simp only [Outcome.ok_bind]
      rw [Oom.bind_apply, alloc_no (by exact hr)]
      rfl
  · obtain ⟨o, H, _, hA, e⟩ := oom_front (refuses := refuses) hn (h := h) (fun j hj' => hj j (by omega))
    have key : (constructMst refuses n o H).IsUB := by
      by_cases h19 : k < 19
      · apply mst_third hn o (fun j hj' => oom_shift hA j (hj (13 + j) (by omega)))
        rcases (show k = 17 ∨ k = 18 by omega) with rfl | rfl
        · exact Or.inl (oom_shift hA 4 hr)
        · exact Or.inr ⟨oom_shift hA 4 (hj 17 (by decide)), oom_shift hA 5 hr⟩
      · obtain ⟨va, vb, wt, H2, hA2, e2⟩ := oom_lists (refuses := refuses) hn (h := H) o (fun j hj' => oom_shift hA j (hj (13 + j) (by omega)))
        have hA3 : H2.asked = h.asked + 19 := by omega
        rw [e2]
        exact finish_ub (refuses := refuses) (k := k - 21) o (by omega) (fun j hj' => oom_shift hA3 j (hj (19 + j) (by omega)))
          (oom_shift hA3 _ (by rw [show 19 + (2 + (k - 21)) = k by omega]; exact hr))
    obtain ⟨s, e'⟩ := key
    exact ⟨s, by rw [e, e']; rfl⟩

example : FirstRefused (fun k => k == 25) 0 25 := ⟨by intro j hj; simp; omega, rfl⟩

/-- Destroying an object whose spanning tree pointer was never assigned is undefined. -/
theorem oom_destroy_indet (refuses : Nat → Bool) (o : Obj) (ho : o.mst = .indet) (h : Oom.Heap) : (destroy refuses o h).IsUB := by
  have fr : ∀ (p : Option Nat) (h : Oom.Heap), (∃ h', freeOpt p h = .ok ((), h')) ∨ (freeOpt p h).IsUB := by
    intro p h
    cases p with
    | none => exact Or.inl ⟨h, rfl⟩
    | some b =>
      by_cases hb : b ∈ h.live
      · exact Or.inl ⟨_, if_pos hb⟩
      · exact Or.inr ⟨_, if_neg hb⟩
  simp only [destroy, ho]
  rw [Oom.bind_apply]
  rcases fr o.distances h with ⟨h1, e1⟩ | ⟨s, e1⟩
  · rw [e1]
    simp only [Outcome.ok_bind]
    rw [Oom.bind_apply]
    rcases fr o.core h1 with ⟨h2, e2⟩ | ⟨s, e2⟩
    · rw [e2]
      exact ⟨_, rfl⟩
    · rw [e2]
      exact ⟨s, rfl⟩
  · rw [e1]
    exact ⟨s, rfl⟩

/-- **C93 is violated (runs).** When the first refused request is one for the lists of neighbours or of other vertices, `hdbscan_run` reports it, but the
    object can not be destroyed: `hdbscan_destroy` is undefined. -/
theorem C93_violated_destroy (refuses : Nat → Bool) (n : Nat) (hn : 5 ≤ n) (h : Oom.Heap) (k : Nat) (hk : 13 ≤ k ∧ k < 17)
    (h0 : FirstRefused refuses h.asked k) : ∃ o h', start refuses n h = .ok ((.error, some o), h') ∧ ∀ refuses', (destroy refuses' o h').IsUB := by
  obtain ⟨hj, hr⟩ := h0
  obtain ⟨o, H, ho, hA, e⟩ := oom_front (refuses := refuses) hn (h := h) (fun j hj' => hj j (by omega))
  obtain ⟨h', e'⟩ := oom_mst_error (refuses := refuses) hn (h := H) o (k := k - 13) (by omega) (fun j hj' => oom_shift hA j (hj (13 + j) (by omega)))
    (oom_shift hA _ (by rw [show 13 + (k - 13) = k by omega]; exact hr))
  exact ⟨o, h', by rw [e, e']; rfl, fun r => oom_destroy_indet r o ho h'⟩

example : FirstRefused (fun k => k == 14) 0 14 := ⟨by intro j hj; simp; omega, rfl⟩

/-- `hdbscan_init`, `hdbscan_run` and, if there is an object, `hdbscan_destroy`: how the run ended and how many blocks stay allocated. -/
def lifeOfRun (refuses : Nat → Bool) (n : Nat) : Outcome (End × Nat) := do
  let ((e, p), h) ← start refuses n ⟨0, 0, 0⟩
  match p with
  | none => return (e, h.live.card)
  | some o => do
    let (_, h') ← destroy refuses o h
    return (e, h'.live.card)

/-- **C93 is violated (runs).** When the graph is refused, the run reports it and the object can be destroyed, but the six blocks of the three lists stay
    allocated; when its array of adjacency lists is refused, seven blocks do. When nothing is refused, no block does. -/
theorem C93_violated_leak : lifeOfRun (fun k => k == 19) 5 = .ok (.error, 6) ∧ lifeOfRun (fun k => k == 20) 5 = .ok (.error, 7) ∧
    lifeOfRun (fun _ => false) 5 = .ok (.goesOn, 0) := by
  refine ⟨?_, ?_, ?_⟩ <;> decide +kernel

/-- `hdbscan_init` and `hdbscan_run`: how the run ended. -/
def endOfRun (refuses : Nat → Bool) (n : Nat) : Outcome End := do
  let ((e, _), _) ← start refuses n ⟨0, 0, 0⟩
  return e

/-- **C93 is violated (runs).** When the only refused request is one of the two for the list of clusters or one of the eight for the tables, the run goes on
    as if nothing had happened. -/
theorem C93_violated_unnoticed : ∀ k < 13, 3 ≤ k → endOfRun (fun j => j == k) 5 = .ok .goesOn := by
  decide +kernel

end Verif.Props
