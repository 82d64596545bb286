import Verif.Lemmas.HeapLife
/-
C50: over the life of an object memory is released exactly once.
-/
namespace Verif.Props
open Mem Spec

/-- **C50.** Every life that follows the protocol - `hdbscan_init`, then `hdbscan_run` on at least five points, any number of `hdbscan_rerun`s, possibly
    `hdbscan_clean` and a new `hdbscan_run`, at last `hdbscan_destroy` - meets no double free, no use of released memory and no unassigned pointer, and leaves
    exactly the blocks that were there before, whatever the runs create. -/
theorem C50_protocol (cs : List Call) (hp : Proper cs) (h : Heap) (hh : HeapOk h) : ∃ o h', life cs h = .ok (o, h') ∧ h'.live = h.live := by
  obtain ⟨o, h1, e1, i1⟩ := init_inv hh
  obtain ⟨o2, h2, e2, i2⟩ := steps_defined i1 hp
  refine ⟨o2, h2, ?_, by rw [i2.live, if_pos rfl]; abel⟩
  show (init >>= fun o => steps cs o) h = _
  rw [bind_apply, e1]
  exact e2

/-- **C50** in the words of the property: init, run, rerun*, destroy. -/
theorem C50_run_reruns_destroy (s : Shape) (n : Nat) (hn : 5 ≤ n) (rs : List Shape) (h : Heap) (hh : HeapOk h) :
    ∃ o h', life (.run s n :: (rs.map Call.rerun ++ [.destroy])) h = .ok (o, h') ∧ h'.live = h.live := by
  refine C50_protocol _ ?_ h hh
  show (next .new (.run s n)).bind _ = _
  rw [next, if_pos hn]
  exact follow_reruns rs [.destroy]

/-- A heap with two blocks of other owners. -/
private def someHeap : Heap := ⟨{3, 7}, 9⟩

/-- `someHeap` is a heap. -/
example : HeapOk someHeap := ⟨by decide, by intro b hb; simp [someHeap] at hb ⊢; omega⟩

/-- A run that creates six clusters on four levels, two reruns with fewer. -/
example : Proper [.run ⟨6, 4, 5, 2⟩ 20, .rerun ⟨3, 2, 3, 1⟩, .rerun ⟨1, 1, 2, 1⟩, .clean, .run ⟨6, 4, 5, 2⟩ 20, .destroy] := by unfold Proper; decide


/-- **C50**, the other direction: calls that return and leave nothing behind follow the protocol. Every other sequence of calls runs into undefined behaviour,
    aborts, or leaks. -/
theorem C50_only_protocol (cs : List Call) (h : Heap) (hh : HeapOk h) (o : Obj) (h' : Heap) (e : life cs h = .ok (o, h')) (hl : h'.live = h.live) : Proper cs := by
  obtain ⟨o1, h1, e1, i1⟩ := init_inv hh
  rw [life_eq e1] at e
  obtain ⟨q, lost, i, a, _⟩ := steps_returns i1 e
  have h0 := i.live
  rw [hl] at h0
  have h2 : (if q = .gone then 0 else o.own) + lost = 0 := by
    have : h.live + 0 = h.live + ((if q = .gone then 0 else o.own) + lost) := by rw [add_zero]; refine h0.trans ?_; abel
    exact (add_left_cancel this).symm
  obtain ⟨h3, h4⟩ := both_zero h2
  rcases a with ⟨a, _⟩ | a
  · by_cases hq : q = .gone
    · rw [hq] at a; exact a
    · rw [if_neg hq] at h3
      have := own_self o
      rw [h3] at this
      simp at this
  · exact absurd h4 a

/-- Neither direction is void: the sequence of the example above is proper, a second run without `hdbscan_clean` is not. -/
example : ¬ Proper [.run ⟨6, 4, 5, 2⟩ 20, .run ⟨6, 4, 5, 2⟩ 20, .destroy] := by unfold Proper; decide

/-- Destroying (in C++: leaving the scope of) an object that was never run reads pointers that were never assigned. -/
theorem C50_unused_object_violated (h : Heap) (hh : HeapOk h) : (∃ w, life [.destroy] h = .ub w) ∧ ∃ w, life [.clean] h = .ub w := by
  obtain ⟨o1, h1, e1, i1⟩ := init_inv hh
  obtain ⟨w, hw⟩ := clean_new (i1.self_live (by decide)) (i1.new rfl).1
  refine ⟨⟨w, ?_⟩, ⟨w, ?_⟩⟩
  · rw [life_eq e1]; exact bind_ub (bind_ub hw)
  · rw [life_eq e1]; exact bind_ub hw

/-- Running an object twice returns, but after `hdbscan_destroy` blocks of the first run are left. -/
theorem C50_second_run_leaks (s s' : Shape) (n n' : Nat) (hn : 5 ≤ n) (hn' : 5 ≤ n') (h : Heap) (hh : HeapOk h) :
    ∃ o h', life [.run s n, .run s' n', .destroy] h = .ok (o, h') ∧ h.live < h'.live := by
  obtain ⟨o1, h1, e1, i1⟩ := init_inv hh
  obtain ⟨o2, h2, e2, i2⟩ := step_defined (c := .run s n) (q := .ready) i1 (by rw [next, if_pos hn])
  obtain ⟨o3, h3, e3, i3⟩ := run_inv i2 (by decide) (i2.ready rfl).constraints s' hn'
  obtain ⟨o4, h4, e4, i4⟩ := step_defined (c := .destroy) (q := .gone) i3 rfl
  refine ⟨o4, h4, ?_, ?_⟩
  · rw [life_eq e1]
    exact (bind_ok e2).trans ((bind_ok e3).trans ((bind_ok e4).trans rfl))
  · rw [i4.live, if_pos rfl, zero_add, zero_add]
    exact lt_of_le_of_ne (Multiset.le_add_right _ _) fun he => parts_pos (i2.ready rfl) (left_eq_add.1 he)

/-- `clean()` of the C++ class releases the object that the destructor then cleans. -/
theorem C50_cpp_clean_violated (s : Shape) (n : Nat) (hn : 5 ≤ n) (h : Heap) (hh : HeapOk h) : ∃ w, cppLife s n h = .ub w := by
  obtain ⟨o1, h1, e1, i1⟩ := init_inv hh
  obtain ⟨o2, h2, e2, i2⟩ := step_defined (c := .run s n) (q := .ready) i1 (by rw [next, if_pos hn])
  obtain ⟨o3, h3, e3, i3⟩ := step_defined (c := .destroy) (q := .gone) i2 rfl
  obtain ⟨w, hw⟩ := step_dead (i3.gone rfl) .clean
  exact ⟨w, (bind_ok e1).trans ((bind_ok e2).trans ((bind_ok e3).trans hw))⟩

end Verif.Props
