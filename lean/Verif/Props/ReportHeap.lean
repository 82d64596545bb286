import Verif.Lemmas.ReportHeap
/-
C88: the functions that report on a clustering release their memory.
-/
namespace Verif.Props
open Mem Spec

/-- **C88.** A program that makes cluster maps, distance maps and lists, uses them as the rules say and destroys each of them - in whatever order and however many
    there are - meets no double free and no use of released memory, and leaves exactly the blocks that were there before. -/
theorem C88_released (as : List ReportAct) (ha : CleansUp as) (h : Heap) (hh : HeapOk h) : ∃ vs h', reportProgram as h = .ok (vs, h') ∧ h'.live = h.live := by
  obtain ⟨ps, hr, hg⟩ := ha
  obtain ⟨vs, h', zs, e, i⟩ := (reportActs_run (reportInv_start hh)).1 ps hr
  refine ⟨vs, h', e, ?_⟩
  rw [i.live, owns_none, zero_add]
  intro z hz
  have h1 : thingHeld z ∈ ps := by rw [i.held]; exact List.mem_map_of_mem hz
  have h2 := hg _ h1
  obtain ⟨v, b⟩ := z
  cases b with
  | false => rfl
  | true => cases v <;> cases h2

/-- **C88, nothing else works.** A program that returns has kept to the rules, and if it leaves exactly the blocks that were there before, it has destroyed everything it
    made: every use of something destroyed, every second destruction and every leak is noticed. -/
theorem C88_exact (as : List ReportAct) (h : Heap) (hh : HeapOk h) :
    (KeepsRules as ↔ ∃ vs h', reportProgram as h = .ok (vs, h')) ∧ (CleansUp as ↔ ∃ vs h', reportProgram as h = .ok (vs, h') ∧ h'.live = h.live) := by
  obtain ⟨r1, r2⟩ := reportActs_run (as := as) (reportInv_start hh)
  have back : ∀ vs h', reportProgram as h = .ok (vs, h') → ∃ ps, reportRules [] as = some ps := by
    intro vs h' e
    cases hr : reportRules [] as with
    | some ps => exact ⟨ps, rfl⟩
    | none =>
      obtain ⟨w, e' | e'⟩ := r2 hr
      · rw [reportProgram, e'] at e; cases e
      · rw [reportProgram, e'] at e; cases e
  refine ⟨⟨fun ⟨ps, hr⟩ => ?_, fun ⟨vs, h', e⟩ => back vs h' e⟩, fun ha => C88_released as ha h hh, fun ⟨vs, h', e, hl⟩ => ?_⟩
  · obtain ⟨vs, h', zs, e, _⟩ := r1 ps hr
    exact ⟨vs, h', e⟩
  · obtain ⟨ps, hr⟩ := back vs h' e
    obtain ⟨vs', h'', zs, e', i⟩ := r1 ps hr
    have : (vs, h') = (vs', h'') := Outcome.ok.inj (e.symm.trans e')
    cases this
    refine ⟨ps, hr, fun p hp => ?_⟩
    have h0 : owns thingBlocks zs = 0 := by
      have hc := i.live
      rw [hl] at hc
      exact (add_eq_right (b := h.live)).1 hc.symm
    rw [i.held] at hp
    obtain ⟨z, hz, rfl⟩ := List.mem_map.1 hp
    obtain ⟨v, b⟩ := z
    cases b with
    | false => rfl
    | true =>
      obtain ⟨j, hj⟩ := List.mem_iff_getElem?.1 hz
      obtain ⟨r, hr1, _⟩ := owns_set thingBlocks zs j _ hj
      have hin : v.self ∈ owns thingBlocks zs := by rw [hr1]; exact Multiset.mem_add.2 (.inl v.self_mem)
      rw [h0] at hin
      exact absurd hin (Multiset.notMem_zero _)

/-- The report of a program: two maps, their distances and statistics, all orders, everything destroyed in another order. -/
example : CleansUp [.createMap [0, 2, 2, 3, 3, 2, 0], .minMax 0, .stats 1, .makeList [2, 3], .byLength 0 2, .bySimilarity 1 2, .allBySimilarity 1, .createMap [5, 5, 5], .printMap 0, .printDists 1,
    .destroyMap 0, .deleteList 3, .stats 1, .destroyDists 1, .deleteList 2, .destroyMap 4] :=
  ⟨[.gone, .gone, .gone, .gone, .gone], by decide, by decide⟩

/-- The rules are not kept: a map is destroyed twice, a destroyed list is sorted, a list names a label that is not in the map. -/
example : ¬ KeepsRules [.createMap [2, 2, 3], .destroyMap 0, .destroyMap 0] ∧ ¬ KeepsRules [.createMap [2, 2, 3], .makeList [2], .deleteList 1, .byLength 0 1] ∧
    ¬ KeepsRules [.createMap [2, 2, 3], .makeList [4], .byLength 0 1] := by
  refine ⟨?_, ?_, ?_⟩ <;> · rintro ⟨ps, e⟩; revert e; simp [reportRules, reportRule]

end Verif.Props
