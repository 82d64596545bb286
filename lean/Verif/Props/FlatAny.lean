import Verif.Props.AnyThreads
/-
C97 for arbitrary data: NaN, infinities, distances that are not below D_MAX, fewer points than `m`.
-/
namespace Verif.Props
open Spec Race
variable {D V S T : Type}

/-- **C97 for arbitrary data**, but for the data race of C37. Whatever the data (NaN, infinities, overflowing distances, `m` larger than the number of rows): the points with a label other than 0
    are at least `m`, and exactly the points of a component of the mutual reachability graph at some level below `D_MAX`; and there is never exactly one label other than 0.
    Missing: with several threads all labels but one can be lost (`C97_single_violated`); the rest is `C75_threads_partial`. -/
theorem C97_any_partial [LinearOrder V] [CCmp S] [LinearOrder T] (env : Api.Env D (Ieee V) S T) (hd : ∃ v, env.ar.dmax = .num v) (hq : SortsAscending env.qsort)
    (data : List D) (rows cols : Nat) (f : Nat → Nat → Ieee V) (h : Readable env data rows cols f) (h5 : 5 ≤ rows) (m : Nat) (hm : 2 ≤ m) :
    ∃ (obj : Api.Obj (Ieee V) S T) (core : Nat → Ieee V), (∀ par, Complete rows rows par → Api.fresh env par m data rows cols true = .ok obj) ∧
      (∀ i, i < rows → obj.dis.coreDistances[i]? = some (some (core i))) ∧ obj.results.labels.length = rows ∧
      (∀ l, l ≠ 0 → l ∈ obj.results.labels → AtLeast m (fun p => obj.results.labels[p]? = some l) ∧
        ∀ p, obj.results.labels[p]? = some l → ∃ w, CCmp.lt w env.ar.dmax = true ∧ ∀ q, q < rows → (obj.results.labels[q]? = some l ↔ Linked rows (distOf env.dops f) core w p q)) ∧
      ∀ l, l ≠ 0 → l ∈ obj.results.labels → ∃ l', l' ≠ 0 ∧ l' ≠ l ∧ l' ∈ obj.results.labels := by
  obtain ⟨obj, core, key⟩ := C71_any_data env hd hq data rows cols f h h5
  obtain ⟨k1, _, _, _, k3, k4, _⟩ := key m hm
  obtain ⟨root, q1, q2, q3, q4, q5⟩ := k4.labels
  refine ⟨obj m, core m, k1, fun i hi => (k3 i hi).1, q3, fun l hl0 hl => ?_, fun l hl0 hl => ?_⟩
  · obtain ⟨p0, hp0⟩ := List.mem_iff_getElem?.1 hl
    refine ⟨q5 l ((q4 p0 l hl0).1 hp0).1, fun p hp => ?_⟩
    obtain ⟨w, w1, _, w3⟩ := labelled_component hd k4 hl0 hp
    exact ⟨w, w1, w3⟩
  · obtain ⟨p0, hp0⟩ := List.mem_iff_getElem?.1 hl
    obtain ⟨l', h1, h2⟩ := selection_two k4.tree k4.siblings q2 ((q4 p0 l hl0).1 hp0).1
    obtain ⟨q, hq⟩ := q2.notRoot l' h1
    have := k4.tree.up l' q hq
    obtain ⟨ps, _, hps, hpc⟩ := q5 l' h1
    obtain ⟨y, hy⟩ : ∃ x, x ∈ ps := by
      match ps, hps with
      | [], hps => simp at hps; omega
      | x :: _, _ => exact ⟨x, by simp⟩
    exact ⟨l', by omega, h2, List.mem_iff_getElem?.2 ⟨y, hpc y hy⟩⟩

example := C97_any_partial nanEnv ⟨1000, rfl⟩ (isort_sorts _) nanPts 8 1 (nanSq nanPts) (nan_readable nanPts (by decide)) (by omega) 2 (by omega)
example := C97_any_partial nanEnv ⟨1000, rfl⟩ (isort_sorts _) nanPts 8 1 (nanSq nanPts) (nan_readable nanPts (by decide)) (by omega) 12 (by omega)

end Verif.Props
