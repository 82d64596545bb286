import Verif.Props.RaceAny
/-
C49 for arbitrary data and every interleaving of threads.
-/
namespace Verif.Props
open Spec Race
variable {D V S T : Type}

/-- **C49 for arbitrary data and interleavings** (NaN, infinities, overflowing distances, minPoints larger than the number of rows included): after a run and any sequence of reruns, each with its own schedules and
    interleaving of threads, a rerun with `m` gives the object that `hdbscan_init` with `m` and `hdbscan_run` give if the threads of the loop with the data race are interleaved in the same way; the schedules of
    the other loops may differ. So a rerun can have exactly the results that a fresh run can have.
    Missing: equality if the threads are interleaved in different ways, which is false even for two fresh runs (`C63_violated`). -/
theorem C49_threads_partial [LinearOrder V] [CCmp S] [LinearOrder T] (env : Api.Env D (Ieee V) S T) (hd : ∃ v, env.ar.dmax = .num v) (hq : SortsAscending env.qsort)
    (data : List D) (rows cols : Nat) (f : Nat → Nat → Ieee V) (h : Readable env data rows cols f) (h5 : 5 ≤ rows) (m0 : Nat) (hm0 : 2 ≤ m0) (par0 : Api.Par)
    (hp0 : Complete rows rows par0) (th0 : Threads) (ht0 : Interleaves th0) (hist : List (Nat × Api.Par × Threads))
    (hhist : ∀ c ∈ hist, 2 ≤ c.1 ∧ Complete rows rows c.2.1 ∧ Interleaves c.2.2) (m : Nat) (hm : 2 ≤ m) :
    ∃ obj0 : Api.Obj (Ieee V) S T, Race.fresh th0 env par0 m0 data rows cols true = .ok obj0 ∧
      ∀ th, Interleaves th → ∃ obj : Api.Obj (Ieee V) S T, ∀ par par', Complete rows rows par → Complete rows rows par' →
        Race.reruns env (hist ++ [(m, par, th)]) obj0 = .ok obj ∧ Race.fresh th env par' m data rows cols true = .ok obj := by
  obtain ⟨C, O, key⟩ := race_any hd hq h h5
  obtain ⟨lost0, _, b0⟩ := (key m0 hm0).2.1 th0 ht0
  refine ⟨_, (b0 par0 hp0).1, fun th ht => ?_⟩
  obtain ⟨lost, a, b⟩ := (key m hm).2.1 th ht
  refine ⟨⟨m, rows, C m, lose lost (O m)⟩, fun par par' hp hp' => ⟨?_, (b par' hp').1⟩⟩
  have hind : ∀ (hist : List (Nat × Api.Par × Threads)), (∀ c ∈ hist, 2 ≤ c.1 ∧ Complete rows rows c.2.1 ∧ Interleaves c.2.2) → ∀ m0 r, 2 ≤ m0 →
      Race.reruns env (hist ++ [(m, par, th)]) ⟨m0, rows, C m0, r⟩ = .ok ⟨m, rows, C m, lose lost (O m)⟩ := by
    intro hist
    induction hist with
    | nil =>
      intro _ m0 r hm0
      rw [List.nil_append, Race.reruns, (b par hp).2 m0 r hm0]
      rfl
    | cons c hist ih =>
      intro hh m0 r hm0
      obtain ⟨hc1, hc2, hc3⟩ := hh c (by simp)
      obtain ⟨lost1, _, b1⟩ := (key c.1 hc1).2.1 c.2.2 hc3
      obtain ⟨mc, parc, thc⟩ := c
      rw [List.cons_append, Race.reruns, (b1 parc hc2).2 m0 r hm0, Outcome.ok_bind]
      exact ih (fun x hx => hh x (by simp [hx])) mc _ hc1
  exact hind hist hhist m0 _ hm0

/-- A case: data with NaN, minPoints larger than the number of rows at first, threads that read an old value. -/
example := C49_threads_partial nanEnv ⟨1000, rfl⟩ (isort_sorts _) nanPts 8 1 (nanSq nanPts) (nan_readable nanPts (by decide)) (by omega) 12 (by omega) (backPar 8 8)
  (backPar_complete 8 8) hasty hasty_interleaves [(3, backPar 8 8, hasty)] (by simpa using ⟨backPar_complete 8 8, hasty_interleaves⟩) 2 (by omega)

end Verif.Props
