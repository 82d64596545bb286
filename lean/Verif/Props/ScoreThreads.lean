import Verif.Props.RunThreads
/-
C40 for whole runs, with every interleaving of threads.
-/
namespace Verif.Props
open Spec Race
variable {D S : Type}

/-- **C40 for whole runs, with every interleaving of threads**: if all core distances are positive, every score lies in [0, 1) if the hierarchy splits, and every score is negative if it does not.
    Missing: scores in [0, 1) for a hierarchy that does not split, which is false, as is stated here, too. -/
theorem C40_run_partial {K : Type} [Field K] [LinearOrder K] [IsStrictOrderedRing K] [CCmp S] (env : Api.Env D K S K) (hz : env.ar.zeroW = 0) (ho : env.oops = exactScore K) (hq : SortsAscending env.qsort)
    (data : List D) (rows cols : Nat) (f : Nat → Nat → K) (h : Supported env data rows cols f) (h5 : 5 ≤ rows) (m : Nat) (hm : 2 ≤ m) (hmr : m ≤ rows) (th : Threads) (hth : Interleaves th) :
    ∃ obj : Api.Obj K S K, (∀ par, Complete rows rows par → Race.fresh th env par m data rows cols true = .ok obj) ∧
      ((∀ i c, i < rows → obj.dis.coreDistances[i]? = some (some c) → 0 < c) →
        (obj.results.clusters.length ≠ 2 → ∀ o ∈ obj.results.outliers, 0 ≤ o.score ∧ o.score < 1) ∧
        (obj.results.clusters.length = 2 → ∀ o ∈ obj.results.outliers, o.score < 0)) := by
  have hfew := h.few
  obtain ⟨o0, core, g, res, hf, -, -, hget, hcore, hmax, -, -, -, -, -, hfull⟩ := stages hq h h5 hm hmr
  obtain ⟨obj, lost, p1, p2⟩ := run_lost hq h h5 hm hmr hf hth
  refine ⟨obj, p1, fun hpos => ?_⟩
  have hget' : ∀ i j, i < rows → j < rows → i ≠ j → o0.dis.get env.ar.zeroW i j = .ok (distOf env.dops f i j) := fun i j hi hj _ => by rw [← h.zero]; exact hget i j hi hj
  have hc : ∀ i, i < rows → 0 < core i := fun i hi => hpos i _ hi (by rw [p2.dis]; exact (hcore i hi).1)
  have hrun := hfull seqSchedule (List.range rows) seqSchedule_complete (.refl _)
  rw [ho] at hrun
  obtain ⟨a, a1, a2⟩ := C40_range_partial env.qsort env.ar env.smax m o0.dis rows (distOf env.dops f) core hq (by omega) (by omega) (by omega) hget' (distOf_symm _ _) (fun i hi => (hcore i hi).1) hc hmax
    seqSchedule (List.range rows) seqSchedule_complete (.refl _)
  obtain ⟨b, b1, b2⟩ := C40_unsplit_negative env.qsort env.ar env.smax m o0.dis rows (distOf env.dops f) core hq (by omega) (by omega) (by omega) hz hget' (distOf_symm _ _) (fun i hi => (hcore i hi).1) hc hmax
    seqSchedule (List.range rows) seqSchedule_complete (.refl _)
  rw [hrun] at a1 b1
  cases a1
  cases b1
  rw [lost_length p2, p2.outliers]
  exact ⟨a2, b2⟩

/-- A case: five points on a line, with `minPoints` 2; their core distances are positive and the hierarchy splits. -/
example := C40_run_partial lineEnv rfl rfl (isort_sorts _) linePts 5 1 (lineSq linePts) linePts_supported (by omega) 2 (by omega) (by omega) hasty hasty_interleaves
example : (Api.fresh lineEnv (backPar 5 5) 2 linePts 5 1 true >>= fun o => .ok (o.dis.coreDistances, o.results.clusters.length)) = .ok ([some 1, some 2, some 1, some 2, some 2], 4) := by decide +kernel

end Verif.Props
