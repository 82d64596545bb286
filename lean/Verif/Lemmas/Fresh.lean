import Verif.Spec.Invariance
import Verif.Lemmas.Api
import Verif.Props.Api
import Verif.Lemmas.Pipeline
/-
Helper lemmas for properties that compare runs.
-/
namespace Verif.Props
open Spec
variable {D W S T : Type}

/-- The parts of a successful run. -/
theorem fresh_inv [CCmp W] [CCmp S] [CCmp T] {env : Api.Env D W S T} {par : Api.Par} {m : Nat} {data : List D} {rows cols : Nat} {obj : Api.Obj W S T}
    (hm : m < 2 ^ 32) (h : Api.fresh env par m data rows cols true = .ok obj) :
    2 ≤ m ∧ Distance.compute env.dops env.ar.dmax par.pairs par.cores data rows cols (m - 1) = .ok obj.dis ∧
      Run.full env.qsort env.ar env.smax env.oops par.sch par.scores m obj.dis rows = .ok obj.results ∧ obj.minPoints = m ∧ obj.numPoints = rows := by
  unfold Api.fresh Api.initObj at h
  split at h
  · rename_i h1
    rw [Outcome.ok_bind] at h
    unfold Api.run at h
    obtain ⟨dis, e1, h⟩ := Outcome.bind_eq_ok.mp h
    obtain ⟨_, _, h⟩ := Outcome.bind_eq_ok.mp h
    obtain ⟨_, _, h⟩ := Outcome.bind_eq_ok.mp h
    have hds : Api.datasetSize rows cols true = rows := by simp [Api.datasetSize]
    rw [hds] at h
    unfold Api.doRun at h
    obtain ⟨_, _, h⟩ := Outcome.bind_eq_ok.mp h
    obtain ⟨r, e2, h⟩ := Outcome.bind_eq_ok.mp h
    cases h
    have : subIndex m 1 = m - 1 := by unfold subIndex; split <;> omega
    rw [this] at e1
    exact ⟨h1, e1, e2, rfl, rfl⟩
  · exact absurd h (by simp [bind, Outcome.bind])

/-- All stages of a run in one place. -/
theorem stages [LinearOrder W] [CCmp S] [LinearOrder T] {env : Api.Env D W S T} (hq : SortsAscending env.qsort) {data : List D} {rows cols : Nat} {f : Nat → Nat → W}
    (h : Supported env data rows cols f) (h5 : 5 ≤ rows) {m : Nat} (hm : 2 ≤ m) (hmr : m ≤ rows) :
    ∃ (obj : Api.Obj W S T) (core : Nat → W) (g : Graph W) (res : Hier.Result W S), (∀ par, Complete rows rows par → Api.fresh env par m data rows cols true = .ok obj) ∧
      obj.dis.rows = rows ∧ obj.dis.numNeighbors = m - 1 ∧
      (∀ i j, i < rows → j < rows → obj.dis.get env.dops.zero i j = .ok (distOf env.dops f i j)) ∧
      (∀ i, i < rows → obj.dis.coreDistances[i]? = some (some (core i)) ∧ Distance.coreOf env.dops.zero env.ar.dmax obj.dis i = .ok (core i)) ∧
      (∀ i j, i < rows → j < rows → i ≠ j → mutualReach (distOf env.dops f) core i j < env.ar.dmax) ∧
      g.numVertices = rows ∧ TreeInput rows g.va g.vb g.wt g.edges ∧
      (∀ w u v, ConnectedBy (triples g.va g.vb g.wt) w u v ↔ Reachable rows (mutualReach (distOf env.dops f) core) w u v) ∧
      Hier.compute env.ar m false g = .ok res ∧ res.hierarchy = obj.results.hierarchy ∧
      (∀ sch order, sch.Complete → order.Perm (List.range rows) → Run.full env.qsort env.ar env.smax env.oops sch order m obj.dis rows = .ok obj.results) := by
  have hfew := h.few
  obtain ⟨obj, core, hf, h1, h2, h3, h4, _⟩ := C55_run_partial env hq data rows cols f h h5 m hm hmr
  have hseq : Complete rows rows ⟨Distance.pairs rows, List.range rows, seqSchedule, List.range rows⟩ := ⟨.refl _, .refl _, seqSchedule_complete, .refl _⟩
  obtain ⟨_, k1, k2, _, _⟩ := fresh_inv (by omega) (hf _ hseq)
  obtain ⟨d, core', e, r1, r2, r3, hget, hself, hcore, _⟩ := compute_rep (ops := env.dops) env.ar.dmax (data := data) (cols := cols) (nn := m - 1) h.few hseq.pairs hseq.cores (fun i j a b => sqSum_iff.2 (h.sum i j a b))
  rw [k1] at e; cases e
  have hmax : ∀ i j, i < rows → j < rows → i ≠ j → mutualReach (distOf env.dops f) core i j < env.ar.dmax := by
    intro i j hi hj hij
    have hd : distOf env.dops f i j < env.ar.dmax := by
      unfold distOf
      rcases Nat.lt_trichotomy i j with h' | h' | h'
      · rw [if_pos h']; exact h.lt i j h' hj
      · exact absurd h' hij
      · rw [if_neg (by omega), if_neg (by omega)]; exact h.lt j i h' hi
    simp [mutualReach, (h4 i hi).2, (h4 j hj).2, hd]
  obtain ⟨g, g', e1, e2, e3, hin, hconn, _⟩ := Run.sorted_mst env.ar.zeroW env.ar.dmax obj.dis rows (by omega) (distOf env.dops f) core (fun i j a b _ => h3 i j a b) (distOf_symm _ _) (fun i hi => (h4 i hi).1) hmax
  obtain ⟨_, res, e4, e5⟩ := full_hierarchy k2
  subst e3
  refine ⟨obj, core, g', res, hf, r1, r3, by rw [h.zero]; exact h3, fun i hi => ⟨(h4 i hi).1, ?_⟩, hmax, rfl, hin, hconn, ?_, e5, fun sch order hsch ho => ?_⟩
  · have := (hcore i hi).2
    rw [(h4 i hi).1] at this
    simp only [Option.some.injEq] at this
    rw [this]; exact (hcore i hi).1
  · rw [Run.hierarchy, e1, Outcome.ok_bind, e2] at e4
    exact e4
  · have hp : Complete g'.numVertices g'.numVertices ⟨Distance.pairs g'.numVertices, List.range g'.numVertices, sch, order⟩ := ⟨.refl _, .refl _, hsch, ho⟩
    exact (fresh_inv (by omega) (hf _ hp)).2.2.1

end Verif.Props
