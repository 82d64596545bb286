import Verif.Lemmas.RaceFull
import Verif.Lemmas.BoundRun
import Verif.Lemmas.Ieee
/-
Helper lemmas: whole runs on arbitrary data in which offsets are lost.
-/
namespace Verif.Race
open Hier Spec
variable {D W S T : Type}

/-- All stages of `hdbscan_do_run` in the presence of the race, for any comparisons, if the labelling stage is known to survive a loss. -/
theorem full_lost_cmp [CCmp W] [CCmp S] [CCmp T] (qsort : (OScore W T → OScore W T → Int) → List (OScore W T) → List (OScore W T))
    (ar : Arith W S) (smax : S) (ops : Outlier.Ops W T) {n m : Nat} {dis : Distance W} {out : Run.Full W S T}
    (hf : ∀ (sch : Run.Schedule) (order : List Nat), sch.Complete → order.Perm (List.range n) → Run.full qsort ar smax ops sch order m dis n = .ok out)
    (hP : ∀ (lost : Nat → Bool) (sch : Run.Schedule), sch.Complete →
      Sel.prominent (forget lost out.clusters) out.hierarchy n sch.group sch.steps = .ok (out.labels.map fun l => if lost l then 0 else l)) :
    (∀ th, Interleaves th → ∃ lost, Spares out.clusters lost ∧ ∀ (sch : Run.Schedule) (order : List Nat), sch.Complete → order.Perm (List.range n) →
      full th qsort ar smax ops sch order m dis n = .ok (lose lost out)) ∧
    (∀ lost, Spares out.clusters lost → ∀ (sch : Run.Schedule) (order : List Nat), sch.Complete → order.Perm (List.range n) →
      full (losing lost) qsort ar smax ops sch order m dis n = .ok (lose lost out)) := by
  have h0 := hf Props.seqSchedule (List.range n) Props.seqSchedule_complete (.refl _)
  unfold Run.full Run.doRun Run.fromTree at h0
  obtain ⟨o0, a1, h0⟩ := Outcome.bind_eq_ok.mp h0
  obtain ⟨g, e0, a1⟩ := Outcome.bind_eq_ok.mp a1
  obtain ⟨g', e1, a1⟩ := Outcome.bind_eq_ok.mp a1
  obtain ⟨res, e, a1⟩ := Outcome.bind_eq_ok.mp a1
  have hnum : g'.numVertices = n := by
    obtain ⟨l1, l2, l3⟩ := Mst.construct_length e0
    obtain ⟨g2, x1, _, _, x2⟩ := Props.C23_edge_sort_any_weights g (by omega) (by omega)
    rw [e1] at x1
    cases x1
    rw [x2]
    unfold Mst.construct Graph.init at e0
    obtain ⟨_, _, e0⟩ := Outcome.bind_eq_ok.mp e0
    obtain ⟨_, _, e0⟩ := Outcome.bind_eq_ok.mp e0
    obtain ⟨_, _, e0⟩ := Outcome.bind_eq_ok.mp e0
    cases e0
    rfl
  have hparts : ∀ (sch : Run.Schedule) (order : List Nat), sch.Complete → order.Perm (List.range n) → ∃ s, Sel.propagateTree ar smax (sch.leaf res.clusters.length) res.clusters = .ok s ∧
      Outlier.scores qsort ar.zeroW ops order s.clusters res.noise res.last dis.coreDistances n = .ok out.outliers ∧
      out = { clusters := s.clusters, hierarchy := res.hierarchy, noise := res.noise, last := res.last, infinite := s.infinite, labels := out.labels, outliers := out.outliers } := by
    intro sch order hsch ho
    have h := hf sch order hsch ho
    unfold Run.full at h
    obtain ⟨o, a1, h⟩ := Outcome.bind_eq_ok.mp h
    obtain ⟨sc, a2, h⟩ := Outcome.bind_eq_ok.mp h
    cases h
    simp only [Run.doRun, e0, e1, Outcome.ok_bind, Run.fromTree, e] at a1
    obtain ⟨s, b1, a1⟩ := Outcome.bind_eq_ok.mp a1
    obtain ⟨labels, b2, a1⟩ := Outcome.bind_eq_ok.mp a1
    cases a1
    exact ⟨s, b1, a2, rfl⟩
  have hrest : ∀ th lost, compute th ar m false g' = .ok { res with clusters := forget lost res.clusters } → ∀ (sch : Run.Schedule) (order : List Nat), sch.Complete → order.Perm (List.range n) →
      full th qsort ar smax ops sch order m dis n = .ok (lose lost out) := by
    intro th lost hth sch order hsch ho
    obtain ⟨s, b1, b3, b4⟩ := hparts sch order hsch ho
    have hc : out.clusters = s.clusters := by rw [b4]
    have hh : out.hierarchy = res.hierarchy := by rw [b4]
    have c2 := hP lost sch hsch
    rw [hc, hh] at c2
    unfold full
    rw [e0, Outcome.ok_bind, e1, Outcome.ok_bind, hth, Outcome.ok_bind]
    simp only [forget_length]
    rw [(propagateTree_forget b1).1, Outcome.ok_bind, hnum]
    have c2' : Sel.prominent (forgetT lost s).clusters res.hierarchy n sch.group sch.steps = .ok (out.labels.map fun l => if lost l then 0 else l) := c2
    have c3' : Outlier.scores qsort ar.zeroW ops order (forgetT lost s).clusters res.noise res.last dis.coreDistances n = .ok out.outliers := scores_forget b3
    rw [c2', Outcome.ok_bind, c3', Outcome.ok_bind]
    conv_rhs => rw [b4]
    rfl
  obtain ⟨s, b1, b3, b4⟩ := hparts Props.seqSchedule (List.range n) Props.seqSchedule_complete (.refl _)
  have hoffs : offs res.clusters = offs out.clusters := by
    rw [b4]
    exact (propagateTree_forget (lost := fun _ => false) b1).2.symm
  refine ⟨fun th hth => ?_, fun lost hl sch order hsch ho => ?_⟩
  · obtain ⟨lost, h1, h2⟩ := compute_forget (th := th) hth e
    exact ⟨lost, (rinv_iff hoffs).1 h2, hrest th lost h1⟩
  · exact hrest _ lost (compute_losing e ((rinv_iff hoffs).2 hl)) sch order hsch ho

/-- The labelling stage survives a loss, whatever the distances. -/
theorem prominent_lost [LinearOrder W] [CCmp S] [LinearOrder T] (qsort : (OScore W T → OScore W T → Int) → List (OScore W T) → List (OScore W T))
    (ar : Arith W S) (smax : S) (ops : Outlier.Ops W T) (m : Nat) (dis : Distance W) (n : Nat) (d : Nat → Nat → W) (core : Nat → W)
    (hq : SortsAscending qsort) (hm : 2 ≤ m) (hn1 : 1 ≤ n) (hn : n < 2 ^ 31)
    (hget : ∀ i j, i < n → j < n → i ≠ j → dis.get ar.zeroW i j = .ok (d i j)) (hsym : ∀ i j, d i j = d j i)
    (hcore : ∀ i, i < n → dis.coreDistances[i]? = some (some (core i))) (hle : ∀ i, i < n → core i ≤ ar.dmax) {out : Run.Full W S T}
    (hf : Run.full qsort ar smax ops Props.seqSchedule (List.range n) m dis n = .ok out) (lost : Nat → Bool) (sch : Run.Schedule) (hsch : sch.Complete) :
    Sel.prominent (forget lost out.clusters) out.hierarchy n sch.group sch.steps = .ok (out.labels.map fun l => if lost l then 0 else l) := by
  obtain ⟨out', g, g', f, res, hist, cur, noise, last, V, sc, hall, e0, _, e1, hnv, _, _, _, _, e, hb, _⟩ := Run.full_any qsort ar smax ops m dis n d core hq hm hn1 hn hget hsym hcore hle
  have := hall Props.seqSchedule (List.range n) Props.seqSchedule_complete (.refl _)
  rw [hf] at this
  cases this
  have h := hall ⟨Props.seqSchedule.leaf, sch.group, sch.steps⟩ (List.range n) ⟨Props.seqSchedule_complete.leaf, hsch.group, hsch.steps⟩ (.refl _)
  unfold Run.full at h
  obtain ⟨o, a1, h⟩ := Outcome.bind_eq_ok.mp h
  obtain ⟨sc', a2, h⟩ := Outcome.bind_eq_ok.mp h
  cases h
  simp only [Run.doRun, e0, e1, Outcome.ok_bind, Run.fromTree, e] at a1
  obtain ⟨s, b1, a1⟩ := Outcome.bind_eq_ok.mp a1
  obtain ⟨labels, b2, a1⟩ := Outcome.bind_eq_ok.mp a1
  cases a1
  rw [hnv] at b2
  exact labels_lost hb smax (Props.seqSchedule_complete.leaf _) b1 lost hsch.group hsch.steps b2

end Verif.Race
