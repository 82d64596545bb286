import Verif.Lemmas.CompactRun
import Verif.Props.Api
/-
C70: the compact hierarchy.
-/
namespace Verif.Props
open Spec
variable {D W S T : Type}

/-- C70 for `hdbscan_compute_hierarchy_and_cluster_tree` alone, for every graph, whatever its weights (NaN included): if the call without the option completes, so does the call with it.
    The clusters differ in their offsets only, noise levels and last clusters are the same, and the lines are those that are kept, numbered 1, 2, 3, ... in the same order, followed
    by line 0. There are at most two lines per cluster. -/
theorem C70_hierarchy [CCmp W] (ar : Arith W S) (m : Nat) (g : Graph W) (res : Hier.Result W S) (h : Hier.compute ar m false g = .ok res) :
    ∃ res', Hier.compute ar m true g = .ok res' ∧
      res'.hierarchy = (res.hierarchy.filter fun x => kept res.clusters x.1).map (fun x => (number res.clusters x.1, x.2)) ∧
      res'.clusters = res.clusters.map (fun c => c.map fun c => { c with offset := number res.clusters c.offset }) ∧
      res'.noise = res.noise ∧ res'.last = res.last ∧
      (∃ K, res'.hierarchy.map (·.1) = List.range' 1 K ++ [0]) ∧
      res'.hierarchy.length ≤ 2 * res'.clusters.countP (·.isSome) := by
  obtain ⟨e, L, h1, h2⟩ := Compact.compute_compact h
  obtain ⟨l1, l2, e1, e2, e3⟩ := List.map_eq_append_iff.1 h1
  obtain ⟨x, rfl⟩ : ∃ x, l2 = [x] := List.length_eq_one_iff.1 (by simpa using congrArg List.length e3)
  have hx : x.1 = 0 := by simpa using e3
  have hk0 : kept res.clusters 0 = true := Compact.kept_iff.2 (.inl rfl)
  have hseq : ((res.hierarchy.filter fun x => kept res.clusters x.1).map fun x => (number res.clusters x.1, x.2)).map (·.1) = List.range' 1 (number res.clusters L) ++ [0] := by
    rw [e1, List.filter_append, List.map_append, List.map_append, Compact.seq_compact res.clusters L e2]
    simp [hx, hk0, Compact.number_zero]
  refine ⟨_, e, rfl, rfl, rfl, rfl, ⟨_, hseq⟩, ?_⟩
  have hlen := congrArg List.length hseq
  simp only [List.length_map, List.length_append, List.length_range', List.length_singleton] at hlen
  have hc : (Compact.reoff (number res.clusters) res.clusters).countP (·.isSome) = res.clusters.countP (·.isSome) := by
    rw [Compact.reoff, List.countP_map]
    congr 1
    funext c
    cases c <;> rfl
  show (List.map _ _).length ≤ 2 * (Compact.reoff (number res.clusters) res.clusters).countP (·.isSome)
  rw [hc, List.length_map, hlen]
  exact Compact.number_le h2 L

/-- C70 for data sets: for every supported data set, `hdbscan_init` and `hdbscan_run` give an object, and the same stages with the compact hierarchy give, on the same distances and under
    every schedule, the same clusters except for the numbering of the lines, the same labels, outlier scores, noise levels and last clusters. -/
theorem C70_compact [LinearOrder W] [CCmp S] [LinearOrder T] (env : Api.Env D W S T) (hq : SortsAscending env.qsort) (data : List D) (rows cols : Nat) (f : Nat → Nat → W)
    (h : Supported env data rows cols f) (h5 : 5 ≤ rows) (m : Nat) (hm : 2 ≤ m) (hmr : m ≤ rows) :
    ∃ (obj : Api.Obj W S T) (out : Run.Full W S T), (∀ par, Complete rows rows par → Api.fresh env par m data rows cols true = .ok obj) ∧
      (∀ (sch : Run.Schedule) (order : List Nat), sch.Complete → order.Perm (List.range rows) →
        Compact.stages true env.qsort env.ar env.smax env.oops sch order m obj.dis rows = .ok out) ∧
      Compacted obj.results out := by
  have hfew := h.few
  obtain ⟨C, core, O, key⟩ := api_rep h hq (by omega)
  obtain ⟨k1, k2, k3, k4⟩ := key m (by omega) hmr
  have hfull : ∀ (sch : Run.Schedule) (order : List Nat), sch.Complete → order.Perm (List.range rows) → Run.full env.qsort env.ar env.smax env.oops sch order m (C m) rows = .ok (O m) := by
    intro sch order hsch ho
    exact (k4 ⟨Distance.pairs rows, List.range rows, sch, order⟩ ⟨.refl _, .refl _, hsch, ho⟩).2.1
  obtain ⟨out, h1, h2⟩ := Compact.stages_compact env.qsort env.ar env.smax env.oops hfull
  refine ⟨⟨m, rows, C m, O m⟩, out, fun par hp => ?_, h2, h1⟩
  rw [Api.fresh, Api.initObj, if_pos (by omega), Outcome.ok_bind]
  exact (k4 par hp).2.2.2.1 h5

/-- The stages without the option are those of `hdbscan_do_run`. -/
theorem C70_full [CCmp W] [CCmp S] [CCmp T] (qsort : (OScore W T → OScore W T → Int) → List (OScore W T) → List (OScore W T)) (ar : Arith W S) (smax : S)
    (ops : Outlier.Ops W T) (sch : Run.Schedule) (order : List Nat) (m : Nat) (dis : Distance W) (n : Nat) :
    Compact.stages false qsort ar smax ops sch order m dis n = Run.full qsort ar smax ops sch order m dis n := by
  simp only [Compact.stages, Run.full, Run.doRun, Run.fromTree, Outcome.bind_assoc, Outcome.pure_eq, Outcome.ok_bind]

/-! ### Concrete cases -/

/-- Labels of the lines, labels of the points and offsets of the clusters. -/
def showRun (compact : Bool) (pts : List Rat) (m : Nat) : Outcome (List (Nat × List Nat) × List Nat × List (Option Nat)) :=
  Api.fresh lineEnv (backPar pts.length pts.length) m pts pts.length 1 true >>= fun o =>
  Compact.stages compact lineEnv.qsort lineEnv.ar lineEnv.smax lineEnv.oops seqSchedule (List.range pts.length) m o.dis pts.length >>= fun r =>
  .ok (r.hierarchy.map (fun x => (x.1, x.2.2)), r.labels, r.clusters.map (fun c => c.map (·.offset)))

/-- Five points on a line: line 3 is left out, the labels stay. -/
example : showRun false linePts 2 = .ok ([(1, [1, 1, 1, 1, 1]), (2, [3, 2, 3, 2, 3]), (3, [3, 0, 3, 0, 0]), (0, [0, 0, 0, 0, 0])], [3, 2, 3, 2, 3], [none, some 0, some 1, some 1]) := by decide +kernel
example : showRun true linePts 2 = .ok ([(1, [1, 1, 1, 1, 1]), (2, [3, 2, 3, 2, 3]), (0, [0, 0, 0, 0, 0])], [3, 2, 3, 2, 3], [none, some 0, some 1, some 1]) := by decide +kernel

/-- The premise of `C70_hierarchy`. -/
example : ∃ res, (Mst.construct lineEnv.ar.zeroW lineEnv.ar.dmax true (W := Rat) { numNeighbors := 1, distances := [7, 1, 9, 3, 6, 2, 4, 8, 2, 6].map some, coreDistances := [1, 2, 1, 2, 2].map some, rows := 5, cols := 1 } 5 >>=
    Graph.sortByWeight >>= Hier.compute lineEnv.ar 2 false) = .ok res := ⟨_, rfl⟩

example := C70_compact lineEnv (isort_sorts _) linePts 5 1 (lineSq linePts) linePts_supported (by omega) 2 (by omega) (by omega)

end Verif.Props
