import Verif.Lemmas.RaceFull
import Verif.Props.Api
/-
C63: whole runs with several threads.
-/
namespace Verif.Props
open Spec Race
variable {D W S T : Type}

/-- One run and one rerun in the presence of the race. -/
theorem race_rep [LinearOrder W] [CCmp S] [LinearOrder T] {env : Api.Env D W S T} (hq : SortsAscending env.qsort) {data : List D} {rows cols : Nat} {f : Nat → Nat → W}
    (h : Supported env data rows cols f) (h5 : 5 ≤ rows) :
    ∃ (C : Nat → Distance W) (O : Nat → Run.Full W S T), ∀ m, 2 ≤ m ∧ m ≤ rows →
      (∀ par, Complete rows rows par → Api.fresh env par m data rows cols true = .ok ⟨m, rows, C m, O m⟩) ∧
      (∀ th, Interleaves th → ∃ lost, Spares (O m).clusters lost ∧ ∀ par, Complete rows rows par →
        Race.fresh th env par m data rows cols true = .ok ⟨m, rows, C m, lose lost (O m)⟩ ∧
        ∀ m' r, 2 ≤ m' ∧ m' ≤ rows → Race.rerun th env par m ⟨m', rows, C m', r⟩ = .ok ⟨m, rows, C m, lose lost (O m)⟩) ∧
      (∀ lost, Spares (O m).clusters lost → ∀ par, Complete rows rows par → Race.fresh (losing lost) env par m data rows cols true = .ok ⟨m, rows, C m, lose lost (O m)⟩) ∧
      (∀ l q, IsChild (O m).clusters l q → ∃ (c : Cl W S) (l' : Nat) (c' : Cl W S), (O m).clusters[l]? = some (some c) ∧ (O m).clusters[l']? = some (some c') ∧ c.offset ≠ 0 ∧
        c'.offset = c.offset ∧ l' ≠ l) := by
  have hfew := h.few
  obtain ⟨C, core, O, key⟩ := api_rep h hq (by omega)
  refine ⟨C, O, fun m hm => ?_⟩
  obtain ⟨k1, k2, k3, k4⟩ := key m (by omega) hm.2
  have hfull : ∀ (sch : Run.Schedule) (order : List Nat), sch.Complete → order.Perm (List.range rows) → Run.full env.qsort env.ar env.smax env.oops sch order m (C m) rows = .ok (O m) := by
    intro sch order hsch ho
    exact (k4 ⟨Distance.pairs rows, List.range rows, sch, order⟩ ⟨.refl _, .refl _, hsch, ho⟩).2.1
  obtain ⟨f1, f2, f3⟩ := full_lost env.qsort env.ar env.smax env.oops (n := rows) (m := m) (by omega) (by omega) (by omega) (dis := C m) (fun i j hi hj _ => k1 i j hi hj)
    (distOf_symm _ _) (fun i hi => (k2 i hi).1) k3 hfull
  have hds : Api.datasetSize rows cols true = rows := by simp [Api.datasetSize]
  -- a run of the stages gives an object
  have hdo : ∀ th par, Complete rows rows par → ∀ r, Race.full th env.qsort env.ar env.smax env.oops par.sch par.scores m (C m) rows = .ok r →
      Race.doRun th env par m (C m) rows = .ok ⟨m, rows, C m, r⟩ := by
    intro th par hp r hr
    have h1 := (k4 par hp).2.2.1
    unfold Api.doRun at h1
    obtain ⟨t, e1, _⟩ := Outcome.bind_eq_ok.mp h1
    unfold Race.doRun
    rw [e1, Outcome.ok_bind, hr, Outcome.ok_bind]
    rfl
  have hfr : ∀ th par, Complete rows rows par → ∀ r, Race.full th env.qsort env.ar env.smax env.oops par.sch par.scores m (C m) rows = .ok r →
      Race.fresh th env par m data rows cols true = .ok ⟨m, rows, C m, r⟩ := by
    intro th par hp r hr
    have h1 := (k4 par hp).2.2.2.1 h5
    unfold Api.run at h1
    obtain ⟨dis, e1, h1⟩ := Outcome.bind_eq_ok.mp h1
    obtain ⟨t1, e2, h1⟩ := Outcome.bind_eq_ok.mp h1
    obtain ⟨t2, e3, h1⟩ := Outcome.bind_eq_ok.mp h1
    have : dis = C m := by rw [(k4 par hp).1] at e1; exact (Outcome.ok.inj e1).symm
    subst this
    unfold Race.fresh
    rw [Api.initObj, if_pos (by omega), Outcome.ok_bind, e1, Outcome.ok_bind, e2, Outcome.ok_bind, e3, Outcome.ok_bind, hds]
    exact hdo th par hp r hr
  refine ⟨fun par hp => ?_, fun th hth => ?_, fun lost hl par hp => hfr _ par hp _ (f2 lost hl _ _ hp.sch hp.scores), f3⟩
  · rw [Api.fresh, Api.initObj, if_pos (by omega), Outcome.ok_bind]
    exact (k4 par hp).2.2.2.1 h5
  · obtain ⟨lost, a, b⟩ := f1 th hth
    refine ⟨lost, a, fun par hp => ⟨hfr th par hp _ (b _ _ hp.sch hp.scores), fun m' r hm' => ?_⟩⟩
    have h1 := (k4 par hp).2.2.2.2 m' (by omega) hm'.2
    unfold Api.rerun at h1
    rw [if_neg (by omega)] at h1
    obtain ⟨dis, e1, h1⟩ := Outcome.bind_eq_ok.mp h1
    have : dis = C m := by
      unfold Api.doRun at h1
      obtain ⟨_, _, h1⟩ := Outcome.bind_eq_ok.mp h1
      obtain ⟨_, _, h1⟩ := Outcome.bind_eq_ok.mp h1
      have := congrArg Api.Obj.dis (Outcome.ok.inj h1)
      exact this
    subst this
    unfold Race.rerun
    rw [if_neg (by omega)]
    show (Distance.getCoreDistances env.dops.zero env.ar.dmax par.cores { (C m') with numNeighbors := subIndex m 1 } >>= _) = _
    rw [e1, Outcome.ok_bind]
    exact hdo th par hp _ (b _ _ hp.sch hp.scores)

/-- **C63, the part that holds**: for every supported data set, every interleaving of the threads in the loop that assigns offsets and every schedule of the other parallel loops, `hdbscan_init` and
    `hdbscan_run` complete, and the object is that of a run with one thread (`obj`), except that some clusters are lost: their points are reported as noise. Of the clusters born in one line at
    least one is never lost. Conversely every such loss occurs.
    Missing: equality with the result of one thread, which is false (`C63_violated`). -/
theorem C63_threads_partial [LinearOrder W] [CCmp S] [LinearOrder T] (env : Api.Env D W S T) (hq : SortsAscending env.qsort) (data : List D) (rows cols : Nat) (f : Nat → Nat → W)
    (h : Supported env data rows cols f) (h5 : 5 ≤ rows) (m : Nat) (hm : 2 ≤ m) (hmr : m ≤ rows) :
    ∃ obj : Api.Obj W S T, (∀ par, Complete rows rows par → Api.fresh env par m data rows cols true = .ok obj) ∧
      (∀ th, Interleaves th → ∃ obj' lost, Spares obj.results.clusters lost ∧ SameButLost lost obj obj' ∧
        ∀ par, Complete rows rows par → Race.fresh th env par m data rows cols true = .ok obj') ∧
      (∀ lost, Spares obj.results.clusters lost → ∃ th obj', Interleaves th ∧ SameButLost lost obj obj' ∧
        ∀ par, Complete rows rows par → Race.fresh th env par m data rows cols true = .ok obj') := by
  obtain ⟨C, O, key⟩ := race_rep hq h h5
  obtain ⟨k1, k2, k3, _⟩ := key m ⟨hm, hmr⟩
  refine ⟨⟨m, rows, C m, O m⟩, k1, fun th hth => ?_, fun lost hl => ?_⟩
  · obtain ⟨lost, a, b⟩ := k2 th hth
    exact ⟨_, lost, a, lose_same lost _ _ _ _, fun par hp => (b par hp).1⟩
  · exact ⟨losing lost, _, losing_interleaving lost, lose_same lost _ _ _ _, k3 lost hl⟩

/-- **C63, the part that holds for reruns**: after a run and any sequence of reruns, each with its own interleavings and schedules, the object is the one that `hdbscan_init` and `hdbscan_run` with
    the last minPoints give with one thread, except that some clusters are lost in the last rerun. Losses of earlier calls leave no trace. -/
theorem C63_reruns_partial [LinearOrder W] [CCmp S] [LinearOrder T] (env : Api.Env D W S T) (hq : SortsAscending env.qsort) (data : List D) (rows cols : Nat) (f : Nat → Nat → W)
    (h : Supported env data rows cols f) (h5 : 5 ≤ rows) (m0 : Nat) (hm0 : 2 ≤ m0 ∧ m0 ≤ rows) (par0 : Api.Par) (hp0 : Complete rows rows par0) (th0 : Threads) (ht0 : Interleaves th0)
    (hist : List (Nat × Api.Par × Threads)) (hhist : ∀ c ∈ hist, (2 ≤ c.1 ∧ c.1 ≤ rows) ∧ Complete rows rows c.2.1 ∧ Interleaves c.2.2)
    (m : Nat) (hm : 2 ≤ m ∧ m ≤ rows) (par par' : Api.Par) (hp : Complete rows rows par) (hp' : Complete rows rows par') (th : Threads) (ht : Interleaves th) :
    ∃ obj0 obj obj' lost, Race.fresh th0 env par0 m0 data rows cols true = .ok obj0 ∧ Race.reruns env (hist ++ [(m, par, th)]) obj0 = .ok obj' ∧
      Api.fresh env par' m data rows cols true = .ok obj ∧ Spares obj.results.clusters lost ∧ SameButLost lost obj obj' := by
  obtain ⟨C, O, key⟩ := race_rep hq h h5
  obtain ⟨lost0, _, b0⟩ := (key m0 hm0).2.1 th0 ht0
  obtain ⟨lost, a, b⟩ := (key m hm).2.1 th ht
  have hind : ∀ (hist : List (Nat × Api.Par × Threads)), (∀ c ∈ hist, (2 ≤ c.1 ∧ c.1 ≤ rows) ∧ Complete rows rows c.2.1 ∧ Interleaves c.2.2) → ∀ m0 r, 2 ≤ m0 ∧ m0 ≤ rows →
      Race.reruns env (hist ++ [(m, par, th)]) ⟨m0, rows, C m0, r⟩ = .ok ⟨m, rows, C m, lose lost (O m)⟩ := by
    intro hist
    induction hist with
    | nil =>
      intro _ m0 r hm0
      rw [List.nil_append, Race.reruns, (b par hp).2 m0 r hm0]
      rfl
    | cons c hist ih =>
      intro hh m0 r hm0
      obtain ⟨hc1, hc2, hc3⟩ := hh c (by simp)
      obtain ⟨lost1, _, b1⟩ := (key c.1 hc1).2.1 c.2.2 hc3
      obtain ⟨mc, parc, thc⟩ := c
      rw [List.cons_append, Race.reruns, (b1 parc hc2).2 m0 r hm0, Outcome.ok_bind]
      exact ih (fun x hx => hh x (by simp [hx])) mc _ hc1
  exact ⟨_, ⟨m, rows, C m, O m⟩, _, lost, (b0 par0 hp0).1, hind hist hhist m0 _ hm0, (key m hm).1 par' hp', a, lose_same lost _ _ _ _⟩

/-- **C63 is violated** by every data set with a cluster: whatever cluster `l` the run with one thread reports, there is an interleaving under which no point carries that label and all of its points
    are noise, while every other point keeps its label. -/
theorem C63_violated [LinearOrder W] [CCmp S] [LinearOrder T] (env : Api.Env D W S T) (hq : SortsAscending env.qsort) (data : List D) (rows cols : Nat) (f : Nat → Nat → W)
    (h : Supported env data rows cols f) (h5 : 5 ≤ rows) (m : Nat) (hm : 2 ≤ m) (hmr : m ≤ rows) :
    ∃ obj : Api.Obj W S T, (∀ par, Complete rows rows par → Api.fresh env par m data rows cols true = .ok obj) ∧
      ∀ l ∈ obj.results.labels, l ≠ 0 → ∃ th obj', Interleaves th ∧ (∀ par, Complete rows rows par → Race.fresh th env par m data rows cols true = .ok obj') ∧
        ∀ p : Nat, obj'.results.labels[p]? = (obj.results.labels[p]?).map (fun x => if x = l then 0 else x) := by
  obtain ⟨obj, _, hf, _, _, _, _, _, ⟨root, r1, r2, r3, r4, r5, _⟩, _⟩ := C55_run_partial env hq data rows cols f h h5 m hm hmr
  refine ⟨obj, hf, fun l hl hl0 => ?_⟩
  obtain ⟨C, O, key⟩ := race_rep hq h h5
  obtain ⟨k1, _, k3, k4⟩ := key m ⟨hm, hmr⟩
  have hseq : Complete rows rows ⟨Distance.pairs rows, List.range rows, seqSchedule, List.range rows⟩ := ⟨.refl _, .refl _, seqSchedule_complete, .refl _⟩
  have : obj = ⟨m, rows, C m, O m⟩ := by have := hf _ hseq; rw [k1 _ hseq] at this; exact (Outcome.ok.inj this).symm
  subst this
  obtain ⟨p, hp⟩ := List.mem_iff_getElem?.1 hl
  obtain ⟨q, hlq⟩ := r3.notRoot l ((r5 p l hl0).1 hp).1
  obtain ⟨c, l', c', h1, h2, h3, h4, h6⟩ := k4 l q hlq
  have hs : Spares (O m).clusters (fun x => decide (x = l)) := by
    intro x hx
    have : x = l := by simpa using hx
    subst this
    exact ⟨c, l', c', h1, h2, h3, h4, by simpa using h6⟩
  refine ⟨losing _, _, losing_interleaving _, k3 _ hs, fun p => ?_⟩
  show ((O m).labels.map _)[p]? = _
  rw [List.getElem?_map]
  simp

/-! ### Concrete cases -/

/-- All threads assign before any of them writes. -/
def hasty : Threads := fun _ born => (List.range born.length).map .assign ++ (List.range born.length).map .write

theorem hasty_interleaves : Interleaves hasty := by
  intro line born
  refine ⟨?_, fun i hi => ?_⟩
  · have : ∀ l : List Nat, (l.map Access.assign ++ l.map Access.write).Perm (l.flatMap (fun i => [.assign i, .write i])) := by
      intro l
      induction l with
      | nil => exact .refl _
      | cons i l ih =>
        simp only [List.map_cons, List.cons_append, List.flatMap_cons, List.nil_append]
        exact (List.perm_middle.trans (ih.cons _)).cons _
    exact this _
  · obtain ⟨x, y, hxy⟩ := List.append_of_mem (List.mem_range.2 hi : i ∈ List.range born.length)
    exact ⟨x.map .assign, y.map .assign ++ x.map .write, y.map .write, by simp [hasty, hxy]⟩

/-- Five points on a line: the labels with one thread are 3, 2, 3, 2, 3; with hasty threads cluster 2 is lost. -/
theorem C63_hasty : (Race.fresh hasty lineEnv (backPar 5 5) 2 linePts 5 1 true >>= fun o => .ok o.results.labels) = .ok [3, 0, 3, 0, 3] := by decide +kernel

example := C63_threads_partial lineEnv (isort_sorts _) linePts 5 1 (lineSq linePts) linePts_supported (by omega) 2 (by omega) (by omega)
example := C63_reruns_partial lineEnv (isort_sorts _) linePts 5 1 (lineSq linePts) linePts_supported (by omega) 3 (by omega) (backPar 5 5) (backPar_complete 5 5) hasty hasty_interleaves
  [(2, backPar 5 5, hasty), (5, backPar 5 5, hasty)] (by simp [backPar_complete, hasty_interleaves]) 2 (by omega) (backPar 5 5) (backPar 5 5) (backPar_complete 5 5) (backPar_complete 5 5) hasty hasty_interleaves
example := C63_violated lineEnv (isort_sorts _) linePts 5 1 (lineSq linePts) linePts_supported (by omega) 2 (by omega) (by omega)

end Verif.Props
