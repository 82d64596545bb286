import Verif.Lemmas.BoundRun
import Verif.Props.Concrete
import Verif.Props.Any
/-
C64 and C69 for arbitrary data: how large a result can get, and whole runs on the library's own containers.
-/
namespace Verif.Props
open Spec
variable {D V W S T : Type}

/-- **C64, arbitrary data.** Whenever a run on `n ≥ 1` points completes, whatever the distances (NaN included) and whatever `m`, there are at most `8 n - 2` entries in the
    list of clusters and `2 n` lines of the hierarchy. -/
theorem C64_any [CCmp W] [CCmp S] [CCmp T] (env : Api.Env D W S T) (par : Api.Par) (m : Nat) (data : List D) (rows cols : Nat) (hr : 1 ≤ rows) (obj : Api.Obj W S T)
    (h : Api.fresh env par m data rows cols true = .ok obj) : obj.results.clusters.length ≤ 8 * rows - 2 ∧ obj.results.hierarchy.length ≤ 2 * rows := by
  unfold Api.fresh Api.run at h
  obtain ⟨m', _, h⟩ := Outcome.bind_eq_ok.1 h
  obtain ⟨dis, _, h⟩ := Outcome.bind_eq_ok.1 h
  obtain ⟨_, _, h⟩ := Outcome.bind_eq_ok.1 h
  obtain ⟨_, _, h⟩ := Outcome.bind_eq_ok.1 h
  unfold Api.doRun at h
  obtain ⟨_, _, h⟩ := Outcome.bind_eq_ok.1 h
  obtain ⟨out, h1, h⟩ := Outcome.bind_eq_ok.1 h
  cases h
  exact Run.full_count (n := rows) hr h1

/-- A run of the stages on containers for arbitrary data. -/
theorem conc_any [LinearOrder V] [CCmp S] [LinearOrder T] {env : Api.Env D (Ieee V) S T} (hd : ∃ v, env.ar.dmax = .num v) (hq : SortsAscending env.qsort)
    {data : List D} {rows cols : Nat} {f : Nat → Nat → Ieee V} (h : Readable env data rows cols f) (h5 : 5 ≤ rows) :
    ∃ (C : Nat → Distance (Ieee V)) (O : Nat → Run.Full (Ieee V) S T), ∀ m, 2 ≤ m → ∀ par, Complete rows rows par →
      Api.fresh env par m data rows cols true = .ok ⟨m, rows, C m, O m⟩ ∧
      Distance.compute env.dops env.ar.dmax par.pairs par.cores data rows cols (subIndex m 1) = .ok (C m) ∧
      (∀ m', 2 ≤ m' → Distance.getCoreDistances env.dops.zero env.ar.dmax par.cores { C m' with numNeighbors := subIndex m 1 } = .ok (C m)) ∧
      (O m).hierarchy.length < 18446744073709551616 ∧
      ∀ clusters : AList (Option Nat), AList.Rep clusters [] → ∃ co, Conc.doRun env par m (C m) rows clusters = .ok co ∧ Conc.ObjRel co ⟨m, rows, C m, O m⟩ := by
  obtain ⟨_, C, core, O, key⟩ := Cut.any_pair hd h h (fun i j _ _ => .inl rfl) hq (by omega)
  have hfew := h.few
  refine ⟨C, O, fun m hm par hp => ?_⟩
  obtain ⟨_, _, _, k4, k5⟩ := key m hm
  have hfresh := fun par hp => (k5 par hp).2.1 h5
  have hinv : ∀ par, Complete rows rows par → Distance.compute env.dops env.ar.dmax par.pairs par.cores data rows cols (subIndex m 1) = .ok (C m) ∧
      Run.full env.qsort env.ar env.smax env.oops par.sch par.scores m (C m) rows = .ok (O m) := by
    intro par hp
    have e := hfresh par hp
    rw [Api.fresh, Api.initObj, if_pos (by omega), Outcome.ok_bind, Api.run] at e
    obtain ⟨dis, e1, e⟩ := Outcome.bind_eq_ok.1 e
    obtain ⟨_, _, e⟩ := Outcome.bind_eq_ok.1 e
    obtain ⟨_, _, e⟩ := Outcome.bind_eq_ok.1 e
    unfold Api.doRun at e
    obtain ⟨_, _, e⟩ := Outcome.bind_eq_ok.1 e
    obtain ⟨out, e2, e⟩ := Outcome.bind_eq_ok.1 e
    simp only [Outcome.pure_eq, Outcome.ok.injEq, Api.Obj.mk.injEq] at e
    obtain ⟨_, _, rfl, rfl⟩ := e
    exact ⟨e1, e2⟩
  obtain ⟨b1, b2⟩ := Run.full_count (n := rows) (by omega) (hinv par hp).2
  obtain ⟨root, s2, s4, _⟩ := k4.labels
  have s3 := k4.tree
  refine ⟨hfresh par hp, (hinv par hp).1, fun m' h1 => ?_, by omega, fun clusters hc => ?_⟩
  · have := (k5 par hp).2.2.2 m' h1
    rw [Api.rerun, if_neg (by omega)] at this
    obtain ⟨dis, t1, t2⟩ := Outcome.bind_eq_ok.1 this
    simp only at t1 t2
    rw [t1]
    unfold Api.doRun at t2
    obtain ⟨_, _, t2⟩ := Outcome.bind_eq_ok.1 t2
    obtain ⟨_, _, t2⟩ := Outcome.bind_eq_ok.1 t2
    simp only [Outcome.pure_eq, Outcome.ok.injEq, Api.Obj.mk.injEq] at t2
    rw [t2.2.2.1]
  · refine Conc.doRun_rel env par hp.sch m (C m) rows (by omega) hc (fun sch hsch => ?_) ?_ (by omega) (by omega) ?_
    · exact (hinv ⟨par.pairs, par.cores, sch, par.scores⟩ ⟨hp.pairs, hp.cores, hsch, hp.scores⟩).2
    · intro l c hl
      have hlt : l < (O m).clusters.length := by
        by_contra hn
        rw [List.getElem?_eq_none (by omega)] at hl
        simp at hl
      have h0 : l ≠ 0 := by
        rintro rfl
        rw [s3.zero] at hl
        simp at hl
      obtain ⟨c', hc', hlab⟩ := s3.cl l (by omega) hlt
      rw [hl] at hc'
      cases hc'
      exact hlab
    · intro root' hr
      have := Conc.getCl_inv hr
      rw [s2] at this
      cases this
      have hsub : root.desc ⊆ List.range (O m).clusters.length := by
        intro t ht
        obtain ⟨q, hqc⟩ := s4.notRoot t ht
        obtain ⟨c, hc', _⟩ := hqc
        rw [List.mem_range]
        by_contra hn
        rw [List.getElem?_eq_none (by omega)] at hc'
        simp at hc'
      have := (s4.nodup.subperm hsub).length_le
      simp only [List.length_range] at this
      omega

/-- **C69, arbitrary data.** For every data set of `5 ≤ rows ≤ 65536` rows that the library can read, whatever the values (NaN, infinities, overflowing distances), and
    every `m ≥ 2`, also one larger than the number of rows, a run on the library's own containers completes without undefined behaviour, failed assertion or endless loop,
    and the object holds exactly the results of the run with ideal sequences, sets and maps, which C71 describes. The same after any sequence of reruns. -/
theorem C69_any [LinearOrder V] [CCmp S] [LinearOrder T] (env : Api.Env D (Ieee V) S T) (hd : ∃ v, env.ar.dmax = .num v) (hq : SortsAscending env.qsort)
    (data : List D) (rows cols : Nat) (f : Nat → Nat → Ieee V) (h : Readable env data rows cols f) (h5 : 5 ≤ rows) (m : Nat) (hm : 2 ≤ m) :
    ∃ obj : Api.Obj (Ieee V) S T, (∀ par, Complete rows rows par → Api.fresh env par m data rows cols true = .ok obj) ∧
      (∀ par, Complete rows rows par → ∃ co, Conc.fresh env par m data rows cols true = .ok co ∧ SameObject co obj) ∧
      ∀ (m0 : Nat) (par0 : Api.Par) (hist : List (Nat × Api.Par)) (par : Api.Par), 2 ≤ m0 → Complete rows rows par0 →
        (∀ c ∈ hist, 2 ≤ c.1 ∧ Complete rows rows c.2) → Complete rows rows par →
        ∃ co0 co, Conc.fresh env par0 m0 data rows cols true = .ok co0 ∧ Conc.reruns env (hist ++ [(m, par)]) co0 = .ok co ∧ SameObject co obj := by
  obtain ⟨C, O, key⟩ := conc_any hd hq h h5
  have hfresh : ∀ m, 2 ≤ m → ∀ par, Complete rows rows par → ∃ co, Conc.fresh env par m data rows cols true = .ok co ∧ Conc.ObjRel co ⟨m, rows, C m, O m⟩ := by
    intro m h1 par hp
    obtain ⟨_, k2, _, _, k5⟩ := key m h1 par hp
    have hpos : 0 < Api.csize rows := by unfold Api.csize; split <;> omega
    obtain ⟨l, el, hl, _⟩ := AList.rep_init (α := Option Nat) (n := Api.csize rows) hpos
    obtain ⟨t, et⟩ := init_defined (Api.csize rows) .int .ptr
    obtain ⟨co, e, hr⟩ := k5 l hl
    refine ⟨co, ?_, hr⟩
    have hds : Api.datasetSize rows cols true = rows := rfl
    rw [Conc.fresh, Api.initObj, if_pos (by omega), Outcome.ok_bind, Conc.run, k2, Outcome.ok_bind, hds, el, Outcome.ok_bind, et, Outcome.ok_bind, e]
  have hre : ∀ m, 2 ≤ m → ∀ par, Complete rows rows par → ∀ m', 2 ≤ m' → ∀ co, Conc.ObjRel co ⟨m', rows, C m', O m'⟩ →
      ∃ co', Conc.rerun env par m co = .ok co' ∧ Conc.ObjRel co' ⟨m, rows, C m, O m⟩ := by
    intro m h1 par hp m' h3 co hr
    obtain ⟨_, _, k3, _, k5⟩ := key m h1 par hp
    obtain ⟨ptrs, r1, _⟩ := hr.clusters
    obtain ⟨co', e, hr'⟩ := k5 (co.clusters.clear false) (AList.clear_rep r1).1
    refine ⟨co', ?_, hr'⟩
    rw [Conc.rerun, if_neg (by omega), hr.dis, hr.numPoints]
    simp only
    rw [k3 m' h3, Outcome.ok_bind, e]
  have hsame : ∀ m, 2 ≤ m → ∀ co, Conc.ObjRel co ⟨m, rows, C m, O m⟩ → SameObject co ⟨m, rows, C m, O m⟩ := fun m h1 co hr =>
    same_of_rel hr (key m h1 ⟨Distance.pairs rows, List.range rows, seqSchedule, List.range rows⟩ ⟨.refl _, .refl _, seqSchedule_complete, .refl _⟩).2.2.2.1
  refine ⟨⟨m, rows, C m, O m⟩, fun par hp => (key m hm par hp).1, fun par hp => ?_, ?_⟩
  · obtain ⟨co, e, hr⟩ := hfresh m hm par hp
    exact ⟨co, e, hsame m hm co hr⟩
  · intro m0 par0 hist par h0 hp0 hhist hp
    obtain ⟨co0, e0, hr0⟩ := hfresh m0 h0 par0 hp0
    suffices ∀ (hist : List (Nat × Api.Par)) (m0 : Nat) (co0 : Conc.Obj (Ieee V) S T), 2 ≤ m0 → Conc.ObjRel co0 ⟨m0, rows, C m0, O m0⟩ →
        (∀ c ∈ hist, 2 ≤ c.1 ∧ Complete rows rows c.2) → ∃ co, Conc.reruns env (hist ++ [(m, par)]) co0 = .ok co ∧ Conc.ObjRel co ⟨m, rows, C m, O m⟩ by
      obtain ⟨co, e, hr⟩ := this hist m0 co0 h0 hr0 hhist
      exact ⟨co0, co, e0, e, hsame m hm co hr⟩
    intro hist
    induction hist with
    | nil =>
      intro m0 co0 h0 hr0 _
      obtain ⟨co, e, hr⟩ := hre m hm par hp m0 h0 co0 hr0
      exact ⟨co, by rw [List.nil_append, Conc.reruns, e]; rfl, hr⟩
    | cons c r ih =>
      intro m0 co0 h0 hr0 hh
      obtain ⟨hc, hpc⟩ := hh c (by simp)
      obtain ⟨co1, e1, hr1⟩ := hre c.1 hc c.2 hpc m0 h0 co0 hr0
      obtain ⟨co, e, hr⟩ := ih c.1 co1 hc hr1 (fun x hx => hh x (by simp [hx]))
      exact ⟨co, by rw [List.cons_append, Conc.reruns, e1]; exact e, hr⟩

example := C69_any nanEnv ⟨1000, rfl⟩ (isort_sorts _) nanPts 8 1 (nanSq nanPts) (nan_readable nanPts (by decide)) (by omega) 2 (by omega)
example := C69_any nanEnv ⟨1000, rfl⟩ (isort_sorts _) nanPts 8 1 (nanSq nanPts) (nan_readable nanPts (by decide)) (by omega) 12 (by omega)

/-- What the run on containers computes for data with a NaN and a point out of reach. -/
example : (Conc.fresh nanEnv (backPar 8 8) 2 nanPts 8 1 true >>= fun o => .ok (o.labels, o.clusters.size, o.entries.length)) =
    (Api.fresh nanEnv (backPar 8 8) 2 nanPts 8 1 true >>= fun o => .ok (o.results.labels, o.results.clusters.length, o.results.hierarchy.length)) := by decide +kernel

example : ∃ obj, Api.fresh nanEnv (backPar 8 8) 2 nanPts 8 1 true = .ok obj ∧ obj.results.clusters.length ≤ 8 * 8 - 2 ∧ obj.results.hierarchy.length ≤ 2 * 8 := by
  obtain ⟨obj, h, _⟩ := C69_any nanEnv ⟨1000, rfl⟩ (isort_sorts _) nanPts 8 1 (nanSq nanPts) (nan_readable nanPts (by decide)) (by omega) 2 (by omega)
  exact ⟨obj, h _ (backPar_complete 8 8), C64_any nanEnv _ 2 nanPts 8 1 (by omega) obj (h _ (backPar_complete 8 8))⟩

end Verif.Props
