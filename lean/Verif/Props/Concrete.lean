import Verif.Spec.Concrete
import Verif.Lemmas.ConcreteRun
import Verif.Props.Size
/-
C69: whole runs on the library's own containers.
-/
namespace Verif.Props
open Spec
variable {D W S T : Type}

theorem holds_of_rep {α : Type} {l : AList α} {xs : List α} (h : AList.Rep l xs) : Holds l xs := ⟨h.size, fun _ hi => AList.readSlot_rep h hi⟩

theorem at_of_rep {clusters : AList (Option Nat)} {ptrs : List (Option Nat)} (h : AList.Rep clusters ptrs) {l a : Nat} : At clusters l a ↔ ptrs[l]? = some (some a) := by
  constructor
  · rintro ⟨h1, h2⟩
    have hl : l < ptrs.length := by rw [← h.size]; exact h1
    rw [AList.readSlot_rep h hl] at h2
    rw [List.getElem?_eq_getElem hl]
    simpa using h2
  · intro h1
    have hl : l < ptrs.length := by
      by_contra hn
      rw [List.getElem?_eq_none (by omega)] at h1
      simp at h1
    rw [List.getElem?_eq_getElem hl] at h1
    refine ⟨by rw [h.size]; exact hl, ?_⟩
    rw [AList.readSlot_rep h hl]
    simpa using h1

/-- The relation kept by the refinement proof says what the specification asks for. -/
theorem same_of_rel {co : Conc.Obj W S T} {o : Api.Obj W S T} (h : Conc.ObjRel co o) (hlen : o.results.hierarchy.length < 18446744073709551616) : SameObject co o := by
  obtain ⟨ptrs, h1, h2⟩ := h.clusters
  obtain ⟨ks, ht⟩ := h.lines.table
  have hb : ∀ k i, Conc.lineMap o.results.hierarchy k = some i → i < 18446744073709551616 := fun k i hi => by
    obtain ⟨hi', _⟩ := Conc.lineMap_lt hi
    omega
  refine ⟨h.minPoints, h.numPoints, h.dis, h.labels, h.outliers, ⟨?_, ?_, ks, holds_of_rep ht.keys, ht.nodup, ?_⟩, ⟨?_, ?_, ?_, ?_⟩⟩
  · intro k w A hk
    have hs : (Conc.lineMap o.results.hierarchy (k : Int)).isSome := by rw [Conc.lineMap_mem]; exact ⟨_, hk, rfl⟩
    obtain ⟨e, he⟩ := Option.isSome_iff_exists.1 hs
    obtain ⟨hlt, hkey⟩ := Conc.lineMap_lt he
    refine ⟨e, by rw [ht.lookup hb, he], ?_⟩
    have hu : o.results.hierarchy[e] = (k, w, A) := by
      obtain ⟨i, hi, hik⟩ := List.mem_iff_getElem.1 hk
      have : i = e := by
        have hn := h.lines.nodup
        have := (List.Nodup.getElem_inj_iff hn (i := i) (hi := by simpa using hi) (j := e) (hj := by simpa using hlt)).1 (by
          simp only [List.getElem_map, hik]
          omega)
        exact this
      subst this
      exact hik
    rw [h.lines.entries, List.getElem?_map, List.getElem?_eq_getElem hlt, hu]
    rfl
  · intro k hk
    rw [ht.lookup hb]
    congr 1
    cases hc : Conc.lineMap o.results.hierarchy k with
    | none => rfl
    | some i =>
      have hs : (Conc.lineMap o.results.hierarchy k).isSome := by rw [hc]; rfl
      rw [Conc.lineMap_mem] at hs
      obtain ⟨l, hl, hlk⟩ := hs
      exact absurd hlk (hk l hl)
  · intro k
    rw [ht.mem, Conc.lineMap_mem]
  · rw [h1.size, h2.rel.len]
  · intro l hl
    have hn := h2.rel.null l hl
    have hlt : l < ptrs.length := by
      by_contra hn'
      rw [List.getElem?_eq_none (by omega)] at hn
      simp at hn
    rw [AList.readSlot_rep h1 hlt]
    rw [List.getElem?_eq_getElem hlt] at hn
    simpa using hn
  · intro l p hl
    obtain ⟨a, c, k1, k2, k3⟩ := h2.rel.cell l p hl
    refine ⟨a, c, (at_of_rep h1).2 k1, k2, ⟨k3.label, k3.birth, k3.death, k3.numPoints, k3.offset, k3.stability, k3.propStability, k3.propLowest, ⟨k3.ncs, k3.pncs⟩,
      holds_of_rep k3.vchild.rep, k3.hasChildren, fun hp => by rw [k3.parent, hp]; rfl, fun q hq => ?_, ?_⟩⟩
    · obtain ⟨b, hb'⟩ := k3.known q hq
      exact ⟨b, (at_of_rep h1).2 (Conc.ptrAt_some.1 hb'), by rw [k3.parent, hq]; exact hb'⟩
    · obtain ⟨ds, d1, d2⟩ := k3.desc
      refine ⟨ds, holds_of_rep d1, ?_⟩
      exact d2.flip.imp (fun _ _ hx => (at_of_rep h1).2 (Conc.ptrAt_some.1 hx))
  · intro l l' a ha hb'
    exact h2.rel.inj l l' a ((at_of_rep h1).1 ha) ((at_of_rep h1).1 hb')

/-- A run of the stages on containers, whatever the state of the emptied list of clusters. -/
theorem conc_doRun [LinearOrder W] [CCmp S] [LinearOrder T] {env : Api.Env D W S T} (hq : SortsAscending env.qsort) {data : List D} {rows cols : Nat} {f : Nat → Nat → W}
    (h : Supported env data rows cols f) (h5 : 5 ≤ rows) :
    ∃ (C : Nat → Distance W) (O : Nat → Run.Full W S T), ∀ m, 2 ≤ m → m ≤ rows → ∀ par, Complete rows rows par →
      Api.fresh env par m data rows cols true = .ok ⟨m, rows, C m, O m⟩ ∧
      Distance.compute env.dops env.ar.dmax par.pairs par.cores data rows cols (subIndex m 1) = .ok (C m) ∧
      (∀ m', 2 ≤ m' → m' ≤ rows → Distance.getCoreDistances env.dops.zero env.ar.dmax par.cores { C m' with numNeighbors := subIndex m 1 } = .ok (C m)) ∧
      (O m).hierarchy.length < 18446744073709551616 ∧
      ∀ clusters : AList (Option Nat), AList.Rep clusters [] → ∃ co, Conc.doRun env par m (C m) rows clusters = .ok co ∧ Conc.ObjRel co ⟨m, rows, C m, O m⟩ := by
  obtain ⟨C, core, O, key⟩ := api_rep h hq (by omega)
  refine ⟨C, O, fun m hm hmr par hp => ?_⟩
  have hfew := h.few
  obtain ⟨k1, k2, k3, k4⟩ := key m (by omega) hmr
  obtain ⟨q1, q2, q3, q4, q5⟩ := k4 par hp
  have hfresh : ∀ par, Complete rows rows par → Api.fresh env par m data rows cols true = .ok ⟨m, rows, C m, O m⟩ := fun par hp => by
    rw [Api.fresh, Api.initObj, if_pos (by omega), Outcome.ok_bind]
    exact (k4 par hp).2.2.2.1 h5
  obtain ⟨obj, r1, r2, r3, _⟩ := C64_size env hq data rows cols f h h5 m hm hmr
  have := r1 par hp
  rw [hfresh par hp] at this
  cases this
  simp only at r2 r3
  obtain ⟨obj, _, s1, _, _, _, _, _, ⟨root, s2, s3, s4, _⟩, _⟩ := C55_run_partial env hq data rows cols f h h5 m hm hmr
  have := s1 par hp
  rw [hfresh par hp] at this
  cases this
  simp only at s2 s3 s4
  have hlen : (O m).clusters.length ≤ 2 * rows := by nlinarith
  refine ⟨hfresh par hp, q1, fun m' h1 h2 => ?_, by omega, fun clusters hc => ?_⟩
  · have := q5 m' (by omega) h2
    rw [Api.rerun, if_neg (by omega)] at this
    obtain ⟨dis, t1, t2⟩ := Outcome.bind_eq_ok.1 this
    simp only at t1 t2
    rw [t1]
    unfold Api.doRun at t2
    obtain ⟨_, _, t2⟩ := Outcome.bind_eq_ok.1 t2
    obtain ⟨_, _, t2⟩ := Outcome.bind_eq_ok.1 t2
    simp only [Outcome.pure_eq, Outcome.ok.injEq, Api.Obj.mk.injEq] at t2
    rw [t2.2.2.1]
  · refine Conc.doRun_rel env par hp.sch m (C m) rows (by omega) hc (fun sch hsch => ?_) ?_ (by omega) (by omega) ?_
    · exact (k4 ⟨par.pairs, par.cores, sch, par.scores⟩ ⟨hp.pairs, hp.cores, hsch, hp.scores⟩).2.1
    · intro l c hl
      have hlt : l < (O m).clusters.length := by
        by_contra hn
        rw [List.getElem?_eq_none (by omega)] at hl
        simp at hl
      have h0 : l ≠ 0 := by
        rintro rfl
        rw [s3.zero] at hl
        simp at hl
      obtain ⟨c', hc', hlab⟩ := s3.cl l (by omega) hlt
      rw [hl] at hc'
      cases hc'
      exact hlab
    · intro root' hr
      have := Conc.getCl_inv hr
      rw [s2] at this
      cases this
      have hsub : root.desc ⊆ List.range (O m).clusters.length := by
        intro t ht
        obtain ⟨q, hqc⟩ := s4.notRoot t ht
        obtain ⟨c, hc', _⟩ := hqc
        rw [List.mem_range]
        by_contra hn
        rw [List.getElem?_eq_none (by omega)] at hc'
        simp at hc'
      have := (s4.nodup.subperm hsub).length_le
      simp only [List.length_range] at this
      omega

/-- **C69.** For every supported data set of `5 ≤ rows ≤ 65536` points and every `2 ≤ m ≤ rows`, a run on the library's own containers (growing arrays, sorted sets,
    hash tables from numbers to pointers, clusters reached through pointers) completes without undefined behaviour, failed assertion or endless loop, and the object
    holds exactly the results that the run with ideal sequences, sets and maps gives, which C55 describes. The same after any sequence of reruns, which reuse the
    emptied list of clusters.
    All parallel loops run in any order except the one that assigns offsets (C37), which is executed by one thread; C63 says what it can change otherwise. -/
theorem C69_containers [LinearOrder W] [CCmp S] [LinearOrder T] (env : Api.Env D W S T) (hq : SortsAscending env.qsort) (data : List D) (rows cols : Nat) (f : Nat → Nat → W)
    (h : Supported env data rows cols f) (h5 : 5 ≤ rows) (m : Nat) (hm : 2 ≤ m ∧ m ≤ rows) :
    ∃ obj : Api.Obj W S T, (∀ par, Complete rows rows par → Api.fresh env par m data rows cols true = .ok obj) ∧
      (∀ par, Complete rows rows par → ∃ co, Conc.fresh env par m data rows cols true = .ok co ∧ SameObject co obj) ∧
      ∀ (m0 : Nat) (par0 : Api.Par) (hist : List (Nat × Api.Par)) (par : Api.Par), (2 ≤ m0 ∧ m0 ≤ rows) → Complete rows rows par0 →
        (∀ c ∈ hist, (2 ≤ c.1 ∧ c.1 ≤ rows) ∧ Complete rows rows c.2) → Complete rows rows par →
        ∃ co0 co, Conc.fresh env par0 m0 data rows cols true = .ok co0 ∧ Conc.reruns env (hist ++ [(m, par)]) co0 = .ok co ∧ SameObject co obj := by
  obtain ⟨C, O, key⟩ := conc_doRun hq h h5
  have hfresh : ∀ m, 2 ≤ m → m ≤ rows → ∀ par, Complete rows rows par → ∃ co, Conc.fresh env par m data rows cols true = .ok co ∧ Conc.ObjRel co ⟨m, rows, C m, O m⟩ := by
    intro m h1 h2 par hp
    obtain ⟨_, k2, _, _, k5⟩ := key m h1 h2 par hp
    have hpos : 0 < Api.csize rows := by unfold Api.csize; split <;> omega
    obtain ⟨l, el, hl, _⟩ := AList.rep_init (α := Option Nat) (n := Api.csize rows) hpos
    obtain ⟨t, et⟩ := init_defined (Api.csize rows) .int .ptr
    obtain ⟨co, e, hr⟩ := k5 l hl
    refine ⟨co, ?_, hr⟩
    have hds : Api.datasetSize rows cols true = rows := rfl
    rw [Conc.fresh, Api.initObj, if_pos (by omega), Outcome.ok_bind, Conc.run, k2, Outcome.ok_bind, hds, el, Outcome.ok_bind, et, Outcome.ok_bind, e]
  have hre : ∀ m, 2 ≤ m → m ≤ rows → ∀ par, Complete rows rows par → ∀ m', 2 ≤ m' → m' ≤ rows → ∀ co, Conc.ObjRel co ⟨m', rows, C m', O m'⟩ →
      ∃ co', Conc.rerun env par m co = .ok co' ∧ Conc.ObjRel co' ⟨m, rows, C m, O m⟩ := by
    intro m h1 h2 par hp m' h3 h4 co hr
    obtain ⟨_, _, k3, _, k5⟩ := key m h1 h2 par hp
    obtain ⟨ptrs, r1, _⟩ := hr.clusters
    obtain ⟨co', e, hr'⟩ := k5 (co.clusters.clear false) (AList.clear_rep r1).1
    refine ⟨co', ?_, hr'⟩
    rw [Conc.rerun, if_neg (by omega), hr.dis, hr.numPoints]
    simp only
    rw [k3 m' h3 h4, Outcome.ok_bind, e]
  have hsame : ∀ m, 2 ≤ m → m ≤ rows → ∀ co, Conc.ObjRel co ⟨m, rows, C m, O m⟩ → SameObject co ⟨m, rows, C m, O m⟩ := fun m h1 h2 co hr =>
    same_of_rel hr (key m h1 h2 ⟨Distance.pairs rows, List.range rows, seqSchedule, List.range rows⟩ ⟨.refl _, .refl _, seqSchedule_complete, .refl _⟩).2.2.2.1
  refine ⟨⟨m, rows, C m, O m⟩, fun par hp => (key m hm.1 hm.2 par hp).1, fun par hp => ?_, ?_⟩
  · obtain ⟨co, e, hr⟩ := hfresh m hm.1 hm.2 par hp
    exact ⟨co, e, hsame m hm.1 hm.2 co hr⟩
  · intro m0 par0 hist par h0 hp0 hhist hp
    obtain ⟨co0, e0, hr0⟩ := hfresh m0 h0.1 h0.2 par0 hp0
    suffices ∀ (hist : List (Nat × Api.Par)) (m0 : Nat) (co0 : Conc.Obj W S T), (2 ≤ m0 ∧ m0 ≤ rows) → Conc.ObjRel co0 ⟨m0, rows, C m0, O m0⟩ →
        (∀ c ∈ hist, (2 ≤ c.1 ∧ c.1 ≤ rows) ∧ Complete rows rows c.2) → ∃ co, Conc.reruns env (hist ++ [(m, par)]) co0 = .ok co ∧ Conc.ObjRel co ⟨m, rows, C m, O m⟩ by
      obtain ⟨co, e, hr⟩ := this hist m0 co0 h0 hr0 hhist
      exact ⟨co0, co, e0, e, hsame m hm.1 hm.2 co hr⟩
    intro hist
    induction hist with
    | nil =>
      intro m0 co0 h0 hr0 _
      obtain ⟨co, e, hr⟩ := hre m hm.1 hm.2 par hp m0 h0.1 h0.2 co0 hr0
      exact ⟨co, by rw [List.nil_append, Conc.reruns, e]; rfl, hr⟩
    | cons c r ih =>
      intro m0 co0 h0 hr0 hh
      obtain ⟨hc, hpc⟩ := hh c (by simp)
      obtain ⟨co1, e1, hr1⟩ := hre c.1 hc.1 hc.2 c.2 hpc m0 h0.1 h0.2 co0 hr0
      obtain ⟨co, e, hr⟩ := ih c.1 co1 hc hr1 (fun x hx => hh x (by simp [hx]))
      exact ⟨co, by rw [List.cons_append, Conc.reruns, e1]; exact e, hr⟩

example := C69_containers lineEnv (isort_sorts _) linePts 5 1 (lineSq linePts) linePts_supported (by omega) 2 (by omega)

/-- What the run on containers computes. -/
example : (Conc.fresh lineEnv (backPar 5 5) 2 linePts 5 1 true >>= fun o => .ok (o.labels, o.clusters.size, o.entries.length)) = .ok ([3, 2, 3, 2, 3], 4, 4) := by decide +kernel

end Verif.Props
