import Verif.Lemmas.CutRun
import Verif.Lemmas.Api
import Verif.Spec.Ieee
/-
Helper lemmas: whole runs on arbitrary data.
-/
namespace Verif.Cut
open Spec Relation Hier
variable {D W S T : Type}

theorem get_cores (dis : Distance W) (zero : W) (cs : List (Option W)) (i j : Nat) : ({ dis with coreDistances := cs } : Distance W).get zero i j = dis.get zero i j := rfl

theorem get_nn (dis : Distance W) (zero : W) (nn : Nat) (i j : Nat) : ({ dis with numNeighbors := nn } : Distance W).get zero i j = dis.get zero i j := rfl

/-- The distance object, for the linear order and for comparisons that agree with it up to `dmax`. -/
theorem compute_any [LinearOrder W] {env : Api.Env D W S T} (c : Cmp env.ar.dmax) {data : List D} {rows cols : Nat} {f : Nat → Nat → W} (h : Readable env data rows cols f) :
    ∃ C : Nat → Distance W,
      (∀ nn order corder, order.Perm (Distance.pairs rows) → corder.Perm (List.range rows) →
        Distance.compute env.dops env.ar.dmax order corder data rows cols nn = .ok (C nn) ∧
        @Distance.compute D W c.i env.dops env.ar.dmax order corder data rows cols nn = .ok (C nn)) ∧
      (∀ nn nn' corder, corder.Perm (List.range rows) →
        @Distance.getCoreDistances W c.i env.dops.zero env.ar.dmax corder { C nn with numNeighbors := nn' } = .ok (C nn')) ∧
      (∀ nn, (C nn).rows = rows ∧ (C nn).numNeighbors = nn ∧ (∀ i j, i < rows → j < rows → (C nn).get env.ar.zeroW i j = .ok (distOf env.dops f i j)) ∧
        ∃ core : Nat → W, (∀ i, i < rows → (C nn).coreDistances[i]? = some (some (core i)) ∧ core i ≤ env.ar.dmax ∧
          Distance.coreOf env.ar.zeroW env.ar.dmax (C nn) i = .ok (core i))) := by
  have key := fun (nn0 nn : Nat) (order order' : List (Nat × Nat)) (corder corder' last : List Nat) ho ho' hco hco' hl =>
    Props.C20_cores_history_independent env.dops env.ar.dmax data rows cols nn0 nn h.few f h.sum order order' corder corder' ho ho' hco hco' [] (by simp) last hl
  have hC : ∀ nn, ∃ d, Distance.compute env.dops env.ar.dmax (Distance.pairs rows) (List.range rows) data rows cols nn = .ok d := fun nn => by
    obtain ⟨d, core, e, _⟩ := Props.compute_rep (ops := env.dops) env.ar.dmax (data := data) (cols := cols) (nn := nn) h.few (.refl _) (.refl _) (fun i j a b => Props.sqSum_iff.2 (h.sum i j a b))
    exact ⟨d, e⟩
  choose C hC using hC
  have h1 : ∀ nn order corder, order.Perm (Distance.pairs rows) → corder.Perm (List.range rows) → Distance.compute env.dops env.ar.dmax order corder data rows cols nn = .ok (C nn) := by
    intro nn order corder ho hco
    obtain ⟨d0, d1, e0, e1, e2⟩ := key nn nn _ _ _ _ (List.range rows) (.refl _) ho (.refl _) hco (.refl _)
    obtain ⟨d0', d1', e0', e1', e2'⟩ := key nn nn _ _ _ _ (List.range rows) (.refl _) (.refl _) (.refl _) (.refl _) (.refl _)
    rw [hC] at e0 e0' e2'
    cases e0; cases e0'; cases e2'
    rw [e1] at e1'; cases e1'
    exact e2
  have h2 : ∀ nn nn' corder, corder.Perm (List.range rows) → Distance.getCoreDistances env.dops.zero env.ar.dmax corder { C nn with numNeighbors := nn' } = .ok (C nn') := by
    intro nn nn' corder hco
    obtain ⟨d0, d1, e0, e1, e2⟩ := key nn nn' _ _ _ _ corder (.refl _) (.refl _) (.refl _) (.refl _) hco
    rw [hC] at e0 e2
    cases e0; cases e2
    simp only [List.nil_append, Props.rerunCores] at e1
    rw [← e1]
    cases Distance.getCoreDistances env.dops.zero env.ar.dmax corder { C nn with numNeighbors := nn' } <;> rfl
  have h3 : ∀ nn, (C nn).rows = rows ∧ (C nn).numNeighbors = nn ∧ (∀ i j, i < rows → j < rows → (C nn).get env.dops.zero i j = .ok (distOf env.dops f i j)) ∧
        ∃ core : Nat → W, (∀ i, i < rows → (C nn).coreDistances[i]? = some (some (core i)) ∧ core i ≤ env.ar.dmax ∧
          Distance.coreOf env.dops.zero env.ar.dmax (C nn) i = .ok (core i)) := by
    intro nn
    obtain ⟨d, core, e, r1, r2, r3, hget, hself, hcore, _⟩ := Props.compute_rep (ops := env.dops) env.ar.dmax (data := data) (cols := cols) (nn := nn) h.few (.refl _) (.refl _) (fun i j a b => Props.sqSum_iff.2 (h.sum i j a b))
    rw [hC] at e
    cases e
    have hd : ∀ i j, i < rows → j < rows → (C nn).get env.dops.zero i j = .ok (distOf env.dops f i j) := by
      intro i j hi hj
      unfold distOf
      rcases Nat.lt_trichotomy i j with h | h | h
      · rw [if_pos h]; exact (hget i j h hj).1
      · subst h; simp [hself i]
      · rw [if_neg (by omega), if_neg (by omega)]; exact (hget j i h hi).2
    refine ⟨r1, r3, hd, core, fun i hi => ⟨(hcore i hi).2, ?_, (hcore i hi).1⟩⟩
    exact (coreOf_eq c (zero := env.dops.zero) (dis := C nn) (dis' := C nn) (a := i) rfl rfl (fun b hb => by
      rw [r1] at hb
      exact ⟨hd i b hi hb, hd i b hi hb, .inl rfl⟩)).2 _ (hcore i hi).1
  have hgc : ∀ (dis : Distance W) (nn : Nat) (corder : List Nat), dis.rows = rows → (∀ i j, dis.get env.dops.zero i j = (C nn).get env.dops.zero i j) → corder.Perm (List.range rows) →
      @Distance.getCoreDistances W c.i env.dops.zero env.ar.dmax corder dis = Distance.getCoreDistances env.dops.zero env.ar.dmax corder dis := by
    intro dis nn corder hr hg hco
    unfold Distance.getCoreDistances
    refine bind_congr (coreAll_eq c (dis := dis) (dis' := dis) (d := distOf env.dops f) (d' := distOf env.dops f) rfl rfl ?_ corder ?_ _) (fun _ _ => rfl)
    · intro a b ha hb
      rw [hr] at ha hb
      have := (h3 nn).2.2.1 a b ha hb
      rw [hg]
      exact ⟨this, this, .inl rfl⟩
    · intro a ha
      rw [hr]
      exact List.mem_range.1 (hco.mem_iff.1 ha)
  refine ⟨C, fun nn order corder ho hco => ⟨h1 nn order corder ho hco, ?_⟩, fun nn nn' corder hco => ?_, ?_⟩
  · have e := h1 nn order corder ho hco
    rw [← e]
    unfold Distance.compute at e ⊢
    obtain ⟨m, e1, e2⟩ := Outcome.bind_eq_ok.1 e
    rw [e1, Outcome.ok_bind, Outcome.ok_bind]
    refine hgc _ nn corder rfl ?_ hco
    unfold Distance.getCoreDistances at e2
    obtain ⟨cs, e3, e4⟩ := Outcome.bind_eq_ok.1 e2
    intro i j
    have e5 := Outcome.ok.inj e4
    rw [← e5]
    rfl
  · exact (hgc { C nn with numNeighbors := nn' } nn corder (h3 nn).1 (fun _ _ => rfl) hco).trans (h2 nn nn' corder hco)
  · intro nn
    rw [← h.zero]
    exact h3 nn

/-- From the stages to the functions a user calls. -/
theorem api_one [CCmp W] [CCmp S] [CCmp T] {env : Api.Env D W S T} {data : List D} {rows cols : Nat} {C : Nat → Distance W} {O : Nat → Run.Full W S T}
    (h1 : ∀ nn order corder, order.Perm (Distance.pairs rows) → corder.Perm (List.range rows) → Distance.compute env.dops env.ar.dmax order corder data rows cols nn = .ok (C nn))
    (h2 : ∀ nn nn' corder, corder.Perm (List.range rows) → Distance.getCoreDistances env.dops.zero env.ar.dmax corder { C nn with numNeighbors := nn' } = .ok (C nn'))
    (h3 : ∀ m, 2 ≤ m → ∀ (sch : Run.Schedule) (order : List Nat), sch.Complete → order.Perm (List.range rows) →
      Run.full env.qsort env.ar env.smax env.oops sch order m (C (m - 1)) rows = .ok (O m)) {m : Nat} (hm : 2 ≤ m) {par : Api.Par} (hp : Complete rows rows par) :
    (5 ≤ rows → Api.fresh env par m data rows cols true = .ok ⟨m, rows, C (m - 1), O m⟩) ∧
    ∀ m' dis o, dis = C (m' - 1) → Api.rerun env par m ⟨m', rows, dis, o⟩ = .ok ⟨m, rows, C (m - 1), O m⟩ := by
  have hsub : subIndex m 1 = m - 1 := by unfold subIndex; rw [if_pos (by omega)]
  have e1 : Distance.compute env.dops env.ar.dmax par.pairs par.cores data rows cols (subIndex m 1) = .ok (C (m - 1)) := by
    rw [hsub]; exact h1 _ _ _ hp.pairs hp.cores
  have e3 : Api.doRun env par m (C (m - 1)) rows = .ok ⟨m, rows, C (m - 1), O m⟩ := by
    obtain ⟨t, et⟩ := Props.init_defined (Api.csize rows) .long .ptr
    rw [Api.doRun, et, Outcome.ok_bind, h3 m hm _ _ hp.sch hp.scores]; rfl
  refine ⟨fun h5 => ?_, fun m' dis o hd => ?_⟩
  · obtain ⟨t, et⟩ := Props.init_defined (Api.csize rows) .int .ptr
    have hds : Api.datasetSize rows cols true = rows := by simp [Api.datasetSize]
    have hc : 0 < Api.csize rows := by unfold Api.csize; split <;> omega
    obtain ⟨l, el, _⟩ := AList.rep_init (α := Nat) (n := Api.csize rows) hc
    rw [Api.fresh, Api.initObj, if_pos (by omega), Outcome.ok_bind, Api.run, e1, Outcome.ok_bind, hds, el, Outcome.ok_bind, et, Outcome.ok_bind]
    exact e3
  · subst hd
    rw [Api.rerun, if_neg (by omega), hsub]
    show (Distance.getCoreDistances env.dops.zero env.ar.dmax par.cores { C (m' - 1) with numNeighbors := m - 1 } >>= _) = _
    rw [h2 _ _ _ hp.cores]
    exact e3

theorem atLeast_countP {n m : Nat} {P : Nat → Prop} [DecidablePred P] : AtLeast m (fun j => j < n ∧ P j) ↔ m ≤ (List.range n).countP (fun j => decide (P j)) := by
  rw [List.countP_eq_length_filter]
  constructor
  · rintro ⟨l, h1, h2, h3⟩
    refine le_trans h2 (h1.subperm (fun v hv => ?_)).length_le
    rw [List.mem_filter, List.mem_range, decide_eq_true_eq]
    exact h3 v hv
  · intro h
    refine ⟨_, List.nodup_range.filter _, h, fun v hv => ?_⟩
    rw [List.mem_filter, List.mem_range, decide_eq_true_eq] at hv
    exact hv

/-- Runs on two data sets whose distances differ from `dmax` on only. -/
theorem api_cut [LinearOrder W] [CCmp S] [LinearOrder T] {env : Api.Env D W S T} (c : Cmp env.ar.dmax) {data data' : List D} {rows cols cols' : Nat} {f f' : Nat → Nat → W}
    (h : Readable env data rows cols f) (h' : Readable env data' rows cols' f') (hs : ∀ i j, i < j → j < rows → Same env.ar.dmax (env.dops.sqrt (f i j)) (env.dops.sqrt (f' i j)))
    (hq : SortsAscending env.qsort) (hrows : 1 ≤ rows) :
    ∃ (C C' : Nat → Distance W) (core : Nat → Nat → W) (O : Nat → Run.Full W S T), ∀ m, 2 ≤ m →
      (∀ i j, i < rows → j < rows → (C m).get env.ar.zeroW i j = .ok (distOf env.dops f i j)) ∧
      (∀ i j, i < rows → j < rows → (C' m).get env.ar.zeroW i j = .ok (distOf env.dops f' i j)) ∧
      (∀ i, i < rows → (C m).coreDistances[i]? = some (some (core m i)) ∧ (C' m).coreDistances[i]? = some (some (core m i)) ∧ core m i ≤ env.ar.dmax ∧
        (core m i < env.ar.dmax ↔ AtLeast m (fun j => j < rows ∧ distOf env.dops f' i j < env.ar.dmax))) ∧
      (∀ par, Complete rows rows par →
        Run.full env.qsort env.ar env.smax env.oops par.sch par.scores m (C' m) rows = .ok (O m) ∧
        (5 ≤ rows → @Api.fresh D W S T c.i _ _ env par m data rows cols true = .ok ⟨m, rows, C m, O m⟩) ∧
        (5 ≤ rows → @Api.fresh D W S T c.i _ _ env par m data' rows cols' true = .ok ⟨m, rows, C' m, O m⟩) ∧
        (∀ m', 2 ≤ m' → @Api.rerun D W S T c.i _ _ env par m ⟨m', rows, C m', O m'⟩ = .ok ⟨m, rows, C m, O m⟩) ∧
        ∀ m', 2 ≤ m' → @Api.rerun D W S T c.i _ _ env par m ⟨m', rows, C' m', O m'⟩ = .ok ⟨m, rows, C' m, O m⟩) := by
  obtain ⟨C, a1, a2, a3⟩ := compute_any c h
  obtain ⟨C', b1, b2, b3⟩ := compute_any c h'
  have hfew := h.few
  have hsame : ∀ i j, i < rows → j < rows → Same env.ar.dmax (distOf env.dops f i j) (distOf env.dops f' i j) := by
    intro i j hi hj
    unfold distOf
    rcases Nat.lt_trichotomy i j with h | h | h
    · rw [if_pos h, if_pos h]; exact hs i j h hj
    · subst h; simp [Same]
    · rw [if_neg (by omega), if_neg (by omega), if_neg (by omega), if_neg (by omega)]; exact hs j i h hi
  choose r1 r2 r3 core hcore using a3
  choose s1 s2 s3 core' hcore' using b3
  have hcc : ∀ nn i, i < rows → core' nn i = core nn i := by
    intro nn i hi
    have e := (coreOf_eq c (zero := env.ar.zeroW) (dis := C nn) (dis' := C' nn) (a := i) (d := distOf env.dops f i) (d' := distOf env.dops f' i)
      (by rw [r2, s2]) (by rw [r1, s1]) (fun b hb => by rw [s1] at hb; exact ⟨r3 nn i b hi hb, s3 nn i b hi hb, hsame i b hi hb⟩)).1
    have e' := (coreOf_eq c (zero := env.ar.zeroW) (dis := C nn) (dis' := C nn) (a := i) (d := distOf env.dops f i) (d' := distOf env.dops f i)
      rfl rfl (fun b hb => by rw [r1] at hb; exact ⟨r3 nn i b hi hb, r3 nn i b hi hb, .inl rfl⟩)).1
    rw [e, (hcore' nn i hi).2.2, (hcore nn i hi).2.2] at e'
    exact Outcome.ok.inj e'
  have hpair : ∀ nn, Pair env.ar.zeroW env.ar.dmax (C nn) (C' nn) rows (distOf env.dops f) (distOf env.dops f') (core nn) := fun nn =>
    ⟨fun a b ha hb _ => r3 nn a b ha hb, fun a b ha hb _ => s3 nn a b ha hb, fun a b ha hb _ => hsame a b ha hb,
      fun a ha => by simp [rdInit, rd, (hcore nn a ha).1], fun a ha => by simp [rdInit, rd, (hcore' nn a ha).1, hcc nn a ha], fun a ha => (hcore nn a ha).2.1⟩
  have hpair' : ∀ nn, Pair env.ar.zeroW env.ar.dmax (C' nn) (C' nn) rows (distOf env.dops f') (distOf env.dops f') (core nn) := fun nn =>
    ⟨(hpair nn).get', (hpair nn).get', fun _ _ _ _ _ => .inl rfl, (hpair nn).cr', (hpair nn).cr', (hpair nn).le⟩
  have hc1 : ∀ nn i, i < rows → (C' nn).coreDistances[i]? = some (some (core nn i)) := fun nn i hi => by rw [(hcore' nn i hi).1, hcc nn i hi]
  have hfull : ∀ m, ∃ out : Run.Full W S T, 2 ≤ m → ∀ (sch : Run.Schedule) (order : List Nat), sch.Complete → order.Perm (List.range rows) →
      Run.full env.qsort env.ar env.smax env.oops sch order m (C' (m - 1)) rows = .ok out := by
    intro m
    by_cases hm : 2 ≤ m
    · obtain ⟨out, _, _, _, _, _, _, _, _, _, _, e, _⟩ := Run.full_any env.qsort env.ar env.smax env.oops m (C' (m - 1)) rows (distOf env.dops f') (core (m - 1)) hq hm hrows (by omega)
        (hpair _).get' (Props.distOf_symm _ _) (hc1 _) (hpair _).le
      exact ⟨out, fun _ => e⟩
    · obtain ⟨out, _⟩ := Run.full_any env.qsort env.ar env.smax env.oops 2 (C' 1) rows (distOf env.dops f') (core 1) hq (by omega) hrows (by omega)
        (hpair _).get' (Props.distOf_symm _ _) (hc1 _) (hpair _).le
      exact ⟨out, fun a => absurd a hm⟩
  choose O hO using hfull
  have k1 : ∀ m, 2 ≤ m → ∀ (sch : Run.Schedule) (order : List Nat), sch.Complete → order.Perm (List.range rows) →
      @Run.full W S T c.i _ _ env.qsort env.ar env.smax env.oops sch order m (C (m - 1)) rows = .ok (O m) := fun m hm sch order h1 h2 => by
    rw [full_eq env.qsort env.ar c env.smax env.oops m (C (m - 1)) (C' (m - 1)) rows _ _ (core (m - 1)) hq hm hrows (by omega) (hpair _) (Props.distOf_symm _ _)
      (fun i hi => (hcore _ i hi).1) (hc1 _) sch order h1 h2]
    exact hO m hm sch order h1 h2
  have k2 : ∀ m, 2 ≤ m → ∀ (sch : Run.Schedule) (order : List Nat), sch.Complete → order.Perm (List.range rows) →
      @Run.full W S T c.i _ _ env.qsort env.ar env.smax env.oops sch order m (C' (m - 1)) rows = .ok (O m) := fun m hm sch order h1 h2 => by
    rw [full_eq env.qsort env.ar c env.smax env.oops m (C' (m - 1)) (C' (m - 1)) rows _ _ (core (m - 1)) hq hm hrows (by omega) (hpair' _) (Props.distOf_symm _ _)
      (hc1 _) (hc1 _) sch order h1 h2]
    exact hO m hm sch order h1 h2
  refine ⟨fun m => C (m - 1), fun m => C' (m - 1), fun m => core (m - 1), O, fun m hm => ⟨r3 _, s3 _, fun i hi => ⟨(hcore _ i hi).1, hc1 _ i hi, (hcore _ i hi).2.1, ?_⟩, fun par hp => ?_⟩⟩
  · show core (m - 1) i < env.ar.dmax ↔ _
    rw [atLeast_countP, ← hcc _ i hi, Distance.coreOf_count (d := distOf env.dops f' i) (fun j hj => s3 _ i j hi (by rw [s1] at hj; exact hj)) (hcore' _ i hi).2.2, s1, s2]
    omega
  have x1 := @api_one D W S T c.i _ _ env data rows cols C O (fun nn o co ho hco => (a1 nn o co ho hco).2) a2 k1 m hm par hp
  have x2 := @api_one D W S T c.i _ _ env data' rows cols' C' O (fun nn o co ho hco => (b1 nn o co ho hco).2) b2 k2 m hm par hp
  exact ⟨hO m hm _ _ hp.sch hp.scores, x1.1, x2.1, fun m' _ => x1.2 m' _ _ rfl, fun m' _ => x2.2 m' _ _ rfl⟩

end Verif.Cut
