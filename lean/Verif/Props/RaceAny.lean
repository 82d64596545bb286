import Verif.Lemmas.RaceAny
import Verif.Props.RaceRun
import Verif.Props.Any
/-
C63 for arbitrary data: whole runs with several threads, NaN, infinities and too few points included.
-/
namespace Verif.Props
open Spec Race
variable {D V S T : Type}

/-- One run and one rerun in the presence of the race, for arbitrary data. -/
theorem race_any [LinearOrder V] [CCmp S] [LinearOrder T] {env : Api.Env D (Ieee V) S T} (hd : ∃ v, env.ar.dmax = .num v) (hq : SortsAscending env.qsort)
    {data : List D} {rows cols : Nat} {f : Nat → Nat → Ieee V} (h : Readable env data rows cols f) (h5 : 5 ≤ rows) :
    ∃ (C : Nat → Distance (Ieee V)) (O : Nat → Run.Full (Ieee V) S T), ∀ m, 2 ≤ m →
      (∀ par, Complete rows rows par → Api.fresh env par m data rows cols true = .ok ⟨m, rows, C m, O m⟩) ∧
      (∀ th, Interleaves th → ∃ lost, Spares (O m).clusters lost ∧ ∀ par, Complete rows rows par →
        Race.fresh th env par m data rows cols true = .ok ⟨m, rows, C m, lose lost (O m)⟩ ∧
        ∀ m' r, 2 ≤ m' → Race.rerun th env par m ⟨m', rows, C m', r⟩ = .ok ⟨m, rows, C m, lose lost (O m)⟩) ∧
      (∀ lost, Spares (O m).clusters lost → ∀ par, Complete rows rows par → Race.fresh (losing lost) env par m data rows cols true = .ok ⟨m, rows, C m, lose lost (O m)⟩) := by
  have hfew := h.few
  obtain ⟨_, C, core, O, key⟩ := @Cut.api_cut D (Ieee V) S T Cut.nanTop _ _ env (Cut.ieee hd) data data rows cols cols f f h h (fun i j _ _ => .inl rfl) hq (by omega)
  refine ⟨C, O, fun m hm => ?_⟩
  obtain ⟨_, k2, k3, k4⟩ := key m hm
  have hfresh : ∀ par, Complete rows rows par → Api.fresh env par m data rows cols true = .ok ⟨m, rows, C m, O m⟩ := fun par hp => (k4 par hp).2.2.1 h5
  have hinv : ∀ par, Complete rows rows par → Distance.compute env.dops env.ar.dmax par.pairs par.cores data rows cols (subIndex m 1) = .ok (C m) ∧
      (∃ l : AList Nat, AList.init (Api.csize rows) = .ok l) ∧ (∃ t : HTable.Table Int, HTable.init (Api.csize rows) .int .ptr = .ok t) ∧
      (∃ t : HTable.Table Int, HTable.init (Api.csize rows) .long .ptr = .ok t) ∧
      Run.full env.qsort env.ar env.smax env.oops par.sch par.scores m (C m) rows = .ok (O m) := by
    intro par hp
    have e := hfresh par hp
    rw [Api.fresh, Api.initObj, if_pos (by omega), Outcome.ok_bind, Api.run] at e
    obtain ⟨dis, e1, e⟩ := Outcome.bind_eq_ok.1 e
    obtain ⟨_, e3, e⟩ := Outcome.bind_eq_ok.1 e
    obtain ⟨_, e4, e⟩ := Outcome.bind_eq_ok.1 e
    unfold Api.doRun at e
    obtain ⟨_, e5, e⟩ := Outcome.bind_eq_ok.1 e
    obtain ⟨out, e2, e⟩ := Outcome.bind_eq_ok.1 e
    simp only [Outcome.pure_eq, Outcome.ok.injEq, Api.Obj.mk.injEq] at e
    obtain ⟨_, _, rfl, rfl⟩ := e
    exact ⟨e1, ⟨_, e3⟩, ⟨_, e4⟩, ⟨_, e5⟩, e2⟩
  have hP : ∀ (lost : Nat → Bool) (sch : Run.Schedule), sch.Complete →
      Sel.prominent (forget lost (O m).clusters) (O m).hierarchy rows sch.group sch.steps = .ok ((O m).labels.map fun l => if lost l then 0 else l) := by
    intro lost sch hsch
    obtain ⟨e, _⟩ := k4 ⟨Distance.pairs rows, List.range rows, seqSchedule, List.range rows⟩ ⟨.refl _, .refl _, seqSchedule_complete, .refl _⟩
    exact @prominent_lost (Ieee V) S T Cut.nanTop _ _ env.qsort env.ar env.smax env.oops m (C m) rows (distOf env.dops f) (core m) hq hm (by omega) (by omega)
      (fun i j hi hj _ => k2 i j hi hj) (distOf_symm _ _) (fun i hi => (k3 i hi).2.1) (fun i hi => (k3 i hi).2.2.1) _ e lost sch hsch
  obtain ⟨f1, f2⟩ := full_lost_cmp env.qsort env.ar env.smax env.oops (m := m) (dis := C m) (out := O m) (n := rows)
    (fun sch order hsch ho => (hinv ⟨Distance.pairs rows, List.range rows, sch, order⟩ ⟨.refl _, .refl _, hsch, ho⟩).2.2.2.2) hP
  have hds : Api.datasetSize rows cols true = rows := by simp [Api.datasetSize]
  have hdo : ∀ th par, Complete rows rows par → ∀ r, Race.full th env.qsort env.ar env.smax env.oops par.sch par.scores m (C m) rows = .ok r →
      Race.doRun th env par m (C m) rows = .ok ⟨m, rows, C m, r⟩ := by
    intro th par hp r hr
    obtain ⟨_, _, _, ⟨t, e1⟩, _⟩ := hinv par hp
    unfold Race.doRun
    rw [e1, Outcome.ok_bind, hr, Outcome.ok_bind]
    rfl
  have hfr : ∀ th par, Complete rows rows par → ∀ r, Race.full th env.qsort env.ar env.smax env.oops par.sch par.scores m (C m) rows = .ok r →
      Race.fresh th env par m data rows cols true = .ok ⟨m, rows, C m, r⟩ := by
    intro th par hp r hr
    obtain ⟨e1, ⟨_, e2⟩, ⟨_, e3⟩, _⟩ := hinv par hp
    unfold Race.fresh
    rw [Api.initObj, if_pos (by omega), Outcome.ok_bind, e1, Outcome.ok_bind, hds, e2, Outcome.ok_bind, e3, Outcome.ok_bind]
    exact hdo th par hp r hr
  refine ⟨hfresh, fun th hth => ?_, fun lost hl par hp => hfr _ par hp _ (f2 lost hl _ _ hp.sch hp.scores)⟩
  obtain ⟨lost, a, b⟩ := f1 th hth
  refine ⟨lost, a, fun par hp => ⟨hfr th par hp _ (b _ _ hp.sch hp.scores), fun m' r hm' => ?_⟩⟩
  have h1 := (k4 par hp).2.2.2.2 m' hm'
  unfold Api.rerun at h1
  rw [if_neg (by omega)] at h1
  obtain ⟨dis, e1, h1⟩ := Outcome.bind_eq_ok.mp h1
  have : dis = C m := by
    unfold Api.doRun at h1
    obtain ⟨_, _, h1⟩ := Outcome.bind_eq_ok.mp h1
    obtain ⟨_, _, h1⟩ := Outcome.bind_eq_ok.mp h1
    have := congrArg Api.Obj.dis (Outcome.ok.inj h1)
    exact this
  subst this
  have e1 : Distance.getCoreDistances env.dops.zero env.ar.dmax par.cores { (C m') with numNeighbors := subIndex m 1 } = .ok (C m) := e1
  unfold Race.rerun
  rw [if_neg (by omega)]
  show (Distance.getCoreDistances env.dops.zero env.ar.dmax par.cores { (C m') with numNeighbors := subIndex m 1 } >>= _) = _
  rw [e1, Outcome.ok_bind]
  exact hdo th par hp _ (b _ _ hp.sch hp.scores)

/-- **C63, the part that holds, for arbitrary data** (NaN, infinities, overflowing distances, `m` larger than the number of rows): every interleaving completes; the object is that of a run with
    one thread (`obj`, described by C71) except that some clusters are lost, never all of those born in one line; and every such loss occurs. -/
theorem C63_any_partial [LinearOrder V] [CCmp S] [LinearOrder T] (env : Api.Env D (Ieee V) S T) (hd : ∃ v, env.ar.dmax = .num v) (hq : SortsAscending env.qsort)
    (data : List D) (rows cols : Nat) (f : Nat → Nat → Ieee V) (h : Readable env data rows cols f) (h5 : 5 ≤ rows) (m : Nat) (hm : 2 ≤ m) :
    ∃ obj : Api.Obj (Ieee V) S T, (∀ par, Complete rows rows par → Api.fresh env par m data rows cols true = .ok obj) ∧
      (∀ th, Interleaves th → ∃ obj' lost, Spares obj.results.clusters lost ∧ SameButLost lost obj obj' ∧
        ∀ par, Complete rows rows par → Race.fresh th env par m data rows cols true = .ok obj') ∧
      (∀ lost, Spares obj.results.clusters lost → ∃ th obj', Interleaves th ∧ SameButLost lost obj obj' ∧
        ∀ par, Complete rows rows par → Race.fresh th env par m data rows cols true = .ok obj') := by
  obtain ⟨C, O, key⟩ := race_any hd hq h h5
  obtain ⟨k1, k2, k3⟩ := key m hm
  refine ⟨⟨m, rows, C m, O m⟩, k1, fun th hth => ?_, fun lost hl => ?_⟩
  · obtain ⟨lost, a, b⟩ := k2 th hth
    exact ⟨_, lost, a, lose_same lost _ _ _ _, fun par hp => (b par hp).1⟩
  · exact ⟨losing lost, _, losing_interleaving lost, lose_same lost _ _ _ _, k3 lost hl⟩

/-- **C63, the part that holds for reruns, for arbitrary data**: after a run and any sequence of reruns, each with its own interleavings, only the last rerun can have lost clusters. -/
theorem C63_any_reruns_partial [LinearOrder V] [CCmp S] [LinearOrder T] (env : Api.Env D (Ieee V) S T) (hd : ∃ v, env.ar.dmax = .num v) (hq : SortsAscending env.qsort)
    (data : List D) (rows cols : Nat) (f : Nat → Nat → Ieee V) (h : Readable env data rows cols f) (h5 : 5 ≤ rows) (m0 : Nat) (hm0 : 2 ≤ m0) (par0 : Api.Par)
    (hp0 : Complete rows rows par0) (th0 : Threads) (ht0 : Interleaves th0) (hist : List (Nat × Api.Par × Threads))
    (hhist : ∀ c ∈ hist, 2 ≤ c.1 ∧ Complete rows rows c.2.1 ∧ Interleaves c.2.2)
    (m : Nat) (hm : 2 ≤ m) (par par' : Api.Par) (hp : Complete rows rows par) (hp' : Complete rows rows par') (th : Threads) (ht : Interleaves th) :
    ∃ obj0 obj obj' lost, Race.fresh th0 env par0 m0 data rows cols true = .ok obj0 ∧ Race.reruns env (hist ++ [(m, par, th)]) obj0 = .ok obj' ∧
      Api.fresh env par' m data rows cols true = .ok obj ∧ Spares obj.results.clusters lost ∧ SameButLost lost obj obj' := by
  obtain ⟨C, O, key⟩ := race_any hd hq h h5
  obtain ⟨lost0, _, b0⟩ := (key m0 hm0).2.1 th0 ht0
  obtain ⟨lost, a, b⟩ := (key m hm).2.1 th ht
  have hind : ∀ (hist : List (Nat × Api.Par × Threads)), (∀ c ∈ hist, 2 ≤ c.1 ∧ Complete rows rows c.2.1 ∧ Interleaves c.2.2) → ∀ m0 r, 2 ≤ m0 →
      Race.reruns env (hist ++ [(m, par, th)]) ⟨m0, rows, C m0, r⟩ = .ok ⟨m, rows, C m, lose lost (O m)⟩ := by
    intro hist
    induction hist with
    | nil =>
      intro _ m0 r hm0
      rw [List.nil_append, Race.reruns, (b par hp).2 m0 r hm0]
      rfl
    | cons c hist ih =>
      intro hh m0 r hm0
      obtain ⟨hc1, hc2, hc3⟩ := hh c (by simp)
      obtain ⟨lost1, _, b1⟩ := (key c.1 hc1).2.1 c.2.2 hc3
      obtain ⟨mc, parc, thc⟩ := c
      rw [List.cons_append, Race.reruns, (b1 parc hc2).2 m0 r hm0, Outcome.ok_bind]
      exact ih (fun x hx => hh x (by simp [hx])) mc _ hc1
  exact ⟨_, ⟨m, rows, C m, O m⟩, _, lost, (b0 par0 hp0).1, hind hist hhist m0 _ hm0, (key m hm).1 par' hp', a, lose_same lost _ _ _ _⟩

example := C63_any_partial nanEnv ⟨1000, rfl⟩ (isort_sorts _) nanPts 8 1 (nanSq nanPts) (nan_readable nanPts (by decide)) (by omega) 2 (by omega)
example := C63_any_reruns_partial nanEnv ⟨1000, rfl⟩ (isort_sorts _) nanPts 8 1 (nanSq nanPts) (nan_readable nanPts (by decide)) (by omega) 12 (by omega) (backPar 8 8)
  (backPar_complete 8 8) hasty hasty_interleaves [(3, backPar 8 8, hasty)] (by simpa using ⟨backPar_complete 8 8, hasty_interleaves⟩) 2 (by omega) (backPar 8 8) (backPar 8 8)
  (backPar_complete 8 8) (backPar_complete 8 8) hasty hasty_interleaves

/-- With one thread there are two clusters in these data; hasty threads lose one of them. -/
example : (Api.fresh nanEnv (backPar 8 8) 2 nanPts 8 1 true >>= fun o => .ok o.results.labels) = .ok [2, 2, 0, 2, 3, 0, 3, 3] ∧
    (Race.fresh hasty nanEnv (backPar 8 8) 2 nanPts 8 1 true >>= fun o => .ok o.results.labels) ≠ .ok [2, 2, 0, 2, 3, 0, 3, 3] := by decide +kernel

end Verif.Props
