import Verif.Spec.Api
import Verif.Lemmas.CoreMax
import Verif.Props.Distance
import Verif.Props.Outlier
import Verif.Props.HTable
/-
Helper lemmas for the properties of whole runs.
-/
namespace Verif.Props
open Spec
variable {D W S T : Type}

theorem init_defined (n : Nat) (kt dt : HType) : ∃ t : HTable.Table Int, HTable.init n kt dt = .ok t :=
  let ⟨t, e, _⟩ := C11_buckets_and_hashes (K := Int) n kt dt
  ⟨t, e⟩

/-- The distance object depends on the data and the number of neighbours only. -/
theorem compute_unique [LinearOrder W] {env : Api.Env D W S T} {data : List D} {rows cols : Nat} {f : Nat → Nat → W} (h : Supported env data rows cols f) :
    ∃ C : Nat → Distance W,
      (∀ nn order corder, order.Perm (Distance.pairs rows) → corder.Perm (List.range rows) → Distance.compute env.dops env.ar.dmax order corder data rows cols nn = .ok (C nn)) ∧
      (∀ nn nn' corder, corder.Perm (List.range rows) → Distance.getCoreDistances env.dops.zero env.ar.dmax corder { C nn with numNeighbors := nn' } = .ok (C nn')) ∧
      (∀ nn, (C nn).rows = rows ∧ (C nn).numNeighbors = nn ∧ (∀ i j, i < rows → j < rows → (C nn).get env.ar.zeroW i j = .ok (distOf env.dops f i j)) ∧
        ∃ core : Nat → W, (∀ i, i < rows → (C nn).coreDistances[i]? = some (some (core i))) ∧ (nn < rows → ∀ i, i < rows → core i < env.ar.dmax)) := by
  have key := fun (nn0 nn : Nat) (order order' : List (Nat × Nat)) (corder corder' last : List Nat) ho ho' hco hco' hl =>
    C20_cores_history_independent env.dops env.ar.dmax data rows cols nn0 nn h.few f h.sum order order' corder corder' ho ho' hco hco' [] (by simp) last hl
  have hC : ∀ nn, ∃ d, Distance.compute env.dops env.ar.dmax (Distance.pairs rows) (List.range rows) data rows cols nn = .ok d := fun nn => by
    obtain ⟨d, core, e, _⟩ := compute_rep (ops := env.dops) env.ar.dmax (data := data) (cols := cols) (nn := nn) h.few (.refl _) (.refl _) (fun i j a b => sqSum_iff.2 (h.sum i j a b))
    exact ⟨d, e⟩
  choose C hC using hC
  have h1 : ∀ nn order corder, order.Perm (Distance.pairs rows) → corder.Perm (List.range rows) → Distance.compute env.dops env.ar.dmax order corder data rows cols nn = .ok (C nn) := by
    intro nn order corder ho hco
    obtain ⟨d0, d1, e0, e1, e2⟩ := key nn nn _ _ _ _ (List.range rows) (.refl _) ho (.refl _) hco (.refl _)
    obtain ⟨d0', d1', e0', e1', e2'⟩ := key nn nn _ _ _ _ (List.range rows) (.refl _) (.refl _) (.refl _) (.refl _) (.refl _)
    rw [hC] at e0 e0' e2'
    cases e0; cases e0'; cases e2'
    rw [e1] at e1'; cases e1'
    exact e2
  refine ⟨C, h1, ?_, ?_⟩
  · intro nn nn' corder hco
    obtain ⟨d0, d1, e0, e1, e2⟩ := key nn nn' _ _ _ _ corder (.refl _) (.refl _) (.refl _) (.refl _) hco
    rw [hC] at e0 e2
    cases e0; cases e2
    simp only [List.nil_append, rerunCores] at e1
    rw [← e1]
    cases Distance.getCoreDistances env.dops.zero env.ar.dmax corder { C nn with numNeighbors := nn' } <;> rfl
  · intro nn
    obtain ⟨d, core, e, r1, r2, r3, hget, hself, hcore, _⟩ := compute_rep (ops := env.dops) env.ar.dmax (data := data) (cols := cols) (nn := nn) h.few (.refl _) (.refl _) (fun i j a b => sqSum_iff.2 (h.sum i j a b))
    rw [hC] at e
    cases e
    have hd : ∀ i j, i < rows → j < rows → (C nn).get env.dops.zero i j = .ok (distOf env.dops f i j) := by
      intro i j hi hj
      unfold distOf
      rcases Nat.lt_trichotomy i j with h | h | h
      · rw [if_pos h]; exact (hget i j h hj).1
      · subst h; simp [hself i]
      · rw [if_neg (by omega), if_neg (by omega)]; exact (hget j i h hi).2
    refine ⟨r1, r3, by rw [← h.zero]; exact hd, core, fun i hi => (hcore i hi).2, fun hnn i hi => ?_⟩
    obtain ⟨x, ex, hx⟩ := Distance.coreOf_lt (zero := env.dops.zero) (dmax := env.ar.dmax) (dis := C nn) (i := i) (d := distOf env.dops f i) (by
      intro j hj
      rw [r1] at hj
      refine ⟨hd i j hi hj, ?_⟩
      unfold distOf
      rcases Nat.lt_trichotomy i j with h' | h' | h'
      · rw [if_pos h']; exact h.lt i j h' hj
      · subst h'; simp [h.zero, h.zero_lt]
      · rw [if_neg (by omega), if_neg (by omega)]; exact h.lt j i h' hi) (by omega)
    rw [(hcore i hi).1] at ex
    cases ex
    exact hx

theorem distOf_symm (ops : DistOps D W) (f : Nat → Nat → W) (i j : Nat) : distOf ops f i j = distOf ops f j i := by
  unfold distOf
  rcases Nat.lt_trichotomy i j with h | h | h
  · rw [if_pos h, if_neg (by omega), if_neg (by omega)]
  · subst h; rfl
  · rw [if_pos h, if_neg (by omega), if_neg (by omega)]

/-- All about a run in one place: the object after a run or rerun with minPoints `m` is `O m`. -/
theorem api_rep [LinearOrder W] [CCmp S] [LinearOrder T] {env : Api.Env D W S T} {data : List D} {rows cols : Nat} {f : Nat → Nat → W} (h : Supported env data rows cols f)
    (hq : SortsAscending env.qsort) (hrows : 2 ≤ rows) :
    ∃ (C : Nat → Distance W) (core : Nat → Nat → W) (O : Nat → Run.Full W S T),
      (∀ m, 1 ≤ m → m ≤ rows →
        (∀ i j, i < rows → j < rows → (C m).get env.ar.zeroW i j = .ok (distOf env.dops f i j)) ∧
        (∀ i, i < rows → (C m).coreDistances[i]? = some (some (core m i)) ∧ core m i < env.ar.dmax) ∧
        (∀ i j, i < rows → j < rows → i ≠ j → mutualReach (distOf env.dops f) (core m) i j < env.ar.dmax) ∧
        (∀ par, Complete rows rows par → Distance.compute env.dops env.ar.dmax par.pairs par.cores data rows cols (subIndex m 1) = .ok (C m) ∧
          Run.full env.qsort env.ar env.smax env.oops par.sch par.scores m (C m) rows = .ok (O m) ∧
          Api.doRun env par m (C m) rows = .ok ⟨m, rows, C m, O m⟩ ∧
          (5 ≤ rows → Api.run env par m data rows cols true = .ok ⟨m, rows, C m, O m⟩) ∧
          ∀ m', 1 ≤ m' → m' ≤ rows → Api.rerun env par m ⟨m', rows, C m', O m'⟩ = .ok ⟨m, rows, C m, O m⟩)) := by
  obtain ⟨C, hC1, hC2, hC3⟩ := compute_unique h
  choose r1 r2 r3 core hcore hlt using hC3
  have hsub : ∀ m, 1 ≤ m → m ≤ rows → subIndex m 1 = m - 1 := fun m h1 h2 => by
    have := h.few
    unfold subIndex; split <;> omega
  have hmr : ∀ m, 1 ≤ m → m ≤ rows → ∀ i j, i < rows → j < rows → i ≠ j → mutualReach (distOf env.dops f) (core (m - 1)) i j < env.ar.dmax := by
    intro m h1 h2 i j hi hj hij
    have hd : distOf env.dops f i j < env.ar.dmax := by
      unfold distOf
      rcases Nat.lt_trichotomy i j with h' | h' | h'
      · rw [if_pos h']; exact h.lt i j h' hj
      · exact absurd h' hij
      · rw [if_neg (by omega), if_neg (by omega)]; exact h.lt j i h' hi
    simp [mutualReach, hlt (m - 1) (by omega) i hi, hlt (m - 1) (by omega) j hj, hd]
  have hfull : ∀ m, ∃ out : Run.Full W S T, 1 ≤ m → m ≤ rows → ∀ (sch : Run.Schedule) (order : List Nat), sch.Complete → order.Perm (List.range rows) →
      Run.full env.qsort env.ar env.smax env.oops sch order m (C (m - 1)) rows = .ok out := by
    intro m
    by_cases hm : 1 ≤ m ∧ m ≤ rows
    · have := h.few
      obtain ⟨out, e, _⟩ := full_rep env.qsort env.ar env.smax env.oops m (C (m - 1)) rows (distOf env.dops f) (core (m - 1)) hq hm.1 hrows (by omega)
        (fun i j hi hj _ => r3 _ i j hi hj) (distOf_symm _ _) (hcore _) (hmr m hm.1 hm.2)
      exact ⟨out, fun _ _ => e⟩
    · obtain ⟨out, _⟩ := full_rep env.qsort env.ar env.smax env.oops 1 (C 0) rows (distOf env.dops f) (core 0) hq (by omega) hrows (by have := h.few; omega)
        (fun i j hi hj _ => r3 _ i j hi hj) (distOf_symm _ _) (hcore _) (hmr 1 (by omega) (by omega))
      exact ⟨out, fun a b => absurd ⟨a, b⟩ hm⟩
  choose O hO using hfull
  refine ⟨fun m => C (m - 1), fun m => core (m - 1), O, fun m h1 h2 => ⟨r3 _, fun i hi => ⟨hcore _ i hi, hlt _ (by omega) i hi⟩, hmr m h1 h2, fun par hp => ?_⟩⟩
  have e1 : Distance.compute env.dops env.ar.dmax par.pairs par.cores data rows cols (subIndex m 1) = .ok (C (m - 1)) := by
    rw [hsub m h1 h2]; exact hC1 _ _ _ hp.pairs hp.cores
  have e2 := hO m h1 h2 _ _ hp.sch hp.scores
  have e3 : Api.doRun env par m (C (m - 1)) rows = .ok ⟨m, rows, C (m - 1), O m⟩ := by
    obtain ⟨t, et⟩ := init_defined (Api.csize rows) .long .ptr
    rw [Api.doRun, et, Outcome.ok_bind, e2]; rfl
  refine ⟨e1, e2, e3, fun h5 => ?_, fun m' _ _ => ?_⟩
  · obtain ⟨t, et⟩ := init_defined (Api.csize rows) .int .ptr
    have hds : Api.datasetSize rows cols true = rows := by simp [Api.datasetSize]
    have hc : 0 < Api.csize rows := by unfold Api.csize; split <;> omega
    obtain ⟨l, el, _⟩ := AList.rep_init (α := Nat) (n := Api.csize rows) hc
    rw [Api.run, e1, Outcome.ok_bind, hds, el, Outcome.ok_bind, et, Outcome.ok_bind]
    exact e3
  · rw [Api.rerun, if_neg (by omega), hsub m h1 h2]
    show (Distance.getCoreDistances env.dops.zero env.ar.dmax par.cores { C (m' - 1) with numNeighbors := m - 1 } >>= _) = _
    rw [hC2 _ _ _ hp.cores]
    exact e3

end Verif.Props
