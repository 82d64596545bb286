import Verif.Lemmas.Again
import Verif.Lemmas.Fresh
/-
Helper lemmas: selecting clusters again after a run.
-/
namespace Verif.Sel
open Spec Relation Hier Props
variable {D W S T : Type}

/-- A run in parts: the hierarchy, the first propagation and the first labels. -/
structure Parts [LinearOrder W] [CCmp S] [LinearOrder T] (env : Api.Env D W S T) (rows m M : Nat) (f : Nat → Nat × Nat × W) (res : Result W S) (hist : List (W × (Nat → Nat)))
    (cur : Nat → Nat) (noise : Nat → Option W) (last : Nat → Option Nat) (V0 : Nat → Cl W S) (obj : Api.Obj W S T) : Prop where
  obs : Obs env.ar rows m M f res hist cur noise last
  wt : ∀ i, i < M → (f i).2.2 < env.ar.dmax
  inv : VInv env.ar res.clusters.length (kOf env.ar res.clusters) 0 V0
  rep : Rep obj.results.clusters res.clusters.length V0
  inf : obj.results.infinite = (List.range' 1 (res.clusters.length - 1)).any (fun l => CCmp.eq (kOf env.ar res.clusters l).stability env.smax)
  sel : Selection res.clusters (V0 1).desc
  num : obj.numPoints = rows
  lines : obj.results.hierarchy = res.hierarchy
  len : obj.results.labels.length = rows
  labels : ∀ p l, l ≠ 0 → (obj.results.labels[p]? = some l ↔ l ∈ (V0 1).desc ∧ p < rows ∧ lab hist cur (kOf env.ar res.clusters l).offset p = l)
  scores : ∀ order : List Nat, order.Perm (List.range rows) → Outlier.scores env.qsort env.ar.zeroW env.oops order obj.results.clusters obj.results.noise obj.results.last obj.dis.coreDistances rows =
    .ok obj.results.outliers

theorem run_parts [LinearOrder W] [CCmp S] [LinearOrder T] {env : Api.Env D W S T} (hq : SortsAscending env.qsort) {data : List D} {rows cols : Nat} {f : Nat → Nat → W}
    (h : Supported env data rows cols f) (h5 : 5 ≤ rows) {m : Nat} (hm : 2 ≤ m) (hmr : m ≤ rows) :
    ∃ (obj : Api.Obj W S T) (M : Nat) (e : Nat → Nat × Nat × W) (res : Result W S) (hist : List (W × (Nat → Nat))) (cur : Nat → Nat) (noise : Nat → Option W) (last : Nat → Option Nat) (V0 : Nat → Cl W S),
      (∀ par, Complete rows rows par → Api.fresh env par m data rows cols true = .ok obj) ∧ Parts env rows m M e res hist cur noise last V0 obj := by
  have hfew := h.few
  obtain ⟨obj, core, _, _, hf, _, _, hget, hcore, hmax, _, _, _, _, _, hfull⟩ := stages hq h h5 hm hmr
  have hseq : Complete rows rows ⟨Distance.pairs rows, List.range rows, seqSchedule, List.range rows⟩ := ⟨.refl _, .refl _, seqSchedule_complete, .refl _⟩
  obtain ⟨_, _, _, _, hnum⟩ := fresh_inv (by omega) (hf _ hseq)
  obtain ⟨g0, g, e1, e2, e3, hin, _, hw⟩ := Run.sorted_mst env.ar.zeroW env.ar.dmax obj.dis rows (by omega) (distOf env.dops f) core (fun i j a b _ => by rw [← h.zero]; exact hget i j a b)
    (distOf_symm _ _) (fun i hi => (hcore i hi).1) hmax
  subst e3
  have hwmax : ∀ w ∈ g.wt, w < env.ar.dmax := by
    intro w hw'
    rcases (hw w).1 hw' with ⟨i, hi, rfl⟩ | ⟨i, j, h1, h2, h3, rfl, _⟩
    · obtain ⟨j, hj, hij⟩ : ∃ j, j < g.numVertices ∧ i ≠ j := by
        by_cases h0 : i = 0
        · exact ⟨1, by omega, by omega⟩
        · exact ⟨0, by omega, h0⟩
      refine lt_of_le_of_lt ?_ (hmax i j hi hj hij)
      simp [mutualReach]
    · exact hmax i j h1 h2 h3
  obtain ⟨e, hr, ec, hd, hspan, htri⟩ := input_rep hin
  have hM : 1 ≤ g.wt.length := hin.nonempty
  obtain ⟨res, hist, cur, noise, last, ecomp, hobs⟩ := Hier.obs env.ar (m := m) hr hM ec rfl (by omega) (by omega) hd hspan
  obtain ⟨s, V0, hprop, hx, hsel, labels, hlen, hlab, hiff⟩ := labels_rep hobs.toBase env.smax
  have hparts : ∀ (sch : Run.Schedule) (order : List Nat), sch.Complete → order.Perm (List.range g.numVertices) →
      Outlier.scores env.qsort env.ar.zeroW env.oops order s.clusters res.noise res.last obj.dis.coreDistances g.numVertices = .ok obj.results.outliers ∧
      obj.results = { clusters := s.clusters, hierarchy := res.hierarchy, noise := res.noise, last := res.last, infinite := s.infinite, labels := labels, outliers := obj.results.outliers } := by
    intro sch order hsch ho
    have hh := hfull sch order hsch ho
    unfold Run.full at hh
    simp only [Run.doRun, e1, e2, Outcome.ok_bind, Run.fromTree, ecomp, hprop _ (hsch.leaf _), hlab _ _ hsch.group hsch.steps, Outcome.pure_eq] at hh
    obtain ⟨o, a1, a2⟩ := Outcome.bind_eq_ok.mp hh
    have a3 := Outcome.ok.inj a2
    rw [← a3]
    exact ⟨a1, rfl⟩
  have hres := (hparts seqSchedule _ seqSchedule_complete (.refl _)).2
  have r1 : obj.results.clusters = s.clusters := by rw [hres]
  have r2 : obj.results.hierarchy = res.hierarchy := by rw [hres]
  have r3 : obj.results.noise = res.noise := by rw [hres]
  have r4 : obj.results.last = res.last := by rw [hres]
  have r5 : obj.results.infinite = s.infinite := by rw [hres]
  have r6 : obj.results.labels = labels := by rw [hres]
  refine ⟨obj, _, e, res, hist, cur, noise, last, V0, hf, ⟨hobs, fun i hi => ?_, hx.inv, by rw [r1]; exact hx.rep, ?_, hsel, hnum, r2, by rw [r6]; exact hlen, by rw [r6]; exact hiff, fun order ho => ?_⟩⟩
  · refine hwmax _ ?_
    have hwt := hr.wt
    rw [hwt]
    exact List.mem_map.2 ⟨i, List.mem_range.2 hi, rfl⟩
  · rw [r5, hx.inf]; rfl
  · rw [r1, r3, r4]; exact (hparts seqSchedule order seqSchedule_complete ho).1


/-- What the labels have to do with the clusters handed to the root. -/
structure Labelled (ar : Arith W S) (rows : Nat) (res : Result W S) (hist : List (W × (Nat → Nat))) (cur : Nat → Nat) (V : Nat → Cl W S) (labels : List Nat) : Prop where
  len : labels.length = rows
  from_ : ∀ p l, l ≠ 0 → labels[p]? = some l → l ∈ (V 1).desc ∧ p < rows ∧ lab hist cur (kOf ar res.clusters l).offset p = l
  some_ : ∀ p l, p < rows → l ∈ (V 1).desc → lab hist cur (kOf ar res.clusters l).offset p = l → labels[p]? ≠ some 0

/-- Any number of further calls, with an invariant `J` of propagation. -/
theorem agains_run [LinearOrder W] [CCmp S] [LinearOrder T] {env : Api.Env D W S T} {rows m M : Nat} {f : Nat → Nat × Nat × W} {res : Result W S} {hist : List (W × (Nat → Nat))}
    {cur : Nat → Nat} {noise : Nat → Option W} {last : Nat → Option Nat} {V0 : Nat → Cl W S} {obj : Api.Obj W S T} (h : Parts env rows m M f res hist cur noise last V0 obj)
    {J : (Nat → Cl W S) → Prop} (hJ : ∀ V, J V → AInv (kOf env.ar res.clusters) V0 V) (hstep : ∀ x V, 1 ≤ x → x < res.clusters.length → J V → J (stepV env.ar V x)) :
    ∀ (calls : List Run.Schedule), (∀ sch ∈ calls, sch.Complete) → ∀ (V : Nat → Cl W S) (cs : List (Option (Cl W S))) (labels : List Nat), J V → Rep cs res.clusters.length V →
      Labelled env.ar rows res hist cur V labels →
      ∃ V' cs' labels', Api.agains env calls { obj with results := { obj.results with clusters := cs, labels := labels } } =
        .ok { obj with results := { obj.results with clusters := cs', labels := labels' } } ∧ J V' ∧ Rep cs' res.clusters.length V' ∧ Labelled env.ar rows res hist cur V' labels' := by
  obtain ⟨htree, _, _⟩ := obs_tree h.obs.toBase
  obtain ⟨hr0, ht, hout⟩ := tree_of (ar := env.ar) htree
  intro calls
  induction calls with
  | nil => intro _ V cs labels h1 h2 h3; exact ⟨V, cs, labels, rfl, h1, h2, h3⟩
  | cons sch r ih =>
    intro hc V cs labels h1 h2 h3
    have hsch := hc sch (by simp)
    have hN := ht.two
    obtain ⟨s, e1, hx⟩ := propagateTree_run ht h2 (hJ V h1).stat env.smax (hsch.leaf cs.length)
    have hJ' : J (passV env.ar (res.clusters.length - 1) V) := pass_inv hstep _ _ (by omega) h1
    obtain ⟨labels', e2, l1, l2, l3⟩ := prominent_any h.obs.toBase hx.rep (hJ _ hJ').stat ((hJ _ hJ').und 1) hsch.group hsch.steps
    obtain ⟨V'', cs'', labels'', e3, j1, j2, j3⟩ := ih (fun sch hs => hc sch (by simp [hs])) _ s.clusters labels' hJ' hx.rep ⟨l1, l2, l3⟩
    refine ⟨V'', cs'', labels'', ?_, j1, j2, j3⟩
    have hinf : s.infinite = obj.results.infinite := by rw [hx.inf, h.inf]; rfl
    simp only [Api.agains, Api.again, e1, Outcome.ok_bind, h.num, h.lines, e2, hinf, Outcome.pure_eq]
    simp only [h.num, h.lines] at e3
    exact e3

theorem Parts.labelled [LinearOrder W] [CCmp S] [LinearOrder T] {env : Api.Env D W S T} {rows m M : Nat} {f : Nat → Nat × Nat × W} {res : Result W S} {hist : List (W × (Nat → Nat))}
    {cur : Nat → Nat} {noise : Nat → Option W} {last : Nat → Option Nat} {V0 : Nat → Cl W S} {obj : Api.Obj W S T} (h : Parts env rows m M f res hist cur noise last V0 obj) :
    Labelled env.ar rows res hist cur V0 obj.results.labels := by
  refine ⟨h.len, fun p l hl hp => (h.labels p l hl).1 hp, fun p l hp hl hb => ?_⟩
  obtain ⟨q, hq⟩ := h.sel.notRoot l hl
  have h0 : l ≠ 0 := by
    rintro rfl
    obtain ⟨c, hc, _⟩ := hq
    rw [(obs_tree h.obs.toBase).1.zero] at hc
    simp at hc
  rw [(h.labels p l h0).2 ⟨hl, hp, hb⟩]
  simp [h0]

end Verif.Sel
