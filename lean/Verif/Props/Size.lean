import Verif.Props.Levels
import Verif.Lemmas.Count
import Verif.Props.Api
/-
C64: how large the results can get.
-/
namespace Verif.Props
open Spec
variable {D W S T : Type}

theorem out_size [LinearOrder W] [CCmp S] (ar : Arith W S) (smax : S) (sch : Run.Schedule) (hsch : sch.Complete) (minPoints : Nat) (hm : 2 ≤ minPoints) (dis : Distance W)
    (n : Nat) (hsize : minPoints ≤ n) (hn : n < 2 ^ 32) (d : Nat → Nat → W) (core : Nat → W)
    (hget : ∀ i j, i < n → j < n → i ≠ j → dis.get ar.zeroW i j = .ok (d i j)) (hsym : ∀ i j, d i j = d j i)
    (hcore : ∀ i, i < n → dis.coreDistances[i]? = some (some (core i)))
    (hmax : ∀ i j, i < n → j < n → i ≠ j → mutualReach d core i j < ar.dmax) {out : Run.Out W S} (hout : Run.doRun ar smax sch minPoints dis n = .ok out) :
    out.hierarchy.length ≤ n ∧ out.clusters.length * minPoints ≤ 2 * n := by
  obtain ⟨g, g', e1, e2, e3, hin, hconn, _⟩ := Run.sorted_mst ar.zeroW ar.dmax dis n (by omega) d core hget hsym hcore hmax
  have hedges := sorted_mst_edges ar.zeroW ar.dmax dis n (by omega) d core hget hsym hcore hmax e1 e2
  obtain ⟨res, hres, q2⟩ := C27_levels ar minPoints hm dis n hsize hn d core hget hsym hcore hmax
  subst e3
  obtain ⟨f, hr, ec, hd, hs, htr⟩ := Hier.input_rep hin
  obtain ⟨res', hist, cur, noise, last, e, h⟩ := Hier.obs ar hr hin.nonempty ec rfl hn (show 1 ≤ minPoints by omega) hd hs
  rw [Run.hierarchy, e1] at hres
  simp only [Outcome.ok_bind, e2] at hres
  rw [e] at hres; cases hres
  obtain ⟨s, V, hall, hx, _, labels, _, hprom, _⟩ := Sel.labels_rep h.toBase smax
  simp only [Run.doRun, e1, e2, Outcome.ok_bind, Run.fromTree, e, hall _ (hsch.leaf _), hprom sch.group sch.steps hsch.group hsch.steps, Outcome.pure_eq] at hout
  cases hout
  refine ⟨?_, by rw [hx.rep.len]; exact Hier.cluster_count h hsize⟩
  have hlen : res.hierarchy.length = hist.length + 1 := by rw [h.lines]; simp
  have hsub : hist.map (·.1) ⊆ ((triples g'.va g'.vb g'.wt).filter (fun e => decide (e.1 ≠ e.2.1))).map (·.2.2) := by
    intro w hw
    obtain ⟨x, hx, rfl⟩ := List.mem_map.1 hw
    obtain ⟨s, hs'⟩ := List.mem_iff_getElem?.1 hx
    obtain ⟨u, v, ⟨m1, m2, m3⟩, _⟩ := (q2 x.1).1 ⟨s + 1, by omega, h.hasWeight hs'⟩
    rcases uses_or_below ((hconn _ u v).2 m2) with he | ⟨w', hw', hc'⟩ | ⟨a, b, hab, hne, _⟩
    · exact absurd he m1
    · exact absurd ((hconn w' u v).1 hc') (m3 w' hw')
    · exact List.mem_map.2 ⟨_, List.mem_filter.2 ⟨hab, by simpa using hne⟩, rfl⟩
  have hnd : (hist.map (·.1)).Nodup := h.ord.imp fun hab => hab.ne'
  have := (hnd.subperm hsub).length_le
  rw [List.length_map, List.length_map, hedges] at this
  show res.hierarchy.length ≤ _
  omega

/-- **C64.** On every supported data set of `5 ≤ rows ≤ 65536` points and for every `2 ≤ m ≤ rows` a run returns an object with at most `rows` hierarchy
    lines (with line 0), fewer than `2 * rows / m` clusters (the list has one entry more, the null pointer at index 0), and at most `rows / m` different
    labels other than 0, all of them indices of clusters. -/
theorem C64_size [LinearOrder W] [CCmp S] [LinearOrder T] (env : Api.Env D W S T) (hq : SortsAscending env.qsort) (data : List D) (rows cols : Nat) (f : Nat → Nat → W)
    (h : Supported env data rows cols f) (h5 : 5 ≤ rows) (m : Nat) (hm : 2 ≤ m) (hmr : m ≤ rows) :
    ∃ obj : Api.Obj W S T, (∀ par, Complete rows rows par → Api.fresh env par m data rows cols true = .ok obj) ∧
      obj.results.hierarchy.length ≤ rows ∧ obj.results.clusters.length * m ≤ 2 * rows ∧
      (∀ ls : List Nat, ls.Nodup → (∀ l ∈ ls, l ≠ 0 ∧ l ∈ obj.results.labels) → ls.length * m ≤ rows) ∧
      ∀ l ∈ obj.results.labels, l < obj.results.clusters.length := by
  have hfew := h.few
  obtain ⟨C, core, O, key⟩ := api_rep h hq (by omega)
  obtain ⟨k1, k2, k3, k4⟩ := key m (by omega) hmr
  have hseq : Complete rows rows ⟨Distance.pairs rows, List.range rows, seqSchedule, List.range rows⟩ := ⟨.refl _, .refl _, seqSchedule_complete, .refl _⟩
  obtain ⟨_, hfull, _⟩ := k4 _ hseq
  have hget : ∀ i j, i < rows → j < rows → i ≠ j → (C m).get env.ar.zeroW i j = .ok (distOf env.dops f i j) := fun i j hi hj _ => k1 i j hi hj
  have hcore := fun i hi => (k2 i hi).1
  obtain ⟨e1, _⟩ := full_hierarchy hfull
  obtain ⟨b1, b2⟩ := out_size env.ar env.smax seqSchedule seqSchedule_complete m hm (C m) rows hmr (by omega) (distOf env.dops f) (core m) hget (distOf_symm _ _) hcore k3 e1
  obtain ⟨out, o1, root, o2, o3, o4, o5, o6, o7⟩ := C35_data env.ar env.smax m (by omega) (C m) rows (by omega) (by omega) (distOf env.dops f) (core m) hget (distOf_symm _ _) hcore k3
  have := o1 seqSchedule seqSchedule_complete
  rw [e1] at this; cases this
  have hlab : ∀ l, l ≠ 0 → l ∈ (O m).labels → l ∈ root.desc := by
    intro l hl hmem
    obtain ⟨p, hp⟩ := List.mem_iff_getElem?.1 hmem
    exact ((o6 p l hl).1 hp).1
  refine ⟨⟨m, rows, C m, O m⟩, fun par hp => ?_, b1, b2, fun ls hnd hls => ?_, fun l hl => ?_⟩
  · rw [Api.fresh, Api.initObj, if_pos (by omega), Outcome.ok_bind]
    exact (k4 par hp).2.2.2.1 h5
  · refine pack (fun l p => (O m).labels[p]? = some l) ls hnd (fun l hl => o7 l (hlab l (hls l hl).1 (hls l hl).2)) ?_ ?_
    · intro l _ p hp
      have := (List.getElem?_eq_some_iff.1 hp).1
      have h5' : (O m).labels.length = rows := o5
      omega
    · intro l _ l' _ p hp hp'
      rw [hp] at hp'
      simpa using hp'
  · by_cases hl0 : l = 0
    · have := o3.two
      show l < (O m).clusters.length
      have h2 : 2 ≤ (O m).clusters.length := this
      omega
    · obtain ⟨q, c, hc, _⟩ := o4.notRoot l (hlab l hl0 hl)
      exact (List.getElem?_eq_some_iff.1 hc).1

/-- The hypotheses hold for the five points on a line. -/
example := C64_size lineEnv (isort_sorts _) linePts 5 1 (lineSq linePts) linePts_supported (by omega) 2 (by omega) (by omega)

/-- The bounds on clusters and labels are attained: three pairs of points, `m = 2`. -/
example : (Api.fresh lineEnv (backPar 6 6) 2 [0, 1, 10, 11, 30, 31] 6 1 true >>= fun o => .ok (o.results.hierarchy.length, o.results.clusters.length, o.results.labels)) =
    .ok (4, 6, [4, 4, 5, 5, 3, 3]) := by decide +kernel


/-- The bound on the lines is attained: five points with increasing gaps. -/
example : (Api.fresh lineEnv (backPar 5 5) 2 [0, 1, 3, 6, 10] 5 1 true >>= fun o => .ok o.results.hierarchy.length) = .ok 5 := by decide +kernel

end Verif.Props
