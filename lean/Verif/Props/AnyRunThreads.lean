import Verif.Props.RunThreads
/-
C71 for every interleaving of threads.
-/
namespace Verif.Props
open Spec Race
variable {D V S T : Type}

/-- **C71 for every interleaving of threads**: for arbitrary data and every `minPoints` from 2 on the run completes, and distances, core distances, hierarchy, cluster tree, selection and outlier scores are as in
    `C71_any_data`; each selected cluster is either kept, and then its label is carried by exactly its first members, at least `m` rows, or lost, and then no row carries its label. -/
theorem C71_threads [LinearOrder V] [CCmp S] [LinearOrder T] (env : Api.Env D (Ieee V) S T) (hd : ∃ v, env.ar.dmax = .num v) (hq : SortsAscending env.qsort)
    (data : List D) (rows cols : Nat) (f : Nat → Nat → Ieee V) (h : Readable env data rows cols f) (h5 : 5 ≤ rows) (m : Nat) (hm : 2 ≤ m) (th : Threads) (hth : Interleaves th) :
    ∃ (obj : Api.Obj (Ieee V) S T) (core : Nat → Ieee V) (lost : Nat → Bool), (∀ par, Complete rows rows par → Race.fresh th env par m data rows cols true = .ok obj) ∧
      obj.minPoints = m ∧ obj.numPoints = rows ∧
      (∀ i j, i < rows → j < rows → obj.dis.get env.ar.zeroW i j = .ok (distOf env.dops f i j)) ∧
      (∀ i, i < rows → obj.dis.coreDistances[i]? = some (some (core i)) ∧ CCmp.le (core i) env.ar.dmax = true ∧
        (CCmp.lt (core i) env.ar.dmax = true ↔ AtLeast m (fun j => j < rows ∧ CCmp.lt (distOf env.dops f i j) env.ar.dmax = true))) ∧
      Nested rows env.ar.zeroW obj.results.hierarchy ∧
      (∀ i w A, (i, w, A) ∈ obj.results.hierarchy → i ≠ 0 → CCmp.le w env.ar.dmax = true) ∧
      (∀ i w A, (i, w, A) ∈ obj.results.hierarchy → i ≠ 0 → CCmp.lt w env.ar.dmax = true → Shows rows m (distOf env.dops f) core env.ar.dmax w A) ∧
      ClusterTree obj.results.clusters ∧ NoOnlyChild obj.results.clusters ∧
      (∃ root : Cl (Ieee V) S, obj.results.clusters[1]? = some (some root) ∧ Selection obj.results.clusters root.desc ∧ obj.results.labels.length = rows ∧
        (∀ p l, l ≠ 0 → (obj.results.labels[p]? = some l ↔ l ∈ root.desc ∧ lost l = false ∧ MemberAtBirth obj.results.hierarchy l p)) ∧
        ∀ l ∈ root.desc, lost l = false → AtLeast m (fun p => obj.results.labels[p]? = some l)) ∧
      (obj.results.outliers.map (·.id)).Perm (List.range rows) ∧ obj.results.outliers.Pairwise InOrder ∧ ∀ o ∈ obj.results.outliers, o.core = core o.id := by
  obtain ⟨O, C, key⟩ := C71_any_data env hd hq data rows cols f h h5
  obtain ⟨a1, a2, a3, a4, a5, sd, -⟩ := key m hm
  obtain ⟨root, r1, r3, r4, r5, r6⟩ := sd.labels
  obtain ⟨o2, b1, b2, -⟩ := C63_any_partial env hd hq data rows cols f h h5 m hm
  obtain rfl : o2 = O m := fresh_same b1 a1
  obtain ⟨obj, lost, -, s2, s3⟩ := b2 th hth
  have hr : obj.results.clusters[1]? = some (some (if lost 1 then { root with offset := 0 } else root)) := by
    rw [s2.clusters 1, r1]; rfl
  have hdsc : (if lost 1 then { root with offset := 0 } else root).desc = root.desc := by split <;> rfl
  refine ⟨obj, C m, lost, s3, by rw [s2.minPoints, a2], by rw [s2.numPoints, a3], by rw [s2.dis]; exact a4, by rw [s2.dis]; exact a5, by rw [s2.hierarchy]; exact sd.nested,
    by rw [s2.hierarchy]; exact sd.weights, by rw [s2.hierarchy]; exact sd.shown, lost_tree s2 sd.tree, by unfold NoOnlyChild; rw [lost_child s2]; exact sd.siblings,
    ⟨_, hr, by rw [hdsc]; exact lost_selection s2 r3, by rw [s2.labels, List.length_map, r4], fun p l hl => ?_, fun l hl hk => ?_⟩,
    by rw [s2.outliers]; exact sd.everyone, by rw [s2.outliers]; exact sd.sorted, by rw [s2.outliers]; exact sd.cores⟩
  · rw [hdsc, lost_label s2 p l hl, r5 p l hl, s2.hierarchy]
    tauto
  · rw [hdsc] at hl
    have hl0 : l ≠ 0 := by
      obtain ⟨q, hq⟩ := r3.notRoot l hl
      have := sd.tree.up l q hq
      omega
    obtain ⟨ps, p1, p2, p3⟩ := r6 l hl
    exact ⟨ps, p1, p2, fun p hp => (lost_label s2 p l hl0).2 ⟨p3 p hp, hk⟩⟩

/-- A case: data with NaN, and threads that read an old value. -/
example := C71_threads nanEnv ⟨1000, rfl⟩ (isort_sorts _) nanPts 8 1 (nanSq nanPts) (nan_readable nanPts (by decide)) (by omega) 2 (by omega) hasty hasty_interleaves

end Verif.Props
