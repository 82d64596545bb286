import Verif.Props.AnyThreads
import Verif.Props.Rearrange
/-
C55, C61 and C62 for every interleaving of threads.
-/
namespace Verif.Props
open Spec Race
variable {D W S T : Type}

theorem lost_child {lost : Nat → Bool} {a b : Api.Obj W S T} (h : SameButLost lost a b) : IsChild b.results.clusters = IsChild a.results.clusters := by
  funext l q
  refine propext ⟨fun ⟨c, h1, h2⟩ => ?_, fun ⟨c, h1, h2⟩ => ?_⟩
  · rw [h.clusters l] at h1
    cases hc : a.results.clusters[l]? with
    | none => rw [hc] at h1; simp at h1
    | some x =>
      rw [hc] at h1
      cases x with
      | none => simp at h1
      | some x =>
        refine ⟨x, hc, ?_⟩
        simp only [Option.map_some, Option.some.injEq] at h1
        rw [← h2, ← h1]
        split <;> rfl
  · refine ⟨if lost l then { c with offset := 0 } else c, by rw [h.clusters l, h1]; rfl, ?_⟩
    rw [← h2]
    split <;> rfl

theorem lost_cl {lost : Nat → Bool} {a b : Api.Obj W S T} (h : SameButLost lost a b) {l : Nat} {c : Cl W S} (hc : b.results.clusters[l]? = some (some c)) :
    ∃ c0 : Cl W S, a.results.clusters[l]? = some (some c0) ∧ c = if lost l then { c0 with offset := 0 } else c0 := by
  rw [h.clusters l] at hc
  cases hx : a.results.clusters[l]? with
  | none => rw [hx] at hc; simp at hc
  | some x =>
    rw [hx] at hc
    cases x with
    | none => simp at hc
    | some x => exact ⟨x, rfl, by simpa using hc.symm⟩

theorem lost_length {lost : Nat → Bool} {a b : Api.Obj W S T} (h : SameButLost lost a b) : b.results.clusters.length = a.results.clusters.length := by
  refine le_antisymm ?_ ?_
  · rw [← List.getElem?_eq_none_iff, h.clusters, List.getElem?_eq_none le_rfl]; rfl
  · have := h.clusters b.results.clusters.length
    rw [List.getElem?_eq_none le_rfl, eq_comm, Option.map_eq_none_iff] at this
    exact List.getElem?_eq_none_iff.1 this

theorem lost_tree {lost : Nat → Bool} {a b : Api.Obj W S T} (h : SameButLost lost a b) (t : ClusterTree a.results.clusters) : ClusterTree b.results.clusters where
  zero := by rw [h.clusters 0, t.zero]; rfl
  two := by rw [lost_length h]; exact t.two
  cl l h1 h2 := by
    obtain ⟨c, c1, c2⟩ := t.cl l h1 (by rw [← lost_length h]; exact h2)
    exact ⟨if lost l then { c with offset := 0 } else c, by rw [h.clusters l, c1]; rfl, by rw [← c2]; split <;> rfl⟩
  root l c hc := by
    obtain ⟨c0, h0, rfl⟩ := lost_cl h hc
    rw [← t.root l c0 h0]
    split <;> rfl
  up l q hlq := t.up l q (by rw [← lost_child h]; exact hlq)
  kids l c hc := by
    obtain ⟨c0, h0, rfl⟩ := lost_cl h hc
    rw [lost_child h, ← t.kids l c0 h0]
    split <;> rfl

theorem lost_selection {lost : Nat → Bool} {a b : Api.Obj W S T} (h : SameButLost lost a b) {l : List Nat} (t : Selection a.results.clusters l) : Selection b.results.clusters l where
  nodup := t.nodup
  notRoot := by rw [lost_child h]; exact t.notRoot
  apart := by unfold Above; rw [lost_child h]; exact t.apart
  covers := by unfold Leaf AtOrAbove; rw [lost_child h]; exact t.covers

private theorem lowest_lost [LinearOrder W] {lost : Nat → Bool} {a b : Api.Obj W S T} (h : SameButLost lost a b) {l : Nat} {w : W} (t : LowestBelow a.results.clusters l w) :
    LowestBelow b.results.clusters l w := by
  unfold LowestBelow AtOrAbove at *
  rw [lost_child h]
  obtain ⟨⟨k, c, k1, k2, k3, k4⟩, t2⟩ := t
  refine ⟨⟨k, if lost k then { c with offset := 0 } else c, by rw [h.clusters k, k1]; rfl, k2, k3, by rw [← k4]; split <;> rfl⟩, fun k' c' h1 h2 h3 => ?_⟩
  obtain ⟨c0, h0, rfl⟩ := lost_cl h h1
  have := t2 k' c0 h0 h2 h3
  split <;> exact this

/-- **C55 for every interleaving of threads**: the run completes; distances, hierarchy, cluster tree, the selected clusters and the outlier scores are as in `C55_run_partial`; each selected cluster is either kept,
    and then its label is carried by exactly its first members, or lost, and then its members are noise.
    Missing: no selected cluster is lost, which is false with some interleavings (C37, C63). -/
theorem C55_threads_partial [LinearOrder W] [CCmp S] [LinearOrder T] (env : Api.Env D W S T) (hq : SortsAscending env.qsort) (data : List D) (rows cols : Nat) (f : Nat → Nat → W)
    (h : Supported env data rows cols f) (h5 : 5 ≤ rows) (m : Nat) (hm : 2 ≤ m) (hmr : m ≤ rows) (th : Threads) (hth : Interleaves th) :
    ∃ (obj : Api.Obj W S T) (core : Nat → W) (lost : Nat → Bool), (∀ par, Complete rows rows par → Race.fresh th env par m data rows cols true = .ok obj) ∧
      obj.minPoints = m ∧ obj.numPoints = rows ∧
      (∀ i j, i < rows → j < rows → obj.dis.get env.ar.zeroW i j = .ok (distOf env.dops f i j)) ∧
      (∀ i, i < rows → obj.dis.coreDistances[i]? = some (some (core i)) ∧ core i < env.ar.dmax) ∧
      (∀ i w A, (i, w, A) ∈ obj.results.hierarchy → i ≠ 0 → A.length = rows ∧
        (∀ u v lu lv, A[u]? = some lu → A[v]? = some lv → lu ≠ 0 → lv ≠ 0 → (lu = lv ↔ Reachable rows (mutualReach (distOf env.dops f) core) w u v)) ∧
        (∀ u lu, A[u]? = some lu → (lu = 0 ↔ ¬ AtLeast m (fun v => Reachable rows (mutualReach (distOf env.dops f) core) w u v)))) ∧
      (∃ root : Cl W S, obj.results.clusters[1]? = some (some root) ∧ ClusterTree obj.results.clusters ∧ Selection obj.results.clusters root.desc ∧
        obj.results.labels.length = rows ∧
        (∀ p l, l ≠ 0 → (obj.results.labels[p]? = some l ↔ l ∈ root.desc ∧ lost l = false ∧ MemberAtBirth obj.results.hierarchy l p)) ∧
        (∀ l ∈ root.desc, lost l = false → AtLeast m (fun p => obj.results.labels[p]? = some l))) ∧
      (obj.results.outliers.map (·.id)).Perm (List.range rows) ∧ obj.results.outliers.Pairwise Before ∧
      (∀ o ∈ obj.results.outliers, o.core = core o.id) ∧
      (obj.results.clusters.length ≠ 2 → ∀ o ∈ obj.results.outliers, ∃ eps epsmax l i, 1 ≤ i ∧ l ≠ 0 ∧ Carries obj.results.hierarchy i o.id l ∧
        HasWeight obj.results.hierarchy i eps ∧ (∀ j x, i < j → Carries obj.results.hierarchy j o.id x → x = 0) ∧ LowestBelow obj.results.clusters l epsmax ∧
        o.score = if eps = env.ar.zeroW then env.oops.zero else env.oops.ratio epsmax eps) := by
  obtain ⟨o1, core, a1, a2, a3, a4, a5, a6, ⟨root, r1, r2, r3, r4, r5, r6⟩, a8, a9, a10, a11⟩ := C55_run_partial env hq data rows cols f h h5 m hm hmr
  obtain ⟨o2, b1, b2, -⟩ := C63_threads_partial env hq data rows cols f h h5 m hm hmr
  obtain rfl : o2 = o1 := fresh_same b1 a1
  obtain ⟨obj, lost, -, s2, s3⟩ := b2 th hth
  have hr : obj.results.clusters[1]? = some (some (if lost 1 then { root with offset := 0 } else root)) := by
    rw [s2.clusters 1, r1]; rfl
  have hd : (if lost 1 then { root with offset := 0 } else root).desc = root.desc := by split <;> rfl
  refine ⟨obj, core, lost, s3, by rw [s2.minPoints, a2], by rw [s2.numPoints, a3], by rw [s2.dis]; exact a4, by rw [s2.dis]; exact a5, by rw [s2.hierarchy]; exact a6,
    ⟨_, hr, lost_tree s2 r2, by rw [hd]; exact lost_selection s2 r3, by rw [s2.labels, List.length_map, r4], fun p l hl => ?_, fun l hl hk => ?_⟩,
    by rw [s2.outliers]; exact a8, by rw [s2.outliers]; exact a9, by rw [s2.outliers]; exact a10, fun hne o ho => ?_⟩
  · rw [hd, lost_label s2 p l hl, r5 p l hl, s2.hierarchy]
    tauto
  · rw [hd] at hl
    have hl0 : l ≠ 0 := by
      obtain ⟨q, hq⟩ := r3.notRoot l hl
      have := r2.up l q hq
      omega
    obtain ⟨ps, p1, p2, p3⟩ := r6 l hl
    exact ⟨ps, p1, p2, fun p hp => (lost_label s2 p l hl0).2 ⟨p3 p hp, hk⟩⟩
  · obtain ⟨eps, epsmax, l, i, k1, k2, k3, k4, k5, k6, k7⟩ := a11 (by rw [← lost_length s2]; exact hne) o (by rw [← s2.outliers]; exact ho)
    rw [s2.hierarchy]
    exact ⟨eps, epsmax, l, i, k1, k2, k3, k4, k5, lowest_lost s2 k6, k7⟩

/-- A case: the points of C55, with threads that read an old value. -/
example := C55_threads_partial lineEnv (isort_sorts _) linePts 5 1 (lineSq linePts) linePts_supported (by omega) 2 (by omega) (by omega) hasty hasty_interleaves

theorem run_lost [LinearOrder W] [CCmp S] [LinearOrder T] {env : Api.Env D W S T} (hq : SortsAscending env.qsort) {data : List D} {rows cols : Nat} {f : Nat → Nat → W}
    (h : Supported env data rows cols f) (h5 : 5 ≤ rows) {m : Nat} (hm : 2 ≤ m) (hmr : m ≤ rows) {obj : Api.Obj W S T}
    (hf : ∀ par, Complete rows rows par → Api.fresh env par m data rows cols true = .ok obj) {th : Threads} (hth : Interleaves th) :
    ∃ (o : Api.Obj W S T) (lost : Nat → Bool), (∀ par, Complete rows rows par → Race.fresh th env par m data rows cols true = .ok o) ∧ SameButLost lost obj o := by
  obtain ⟨o2, b1, b2, -⟩ := C63_threads_partial env hq data rows cols f h h5 m hm hmr
  obtain rfl : o2 = obj := fresh_same b1 hf
  obtain ⟨o, lost, -, s2, s3⟩ := b2 th hth
  exact ⟨o, lost, s3, s2⟩

/-- **C61 for every interleaving of threads** in each of the two runs, for everything but the labels: core distances, hierarchy, number of clusters and outlier scores are those of the rearranged rows.
    Missing: repeated distances as in C19, and the labels, of which the race loses some (C63). -/
theorem C61_threads_partial [LinearOrder W] [CCmp S] [LinearOrder T] (env : Api.Env D W S T) (hq : SortsAscending env.qsort) (ha : PlainArith env.dops) (data data' : List D) (rows cols : Nat)
    (f f' : Nat → Nat → W) (h : Supported env data rows cols f) (h' : Supported env data' rows cols f') (h5 : 5 ≤ rows) (m : Nat) (hm : 2 ≤ m) (hmr : m ≤ rows) (σ : Nat → Nat)
    (hσ : Rearranges rows σ) (hrow : ∀ i, i < rows → SameRow data data' cols i (σ i)) (htie : Untied rows m (distOf env.dops f)) (th th' : Threads) (hth : Interleaves th) (hth' : Interleaves th') :
    ∃ (obj obj' : Api.Obj W S T) (φ : Nat → Nat),
      (∀ par, Complete rows rows par → Race.fresh th env par m data rows cols true = .ok obj ∧ Race.fresh th' env par m data' rows cols true = .ok obj') ∧
      (∀ i, i < rows → ∃ c, obj.dis.coreDistances[i]? = some (some c) ∧ obj'.dis.coreDistances[σ i]? = some (some c)) ∧
      SameHierarchy rows σ φ id obj.results.hierarchy obj'.results.hierarchy ∧
      obj'.results.clusters.length = obj.results.clusters.length ∧
      (∀ a ∈ obj.results.outliers, ∃ b ∈ obj'.results.outliers, b.id = σ a.id ∧ b.core = a.core ∧ b.score = a.score) := by
  obtain ⟨a, b, φ, hab, h1, h2, h3, h4⟩ := C61_rearranged_partial env hq ha data data' rows cols f f' h h' h5 m hm hmr σ hσ hrow htie
  obtain ⟨o, lost, p1, p2⟩ := run_lost hq h h5 hm hmr (fun par hp => (hab par hp).1) hth
  obtain ⟨o', lost', q1, q2⟩ := run_lost hq h' h5 hm hmr (fun par hp => (hab par hp).2) hth'
  rw [← p2.dis, ← q2.dis] at h1
  rw [← p2.hierarchy, ← q2.hierarchy] at h2
  rw [← p2.outliers, ← q2.outliers] at h4
  exact ⟨o, o', φ, fun par hp => ⟨p1 par hp, q1 par hp⟩, h1, h2, by rw [lost_length p2, lost_length q2, h3], h4⟩

/-- **C62 for every interleaving of threads** in each of the two runs, for everything but labels and scores: distances that are transformed by a strictly increasing function give the transformed hierarchy. -/
theorem C62_threads [LinearOrder W] [CCmp S] [LinearOrder T] (env : Api.Env D W S T) (hq : SortsAscending env.qsort) (data data' : List D) (rows cols cols' : Nat) (f f' : Nat → Nat → W)
    (h : Supported env data rows cols f) (h' : Supported env data' rows cols' f') (h5 : 5 ≤ rows) (m : Nat) (hm : 2 ≤ m) (hmr : m ≤ rows) (ψ : W → W) (hψ : StrictMono ψ)
    (h0 : ψ env.dops.zero = env.dops.zero) (hd : ∀ i j, i < j → j < rows → env.dops.sqrt (f' i j) = ψ (env.dops.sqrt (f i j))) (th th' : Threads) (hth : Interleaves th) (hth' : Interleaves th') :
    ∃ (obj obj' : Api.Obj W S T) (φ : Nat → Nat),
      (∀ par, Complete rows rows par → Race.fresh th env par m data rows cols true = .ok obj ∧ Race.fresh th' env par m data' rows cols' true = .ok obj') ∧
      (∀ i, i < rows → ∃ c, obj.dis.coreDistances[i]? = some (some c) ∧ obj'.dis.coreDistances[i]? = some (some (ψ c))) ∧
      SameHierarchy rows id φ ψ obj.results.hierarchy obj'.results.hierarchy ∧
      obj'.results.clusters.length = obj.results.clusters.length := by
  obtain ⟨a, b, φ, hab, h1, h2, h3⟩ := C62_monotone env hq data data' rows cols cols' f f' h h' h5 m hm hmr ψ hψ h0 hd
  obtain ⟨o, lost, p1, p2⟩ := run_lost hq h h5 hm hmr (fun par hp => (hab par hp).1) hth
  obtain ⟨o', lost', q1, q2⟩ := run_lost hq h' h5 hm hmr (fun par hp => (hab par hp).2) hth'
  rw [← p2.dis, ← q2.dis] at h1
  rw [← p2.hierarchy, ← q2.hierarchy] at h2
  exact ⟨o, o', φ, fun par hp => ⟨p1 par hp, q1 par hp⟩, h1, h2, by rw [lost_length p2, lost_length q2, h3]⟩

/-- Cases of C61 and C62: those of the theorems with one thread. -/
example := C61_threads_partial lineEnv (isort_sorts _) lineEnv_plain linePts [3, 9, 1, 7, 0] 5 1 _ _ linePts_supported linePtsRev_supported (by omega) 3 (by omega) (by omega) (fun i => 4 - i)
  rev_rearranges rev_rows linePts_untied hasty hasty hasty_interleaves hasty_interleaves
example := C62_threads lineEnv (isort_sorts _) linePts [0, 14, 2, 18, 6] 5 1 1 _ _ linePts_supported linePts2_supported (by omega) 2 (by omega) (by omega) (2 * ·)
  (fun a b hab => mul_lt_mul_of_pos_left hab (by norm_num)) (mul_zero 2) linePts2_double hasty hasty hasty_interleaves hasty_interleaves

end Verif.Props
