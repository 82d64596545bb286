import Verif.Lemmas.Api
/-
C49, C51, C52, C53, C55: whole runs.
-/
namespace Verif.Props
open Spec
variable {D W S T : Type}

/-! ### C55 -/

/-- A run that succeeds contains the hierarchy that the first stages construct. -/
theorem full_hierarchy [CCmp W] [CCmp S] [CCmp T] {qsort : (OScore W T → OScore W T → Int) → List (OScore W T) → List (OScore W T)} {ar : Arith W S} {smax : S}
    {ops : Outlier.Ops W T} {sch : Run.Schedule} {order : List Nat} {m : Nat} {dis : Distance W} {n : Nat} {out : Run.Full W S T}
    (h : Run.full qsort ar smax ops sch order m dis n = .ok out) :
    Run.doRun ar smax sch m dis n = .ok out.toOut ∧ ∃ res, Run.hierarchy ar m dis n = .ok res ∧ res.hierarchy = out.hierarchy := by
  unfold Run.full at h
  obtain ⟨o, e1, e2⟩ := Outcome.bind_eq_ok.mp h
  obtain ⟨sc, e3, e4⟩ := Outcome.bind_eq_ok.mp e2
  cases e4
  refine ⟨e1, ?_⟩
  unfold Run.doRun at e1
  obtain ⟨g, a1, a2⟩ := Outcome.bind_eq_ok.mp e1
  obtain ⟨g', a3, a4⟩ := Outcome.bind_eq_ok.mp a2
  unfold Run.fromTree at a4
  obtain ⟨res, b1, b2⟩ := Outcome.bind_eq_ok.mp a4
  obtain ⟨s, b3, b4⟩ := Outcome.bind_eq_ok.mp b2
  obtain ⟨l, b5, b6⟩ := Outcome.bind_eq_ok.mp b4
  cases b6
  exact ⟨res, by rw [Run.hierarchy, a1]; simp only [Outcome.ok_bind, a3]; exact b1, rfl⟩

/-- **C55**, but for the data race of C37. For every supported data set of `5 ≤ rows ≤ 65536` points and every `2 ≤ m ≤ rows`, `hdbscan_init` and `hdbscan_run` complete without undefined behaviour,
    failed assertion or endless loop, with the same result for every schedule of the parallel loops, and:
    the stored distances are the distances between the rows, and the core distances are less than `D_MAX`;
    in a hierarchy line of weight `w` two points carry the same label exactly when they are connected by steps of mutual reachability at most `w`, and a point is
    noise exactly when fewer than `m` points are connected to it in that way;
    the labels are those of a selection of clusters of the tree, none above another, each labelling exactly its first members, at least `m` points;
    the outlier scores contain every point once, in ascending order, and are GLOSH scores when the hierarchy splits.
    Missing: the loop that assigns the offsets of new clusters (hdbscan.c 669-679) shares a variable between threads, which is undefined behaviour with more than one
    thread (C37); here its iterations are executed one after the other. All other parallel loops run in any order. -/
theorem C55_run_partial [LinearOrder W] [CCmp S] [LinearOrder T] (env : Api.Env D W S T) (hq : SortsAscending env.qsort) (data : List D) (rows cols : Nat) (f : Nat → Nat → W)
    (h : Supported env data rows cols f) (h5 : 5 ≤ rows) (m : Nat) (hm : 2 ≤ m) (hmr : m ≤ rows) :
    ∃ (obj : Api.Obj W S T) (core : Nat → W), (∀ par, Complete rows rows par → Api.fresh env par m data rows cols true = .ok obj) ∧
      obj.minPoints = m ∧ obj.numPoints = rows ∧
      (∀ i j, i < rows → j < rows → obj.dis.get env.ar.zeroW i j = .ok (distOf env.dops f i j)) ∧
      (∀ i, i < rows → obj.dis.coreDistances[i]? = some (some (core i)) ∧ core i < env.ar.dmax) ∧
      (∀ i w A, (i, w, A) ∈ obj.results.hierarchy → i ≠ 0 → A.length = rows ∧
        (∀ u v lu lv, A[u]? = some lu → A[v]? = some lv → lu ≠ 0 → lv ≠ 0 → (lu = lv ↔ Reachable rows (mutualReach (distOf env.dops f) core) w u v)) ∧
        (∀ u lu, A[u]? = some lu → (lu = 0 ↔ ¬ AtLeast m (fun v => Reachable rows (mutualReach (distOf env.dops f) core) w u v)))) ∧
      (∃ root : Cl W S, obj.results.clusters[1]? = some (some root) ∧ ClusterTree obj.results.clusters ∧ Selection obj.results.clusters root.desc ∧
        obj.results.labels.length = rows ∧
        (∀ p l, l ≠ 0 → (obj.results.labels[p]? = some l ↔ l ∈ root.desc ∧ MemberAtBirth obj.results.hierarchy l p)) ∧
        (∀ l ∈ root.desc, AtLeast m (fun p => obj.results.labels[p]? = some l))) ∧
      (obj.results.outliers.map (·.id)).Perm (List.range rows) ∧ obj.results.outliers.Pairwise Before ∧
      (∀ o ∈ obj.results.outliers, o.core = core o.id) ∧
      (obj.results.clusters.length ≠ 2 → ∀ o ∈ obj.results.outliers, ∃ eps epsmax l i, 1 ≤ i ∧ l ≠ 0 ∧ Carries obj.results.hierarchy i o.id l ∧
        HasWeight obj.results.hierarchy i eps ∧ (∀ j x, i < j → Carries obj.results.hierarchy j o.id x → x = 0) ∧ LowestBelow obj.results.clusters l epsmax ∧
        o.score = if eps = env.ar.zeroW then env.oops.zero else env.oops.ratio epsmax eps) := by
  have hfew := h.few
  obtain ⟨C, core, O, key⟩ := api_rep h hq (by omega)
  obtain ⟨k1, k2, k3, k4⟩ := key m (by omega) hmr
  have hseq : Complete rows rows ⟨Distance.pairs rows, List.range rows, seqSchedule, List.range rows⟩ := ⟨.refl _, .refl _, seqSchedule_complete, .refl _⟩
  obtain ⟨_, hfull, _⟩ := k4 _ hseq
  obtain ⟨e1, res, e2, e3⟩ := full_hierarchy hfull
  have hget : ∀ i j, i < rows → j < rows → i ≠ j → (C m).get env.ar.zeroW i j = .ok (distOf env.dops f i j) := fun i j hi hj _ => k1 i j hi hj
  obtain ⟨res', r1, r2⟩ := C26_data env.ar m hm (C m) rows hmr (by omega) (distOf env.dops f) (core m) hget (distOf_symm _ _) (fun i hi => (k2 i hi).1) k3
  rw [e2] at r1; cases r1
  obtain ⟨out, o1, o2⟩ := C35_data env.ar env.smax m (by omega) (C m) rows (by omega) (by omega) (distOf env.dops f) (core m) hget (distOf_symm _ _) (fun i hi => (k2 i hi).1) k3
  have := o1 seqSchedule seqSchedule_complete
  rw [e1] at this; cases this
  obtain ⟨out', p1, p2, p3, p4⟩ := full_rep env.qsort env.ar env.smax env.oops m (C m) rows (distOf env.dops f) (core m) hq (by omega) (by omega) (by omega) hget
    (distOf_symm _ _) (fun i hi => (k2 i hi).1) k3
  have := p1 seqSchedule _ seqSchedule_complete (.refl _)
  rw [hfull] at this; cases this
  refine ⟨⟨m, rows, C m, O m⟩, core m, fun par hp => ?_, rfl, rfl, k1, k2, ?_, o2, p2, p3, fun o ho => (p4 o ho).2.1, fun hl o ho => ?_⟩
  · rw [Api.fresh, Api.initObj, if_pos (by omega), Outcome.ok_bind]
    exact (k4 par hp).2.2.2.1 h5
  · rw [← e3]; exact r2
  · obtain ⟨_, _, eps, l, c, _, _, _, _, ⟨i, i1, i2, i3, i4, i5⟩, q, _, r⟩ := p4 o ho
    exact ⟨eps, c.propLowest, l, i, i1, i2, i3, i4, i5, (r hl).2.1, q⟩

/-! ### C49 -/

/-- **C49**, but for the data race of C37. After `hdbscan_init(m0)`, `hdbscan_run` and any sequence of reruns the last of which has minPoints `m`, the object (labels, hierarchy, clusters, outlier
    scores, distances, core distances, counts) is the one that `hdbscan_init(m)` and `hdbscan_run` give on the same data; for all schedules of all calls.
    minPoints is between 2 and the number of points in every call.
    Missing: interleavings of the loop that assigns offsets, as in C55. -/
theorem C49_rerun_partial [LinearOrder W] [CCmp S] [LinearOrder T] (env : Api.Env D W S T) (hq : SortsAscending env.qsort) (data : List D) (rows cols : Nat) (f : Nat → Nat → W)
    (h : Supported env data rows cols f) (h5 : 5 ≤ rows) (m0 : Nat) (hm0 : 2 ≤ m0 ∧ m0 ≤ rows) (par0 : Api.Par) (hp0 : Complete rows rows par0)
    (hist : List (Nat × Api.Par)) (hhist : ∀ c ∈ hist, (2 ≤ c.1 ∧ c.1 ≤ rows) ∧ Complete rows rows c.2)
    (m : Nat) (hm : 2 ≤ m ∧ m ≤ rows) (par par' : Api.Par) (hp : Complete rows rows par) (hp' : Complete rows rows par') :
    ∃ obj0 obj, Api.fresh env par0 m0 data rows cols true = .ok obj0 ∧ Api.reruns env (hist ++ [(m, par)]) obj0 = .ok obj ∧
      Api.fresh env par' m data rows cols true = .ok obj := by
  obtain ⟨C, core, O, key⟩ := api_rep h hq (by omega)
  have hfresh : ∀ m, 2 ≤ m ∧ m ≤ rows → ∀ par, Complete rows rows par → Api.fresh env par m data rows cols true = .ok ⟨m, rows, C m, O m⟩ := by
    intro m hm par hp
    rw [Api.fresh, Api.initObj, if_pos (by omega), Outcome.ok_bind]
    exact ((key m (by omega) hm.2).2.2.2 par hp).2.2.2.1 h5
  refine ⟨_, _, hfresh m0 hm0 par0 hp0, ?_, hfresh m hm par' hp'⟩
  clear hp0
  induction hist generalizing m0 with
  | nil =>
    rw [List.nil_append, Api.reruns, ((key m (by omega) hm.2).2.2.2 par hp).2.2.2.2 m0 (by omega) hm0.2]
    rfl
  | cons c r ih =>
    obtain ⟨hc, hpc⟩ := hhist c (by simp)
    rw [List.cons_append, Api.reruns, ((key c.1 (by omega) hc.2).2.2.2 c.2 hpc).2.2.2.2 m0 (by omega) hm0.2, Outcome.ok_bind]
    exact ih c.1 hc (fun x hx => hhist x (by simp [hx]))

/-- A rerun with minPoints 0 is undefined behaviour (an array of length 0 is accessed); `hdbscan_rerun` does not check its argument as `hdbscan_init` does. -/
theorem C49_zero [CCmp W] [CCmp S] [CCmp T] (env : Api.Env D W S T) (par : Api.Par) (o : Api.Obj W S T) : (Api.rerun env par 0 o).IsUB := ⟨_, rfl⟩

/-! ### C51 -/

/-- **C51, the part that holds**: for 5 to 65536 points. Missing: fewer than 5 points (`C51_violated`) and more than 65536, which the distance matrix
    does not support (C17). -/
theorem C51_sizes_partial [LinearOrder W] [CCmp S] [LinearOrder T] (env : Api.Env D W S T) (hq : SortsAscending env.qsort) (data : List D) (rows cols : Nat) (f : Nat → Nat → W)
    (h : Supported env data rows cols f) (h5 : 5 ≤ rows) (m : Nat) (hm : 2 ≤ m) (hmr : m ≤ rows) (par : Api.Par) (hp : Complete rows rows par) :
    (Api.fresh env par m data rows cols true).Returns :=
  let ⟨obj, _, e, _⟩ := C55_run_partial env hq data rows cols f h h5 m hm hmr
  ⟨obj, e par hp⟩

/-- **C51 is violated** by every data set of fewer than 5 points: the cluster list is created with initial size 0, which fails an assertion. -/
theorem C51_violated [LinearOrder W] [CCmp S] [CCmp T] (env : Api.Env D W S T) (data : List D) (rows cols : Nat) (f : Nat → Nat → W)
    (h : Supported env data rows cols f) (h5 : rows < 5) (m : Nat) (hm : 2 ≤ m) (par : Api.Par) (hp : Complete rows rows par) :
    (Api.fresh env par m data rows cols true).Aborts := by
  obtain ⟨C, hC, _⟩ := compute_unique h
  rw [Api.fresh, Api.initObj, if_pos (by omega), Outcome.ok_bind, Api.run, hC _ _ _ hp.pairs hp.cores, Outcome.ok_bind]
  have : Api.csize (Api.datasetSize rows cols true) = 0 := by
    simp only [Api.datasetSize, if_true, Api.csize]; split <;> omega
  rw [this]
  exact ⟨_, rfl⟩

/-! ### C52 -/

/-- **C52, the part that holds**: the number of points is the number of rows when `rowwise` is 1, and in a single column otherwise.
    Missing: several columns and `rowwise` not 1 (`C52_violated`). -/
theorem C52_size_partial (rows cols : Nat) (hr : rows < 2 ^ 32) :
    Api.datasetSize rows cols true = rows ∧ Api.datasetSize rows 1 false = rows := by
  simp only [Api.datasetSize, Nat.mul_one, Nat.mod_eq_of_lt hr]
  simp

/-- **C52, the part that holds**, for whole runs: with `rowwise` 1, or with a single column whatever the flag, as many points are clustered as there are rows, each with a label, a score and
    distances. Missing: several columns and `rowwise` not 1 (`C52_violated`). -/
theorem C52_run_partial [LinearOrder W] [CCmp S] [LinearOrder T] (env : Api.Env D W S T) (hq : SortsAscending env.qsort) (data : List D) (rows cols : Nat) (f : Nat → Nat → W)
    (h : Supported env data rows cols f) (h5 : 5 ≤ rows) (m : Nat) (hm : 2 ≤ m) (hmr : m ≤ rows) (rowwise : Bool) (hw : rowwise = true ∨ cols = 1) (par : Api.Par) (hp : Complete rows rows par) :
    ∃ obj : Api.Obj W S T, Api.fresh env par m data rows cols rowwise = .ok obj ∧ obj.numPoints = rows ∧ obj.results.labels.length = rows ∧ obj.results.outliers.length = rows ∧
      ∀ i j, i < rows → j < rows → obj.dis.get env.ar.zeroW i j = .ok (distOf env.dops f i j) := by
  obtain ⟨obj, core, hf, -, hn, hget, -, -, ⟨root, -, -, -, hl, -⟩, ho, -⟩ := C55_run_partial env hq data rows cols f h h5 m hm hmr
  have hds : Api.datasetSize rows cols rowwise = Api.datasetSize rows cols true := by
    have hfew := h.few
    obtain ⟨h1, h2⟩ := C52_size_partial rows cols (by omega)
    rcases hw with rfl | rfl
    · rfl
    · cases rowwise
      · rw [h1, h2]
      · rfl
  have e : Api.fresh env par m data rows cols rowwise = Api.fresh env par m data rows cols true := by
    simp only [Api.fresh, Api.run, hds]
  refine ⟨obj, by rw [e, hf par hp], hn, hl, ?_, hget⟩
  simpa using ho.length_eq

/-- Constructing the spanning tree of more points than there are rows reads outside the core distances. -/
theorem construct_outside [CCmp W] (zero dmax : W) (dis : Distance W) (n : Nat) (hn : 2 ≤ n) (hc : dis.coreDistances.length < n) : (Mst.construct zero dmax true dis n).IsUB := by
  have hg : (∃ x, dis.get zero 0 (n - 1) = .ok x) ∨ ∃ s, dis.get zero 0 (n - 1) = .ub s := by
    rw [Distance.get, if_pos (by omega), rdInit, rd]
    cases dis.distances[cellGet dis.rows 0 (n - 1)]? with
    | none => exact .inr ⟨_, rfl⟩
    | some o =>
      cases o with
      | none => exact .inr ⟨_, rfl⟩
      | some x => exact .inl ⟨x, rfl⟩
  have hcore : ∃ s, rdInit dis.coreDistances (n - 1) = .ub s := by
    rw [rdInit, rd, List.getElem?_eq_none (by omega)]; exact ⟨_, rfl⟩
  have hm : ∃ s, Mst.mrd zero dis 0 (n - 1) = .ub s := by
    rcases hg with ⟨x, e⟩ | ⟨s, e⟩
    · obtain ⟨s, e'⟩ := hcore
      exact ⟨s, by rw [Mst.mrd, e, Outcome.ok_bind, e']; rfl⟩
    · exact ⟨s, by rw [Mst.mrd, e]; rfl⟩
  obtain ⟨s, e⟩ := hm
  obtain ⟨k, rfl⟩ : ∃ k, n = k + 2 := ⟨n - 2, by omega⟩
  refine ⟨s, ?_⟩
  have hscan : ∀ sc, Mst.scan zero dis (List.replicate (k + 1) false ++ [true]) (k + 1) (List.range (k + 2)) sc = .ub s := by
    intro sc
    rw [List.range_succ_eq_map, Mst.scan, if_neg (by omega), rd_ok (by simp), Outcome.ok_bind]
    rw [List.getElem_append_left (by simp), List.getElem_replicate, if_neg (by simp)]
    have : Mst.visit zero dis (k + 1) 0 sc = .ub s := by rw [Mst.visit, show k + 1 = k + 2 - 1 by omega, e]; rfl
    rw [this]; rfl
  have hgrow : ∀ a b c, Mst.grow zero dmax dis (k + 2) (k + 1) 1 (k + 1) (List.replicate (k + 1) false ++ [true]) a b c = .ub s := by
    intro a b c
    rw [Mst.grow, hscan]; rfl
  simp only [Mst.construct, show k + 2 - 1 = k + 1 by omega, hgrow]
  rfl

/-- **C52 is violated**: for every supported data set with several columns and `rowwise` not 1, the number of points clustered is `rows * cols` (short of 2^32), and if that is
    at least 5 the run reads outside the distance matrix. -/
theorem C52_violated [LinearOrder W] [CCmp S] [CCmp T] (env : Api.Env D W S T) (data : List D) (rows cols : Nat) (f : Nat → Nat → W)
    (h : Supported env data rows cols f) (h1 : 1 ≤ rows) (h2 : 2 ≤ cols) (h32 : rows * cols < 2 ^ 32) (m : Nat) (hm : 2 ≤ m) (par : Api.Par)
    (hp : par.pairs.Perm (Distance.pairs rows) ∧ par.cores.Perm (List.range rows)) :
    rows < Api.datasetSize rows cols false ∧ (5 ≤ rows * cols → (Api.fresh env par m data rows cols false).IsUB) := by
  have hds : Api.datasetSize rows cols false = rows * cols := by simp only [Api.datasetSize, Nat.mod_eq_of_lt h32]; simp
  have hlt : rows < rows * cols := by nlinarith
  rw [hds]
  refine ⟨hlt, fun h5 => ?_⟩
  obtain ⟨d, core, e, _, _, _, _, _, _, hcl, _⟩ := compute_rep (ops := env.dops) env.ar.dmax (data := data) (cols := cols) (nn := subIndex m 1) h.few hp.1 hp.2 (fun i j a b => sqSum_iff.2 (h.sum i j a b))
  obtain ⟨t, et⟩ := init_defined (Api.csize (rows * cols)) .int .ptr
  obtain ⟨t', et'⟩ := init_defined (Api.csize (rows * cols)) .long .ptr
  obtain ⟨l, el, _⟩ := AList.rep_init (α := Nat) (n := Api.csize (rows * cols)) (by unfold Api.csize; split <;> omega)
  obtain ⟨s, es⟩ := construct_outside env.ar.zeroW env.ar.dmax d (rows * cols) (by omega) (by omega)
  refine ⟨s, ?_⟩
  rw [Api.fresh, Api.initObj, if_pos (by omega), Outcome.ok_bind, Api.run, e, Outcome.ok_bind, hds, el, Outcome.ok_bind, et, Outcome.ok_bind, Api.doRun, et', Outcome.ok_bind,
    Run.full, Run.doRun, es]
  rfl

/-! ### C53 -/

/-- **C53, the part that holds**: detaching at most as many points as the cluster has subtracts them. (The hierarchy construction never asks for more: `C30_events`.)
    Missing: the error when asked for more (`C53_violated`). -/
theorem C53_detach_partial (ar : Arith W S) (c : Cl W S) (k : Nat) (level : W) (hk : k ≤ c.numPoints) :
    (c.detach ar k level).2 = 1 ∧ (c.detach ar k level).1.numPoints = c.numPoints - k := by
  have : subIndex c.numPoints k = c.numPoints - k := by unfold subIndex; split <;> omega
  simp only [Cl.detach, Cl.detachTo, this]
  split
  · rename_i h; exact ⟨rfl, by simp⟩
  · split
    · omega
    · exact ⟨rfl, rfl⟩

/-- **C53 is violated**: asked to detach more points than the cluster has, the function always reports success, and the number of points wraps around. -/
theorem C53_violated (ar : Arith W S) (c : Cl W S) (k : Nat) (level : W) (hk : c.numPoints < k) (hk' : k < 2 ^ 32) :
    (c.detach ar k level).2 = 1 ∧ (c.detach ar k level).1.numPoints = 2 ^ 32 - (k - c.numPoints) := by
  have : subIndex c.numPoints k = 2 ^ 32 - (k - c.numPoints) := by unfold subIndex; split <;> omega
  simp only [Cl.detach, Cl.detachTo, this]
  split
  · omega
  · split
    · omega
    · exact ⟨rfl, rfl⟩

/-! ### Concrete cases -/

/-- Exact arithmetic on rational data in one column; the square root of a square is exact. -/
def lineEnv : Api.Env Rat Rat Rat Rat where
  dops := { diff := fun a b => .ok (a - b), add := (· + ·), mul := (· * ·), sqrt := fun x => (Nat.sqrt x.num.toNat : Rat), zero := 0 }
  ar := lineArithQ
  smax := 100000
  oops := exactScore Rat
  qsort := isort

/-- Five points on a line. -/
def linePts : List Rat := [0, 7, 1, 9, 3]

/-- The squared distances of the points of a list. -/
def lineSq (xs : List Rat) (i j : Nat) : Rat := (xs.getD i 0 - xs.getD j 0) * (xs.getD i 0 - xs.getD j 0)

theorem linePts_supported : Supported lineEnv linePts 5 1 (lineSq linePts) where
  few := by omega
  zero := rfl
  zero_lt := by decide
  sum i j hij hj := sqSum_iff.1 <| (by decide +kernel : ∀ j, j < 5 → ∀ i, i < j → Distance.sumFrom lineEnv.dops linePts 1 i j 1 0 lineEnv.dops.zero = .ok (lineSq linePts i j)) j hj i hij
  lt i j hij hj := (by decide +kernel : ∀ j, j < 5 → ∀ i, i < j → lineEnv.dops.sqrt (lineSq linePts i j) < lineEnv.ar.dmax) j hj i hij

/-- A schedule that runs the loops over pairs and points backwards. -/
def backPar (rows n : Nat) : Api.Par := ⟨(Distance.pairs rows).reverse, (List.range rows).reverse, seqSchedule, (List.range n).reverse⟩

theorem backPar_complete (rows n : Nat) : Complete rows n (backPar rows n) :=
  ⟨List.reverse_perm _, List.reverse_perm _, seqSchedule_complete, List.reverse_perm _⟩

example := C55_run_partial lineEnv (isort_sorts _) linePts 5 1 (lineSq linePts) linePts_supported (by omega) 2 (by omega) (by omega)
example := C49_rerun_partial lineEnv (isort_sorts _) linePts 5 1 (lineSq linePts) linePts_supported (by omega) 3 (by omega) (backPar 5 5) (backPar_complete 5 5)
  [(2, backPar 5 5), (5, backPar 5 5)] (by simp [backPar_complete]) 2 (by omega) (backPar 5 5) (backPar 5 5) (backPar_complete 5 5) (backPar_complete 5 5)

/-- What the run computes: labels and clusters. -/
example : (Api.fresh lineEnv (backPar 5 5) 2 linePts 5 1 true >>= fun o => .ok (o.results.labels, o.results.clusters.length)) = .ok ([3, 2, 3, 2, 3], 4) := by decide +kernel

/-- Two points in one column, three in two columns. -/
theorem twoPts_supported : Supported lineEnv [0, 4] 2 1 (lineSq [0, 4]) where
  few := by omega
  zero := rfl
  zero_lt := by decide
  sum i j hij hj := sqSum_iff.1 <| (by decide +kernel : ∀ j, j < 2 → ∀ i, i < j → Distance.sumFrom lineEnv.dops [0, 4] 1 i j 1 0 lineEnv.dops.zero = .ok (lineSq [0, 4] i j)) j hj i hij
  lt i j hij hj := (by decide +kernel : ∀ j, j < 2 → ∀ i, i < j → lineEnv.dops.sqrt (lineSq [0, 4] i j) < lineEnv.ar.dmax) j hj i hij

example := C51_violated lineEnv [0, 4] 2 1 (lineSq [0, 4]) twoPts_supported (by omega) 2 (by omega) (backPar 2 2) (backPar_complete 2 2)

theorem threePts_supported : Supported lineEnv [0, 0, 3, 4, 6, 8] 3 2 (fun i j => 25 * ((j - i : Nat) : Rat) * ((j - i : Nat) : Rat)) where
  few := by omega
  zero := rfl
  zero_lt := by decide
  sum i j hij hj := sqSum_iff.1 <| (by decide +kernel : ∀ j, j < 3 → ∀ i, i < j → Distance.sumFrom lineEnv.dops [0, 0, 3, 4, 6, 8] 2 i j 2 0 lineEnv.dops.zero =
    .ok (25 * ((j - i : Nat) : Rat) * ((j - i : Nat) : Rat))) j hj i hij
  lt i j hij hj := (by decide +kernel : ∀ j, j < 3 → ∀ i, i < j → lineEnv.dops.sqrt (25 * ((j - i : Nat) : Rat) * ((j - i : Nat) : Rat)) < lineEnv.ar.dmax) j hj i hij

example := C52_violated lineEnv [0, 0, 3, 4, 6, 8] 3 2 _ threePts_supported (by omega) (by omega) (by omega) 2 (by omega) (backPar 3 3)
  ⟨(backPar_complete 3 3).pairs, (backPar_complete 3 3).cores⟩

example := C53_detach_partial lineArith (Cl.init lineArith 1 none none 7) 3 5 (by decide)
example := C53_violated lineArith (Cl.init lineArith 1 none none 7) 8 5 (by decide) (by decide)

end Verif.Props
