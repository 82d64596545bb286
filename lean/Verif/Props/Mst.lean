import Verif.Lemmas.Mst
import Verif.Spec.Distance
import Mathlib.Algebra.Order.BigOperators.Group.List
/-
Properties C21 and C22: the minimum spanning tree of the mutual reachability distances.
-/
namespace Verif.Props
open Spec
variable {W : Type}

/-- C21. For `n ≥ 1` points whose mutual reachability distances are below the largest finite value `dmax`,
    `hdbscan_construct_mst` returns (no out-of-bounds access, no uninitialised read) a graph whose edge list consists of
    `n - 1` edges `(N i, i)`, each carrying the mutual reachability distance of its ends and together connecting all points,
    followed by one self edge per point carrying its core distance; the neighbour lists describe exactly those edges. -/
theorem C21_spanning_tree [LinearOrder W] (zero dmax : W) (dis : Distance W) (n : Nat) (hn : 1 ≤ n) (d : Nat → Nat → W) (core : Nat → W)
    (hget : ∀ i j, i < n → j < n → i ≠ j → dis.get zero i j = .ok (d i j)) (hsym : ∀ i j, d i j = d j i)
    (hcore : ∀ i, i < n → dis.coreDistances[i]? = some (some (core i)))
    (hmax : ∀ i j, i < n → j < n → i ≠ j → mutualReach d core i j < dmax) :
    ∃ (g : Graph W) (N : Nat → Nat), Mst.construct zero dmax true dis n = .ok g ∧
      triples g.va g.vb g.wt = (List.range (n - 1)).map (fun i => (N i, i, mutualReach d core (N i) i)) ++
        (List.range n).map (fun v => (v, v, core v)) ∧
      (∀ i, i < n - 1 → N i < n ∧ N i ≠ i) ∧ Spans n ((List.range (n - 1)).map (fun i => (N i, i))) ∧
      g.numVertices = n ∧ g.va.length = g.wt.length ∧ g.vb.length = g.wt.length ∧ Describes n g.edges (g.va.zip g.vb) := by
  have hr : Mst.Ready zero dis n d core := ⟨hget, fun i hi => by simp [rdInit, rd, hcore i hi], hsym⟩
  obtain ⟨g, a, pi, N, e, _, hrun, hN, hp, hva, hvb, hwt, hnv, hd⟩ := Mst.construct_rep hn hr hmax
  refine ⟨g, N, e, ?_, hN, ?_, hnv, by rw [hva, hwt]; simp, by rw [hvb, hwt]; simp, hd⟩
  · rw [triples, hva, hvb, hwt, List.zip_append (by simp), List.zip_append (by simp)]
    congr 1
    · apply List.ext_getElem
      · simp
      · intro i h1 h2; simp
    · apply List.ext_getElem
      · simp
      · intro i h1 h2; simp
  · intro u v hu hv
    exact Prim.eqv_mono (fun x y hxy => hp.mem_iff.mp hxy) (Prim.tree_spans hrun u v hu hv)

/-- C22. The tree is minimal: below every threshold it connects exactly the points that the complete mutual reachability graph
    connects, and every other set of edges that connects all points contains, for each of the `n - 1` tree edges, an edge of
    its own that is at least as heavy. -/
theorem C22_minimum [LinearOrder W] (zero dmax : W) (dis : Distance W) (n : Nat) (hn : 1 ≤ n) (d : Nat → Nat → W) (core : Nat → W)
    (hget : ∀ i j, i < n → j < n → i ≠ j → dis.get zero i j = .ok (d i j)) (hsym : ∀ i j, d i j = d j i)
    (hcore : ∀ i, i < n → dis.coreDistances[i]? = some (some (core i)))
    (hmax : ∀ i j, i < n → j < n → i ≠ j → mutualReach d core i j < dmax) :
    ∃ g : Graph W, Mst.construct zero dmax true dis n = .ok g ∧
      (∀ M u v, ConnectedBy (triples g.va g.vb g.wt) M u v ↔ Reachable n (mutualReach d core) M u v) ∧
      (∀ F : List (Nat × Nat), (∀ f ∈ F, f.1 < n ∧ f.2 < n) → Spans n F →
        ∃ fs, fs.Subperm F ∧ List.Forall₂ (fun w f => w ≤ mutualReach d core f.1 f.2) (g.wt.take (n - 1)) fs) := by
  have hr : Mst.Ready zero dis n d core := ⟨hget, fun i hi => by simp [rdInit, rd, hcore i hi], hsym⟩
  have hms := Mst.mutualReach_symm (core := core) hsym
  obtain ⟨g, a, pi, N, e, _, hrun, hN, hp, hva, hvb, hwt, hnv, hd⟩ := Mst.construct_rep hn hr hmax
  have htr : triples g.va g.vb g.wt = (List.range (n - 1)).map (fun i => (N i, i, mutualReach d core (N i) i)) ++
      (List.range n).map (fun v => (v, v, core v)) := by
    rw [triples, hva, hvb, hwt, List.zip_append (by simp), List.zip_append (by simp)]
    congr 1
    · apply List.ext_getElem
      · simp
      · intro i h1 h2; simp
    · apply List.ext_getElem
      · simp
      · intro i h1 h2; simp
  refine ⟨g, e, ?_, ?_⟩
  · intro M u v
    rw [← Prim.conn_iff_reachable hrun hms M u v, ConnectedBy, htr]
    have hmem : ∀ i, i < n - 1 → ∃ t, 0 < t ∧ t < n ∧ N i = a (pi t) ∧ i = a t := by
      intro i hi
      have := hp.mem_iff.mpr (List.mem_map.mpr ⟨i, List.mem_range.mpr hi, rfl⟩)
      obtain ⟨t, h0, ht, he⟩ := Prim.mem_treeEdges.mp this
      simp only [Prod.mk.injEq] at he
      exact ⟨t, h0, by omega, he.1, he.2⟩
    constructor
    · intro h
      induction h with
      | rel x y hxy =>
        obtain ⟨w, hw, hle⟩ := hxy
        rcases List.mem_append.mp hw with hw | hw
        · obtain ⟨i, hi, he⟩ := List.mem_map.mp hw
          simp only [Prod.mk.injEq] at he
          obtain ⟨rfl, rfl, rfl⟩ := he
          obtain ⟨t, h0, ht, e1, e2⟩ := hmem i (List.mem_range.mp hi)
          exact .rel _ _ ⟨t, h0, ht, e1, e2, hle⟩
        · obtain ⟨i, hi, he⟩ := List.mem_map.mp hw
          simp only [Prod.mk.injEq] at he
          obtain ⟨rfl, rfl, rfl⟩ := he
          exact .refl _
      | refl => exact .refl _
      | symm _ _ _ ih => exact .symm _ _ ih
      | trans _ _ _ _ _ i1 i2 => exact .trans _ _ _ i1 i2
    · intro h
      refine Prim.eqv_mono ?_ h
      rintro x y ⟨t, h0, ht, hx, hy, hle⟩
      have hm := hp.mem_iff.mp (Prim.mem_treeEdges.mpr ⟨t, h0, by omega, rfl⟩)
      obtain ⟨i, hi, he⟩ := List.mem_map.mp hm
      simp only [Prod.mk.injEq] at he
      refine ⟨mutualReach d core x y, List.mem_append_left _ (List.mem_map.mpr ⟨i, hi, ?_⟩), hle⟩
      simp only [Prod.mk.injEq]
      rw [hx, hy, ← he.1, ← he.2]
      exact ⟨rfl, rfl, rfl⟩
  · intro F hF hs
    obtain ⟨fs, R, hperm, hdom, _⟩ := Prim.dominated hrun hms hF hs (n - 1) (by omega)
    obtain ⟨fs', hf, hpf⟩ := List.perm_comp_forall₂ hp.symm hdom
    refine ⟨fs', hpf.subperm.trans ((List.sublist_append_left fs R).subperm.trans hperm.subperm), ?_⟩
    have htake : g.wt.take (n - 1) = (List.range (n - 1)).map (fun i => mutualReach d core (N i) i) := by
      rw [hwt, List.take_left' (by simp)]
    rw [htake, List.forall₂_map_left_iff]
    rw [List.forall₂_map_left_iff] at hf
    exact hf

/-- C22, the two usual consequences. No spanning tree on the same points has a smaller total weight, and none has a smaller
    largest edge. -/
theorem C22_total_and_bottleneck [LinearOrder W] [AddCommMonoid W] [IsOrderedAddMonoid W] (zero dmax : W) (dis : Distance W) (n : Nat) (hn : 1 ≤ n) (d : Nat → Nat → W)
    (core : Nat → W)
    (hget : ∀ i j, i < n → j < n → i ≠ j → dis.get zero i j = .ok (d i j)) (hsym : ∀ i j, d i j = d j i)
    (hcore : ∀ i, i < n → dis.coreDistances[i]? = some (some (core i)))
    (hmax : ∀ i j, i < n → j < n → i ≠ j → mutualReach d core i j < dmax) :
    ∃ g : Graph W, Mst.construct zero dmax true dis n = .ok g ∧
      (∀ F : List (Nat × Nat), (∀ f ∈ F, f.1 < n ∧ f.2 < n) → Spans n F → F.length = n - 1 →
        (g.wt.take (n - 1)).sum ≤ (F.map (fun f => mutualReach d core f.1 f.2)).sum) ∧
      (∀ (F : List (Nat × Nat)) (B : W), (∀ f ∈ F, f.1 < n ∧ f.2 < n) → Spans n F →
        (∀ f ∈ F, mutualReach d core f.1 f.2 ≤ B) → ∀ w ∈ g.wt.take (n - 1), w ≤ B) := by
  obtain ⟨g, e, _, hdom⟩ := C22_minimum zero dmax dis n hn d core hget hsym hcore hmax
  obtain ⟨g', N, e', htr, _, _, _, hl1, hl2, _⟩ := C21_spanning_tree zero dmax dis n hn d core hget hsym hcore hmax
  have : g' = g := by rw [e] at e'; exact (Outcome.ok.inj e').symm
  subst this
  have hlen : n - 1 ≤ g'.wt.length := by
    have := congrArg List.length htr
    simp [triples, hl1, hl2] at this
    omega
  refine ⟨g', e, ?_, ?_⟩
  · intro F hF hs hlF
    obtain ⟨fs, hsub, hf⟩ := hdom F hF hs
    have h1 : fs.length = n - 1 := by rw [← hf.length_eq]; simp [hlen]
    have hperm : fs.Perm F := hsub.perm_of_length_le (by omega)
    rw [← (hperm.map (fun f => mutualReach d core f.1 f.2)).sum_eq]
    refine List.Forall₂.sum_le_sum ?_
    rw [List.forall₂_map_right_iff]
    exact hf
  · intro F B hF hs hB w hw
    obtain ⟨fs, hsub, hf⟩ := hdom F hF hs
    have : ∀ (l : List W) (fs : List (Nat × Nat)), List.Forall₂ (fun w f => w ≤ mutualReach d core f.1 f.2) l fs → ∀ w ∈ l, ∃ f ∈ fs, w ≤ mutualReach d core f.1 f.2 := by
      intro l fs h
      induction h with
      | nil => simp
      | cons h _ ih =>
        intro w hw
        rcases List.mem_cons.mp hw with rfl | hw
        · exact ⟨_, by simp, h⟩
        · obtain ⟨f, hf, hle⟩ := ih w hw
          exact ⟨f, by simp [hf], hle⟩
    obtain ⟨f, hfm, hle⟩ := this _ _ hf w hw
    exact hle.trans (hB f (hsub.subset hfm))

/-- A case for C21 and C22: five points on a line, minPoints = 2; the hypotheses hold and the tree comes out as expected. -/
example : ∃ dis : Distance Int,
    Distance.compute exactIntOps 1000 (Distance.pairs 5) (List.range 5) [0, 7, 1, 9, 3] 5 1 1 = .ok dis ∧
    (∀ i, i < 5 → ∀ j, j < 5 → i ≠ j → dis.get 0 i j = .ok (Int.natAbs ([0, 7, 1, 9, 3].getD i 0 - [0, 7, 1, 9, 3].getD j 0))) ∧
    (∀ i, i < 5 → dis.coreDistances[i]? = some (some ([1, 2, 1, 2, 2].getD i 0))) ∧
    (do let g ← Mst.construct 0 1000 true dis 5; pure (g.va.take 4, g.vb.take 4, g.wt.take 4)) =
      Outcome.ok ([2, 4, 4, 1], [0, 1, 2, 3], [1, 4, 2, 2]) := by
  refine ⟨_, rfl, by decide, by decide, by decide +kernel⟩

/-- Outside the hypotheses of C21: a distance equal to the largest finite value is never recorded; here the three points are
    at distance `dmax` and the edges produced do not connect them. -/
theorem C21_violated_dmax : ∃ (dis : Distance Int) (g : Graph Int),
    (∀ i j, i < 3 → j < 3 → i ≠ j → dis.get 0 i j = .ok 10) ∧ Mst.construct 0 10 true dis 3 = .ok g ∧ ¬ Spans 3 (g.va.zip g.vb) := by
  refine ⟨{ rows := 3, cols := 1, numNeighbors := 1, distances := [some 10, some 10, some 10], coreDistances := [some 10, some 10, some 10] },
    { numVertices := 3, va := [0, 0, 0, 1, 2], vb := [0, 1, 0, 1, 2], wt := [10, 10, 10, 10, 10], edges := [[0, 1, 0], [0, 1], [2]] }, ?_, by decide +kernel, ?_⟩
  · have : ∀ i, i < 3 → ∀ j, j < 3 → i ≠ j → (Distance.get (0 : Int) { rows := 3, cols := 1, numNeighbors := 1, distances := [some 10, some 10, some 10], coreDistances := [some 10, some 10, some 10] } i j) =
      .ok 10 := by decide
    exact fun i j hi hj => this i hi j hj
  · intro h
    have hinv : ∀ x y, Relation.EqvGen (fun a b => (a, b) ∈ [((0 : Nat), (0 : Nat)), (0, 1), (0, 0), (1, 1), (2, 2)]) x y → (x = 2 ↔ y = 2) := by
      intro x y hxy
      induction hxy with
      | rel x y hxy => simp at hxy; omega
      | refl => rfl
      | symm _ _ _ ih => exact ih.symm
      | trans _ _ _ _ _ i1 i2 => exact i1.trans i2
    have := hinv 0 2 (h 0 2 (by omega) (by omega))
    simp at this

/-- Outside the hypotheses of C21: a NaN distance leaves a point attached to itself with weight `dmax`. -/
theorem C21_violated_nan : ∃ g : Graph Fl,
    Mst.construct (.fin 0) (.fin 1000) true { rows := 2, cols := 1, numNeighbors := 1, distances := [some .nan], coreDistances := [some .nan, some .nan] } 2 = .ok g ∧
    g.va.zip g.vb = [(0, 0), (0, 0), (1, 1)] :=
  ⟨{ numVertices := 2, va := [0, 0, 1], vb := [0, 0, 1], wt := [.fin 1000, .nan, .nan], edges := [[0, 0], [1]] }, by decide +kernel, rfl⟩

/-- The loop with arrays that have one place less than there are points (helper). -/
theorem grow_overrun [LinearOrder W] {zero dmax : W} {dis : Distance W} {n : Nat} {d : Nat → Nat → W} {core : Nat → W} (h : Mst.Ready zero dis n d core) :
    ∀ (k t cur : Nat) (A : Nat → Bool) (D : Nat → W) (N : Nat → Nat) (ot : List Nat), t + (k + 1) = n → cur < n → A cur = true → A (n - 1) = true → ot.length = n - 1 →
    (Mst.grow zero dmax dis n (k + 1) t cur ((List.range n).map A) ((List.range (n - 1)).map D) ((List.range (n - 1)).map N) ot).IsUB := by
  intro k
  induction k with
  | zero =>
    intro t cur A D N ot ht hc hA hl ho
    obtain ⟨s, D', N', e, r, _, _, _, _, hnp⟩ := Mst.scan_rep h (L := n - 1) (by omega) hc hA hl (List.range n) { dist := (List.range (n - 1)).map D, nb := (List.range (n - 1)).map N, nd := dmax, np := none } D N
      List.nodup_range (fun v hv => List.mem_range.1 hv) ⟨rfl, rfl⟩
    simp only [Mst.grow, e, Outcome.ok_bind]
    rcases hnp with ⟨q, _⟩ | ⟨p, hp, _, q, _⟩
    · rw [q]; exact ⟨_, rfl⟩
    · rw [q, Mst.attach, Graph.wr_map _ _ (List.mem_range.1 hp)]
      simp only [Outcome.ok_bind, Outcome.pure_eq, wr]
      rw [if_neg (by omega)]
      exact ⟨_, rfl⟩
  | succ k ih =>
    intro t cur A D N ot ht hc hA hl ho
    obtain ⟨s, D', N', e, r, _, _, _, _, hnp⟩ := Mst.scan_rep h (L := n - 1) (by omega) hc hA hl (List.range n) { dist := (List.range (n - 1)).map D, nb := (List.range (n - 1)).map N, nd := dmax, np := none } D N
      List.nodup_range (fun v hv => List.mem_range.1 hv) ⟨rfl, rfl⟩
    rw [Mst.grow, e, Outcome.ok_bind]
    rcases hnp with ⟨q, _⟩ | ⟨p, hp, _, q, _⟩
    · rw [q]; exact ⟨_, rfl⟩
    · rw [q, Mst.attach, Graph.wr_map _ _ (List.mem_range.1 hp)]
      simp only [Outcome.ok_bind, Outcome.pure_eq]
      rw [wr, if_pos (by omega), Outcome.ok_bind, r.dist, r.nb]
      exact ih (t + 1) p _ D' N' _ (by omega) (List.mem_range.1 hp) (by simp) (by simp [hl]) (by simpa using ho)

/-- Without self edges the construction is undefined for every number of points from 2 on and all distances: it writes past the end of `otherVertexIndices`. -/
theorem C21_no_self_edges_violated [LinearOrder W] (zero dmax : W) (dis : Distance W) (n : Nat) (hn : 2 ≤ n) (d : Nat → Nat → W) (core : Nat → W)
    (hget : ∀ i j, i < n → j < n → i ≠ j → dis.get zero i j = .ok (d i j)) (hsym : ∀ i j, d i j = d j i) (hcore : ∀ i, i < n → dis.coreDistances[i]? = some (some (core i))) :
    (Mst.construct zero dmax false dis n).IsUB := by
  have hr : Mst.Ready zero dis n d core := ⟨hget, fun i hi => by simp [rdInit, rd, hcore i hi], hsym⟩
  obtain ⟨k, rfl⟩ : ∃ k, n = k + 2 := ⟨n - 2, by omega⟩
  have hatt : List.replicate (k + 1) false ++ [true] = (List.range (k + 2)).map (fun v => v == k + 1) := by
    apply List.ext_getElem
    · simp
    · intro i h1 h2
      simp at h1 h2
      by_cases c : i < k + 1
      · rw [List.getElem_append_left (by simpa using c)]
        simp; omega
      · have : i = k + 1 := by omega
        subst this
        simp
  obtain ⟨w, e⟩ := grow_overrun (dmax := dmax) hr k 1 (k + 1) (fun v => v == k + 1) (fun _ => dmax) (fun _ => 0) (List.replicate (k + 1) 0) (by omega) (by omega) (by simp) (by simp) (by simp)
  refine ⟨w, ?_⟩
  simp only [Mst.construct, Bool.false_eq_true, if_false, Nat.add_zero, show k + 2 - 1 = k + 1 from rfl]
  rw [hatt, Mst.replicate_eq_map (k + 1) dmax]
  have : List.replicate (k + 1) 0 = (List.range (k + 1)).map fun _ => 0 := Mst.replicate_eq_map (k + 1) 0
  rw [show Mst.grow zero dmax dis (k + 2) (k + 1) 1 (k + 1) ((List.range (k + 2)).map fun v => v == k + 1) ((List.range (k + 1)).map fun _ => dmax) (List.replicate (k + 1) 0) (List.replicate (k + 1) 0) =
    .ub w by rw [← e]; show _ = Mst.grow _ _ _ _ _ _ _ _ _ ((List.range (k + 1)).map fun _ => 0) _; rw [← this]; rfl]
  rfl

/-- Three points at the distances 1, 2 and 3. -/
example := C21_no_self_edges_violated (0 : Int) 1000 { rows := 3, cols := 1, numNeighbors := 1, distances := [some 1, some 2, some 3], coreDistances := [some 1, some 1, some 2] } 3 (by decide)
  (fun i j => if i = j then 0 else i + j) (fun i => if i = 2 then 2 else 1) (fun i j hi hj hij => (by decide : ∀ i < 3, ∀ j < 3, i ≠ j → Distance.get (0 : Int) { rows := 3, cols := 1, numNeighbors := 1, distances := [some 1, some 2, some 3], coreDistances := [some 1, some 1, some 2] } i j = .ok (if i = j then 0 else i + j)) i hi j hj hij)
  (fun i j => by simp only [eq_comm, add_comm]) (fun i hi => (by decide : ∀ i < 3, ([some 1, some 1, some 2] : List (Option Int))[i]? = some (some (if i = 2 then 2 else 1))) i hi)

end Verif.Props
