import Verif.Lemmas.Graph
/-
Properties C23 and C24: sorting the edges of a graph, and keeping the neighbour lists in step with the edges.
-/
namespace Verif.Props
open Spec
variable {W : Type}

/-- C23. `graph_quicksort_by_edge_weight` returns on every edge list with comparable weights, without any out-of-bounds access and
    in particular without overflowing its stacks of `esize / 2` entries; the weights come out ascending, the edges (both
    ends and the weight together) are a permutation of the ones given, and the neighbour lists are not touched. -/
theorem C23_edge_sort [LinearOrder W] (g : Graph W) (ha : g.va.length = g.wt.length) (hb : g.vb.length = g.wt.length) :
    ∃ g', Graph.sortByWeight g = .ok g' ∧ g'.wt.Pairwise (· ≤ ·) ∧
      (triples g'.va g'.vb g'.wt).Perm (triples g.va g.vb g.wt) ∧ g'.edges = g.edges ∧ g'.numVertices = g.numVertices ∧
      g'.va.length = g'.wt.length ∧ g'.vb.length = g'.wt.length := by
  by_cases h1 : g.wt.length ≤ 1
  · refine ⟨g, by simp [Graph.sortByWeight, h1], ?_, List.Perm.refl _, rfl, rfl, ha, hb⟩
    match hw : g.wt with
    | [] => simp
    | [x] => simp
    | x :: y :: t => simp [hw] at h1
  · have hne : Nonempty W := by
      match hw : g.wt with
      | [] => simp [hw] at h1
      | x :: t => exact ⟨x⟩
    obtain ⟨f, hf⟩ := Graph.exists_erep g ha hb
    obtain ⟨hr, hw⟩ := Graph.start_ranges (n := g.wt.length) (by omega)
    have ho : Graph.Ordered g.wt.length f [(0, g.wt.length - 1)] := by
      intro i j hij hj
      exact .inr ⟨_, List.mem_singleton.mpr rfl, by simp only; omega⟩
    obtain ⟨g1, σ, e1, r1, w1, n1, ed1⟩ := Graph.sortLoop_rep rfl (g.wt.length + 1) _ g f hf hr (by omega)
    obtain ⟨g2, f', e2, r2, o2⟩ := Graph.sortLoop_sorted rfl (g.wt.length + 1) _ g f hf hr (by omega) ho
    have : g1 = g2 := by rw [e1] at e2; exact Outcome.ok.inj e2
    subst this
    refine ⟨g1, ?_, Graph.ordered_pairwise r2 o2, ?_, ed1, n1, by rw [r1.va, r1.wt]; simp, by rw [r1.vb, r1.wt]; simp⟩
    · simp only [Graph.sortByWeight]
      rw [if_neg h1]
      have : Graph.push (g.wt.length / 2) true (0, g.wt.length - 1) [] = .ok [(0, g.wt.length - 1)] := by
        rw [Graph.push, if_pos rfl, if_pos (by simp; omega)]
      rw [this]
      exact e1
    · rw [Graph.triples_erep r1, Graph.triples_erep hf]
      exact Graph.within_perm w1 (by omega) f

/-- C23 for weights that may not be comparable (NaN): still no out-of-bounds access, no overflow, no endless loop, and only a
    permutation of the edges. -/
theorem C23_edge_sort_any_weights [CCmp W] (g : Graph W) (ha : g.va.length = g.wt.length) (hb : g.vb.length = g.wt.length) :
    ∃ g', Graph.sortByWeight g = .ok g' ∧ (triples g'.va g'.vb g'.wt).Perm (triples g.va g.vb g.wt) ∧ g'.edges = g.edges ∧
      g'.numVertices = g.numVertices := by
  by_cases h1 : g.wt.length ≤ 1
  · exact ⟨g, by simp [Graph.sortByWeight, h1], List.Perm.refl _, rfl, rfl⟩
  · have hne : Nonempty W := by
      match hw : g.wt with
      | [] => simp [hw] at h1
      | x :: t => exact ⟨x⟩
    obtain ⟨f, hf⟩ := Graph.exists_erep g ha hb
    obtain ⟨hr, hw⟩ := Graph.start_ranges (n := g.wt.length) (by omega)
    obtain ⟨g1, σ, e1, r1, w1, n1, ed1⟩ := Graph.sortLoop_rep rfl (g.wt.length + 1) _ g f hf hr (by omega)
    refine ⟨g1, ?_, ?_, ed1, n1⟩
    · simp only [Graph.sortByWeight]
      rw [if_neg h1]
      have : Graph.push (g.wt.length / 2) true (0, g.wt.length - 1) [] = .ok [(0, g.wt.length - 1)] := by
        rw [Graph.push, if_pos rfl, if_pos (by simp; omega)]
      rw [this]
      exact e1
    · rw [Graph.triples_erep r1, Graph.triples_erep hf]
      exact Graph.within_perm w1 (by omega) f

/-- C23 for the recursive variant `graph_quicksort` called on the whole edge list. -/
theorem C23_edge_sort_recursive [LinearOrder W] (g : Graph W) (ha : g.va.length = g.wt.length) (hb : g.vb.length = g.wt.length) :
    ∃ fuel g', Graph.quicksort fuel 0 g.wt.length g = .ok g' ∧ g'.wt.Pairwise (· ≤ ·) ∧
      (triples g'.va g'.vb g'.wt).Perm (triples g.va g.vb g.wt) ∧ g'.edges = g.edges ∧ g'.numVertices = g.numVertices := by
  refine ⟨g.wt.length + 1, ?_⟩
  by_cases h1 : g.wt.length = 0
  · refine ⟨g, by simp [Graph.quicksort, h1], ?_, List.Perm.refl _, rfl, rfl⟩
    rw [List.length_eq_zero_iff.mp h1]; simp
  · have hne : Nonempty W := by
      match hw : g.wt with
      | [] => simp [hw] at h1
      | x :: t => exact ⟨x⟩
    obtain ⟨f, hf⟩ := Graph.exists_erep g ha hb
    obtain ⟨g', σ, e, r, w, o, n, ed⟩ := Graph.quicksort_rep (g.wt.length + 1) 0 g.wt.length g f hf (le_refl _) (by omega)
    refine ⟨g', e, Graph.ordered_pairwise r ?_, ?_, ed, n⟩
    · intro i j hij hj
      simp only [ccmp_lt, decide_eq_false_iff_not, not_lt]
      exact .inl (o i j (Nat.zero_le _) hij hj)
    · rw [Graph.triples_erep r, Graph.triples_erep hf]
      exact Graph.within_perm (fun k hk => w k (by omega)) (by omega) f

/-- A case for C23: six edges with a repeated weight. -/
example : let g : Graph Nat := { numVertices := 4, va := [0, 1, 2, 0, 1, 3], vb := [1, 2, 3, 0, 1, 3], wt := [5, 2, 9, 2, 1, 7], edges := [] }
    g.va.length = g.wt.length ∧ g.vb.length = g.wt.length ∧
    (do let g' ← Graph.sortByWeight g; pure (g'.wt, g'.va)) = Outcome.ok ([1, 2, 2, 5, 7, 9], [1, 1, 0, 0, 3, 2]) :=
  ⟨rfl, rfl, rfl⟩

/-- C24, building. After `graph_init` on edges whose ends are vertices, `w` occurs among the neighbours of `v` as often as
    there are edges joining `v` and `w`. -/
theorem C24_graph_init (n : Nat) (va vb : List Nat) (wt : List W) (hva : ∀ a ∈ va, a < n) (hvb : ∀ b ∈ vb, b < n)
    (hl : vb.length = va.length) :
    ∃ g, Graph.init n va vb wt = .ok g ∧ Describes n g.edges (va.zip vb) ∧ g.va = va ∧ g.vb = vb ∧ g.wt = wt ∧ g.numVertices = n := by
  have h0 : Describes n (List.replicate n []) ((va.zip vb).take 0) := by
    refine ⟨by simp, ?_⟩
    intro v w hv
    simp [hv]
  obtain ⟨adj, e, d⟩ := Graph.addEdges_describes hva hvb hl va.length 0 _ (by omega) h0
  refine ⟨{ numVertices := n, va := va, vb := vb, wt := wt, edges := adj }, ?_, d, rfl, rfl, rfl, rfl⟩
  simp only [Graph.init, e, Outcome.ok_bind, Outcome.pure_eq]

/-- C24, removing, for every history of removals of present edges in a graph without repeated self edges: each removal takes away
    exactly one edge, on both sides, and nothing else. Missing: a vertex with two or more self edges, see
    `C24_violated_double_self_edge` and, for what happens in all graphs, `C24_remove_exact`. -/
theorem C24_remove_partial (n : Nat) (E : List (Nat × Nat)) (hE : ∀ e ∈ E, e.1 < n ∧ e.2 < n)
    (hself : ∀ v, E.countP (joins v v) ≤ 1) (hist : List (Nat × Nat))
    (hh : ∀ i (h : i < hist.length), hist[i] ∈ (hist.take i).foldl List.erase E) (g : Graph W) (hg : Describes n g.edges E) :
    ∃ g', Graph.removeAll g hist = .ok g' ∧ Describes n g'.edges (hist.foldl List.erase E) ∧ g'.va = g.va ∧ g'.vb = g.vb ∧ g'.wt = g.wt ∧
      g'.numVertices = g.numVertices := by
  induction hist generalizing E g with
  | nil => exact ⟨g, rfl, hg, rfl, rfl, rfl, rfl⟩
  | cons e r ih =>
    obtain ⟨a, b⟩ := e
    have hm : (a, b) ∈ E := hh 0 (by simp)
    have hab := hE _ hm
    obtain ⟨g1, e1, d1, v1, v2, v3, v4⟩ := Graph.removeEdge_describes hg hab.1 hab.2 hm (fun _ => hself a)
    obtain ⟨g2, e2, d2, u1, u2, u3, u4⟩ := ih (E.erase (a, b)) (fun e he => hE e (List.mem_of_mem_erase he))
      (fun v => (List.Sublist.countP_le (List.erase_sublist)).trans (hself v))
      (by
        intro i hi
        have := hh (i + 1) (by simpa using hi)
        simpa using this) g1 d1
    refine ⟨g2, ?_, by simpa using d2, u1.trans v1, u2.trans v2, u3.trans v3, u4.trans v4⟩
    simp only [Graph.removeAll, e1, Outcome.ok_bind, e2]

/-- C24 fails for a repeated self edge: one call removes both occurrences. -/
theorem C24_violated_double_self_edge :
    ∃ g g' : Graph Nat, Graph.init 1 [0, 0] [0, 0] [1, 2] = .ok g ∧ Describes 1 g.edges [(0, 0), (0, 0)] ∧
      Graph.removeEdge g 0 0 = .ok g' ∧ ¬ Describes 1 g'.edges [(0, 0)] := by
  refine ⟨{ numVertices := 1, va := [0, 0], vb := [0, 0], wt := [1, 2], edges := [[0, 0]] },
    { numVertices := 1, va := [0, 0], vb := [0, 0], wt := [1, 2], edges := [[]] }, rfl, ⟨rfl, ?_⟩, rfl, ?_⟩
  · intro v w hv
    have : v = 0 := by omega
    subst v
    cases w with
    | zero => decide
    | succ w => simp [joins]
  · rintro ⟨_, h⟩
    exact absurd (h 0 0 (by omega)) (by decide)

/-- One removal, whatever the graph (helper). -/
theorem removeEdge_count {n : Nat} {g : Graph W} {c : Nat → Nat → Nat} (hl : g.edges.length = n)
    (hc : ∀ v w, v < n → (g.edges[v]?.getD []).count w = c v w) {a b : Nat} (ha : a < n) (hb : b < n) :
    ∃ g', Graph.removeEdge g a b = .ok g' ∧ g'.edges.length = n ∧
      (∀ v w, v < n → (g'.edges[v]?.getD []).count w = c v w - (if v = w then 2 else 1) * [(a, b)].countP (joins v w)) ∧
      g'.va = g.va ∧ g'.vb = g.vb ∧ g'.wt = g.wt ∧ g'.numVertices = g.numVertices := by
  have ha' : a < g.edges.length := by omega
  have hb1 : b < (g.edges.set a (g.edges[a].erase b)).length := by simp; omega
  refine ⟨{ g with edges := (g.edges.set a (g.edges[a].erase b)).set b ((g.edges.set a (g.edges[a].erase b))[b].erase a) }, ?_, by simp [hl], ?_,
    rfl, rfl, rfl, rfl⟩
  · unfold Graph.removeEdge
    rw [rd_ok ha', Outcome.ok_bind, wr_ok ha', Outcome.ok_bind, rd_ok hb1, Outcome.ok_bind, wr_ok hb1]
    rfl
  · intro v w hv
    have hv' : v < g.edges.length := by omega
    have hcv := hc v w hv
    rw [List.getElem?_eq_getElem hv'] at hcv
    simp only [Option.getD_some] at hcv
    rw [List.getElem?_eq_getElem (by simp; omega)]
    simp only [Option.getD_some, List.getElem_set]
    by_cases hvb : b = v
    · subst hvb
      simp only [if_true]
      by_cases hab : a = b
      · subst hab
        simp only [if_true, List.count_erase, hcv]
        by_cases hw : a = w
        · subst hw; simp [joins]; omega
        · have h1 : joins a w (a, a) = false := by simp [joins, hw]
          simp [h1, hw]
      · simp only [if_neg hab, List.count_erase, hcv]
        by_cases hw : a = w
        · subst hw
          have h1 : joins b a (a, b) = true := by simp [joins]
          simp [h1, Ne.symm hab]
        · have h1 : joins b w (a, b) = false := by simp [joins, hab, hw]
          simp [h1, hw]
    · simp only [if_neg hvb]
      by_cases hva : a = v
      · subst hva
        simp only [if_true, List.count_erase, hcv]
        by_cases hw : b = w
        · subst hw
          have h1 : joins a b (a, b) = true := by simp [joins]
          simp [h1, Ne.symm hvb]
        · have h1 : joins a w (a, b) = false := by simp [joins, hvb, hw]
          simp [h1, hw]
      · have h1 : joins v w (a, b) = false := by simp [joins, hva, hvb]
        simp only [if_neg hva, hcv]
        simp [h1]

/-- C24, removing, exactly: for every graph and every history of calls with vertices of the graph, whether or not the edges are there, each call takes away one of the edges
    between two different vertices, on both sides, and two of the edges from a vertex to itself, as long as there are any. -/
theorem C24_remove_exact (n : Nat) (E : List (Nat × Nat)) (hist : List (Nat × Nat)) (hh : ∀ e ∈ hist, e.1 < n ∧ e.2 < n) (g : Graph W)
    (hg : Describes n g.edges E) :
    ∃ g', Graph.removeAll g hist = .ok g' ∧ g'.edges.length = n ∧
      (∀ v w, v < n → (g'.edges[v]?.getD []).count w = E.countP (joins v w) - (if v = w then 2 else 1) * hist.countP (joins v w)) ∧
      g'.va = g.va ∧ g'.vb = g.vb ∧ g'.wt = g.wt ∧ g'.numVertices = g.numVertices := by
  have gen : ∀ (hist : List (Nat × Nat)), (∀ e ∈ hist, e.1 < n ∧ e.2 < n) → ∀ (g : Graph W) (c : Nat → Nat → Nat), g.edges.length = n →
      (∀ v w, v < n → (g.edges[v]?.getD []).count w = c v w) →
      ∃ g', Graph.removeAll g hist = .ok g' ∧ g'.edges.length = n ∧
        (∀ v w, v < n → (g'.edges[v]?.getD []).count w = c v w - (if v = w then 2 else 1) * hist.countP (joins v w)) ∧
        g'.va = g.va ∧ g'.vb = g.vb ∧ g'.wt = g.wt ∧ g'.numVertices = g.numVertices := by
    intro hist
    induction hist with
    | nil => intro _ g c hl hc; exact ⟨g, rfl, hl, fun v w hv => by simpa using hc v w hv, rfl, rfl, rfl, rfl⟩
    | cons e r ih =>
      intro hh g c hl hc
      obtain ⟨a, b⟩ := e
      have hab := hh (a, b) (by simp)
      obtain ⟨g1, e1, l1, c1, v1, v2, v3, v4⟩ := removeEdge_count hl hc hab.1 hab.2
      obtain ⟨g2, e2, l2, c2, u1, u2, u3, u4⟩ := ih (fun e he => hh e (List.mem_cons_of_mem _ he)) g1 _ l1 c1
      refine ⟨g2, ?_, l2, ?_, u1.trans v1, u2.trans v2, u3.trans v3, u4.trans v4⟩
      · simp only [Graph.removeAll, e1, Outcome.ok_bind, e2]
      · intro v w hv
        rw [c2 v w hv, Nat.sub_sub, ← Nat.mul_add]
        congr 2
        rw [show (a, b) :: r = [(a, b)] ++ r from rfl, List.countP_append]
  exact gen hist hh g _ hg.1 hg.2

/-- A call with a number that is no vertex is undefined behaviour. -/
theorem C24_remove_outside (g : Graph W) (a b : Nat) (h : g.edges.length ≤ a ∨ g.edges.length ≤ b) : (Graph.removeEdge g a b).IsUB := by
  by_cases ha : a < g.edges.length
  · refine ⟨"read out of bounds", ?_⟩
    unfold Graph.removeEdge
    rw [rd_ok ha, Outcome.ok_bind, wr_ok ha, Outcome.ok_bind]
    have : rd (g.edges.set a (g.edges[a].erase b)) b = .ub "read out of bounds" := by
      unfold rd
      rw [List.getElem?_eq_none (by simp; omega)]
    rw [this]
    rfl
  · refine ⟨"read out of bounds", ?_⟩
    unfold Graph.removeEdge
    have : rd g.edges a = .ub "read out of bounds" := by
      unfold rd
      rw [List.getElem?_eq_none (by omega)]
    rw [this]
    rfl

/-- A case for the exact theorem: three self edges and two parallel edges; four calls, one of them for an edge that is not there. -/
example : ∃ g g' : Graph Nat, Graph.init 3 [0, 0, 0, 1, 2] [0, 0, 0, 2, 1] [1, 2, 3, 4, 5] = .ok g ∧ g.edges = [[0, 0, 0], [2, 2], [1, 1]] ∧
    (∀ e ∈ [(0, 0), (1, 2), (0, 1), (2, 1)], e.1 < 3 ∧ e.2 < 3) ∧ Graph.removeAll g [(0, 0), (1, 2), (0, 1)] = .ok g' ∧ g'.edges = [[0], [2], [1]] :=
  ⟨_, _, rfl, rfl, by decide, rfl, rfl⟩

/-- A case for C24: a triangle with one self edge, from which two edges are removed. -/
example : ∃ g g' : Graph Nat, Graph.init 3 [0, 1, 2, 1] [1, 2, 0, 1] [4, 5, 6, 7] = .ok g ∧ g.edges = [[1, 2], [0, 2, 1], [1, 0]] ∧
    (∀ v, v < 3 → [(0, 1), (1, 2), (2, 0), (1, 1)].countP (joins v v) ≤ 1) ∧
    Graph.removeAll g [(1, 1), (2, 0)] = .ok g' ∧ g'.edges = [[1], [0, 2], [1]] :=
  ⟨_, _, rfl, rfl, by decide, rfl, rfl⟩

end Verif.Props
