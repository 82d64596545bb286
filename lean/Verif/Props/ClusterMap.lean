import Verif.Lemmas.ClusterMap
import Verif.Props.Outlier
/-
C41, C42, C58: tables of clusters and of their distances.
-/
namespace Verif.Props
open Spec

/-! ### C41, C58 -/

/-- **C58.** The C++ `createClusterMap` maps exactly the labels that occur in the range, each to the ascending list of the indices of the range that carry it, for
    every range inside the label array. -/
theorem C58_cpp_map (labels : List Nat) (b e : Nat) (he : e ≤ labels.length) : ∃ m, CMap.cppCreate labels b e = .ok m ∧ IsClusterMap labels b (max b e) m := by
  by_cases h : b ≤ e
  · obtain ⟨m, e1, h1⟩ := CMap.cppLoop_rep labels b (e - b) b [] (le_refl _) (by omega) (CMap.empty_map labels b)
    rw [show b + (e - b) = max b e by omega] at h1
    exact ⟨m, e1, h1⟩
  · refine ⟨[], ?_, ?_⟩
    · rw [CMap.cppCreate, show e - b = 0 by omega]; rfl
    · rw [show max b e = b by omega]; exact CMap.empty_map labels b

/-- The table of the specification has no further freedom: it is determined by the labels and the range. -/
theorem C58_unique (labels : List Nat) (b e : Nat) (m m' : KMap (List Nat)) (h : IsClusterMap labels b e m) (h' : IsClusterMap labels b e m') : m = m' := by
  have hs : ∀ x, x ∈ m ↔ x ∈ m' := fun x => by
    rw [← KMap.lookup_mem h.ascending (k := x.1) (v := x.2), ← KMap.lookup_mem h'.ascending (k := x.1) (v := x.2), h.lists, h'.lists]
  have p : ∀ m : KMap (List Nat), Ascending m → m.Pairwise (fun x y => x.1 < y.1) := fun m hm => by
    rw [Ascending, KMap.keys, List.pairwise_map] at hm; exact hm
  have hn : ∀ m : KMap (List Nat), Ascending m → m.Nodup := fun m hm => (p m hm).imp (fun hxy he => by rw [he] at hxy; exact lt_irrefl _ hxy)
  refine List.Perm.eq_of_pairwise (le := fun x y => x.1 < y.1) ?_ (p m h.ascending) (p m' h'.ascending) ((List.perm_ext_iff_of_nodup (hn m h.ascending) (hn m' h'.ascending)).2 hs)
  intro a b _ _ h1 h2
  exact absurd h1 (lt_asymm h2)

/-- **C41, the part that holds**: for every range of at least three indices inside the label array, and for every empty range, `hdbscan_create_cluster_map`
    returns the table that maps exactly the labels that occur in the range to the ascending lists of the indices that carry them.
    Missing: ranges of one or two indices, for which it aborts (`C41_short_aborts`). -/
theorem C41_map_partial (labels : List Nat) (b e : Nat) (he : e ≤ labels.length) (h3 : b + 3 ≤ e ∨ e ≤ b) :
    ∃ m, CMap.create labels b e = .ok m ∧ CMap.cppCreate labels b e = .ok m ∧ IsClusterMap labels b (max b e) m := by
  obtain ⟨m, e1, h1⟩ := C58_cpp_map labels b e he
  refine ⟨m, ?_, e1, h1⟩
  rcases h3 with h3 | h3
  · rw [CMap.create, CMap.loop_eq _ _ (by rw [Hier.subIndex_eq (by omega)]; omega)]; exact e1
  · rw [CMap.create, show e - b = 0 by omega]
    rw [CMap.cppCreate, show e - b = 0 by omega] at e1
    exact e1

/-- **C41 is violated** for every range of one or two indices: the initial capacity of the first list is `size / 3 = 0`, which `array_list_init` rejects with an assertion. -/
theorem C41_short_aborts (labels : List Nat) (b e : Nat) (he : e ≤ labels.length) (h1 : b < e) (h2 : e < b + 3) : (CMap.create labels b e).Aborts := by
  obtain ⟨c, hc⟩ : ∃ c, e - b = c + 1 := ⟨e - b - 1, by omega⟩
  rw [CMap.create, hc, CMap.loop, CMap.add, rd_ok (by omega), Outcome.ok_bind]
  simp only [KMap.lookup, List.find?_nil, Option.map_none]
  rw [if_pos (by rw [Hier.subIndex_eq (by omega)]; omega)]
  exact ⟨_, rfl⟩

example := C41_map_partial [2, 0, 2, 3, 3, 0, 2] 1 6 (by decide) (.inl (by decide))
example : CMap.create [2, 0, 2, 3, 3, 0, 2] 1 6 = .ok [(0, [1, 5]), (2, [2]), (3, [3, 4])] := by decide +kernel
example := C41_short_aborts [2, 0, 2] 1 3 (by decide) (by decide) (by decide)
example : CMap.cppCreate [2, 0, 2] 1 3 = .ok [(0, [1]), (2, [2])] := by decide +kernel

/-! ### C42 -/

section
variable {W : Type} [LinearOrder W]

/-- The records of all clusters (helper). -/
theorem minMax_rep (k : DMap.Consts W) (dis : Distance W) (n : Nat) (d : Nat → Nat → W) (core : Nat → W)
    (hget : ∀ i j, i < n → j < n → i ≠ j → dis.get k.zero i j = .ok (d i j))
    (hcore : ∀ i, i < n → dis.coreDistances[i]? = some (some (core i))) (hpos : ∀ i, i < n → k.zero ≤ core i) :
    ∀ (r : KMap (List Nat)) (m : KMap (DistVals W)), Ascending r → (∀ a ∈ m.keys, ∀ b ∈ r.keys, a < b) → (∀ x ∈ r, x.2 ≠ [] ∧ x.2.Nodup ∧ ∀ i ∈ x.2, i < n) →
    ∃ m', DMap.loop k dis r m = .ok (m ++ m') ∧ m'.keys = r.keys ∧ ∀ x ∈ r, ∃ v i, (x.1, v) ∈ m' ∧ x.2.head? = some i ∧ DMap.Inv k (core i) (CoreOf core x.2) (PairOf d x.2) v := by
  intro r
  induction r with
  | nil => intro m _ _ _; exact ⟨[], by simp [DMap.loop], rfl, by simp⟩
  | cons x r ih =>
    obtain ⟨key, l⟩ := x
    intro m hasc hlt hx
    rw [Ascending, KMap.keys, List.map_cons, List.pairwise_cons] at hasc
    obtain ⟨h1, h2, h3⟩ := hx (key, l) (by simp)
    obtain ⟨i, t, rfl⟩ : ∃ i t, l = i :: t := by
      cases l with
      | nil => exact absurd rfl h1
      | cons i t => exact ⟨i, t, rfl⟩
    have hg : ∀ a b, [a, b].Sublist (i :: t) → dis.get k.zero a b = .ok (d a b) := by
      intro a b hab
      have hs := hab.subset
      refine hget a b (h3 a (hs (by simp))) (h3 b (hs (by simp))) ?_
      have := h2.sublist hab
      simpa using this
    obtain ⟨v, e, hv⟩ := DMap.cluster_rep (k := k) (dis := dis) (d := d) (core := core) i t hg (fun a ha => hcore a (h3 a ha)) (fun a ha => hpos a (h3 a ha))
    have hnone : m.lookup key = none := KMap.lookup_none (fun a ha => by have := hlt a ha key (by simp [KMap.keys]); omega)
    have hlast : m.insert key v = m ++ [(key, v)] := KMap.insert_last (fun a ha => hlt a ha key (by simp [KMap.keys])) v
    obtain ⟨m', e', hk, hm⟩ := ih (m ++ [(key, v)]) hasc.2 (by
      intro a ha b hb
      rw [KMap.keys, List.map_append, List.mem_append] at ha
      rcases ha with ha | ha
      · exact hlt a ha b (by simp [KMap.keys] at hb ⊢; exact .inr hb)
      · simp at ha; subst ha; exact hasc.1 b hb) (fun y hy => hx y (by simp [hy]))
    refine ⟨(key, v) :: m', ?_, by simp [KMap.keys] at hk ⊢; exact hk, ?_⟩
    · rw [DMap.loop, hnone, e, Outcome.ok_bind]
      simp only []
      rw [hlast, e', List.append_assoc]; rfl
    · intro y hy
      rcases List.mem_cons.1 hy with rfl | hy
      · exact ⟨v, i, by simp, rfl, hv⟩
      · obtain ⟨w, j, q1, q2⟩ := hm y hy
        exact ⟨w, j, by simp [q1], q2⟩

/-- **C42, the part that holds.** Given a table of non-empty clusters of points below `n`, non-negative core distances and any distances,
    `hdbscan_get_min_max_distances` returns a record for every cluster and for no other label, in which
    * the largest core distance is right;
    * the smallest non-zero core distance is right if the core distance of the first member is not zero;
    * the largest distance between members is right if some distance between members is at least D_MIN;
    * the smallest non-zero distance between members is right if some non-zero one is at most D_MAX.
    Missing: the other cases, in which the values are wrong (`C42_zero_first`, `C42_no_distance`). -/
theorem C42_min_max_partial (k : DMap.Consts W) (dis : Distance W) (n : Nat) (d : Nat → Nat → W) (core : Nat → W)
    (hget : ∀ i j, i < n → j < n → i ≠ j → dis.get k.zero i j = .ok (d i j))
    (hcore : ∀ i, i < n → dis.coreDistances[i]? = some (some (core i))) (hpos : ∀ i, i < n → k.zero ≤ core i)
    (clusters : KMap (List Nat)) (hasc : Ascending clusters) (hcl : ∀ x ∈ clusters, x.2 ≠ [] ∧ x.2.Nodup ∧ ∀ i ∈ x.2, i < n) :
    ∃ m, DMap.minMax k dis clusters = .ok m ∧ m.keys = clusters.keys ∧ ∀ c l, clusters.lookup c = some l → ∃ v, m.lookup c = some v ∧
      Largest (CoreOf core l) v.maxCr ∧
      ((∀ i, l.head? = some i → core i ≠ k.zero) → Smallest (fun x => CoreOf core l x ∧ x ≠ k.zero) v.minCr) ∧
      ((∃ x, PairOf d l x ∧ k.dmin ≤ x) → Largest (PairOf d l) v.maxDr) ∧
      ((∃ x, PairOf d l x ∧ x ≠ k.zero ∧ x ≤ k.dmax) → Smallest (fun x => PairOf d l x ∧ x ≠ k.zero) v.minDr) := by
  obtain ⟨m, e, hk, hm⟩ := minMax_rep k dis n d core hget hcore hpos clusters [] hasc (by simp [KMap.keys]) hcl
  have hma : Ascending m := by rw [Ascending, hk]; exact hasc
  refine ⟨m, e, hk, fun c l hl => ?_⟩
  obtain ⟨v, i, h1, h2, h3⟩ := hm (c, l) ((KMap.lookup_mem hasc).1 hl)
  refine ⟨v, (KMap.lookup_mem hma).2 h1, h3.maxCr, fun h => h3.minCr (h i h2), ?_, ?_⟩
  · rintro ⟨x, hx, hd⟩
    obtain ⟨hp, hb⟩ := h3.maxDr
    refine ⟨?_, fun y hy => hb y (.inl hy)⟩
    rcases hp with hp | hp
    · exact hp
    · have := le_antisymm (hb x (.inl hx)) (hp ▸ hd)
      exact this ▸ hx
  · rintro ⟨x, hx, hz, hd⟩
    obtain ⟨hp, hb⟩ := h3.minDr
    refine ⟨?_, fun y hy => hb y (.inl hy)⟩
    rcases hp with hp | hp
    · exact hp
    · have := le_antisymm (hb x (.inl ⟨hx, hz⟩)) (hp ▸ hd)
      exact this.symm ▸ ⟨hx, hz⟩

/-- **C42 is violated** for every cluster whose first member has core distance zero: the recorded minimum is zero, although zeros of later members are skipped. -/
theorem C42_zero_first (k : DMap.Consts W) (dis : Distance W) (n : Nat) (d : Nat → Nat → W) (core : Nat → W)
    (hget : ∀ i j, i < n → j < n → i ≠ j → dis.get k.zero i j = .ok (d i j))
    (hcore : ∀ i, i < n → dis.coreDistances[i]? = some (some (core i))) (hpos : ∀ i, i < n → k.zero ≤ core i)
    (clusters : KMap (List Nat)) (hasc : Ascending clusters) (hcl : ∀ x ∈ clusters, x.2 ≠ [] ∧ x.2.Nodup ∧ ∀ i ∈ x.2, i < n) :
    ∃ m, DMap.minMax k dis clusters = .ok m ∧ ∀ c l i, clusters.lookup c = some l → l.head? = some i → core i = k.zero → ∃ v, m.lookup c = some v ∧
      v.minCr = k.zero ∧ ¬ Smallest (fun x => CoreOf core l x ∧ x ≠ k.zero) v.minCr := by
  obtain ⟨m, e, hk, hm⟩ := minMax_rep k dis n d core hget hcore hpos clusters [] hasc (by simp [KMap.keys]) hcl
  have hma : Ascending m := by rw [Ascending, hk]; exact hasc
  refine ⟨m, e, fun c l i hl hi hz => ?_⟩
  obtain ⟨v, j, h1, h2, h3⟩ := hm (c, l) ((KMap.lookup_mem hasc).1 hl)
  obtain rfl : i = j := by simp only at h2; rw [hi] at h2; exact Option.some.inj h2
  exact ⟨v, (KMap.lookup_mem hma).2 h1, h3.minCr0 hz, fun hs => hs.1.2 (h3.minCr0 hz)⟩

/-- **C42 is violated** for clusters without a non-zero distance (single points, identical points): the recorded largest distance is D_MIN, the smallest positive
    normal number, although all distances are zero or there are none, and the recorded smallest distance is D_MAX. -/
theorem C42_no_distance (k : DMap.Consts W) (hk : k.zero < k.dmin) (dis : Distance W) (n : Nat) (d : Nat → Nat → W) (core : Nat → W)
    (hget : ∀ i j, i < n → j < n → i ≠ j → dis.get k.zero i j = .ok (d i j))
    (hcore : ∀ i, i < n → dis.coreDistances[i]? = some (some (core i))) (hpos : ∀ i, i < n → k.zero ≤ core i)
    (clusters : KMap (List Nat)) (hasc : Ascending clusters) (hcl : ∀ x ∈ clusters, x.2 ≠ [] ∧ x.2.Nodup ∧ ∀ i ∈ x.2, i < n) :
    ∃ m, DMap.minMax k dis clusters = .ok m ∧ ∀ c l, clusters.lookup c = some l → (∀ x, PairOf d l x → x = k.zero) → ∃ v, m.lookup c = some v ∧
      v.maxDr = k.dmin ∧ v.minDr = k.dmax ∧ ¬ Largest (PairOf d l) v.maxDr := by
  obtain ⟨m, e, hk', hm⟩ := minMax_rep k dis n d core hget hcore hpos clusters [] hasc (by simp [KMap.keys]) hcl
  have hma : Ascending m := by rw [Ascending, hk']; exact hasc
  refine ⟨m, e, fun c l hl hz => ?_⟩
  obtain ⟨v, i, h1, _, h3⟩ := hm (c, l) ((KMap.lookup_mem hasc).1 hl)
  have hmax : v.maxDr = k.dmin := by
    rcases h3.maxDr.1 with hp | hp
    · have := h3.maxDr.2 k.dmin (.inr rfl)
      rw [hz _ hp] at this
      exact absurd hk (not_lt.2 this)
    · exact hp
  have hmin : v.minDr = k.dmax := by
    rcases h3.minDr.1 with hp | hp
    · exact absurd (hz _ hp.1) hp.2
    · exact hp
  refine ⟨v, (KMap.lookup_mem hma).2 h1, hmax, hmin, fun hl => ?_⟩
  have := hz _ hl.1
  rw [hmax] at this
  exact absurd this hk.ne'

end

/-- Five points on the line, of which the last two are equal. -/
def mmDist (i j : Nat) : Int := |([0, 1, 3, 10, 10].getD i 0 : Int) - ([0, 1, 3, 10, 10].getD j 0 : Int)|

/-- Their packed distances and the distances to the nearest neighbour. -/
def mmData : Distance Int := { rows := 5, cols := 1, numNeighbors := 1, distances := [1, 3, 10, 10, 2, 9, 9, 7, 7, 0].map some, coreDistances := [1, 1, 2, 0, 0].map some }

def mmConsts : DMap.Consts Int := { zero := 0, dmin := 1, dmax := 1000 }

theorem mm_hyps : (∀ i j, i < 5 → j < 5 → i ≠ j → mmData.get mmConsts.zero i j = .ok (mmDist i j)) ∧
    (∀ i, i < 5 → mmData.coreDistances[i]? = some (some ([1, 1, 2, 0, 0].getD i 0))) ∧ (∀ i, i < 5 → mmConsts.zero ≤ ([1, 1, 2, 0, 0] : List Int).getD i 0) := by
  refine ⟨?_, by decide +kernel, by decide +kernel⟩
  intro i j hi hj hij
  have : ∀ i : Fin 5, ∀ j : Fin 5, i ≠ j → mmData.get mmConsts.zero i j = .ok (mmDist i j) := by decide +kernel
  exact this ⟨i, hi⟩ ⟨j, hj⟩ (by simpa using hij)

def mmClusters : KMap (List Nat) := [(2, [0, 1, 2]), (3, [3, 4])]

example := C42_min_max_partial mmConsts mmData 5 mmDist _ mm_hyps.1 mm_hyps.2.1 mm_hyps.2.2 mmClusters (by simp [Ascending, mmClusters, KMap.keys]) (by decide)
example := C42_zero_first mmConsts mmData 5 mmDist _ mm_hyps.1 mm_hyps.2.1 mm_hyps.2.2 mmClusters (by simp [Ascending, mmClusters, KMap.keys]) (by decide)
example := C42_no_distance mmConsts (by decide) mmData 5 mmDist _ mm_hyps.1 mm_hyps.2.1 mm_hyps.2.2 mmClusters (by simp [Ascending, mmClusters, KMap.keys]) (by decide)
example : DMap.minMax mmConsts mmData mmClusters = .ok [(2, ⟨1, 2, 0, 1, 3, 0⟩), (3, ⟨0, 0, 0, 1000, 1, 0⟩)] := by decide +kernel

/-- The points 10, 10, 12 of the line. -/
def dupLine : Distance Int := { rows := 3, cols := 1, numNeighbors := 1, distances := [0, 2, 2].map some, coreDistances := [0, 0, 2].map some }

/-- **C42 is violated**, concretely. In the cluster of the points 10, 10, 12 the smallest non-zero core distance is 2, the recorded one is 0. For the cluster of the two
    equal points the largest distance is 0, the recorded one is D_MIN (here 1) and the recorded smallest one is D_MAX (here 1000). -/
theorem C42_violated : DMap.minMax mmConsts dupLine [(2, [0, 1, 2])] = .ok [(2, ⟨0, 2, 0, 2, 2, 0⟩)] ∧
    DMap.minMax mmConsts dupLine [(2, [0, 1]), (3, [2])] = .ok [(2, ⟨0, 0, 0, 1000, 1, 0⟩), (3, ⟨2, 2, 0, 1000, 1, 0⟩)] := by
  constructor <;> decide +kernel

end Verif.Props
