import Verif.Lemmas.SortClusters
import Verif.Lemmas.ClusterMap
/-
C46, C47, C48, C57: sorting clusters.
-/
namespace Verif.Props
open CSort Spec
variable {L W : Type}

/-- Two lists of equal length, as functions of the position. -/
theorem rep_of (c : List L) (d : List W) (hl : c.length = d.length) (x : L × W) : CSort.Rep { c := c, d := d } c.length (fun i => (c.zip d).getD i x) := by
  constructor
  · apply List.ext_getElem
    · simp
    · intro i h1 h2
      simp at h1
      simp [List.getD, List.getElem?_eq_getElem (show i < (c.zip d).length by simp; omega)]
  · apply List.ext_getElem
    · simp [hl]
    · intro i h1 h2
      simp at h1
      simp [List.getD, List.getElem?_eq_getElem (show i < (c.zip d).length by simp; omega)]

/-- **C46.** On arrays of equal length and any range `left..right` inside them (`hi = right + 1`), `hdbscan_quicksort` terminates without leaving the range: positions
    outside keep their pairs, the pairs inside are permuted, and the values inside ascend afterwards. -/
theorem C46_quicksort [LinearOrder W] (c : List L) (d : List W) (hl : c.length = d.length) (left hi : Nat) (hh : hi ≤ c.length) :
    ∃ a : Arr L W, quicksort c.length { c := c, d := d } left hi = .ok a ∧ a.c.length = c.length ∧ a.d.length = c.length ∧
      (a.c.zip a.d).Perm (c.zip d) ∧
      (∀ k, k < left ∨ hi ≤ k → (a.c.zip a.d)[k]? = (c.zip d)[k]?) ∧
      (∀ (i j : Nat) (u v : W), left ≤ i → i ≤ j → j < hi → a.d[i]? = some u → a.d[j]? = some v → u ≤ v) := by
  cases c with
  | nil =>
    have hd : d = [] := by cases d <;> simp_all
    subst hd
    refine ⟨{ c := [], d := [] }, by simp at hh; simp [quicksort, hh], rfl, rfl, .refl _, fun _ _ => rfl, by simp⟩
  | cons c0 cr =>
    cases d with
    | nil => simp at hl
    | cons d0 dr =>
      have h := rep_of (c0 :: cr) (d0 :: dr) hl (c0, d0)
      generalize hc : c0 :: cr = c at *
      generalize hd : d0 :: dr = d at *
      generalize hf : (fun i => (c.zip d).getD i (c0, d0)) = f at *
      have hn : 0 < c.length := by rw [← hc]; simp
      obtain ⟨a, σ, e, h', hfix, hs⟩ := quicksort_rep (n := c.length) c.length _ f left hi h hh (by omega)
      have hzip : ∀ (b : Arr L W) (g : Nat → L × W), CSort.Rep b c.length g → b.c.zip b.d = (List.range c.length).map g := by
        intro b g hb
        rw [hb.c, hb.d, List.zip_map']
      have hz := hzip _ _ h
      have hz' := hzip _ _ h'
      refine ⟨a, e, by rw [h'.c]; simp, by rw [h'.d]; simp, ?_, ?_, ?_⟩
      · rw [hz', hz]
        exact Graph.within_perm (fun k hk => hfix k (by omega)) hn f
      · intro k hk
        rw [hz', hz]
        by_cases hkn : k < c.length
        · simp [hkn, hfix k hk]
        · simp [hkn]
      · intro i j u v h1 h2 h3 hu hv
        rw [h'.d] at hu hv
        simp [show i < c.length by omega] at hu
        simp [show j < c.length by omega] at hv
        rw [← hu, ← hv]
        exact hs i j h1 h2 h3

/-- `hdbscan_quicksort` does not terminate when values are NaN (as confidences are for clusters of identical points): the loop of `partition` on the
    values 5, NaN, NaN exchanges the last two for ever, whatever number of iterations is allowed. -/
theorem C46_nan_diverges (fuel : Nat) (c0 c1 c2 : L) : partLoop (Fl.fin 5) fuel 1 2 { c := [c0, c1, c2], d := [.fin 5, .nan, .nan] } = .diverge := by
  induction fuel generalizing c1 c2 with
  | zero => rfl
  | succ fuel ih =>
    have : partLoop (Fl.fin 5) (fuel + 1) 1 2 { c := [c0, c1, c2], d := [.fin 5, .nan, .nan] } =
      partLoop (Fl.fin 5) fuel 1 2 { c := [c0, c2, c1], d := [.fin 5, .nan, .nan] } := rfl
    rw [this, ih]

example := C46_quicksort [10, 20, 30, 40, 50] [3, 1, 2, 1, (0 : Int)] rfl 0 4 (by decide)
example : quicksort 5 { c := [10, 20, 30, 40, 50], d := [3, 1, 2, 1, (0 : Int)] } 0 4 = .ok { c := [20, 40, 30, 10, 50], d := [1, 1, 2, 3, 0] } := by decide +kernel

/-- The whole sort of a list of clusters by the values of a function of the label (helper). -/
theorem sortAll_spec [LinearOrder W] (cl : List Nat) (ds : List W) (hl : cl.length = ds.length) :
    ∃ r, sortAll cl ds = .ok r ∧ r.Perm cl ∧ ∀ val : Nat → W, ds = cl.map val → r.Pairwise (fun a b => val a ≤ val b) := by
  obtain ⟨a, e, l1, l2, hp, _, hs⟩ := C46_quicksort cl ds hl 0 cl.length (le_refl _)
  refine ⟨a.c, by simp [sortAll, e], ?_, fun val hv => ?_⟩
  · have := hp.map Prod.fst
    rwa [List.map_fst_zip (by omega), List.map_fst_zip (by omega)] at this
  · have hval : a.d = a.c.map val := by
      have hmem : ∀ p ∈ a.c.zip a.d, p.2 = val p.1 := by
        intro p hp'
        have := hp.mem_iff.1 hp'
        have z : ∀ l : List Nat, l.zip (l.map val) = l.map (fun x => (x, val x)) := by
          intro l
          induction l <;> simp_all
        rw [hv, z] at this
        simp at this
        obtain ⟨x, _, rfl⟩ := this
        rfl
      apply List.ext_getElem
      · simp; omega
      · intro i h1 h2
        have : (a.c[i]'(by omega), a.d[i]) ∈ a.c.zip a.d := by
          rw [← List.getElem_zip (h := by simp; omega)]
          exact List.getElem_mem _
        simpa using hmem _ this
    rw [List.pairwise_iff_getElem]
    intro i j hi hj hij
    refine hs i j _ _ (by omega) (by omega) (by omega) ?_ ?_
    · rw [hval]; simp [hi]
    · rw [hval]; simp [hj]

/-! ### Tables -/

/-- The value of a cluster in a table, with a default for labels that are not in it. -/
def valueOf {V : Type} (m : KMap V) (g : V → W) (x : W) (k : Nat) : W := ((m.lookup k).map g).getD x

theorem values_map {V : Type} {m : KMap V} (h : Ascending m) (g : V → W) (x : W) : ∀ l : KMap V, (∀ e ∈ l, e ∈ m) → l.map (fun e => g e.2) = l.keys.map (valueOf m g x) := by
  intro l hl
  rw [KMap.keys, List.map_map]
  apply List.map_congr_left
  intro e he
  simp [valueOf, (KMap.lookup_mem h).2 (hl e he : (e.1, e.2) ∈ m)]

/-! ### C47 -/

/-- **C47, the part that holds**: without a list, or given a list that consists of the first labels of the table in ascending order, the result is a permutation in
    ascending order of the clusters' own confidences. For any other list that is not longer than the table the result is a permutation of it.
    Missing: the order for other lists, which is wrong (`C47_violated`): the confidences used are those of the first labels of the table. -/
theorem C47_similarity_partial [LinearOrder W] (m : KMap (DistVals W)) (hm : Ascending m) (hne : m ≠ []) (coreType : Bool) :
    (∃ r, bySimilarity m none coreType = .ok r ∧ r.Perm m.keys ∧
      r.Pairwise (fun a b => ∀ u v, m.lookup a = some u → m.lookup b = some v → confidenceOf coreType u ≤ confidenceOf coreType v)) ∧
    (∀ cl : List Nat, cl ≠ [] → cl.length ≤ m.length → ∃ r, bySimilarity m (some cl) coreType = .ok r ∧ r.Perm cl ∧
      (cl = m.keys.take cl.length → r.Pairwise (fun a b => ∀ u v, m.lookup a = some u → m.lookup b = some v → confidenceOf coreType u ≤ confidenceOf coreType v))) := by
  have hconf : (confidenceOf : Bool → DistVals W → W) = conf := by funext b v; cases b <;> rfl
  rw [hconf]
  obtain ⟨e0, he0⟩ := List.exists_mem_of_ne_nil m hne
  let x := conf coreType e0.2
  have hp : ∀ r : List Nat, r.Pairwise (fun a b => valueOf m (conf coreType) x a ≤ valueOf m (conf coreType) x b) →
      r.Pairwise (fun a b => ∀ u v, m.lookup a = some u → m.lookup b = some v → conf coreType u ≤ conf coreType v) := by
    intro r hr
    refine hr.imp ?_
    intro a b hab u v hu hv
    simpa [valueOf, hu, hv] using hab
  have hfetch : ∀ (count i : Nat), i + count ≤ m.length → fetch m coreType count i = .ok (((m.drop i).take count).map (fun e => conf coreType e.2)) := by
    intro count
    induction count with
    | zero => intro i _; simp [fetch]
    | succ count ih =>
      intro i hi
      have hil : i < m.length := by omega
      have hlk : m.lookup m[i].1 = some m[i].2 := (KMap.lookup_mem hm).2 (List.getElem_mem hil)
      rw [fetch, KMap.keys, rd_ok (by simpa using hil), Outcome.ok_bind, List.getElem_map, hlk]
      simp only []
      rw [ih (i + 1) (by omega), Outcome.ok_bind, List.drop_eq_getElem_cons hil, List.take_succ_cons, List.map_cons]
      rfl
  constructor
  · obtain ⟨r, e, h1, h2⟩ := sortAll_spec m.keys (m.map (fun e => conf coreType e.2)) (by simp [KMap.keys])
    refine ⟨r, ?_, h1, hp r (h2 _ (values_map hm _ x m (fun _ h => h)))⟩
    rw [bySimilarity, if_neg (by simpa using hne)]
    exact e
  · intro cl hcl hlen
    obtain ⟨r, e, h1, h2⟩ := sortAll_spec cl ((m.take cl.length).map (fun e => conf coreType e.2)) (by simp; omega)
    refine ⟨r, ?_, h1, fun hpre => hp r (h2 _ ?_)⟩
    · rw [bySimilarity, if_neg (by simpa using hcl), hfetch _ _ (by omega), Outcome.ok_bind]
      simpa using e
    · rw [values_map hm (conf coreType) x (m.take cl.length) (fun e he => List.mem_of_mem_take he)]
      congr 1
      rw [KMap.keys, List.map_take]
      exact hpre.symm

/-- The labels and values after a sort (helper). -/
theorem sortAll_pairs [LinearOrder W] (cl : List Nat) (ds : List W) (hl : cl.length = ds.length) :
    ∃ r s, sortAll cl ds = .ok r ∧ r.length = s.length ∧ (r.zip s).Perm (cl.zip ds) ∧ s.Pairwise (· ≤ ·) := by
  obtain ⟨a, e, l1, l2, hp, _, hs⟩ := C46_quicksort cl ds hl 0 cl.length (le_refl _)
  refine ⟨a.c, a.d, by simp [sortAll, e], by omega, hp, ?_⟩
  rw [List.pairwise_iff_getElem]
  intro i j hi hj hij
  exact hs i j _ _ (by omega) (by omega) (by omega) (by simp [hi]) (by simp [hj])

/-- **C47, exactly**, for every list: the labels of the list come out in ascending order of the confidences of the first labels of the table, position by position. An empty
    list fails an assertion, a list longer than the table is undefined behaviour. -/
theorem C47_exact [LinearOrder W] (m : KMap (DistVals W)) (hm : Ascending m) (coreType : Bool) (cl : List Nat) :
    (cl = [] → (bySimilarity m (some cl) coreType).Aborts) ∧
    (m.length < cl.length → (bySimilarity m (some cl) coreType).IsUB) ∧
    (cl ≠ [] → cl.length ≤ m.length → ∃ r s, bySimilarity m (some cl) coreType = .ok r ∧ r.length = s.length ∧
      (r.zip s).Perm (cl.zip (m.map (fun e => confidenceOf coreType e.2))) ∧ s.Pairwise (· ≤ ·)) := by
  have hconf : (confidenceOf : Bool → DistVals W → W) = conf := by funext b v; cases b <;> rfl
  rw [hconf]
  have hstep : ∀ (count i : Nat) (h : i < m.length), fetch m coreType (count + 1) i =
      (fetch m coreType count (i + 1) >>= fun r => (pure (conf coreType m[i].2 :: r) : Outcome (List W))) := by
    intro count i h
    have hlk : m.lookup m[i].1 = some m[i].2 := (KMap.lookup_mem hm).2 (List.getElem_mem h)
    rw [fetch, KMap.keys, rd_ok (by simpa using h), Outcome.ok_bind, List.getElem_map, hlk]
  have hfetch : ∀ (count i : Nat), i + count ≤ m.length → fetch m coreType count i = .ok (((m.drop i).take count).map (fun e => conf coreType e.2)) := by
    intro count
    induction count with
    | zero => intro i _; simp [fetch]
    | succ count ih =>
      intro i hi
      have hil : i < m.length := by omega
      rw [hstep count i hil, ih (i + 1) (by omega), Outcome.ok_bind, List.drop_eq_getElem_cons hil, List.take_succ_cons, List.map_cons]
      rfl
  have hover : ∀ (count i : Nat), i ≤ m.length → m.length < i + count → fetch m coreType count i = .ub "read out of bounds" := by
    intro count
    induction count with
    | zero => intro i h1 h2; omega
    | succ count ih =>
      intro i h1 h2
      by_cases hil : i < m.length
      · rw [hstep count i hil, ih (i + 1) (by omega) (by omega)]
        rfl
      · rw [fetch]
        have : rd (KMap.keys m) i = .ub "read out of bounds" := by
          unfold rd
          rw [List.getElem?_eq_none (by simp [KMap.keys]; omega)]
        rw [this]
        rfl
  refine ⟨?_, ?_, ?_⟩
  · rintro rfl
    exact ⟨_, rfl⟩
  · intro h
    refine ⟨"read out of bounds", ?_⟩
    have hcl : cl ≠ [] := by rintro rfl; simp at h
    rw [bySimilarity, if_neg (by simpa using hcl), hover _ _ (by omega) (by omega)]
    rfl
  · intro hcl hlen
    obtain ⟨r, s, e, h1, h2, h3⟩ := sortAll_pairs cl ((m.take cl.length).map (fun e => conf coreType e.2)) (by simp; omega)
    refine ⟨r, s, ?_, h1, ?_, h3⟩
    · rw [bySimilarity, if_neg (by simpa using hcl), hfetch _ _ (by omega), Outcome.ok_bind]
      simpa using e
    · rw [List.map_take] at h2
      have : cl.zip ((m.map (fun e => conf coreType e.2)).take cl.length) = cl.zip (m.map (fun e => conf coreType e.2)) := by
        have z : ∀ (l : List Nat) (x : List W), l.zip (x.take l.length) = l.zip x := by
          intro l
          induction l with
          | nil => intro x; simp
          | cons a l ih => intro x; cases x <;> simp [ih]
        exact z _ _
      rw [this] at h2
      exact h2

/-- A table with confidences 30, 10, 20 for the labels 1, 2, 3. -/
def simMap : KMap (DistVals Int) := [(1, ⟨1, 1, 30, 1, 1, 0⟩), (2, ⟨1, 1, 10, 1, 1, 0⟩), (3, ⟨1, 1, 20, 1, 1, 0⟩)]

theorem simMap_asc : Ascending simMap := by simp [Ascending, simMap, KMap.keys]

example := C47_similarity_partial simMap simMap_asc (by simp [simMap]) true
example : bySimilarity simMap none true = .ok [2, 3, 1] := by decide +kernel

/-- **C47 is violated**: asked to order the clusters 2 and 1, whose confidences are 10 and 30, the function returns 1 before 2, because it pairs 2 with the
    confidence of the first label. An empty list, which by the comment in the code stands for all clusters, fails an assertion; a list with repeated labels that is
    longer than the table makes it read past the keys. -/
theorem C47_violated : bySimilarity simMap (some [2, 1]) true = .ok [1, 2] ∧ (bySimilarity simMap (some []) true).Aborts ∧
    (bySimilarity simMap (some [1, 2, 3, 1]) true).IsUB := by
  refine ⟨by decide +kernel, ⟨_, rfl⟩, ⟨_, rfl⟩⟩

/-- The exact theorem at work: the labels 3, 1 are ordered by the confidences 30 and 10 of the labels 1 and 2. -/
example : Ascending simMap ∧ [3, 1].length ≤ simMap.length ∧ bySimilarity simMap (some [3, 1]) true = .ok [1, 3] := ⟨simMap_asc, by decide, by decide +kernel⟩

/-- **C57.** The C++ `sortBySimilarity` does what is expected: for a non-empty list of labels of the table the result is a permutation of the list in ascending order
    of the clusters' own confidences; for an empty list it is one of all labels. -/
theorem C57_cpp_similarity [LinearOrder W] (m : KMap (DistVals W)) (hm : Ascending m) (hne : m ≠ []) (coreType : Bool) (cl : List Nat) (hcl : ∀ l ∈ cl, l ∈ m.keys) :
    ∃ r, cppBySimilarity m cl coreType = .ok r ∧ r.Perm (if cl = [] then m.keys else cl) ∧
      r.Pairwise (fun a b => ∀ u v, m.lookup a = some u → m.lookup b = some v → confidenceOf coreType u ≤ confidenceOf coreType v) := by
  have hconf : (confidenceOf : Bool → DistVals W → W) = conf := by funext b v; cases b <;> rfl
  rw [hconf]
  obtain ⟨e0, he0⟩ := List.exists_mem_of_ne_nil m hne
  let x := conf coreType e0.2
  have hp : ∀ r : List Nat, r.Pairwise (fun a b => valueOf m (conf coreType) x a ≤ valueOf m (conf coreType) x b) →
      r.Pairwise (fun a b => ∀ u v, m.lookup a = some u → m.lookup b = some v → conf coreType u ≤ conf coreType v) := by
    intro r hr
    refine hr.imp ?_
    intro a b hab u v hu hv
    simpa [valueOf, hu, hv] using hab
  by_cases h0 : cl = []
  · subst h0
    obtain ⟨r, e, h1, h2⟩ := sortAll_spec m.keys (m.map (fun e => conf coreType e.2)) (by simp [KMap.keys])
    refine ⟨r, ?_, by simpa using h1, hp r (h2 _ (values_map hm _ x m (fun _ h => h)))⟩
    rw [cppBySimilarity, if_pos (by simp), cppSort, if_neg (by simpa [KMap.keys] using hne)]
    exact e
  · have hf : ∀ l : List Nat, (∀ k ∈ l, k ∈ m.keys) → cppFetch m coreType l = .ok (l.map (valueOf m (conf coreType) x)) := by
      intro l
      induction l with
      | nil => intro _; rfl
      | cons k l ih =>
        intro hl
        obtain ⟨e, he, hk⟩ := List.mem_map.1 (hl k (by simp))
        have hlk : m.lookup k = some e.2 := (KMap.lookup_mem hm).2 (by rw [← hk]; exact he)
        rw [cppFetch, hlk]
        simp only []
        rw [ih (fun j hj => hl j (by simp [hj]))]
        simp [valueOf, hlk]
    obtain ⟨r, e, h1, h2⟩ := sortAll_spec cl (cl.map (valueOf m (conf coreType) x)) (by simp)
    refine ⟨r, ?_, by simpa [h0] using h1, hp r (h2 _ rfl)⟩
    rw [cppBySimilarity, if_neg (by simpa using h0), hf cl hcl, Outcome.ok_bind, cppSort, if_neg (by simpa using h0)]
    exact e

example := C57_cpp_similarity simMap simMap_asc (by simp [simMap]) true [2, 1] (by decide)
example : cppBySimilarity simMap [1, 2] true = .ok [2, 1] := by decide +kernel

/-! ### C48 -/

/-- **C48.** For a non-empty list of labels of the cluster map, `hdbscan_sort_by_length` (and the C++ `sortByLength`) return a permutation of the list in ascending
    order of the sizes of the clusters. -/
theorem C48_length (m : KMap (List Nat)) (hm : Ascending m) (cl : List Nat) (hne : cl ≠ []) (hcl : ∀ l ∈ cl, l ∈ m.keys) :
    ∃ r, byLength m (some cl) = .ok r ∧ cppByLength m cl = .ok r ∧ r.Perm cl ∧
      r.Pairwise (fun a b => ∀ u v, m.lookup a = some u → m.lookup b = some v → u.length ≤ v.length) := by
  have hf : ∀ l : List Nat, (∀ k ∈ l, k ∈ m.keys) → sizes m l = .ok (l.map (valueOf m List.length 0)) := by
    intro l
    induction l with
    | nil => intro _; rfl
    | cons k l ih =>
      intro hl
      obtain ⟨e, he, hk⟩ := List.mem_map.1 (hl k (by simp))
      have hlk : m.lookup k = some e.2 := (KMap.lookup_mem hm).2 (by rw [← hk]; exact he)
      rw [sizes, hlk]
      simp only []
      rw [ih (fun j hj => hl j (by simp [hj]))]
      simp [valueOf, hlk]
  obtain ⟨r, e, h1, h2⟩ := sortAll_spec cl (cl.map (valueOf m List.length 0)) (by simp)
  refine ⟨r, ?_, ?_, h1, (h2 _ rfl).imp ?_⟩
  · rw [byLength, if_neg (by simpa using hne), hf cl hcl, Outcome.ok_bind, e]
  · rw [cppByLength, if_neg (by simpa using hne), hf cl hcl, Outcome.ok_bind, cppSort, if_neg (by simpa using hne), e]
  · intro a b hab u v hu hv
    simpa [valueOf, hu, hv] using hab

/-- The branch of `hdbscan_sort_by_length` for an empty list or a null pointer is never reached: both fail an assertion, for every cluster map. -/
theorem C48_empty_aborts (m : KMap (List Nat)) : (byLength m none).Aborts ∧ (byLength m (some [])).Aborts := ⟨⟨_, rfl⟩, ⟨_, rfl⟩⟩

def lenMap : KMap (List Nat) := [(0, [2, 5, 6]), (2, [0, 1]), (3, [3, 4, 7, 8])]

example := C48_length lenMap (by simp [Ascending, lenMap, KMap.keys]) [3, 2, 0] (by simp) (by decide)
example : byLength lenMap (some [3, 2, 0]) = .ok [2, 0, 3] := by decide +kernel

end Verif.Props
