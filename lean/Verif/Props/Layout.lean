import Verif.Lemmas.Layout
/-
C86: C++ programs read what the library stored.
-/
namespace Verif.Props
open Layout Spec
variable {B : Type}

/-- **C86, the part that holds**: for every structure without virtual functions in C++, every member of every element of an array that the library has filled has for a C++ program the
    value that the library stored.
    Missing: structures with a virtual destructor - outlier scores, clusters, graphs and constraints -, for which the claim is false (`C86_outlier_scores_violated`,
    `C86_last_member_violated`, `C86_graph_violated`, `C86_cluster_violated`). -/
theorem C86_plain_partial (d : Decl) (hv : d.virt = false) (ha : ∀ f ∈ d.fields, 0 < f.align) (arr : List (List (List B))) (ht : Typed d arr) (i j : Nat) (v : List B)
    (hm : member arr i j = some v) : cppRead d (block d arr) i j = .ok (v.map some) := by
  have h0 : head d = 0 := by rw [head, hv]; rfl
  have h1 : cppOffsets d = cOffsets d := by rw [cppOffsets, h0]; rfl
  have h2 : cppSize d = cSize d := by
    rw [cppSize, h0, cSize, Nat.max_eq_right (Nat.zero_le _)]
  have : cppRead d (block d arr) i j = cRead d (block d arr) i j := by
    rw [cppRead, cRead, h1, h2]
  rw [this, cRead_spec ha ht hm]

/-- The library itself reads what it stored, whatever the structure. -/
theorem C86_library (d : Decl) (ha : ∀ f ∈ d.fields, 0 < f.align) (arr : List (List (List B))) (ht : Typed d arr) (i j : Nat) (v : List B)
    (hm : member arr i j = some v) : cRead d (block d arr) i j = .ok (v.map some) := cRead_spec ha ht hm

/-- The structures without virtual functions are those whose sizes agree. -/
example : [hdbscan, distance, distanceValues, clusteringStats, hierarchyEntry].map (fun d => (d.virt, cSize d, cppSize d)) =
    [(false, 128, 128), (false, 48, 48), (false, 48, 48), (false, 104, 104), (false, 16, 16)] := by decide +kernel
example : [outlierScore, undirectedGraph, cluster, constraint].map (fun d => (d.virt, cSize d, cppSize d)) =
    [(true, 24, 32), (true, 40, 48), (true, 104, 112), (true, 12, 24)] := by decide +kernel

private theorem aligned (d : Decl) (h : ∀ f ∈ d.fields, f.align = 4 ∨ f.align = 8) : ∀ f ∈ d.fields, 0 < f.align := by
  intro f hf
  rcases h f hf with h | h <;> omega

private theorem up8 (o a : Nat) (h : a = 4 ∨ a = 8) : alignUp (o + 8) a = alignUp o a + 8 := by
  unfold alignUp
  rcases h with rfl | rfl <;> omega

private theorem shifted : ∀ (fs : List Field) (o : Nat), (∀ f ∈ fs, f.align = 4 ∨ f.align = 8) → offsets (o + 8) fs = (offsets o fs).map (· + 8) ∧ ending (o + 8) fs = ending o fs + 8
  | [], o, _ => ⟨rfl, rfl⟩
  | f :: fs, o, h => by
    have h1 := up8 o f.align (h f (by simp))
    obtain ⟨h2, h3⟩ := shifted fs (alignUp o f.align + f.size) fun g hg => h g (by simp [hg])
    have h4 : alignUp (o + 8) f.align + f.size = alignUp o f.align + f.size + 8 := by omega
    exact ⟨by simp only [offsets, List.map_cons]; rw [h4, h2, h1], by simp only [ending]; rw [h4, h3]⟩

private theorem max_le : ∀ (l : List Nat) (a b : Nat), a ≤ b → (∀ x ∈ l, x ≤ b) → l.foldl max a ≤ b
  | [], a, b, h, _ => h
  | c :: l, a, b, h, hl => max_le l (max a c) b (Nat.max_le.2 ⟨h, hl c (by simp)⟩) fun x hx => hl x (by simp [hx])

private theorem alignOf_le {d : Decl} (h : ∀ f ∈ d.fields, f.align = 4 ∨ f.align = 8) : alignOf d.fields ≤ 8 := by
  refine max_le _ 1 8 (by omega) fun x hx => ?_
  obtain ⟨f, hf, rfl⟩ := List.mem_map.1 hx
  rcases h f hf with h | h <;> omega

/-- Where a C++ program looks for the members of a structure with virtual functions: eight bytes behind their place, in elements that are larger than they are. -/
theorem C86_shifted (d : Decl) (hv : d.virt = true) (ha : ∀ f ∈ d.fields, f.align = 4 ∨ f.align = 8) :
    cppOffsets d = (cOffsets d).map (· + 8) ∧ cSize d < cppSize d := by
  have h0 : head d = 8 := by rw [head, hv]; rfl
  obtain ⟨h1, h2⟩ := shifted d.fields 0 ha
  rw [Nat.zero_add] at h1 h2
  have hal := alignOf_le ha
  refine ⟨by rw [cppOffsets, h0, h1]; rfl, ?_⟩
  have h3 : cppSize d = alignUp (ending 0 d.fields + 8) 8 := by rw [cppSize, h0, h2, Nat.max_eq_left hal]
  have h4 := alignUp_ge (ending 0 d.fields + 8) 8 (by omega)
  have h5 : cSize d < ending 0 d.fields + 8 := by
    rw [cSize, alignUp]
    have := Nat.div_mul_le_self (ending 0 d.fields + (alignOf d.fields - 1)) (alignOf d.fields)
    have hp := alignOf_pos d.fields
    omega
  omega

private theorem last_ending : ∀ (fs : List Field) (o : Nat) (j p : Nat) (f : Field), j + 1 = fs.length → (offsets o fs)[j]? = some p → fs[j]? = some f → p + f.size = ending o fs
  | [], _, _, _, _, h, _, _ => by simp at h
  | [g], o, 0, p, f, _, hp, hf => by
    simp only [offsets, List.getElem?_cons_zero, Option.some.injEq] at hp hf
    subst hp hf; rfl
  | [g], o, j + 1, p, f, h, _, _ => by simp at h
  | g :: g' :: fs, o, 0, p, f, h, _, _ => by simp at h
  | g :: g' :: fs, o, j + 1, p, f, h, hp, hf => by
    simp only [List.length_cons, Nat.add_right_cancel_iff] at h
    simp only [offsets, List.getElem?_cons_succ] at hp hf
    exact last_ending (g' :: fs) _ j p f (by simp [h]) (by simpa [offsets] using hp) (by simpa using hf)

/-- **C86 is violated** for every structure with virtual functions: a C++ program that reads the last member of the last element of an array (or of a single structure) reads
    outside the memory that the library has allocated. -/
theorem C86_last_member_violated (d : Decl) (hv : d.virt = true) (ha : ∀ f ∈ d.fields, f.align = 4 ∨ f.align = 8) (arr : List (List (List B))) (ht : Typed d arr)
    (i j : Nat) (hi : i + 1 = arr.length) (hj : j + 1 = d.fields.length) : (cppRead d (block d arr) i j).IsUB := by
  obtain ⟨h1, h2⟩ := C86_shifted d hv ha
  have hjl : j < d.fields.length := by omega
  obtain ⟨f, hf⟩ : ∃ f, d.fields[j]? = some f := ⟨_, List.getElem?_eq_getElem hjl⟩
  obtain ⟨p, hp⟩ : ∃ p, (cOffsets d)[j]? = some p := ⟨_, List.getElem?_eq_getElem (by rw [cOffsets, offsets_length]; exact hjl)⟩
  have hp' : (cppOffsets d)[j]? = some (p + 8) := by rw [h1, List.getElem?_map, hp]; rfl
  rw [cppRead, hp', hf]
  simp only
  refine read_outside (aligned d ha) ht ?_
  have h3 := last_ending d.fields 0 j p f hj hp hf
  have h5 : cSize d < ending 0 d.fields + 8 := by
    have hal := alignOf_le ha
    rw [cSize, alignUp]
    have := Nat.div_mul_le_self (ending 0 d.fields + (alignOf d.fields - 1)) (alignOf d.fields)
    have hp := alignOf_pos d.fields
    omega
  have h6 : i * cSize d ≤ i * cppSize d := Nat.mul_le_mul_left _ (by omega)
  rw [← hi, Nat.succ_mul]
  omega

private theorem score_al : ∀ f ∈ outlierScore.fields, 0 < f.align := by decide

/-- **C86 is violated** for the outlier scores. What a C++ program reads as `outlierScores[i].score` from the `n` scores of a run is, with `k = 4 i / 3`,
    the core distance of the score `k` if `i` is a multiple of three, the id of score `k` followed by padding if `i` is one more, the score of the next entry `k + 1` if `i` is two more;
    and the read is outside the array for the last quarter of the scores. -/
theorem C86_outlier_scores_violated (arr : List (List (List B))) (ht : Typed outlierScore arr) (i : Nat) :
    (32 * i + 16 ≤ 24 * arr.length →
      (∀ v, i % 3 = 0 → member arr (4 * i / 3) 1 = some v → cppRead outlierScore (block outlierScore arr) i 0 = .ok (v.map some)) ∧
      (∀ v, i % 3 = 1 → member arr (4 * i / 3) 2 = some v → cppRead outlierScore (block outlierScore arr) i 0 = .ok (v.map some ++ [none, none, none, none])) ∧
      (∀ v, i % 3 = 2 → member arr (4 * i / 3 + 1) 0 = some v → cppRead outlierScore (block outlierScore arr) i 0 = .ok (v.map some))) ∧
    (24 * arr.length < 32 * i + 16 → (cppRead outlierScore (block outlierScore arr) i 0).IsUB) := by
  have hsz : cSize outlierScore = 24 := by decide
  have e : cppRead outlierScore (block outlierScore arr) i 0 = read (block outlierScore arr) (i * 32 + 8) 8 := rfl
  rw [e]
  have hshape : ∀ vs ∈ arr, ∃ s c n : List B, vs = [s, c, n] ∧ s.length = 8 ∧ c.length = 8 ∧ n.length = 4 := by
    intro vs hvs
    have := ht vs hvs
    match vs, this with
    | [s, c, n], h =>
      simp [outlierScore, w8, w4] at h
      exact ⟨s, c, n, rfl, h.1, h.2.1, h.2.2⟩
    | [], h => simp [outlierScore] at h
    | [_], h => simp [outlierScore] at h
    | [_, _], h => simp [outlierScore] at h
    | _ :: _ :: _ :: _ :: _, h => simp [outlierScore] at h
  have hel : ∀ s c n : List B, s.length = 8 → c.length = 8 → element outlierScore [s, c, n] = s.map some ++ (c.map some ++ (n.map some ++ [none, none, none, none])) := by
    intro s c n h1 h2
    have e1 : cSize outlierScore - ending 0 outlierScore.fields = 4 := by decide
    rw [element, e1]
    show ([] ++ s.map some ++ ([] ++ c.map some ++ ([] ++ n.map some ++ []))) ++ [none, none, none, none] = _
    simp
  refine ⟨fun _ => ⟨?_, ?_, ?_⟩, fun h => ?_⟩
  · intro v hi hv
    simp only [member, Option.bind_eq_some_iff] at hv
    obtain ⟨vs, hm, hj⟩ := hv
    obtain ⟨s, c, n, rfl, h1, h2, h3⟩ := hshape vs (List.mem_of_getElem? hm)
    simp only [List.getElem?_cons_succ, List.getElem?_cons_zero, Option.some.injEq] at hj
    subst hj
    have := read_element score_al ht hm (r := 8) (n := 8) (by rw [hsz]; omega)
    rw [hsz, show 4 * i / 3 * 24 + 8 = i * 32 + 8 by omega] at this
    rw [this, hel s c n h1 h2, List.drop_left' (by simp [h1]), List.take_left' (by simp [h2])]
  · intro v hi hv
    simp only [member, Option.bind_eq_some_iff] at hv
    obtain ⟨vs, hm, hj⟩ := hv
    obtain ⟨s, c, n, rfl, h1, h2, h3⟩ := hshape vs (List.mem_of_getElem? hm)
    simp only [List.getElem?_cons_succ, List.getElem?_cons_zero, Option.some.injEq] at hj
    subst hj
    have := read_element score_al ht hm (r := 16) (n := 8) (by rw [hsz])
    rw [hsz, show 4 * i / 3 * 24 + 16 = i * 32 + 8 by omega] at this
    rw [this, hel s c n h1 h2, ← List.append_assoc, List.drop_left' (by simp [h1, h2]), List.take_of_length_le (by simp [h3])]
  · intro v hi hv
    simp only [member, Option.bind_eq_some_iff] at hv
    obtain ⟨vs, hm, hj⟩ := hv
    obtain ⟨s, c, n, rfl, h1, h2, h3⟩ := hshape vs (List.mem_of_getElem? hm)
    simp only [List.getElem?_cons_zero, Option.some.injEq] at hj
    subst hj
    have := read_element score_al ht hm (r := 0) (n := 8) (by rw [hsz]; omega)
    rw [hsz, show (4 * i / 3 + 1) * 24 + 0 = i * 32 + 8 by omega] at this
    rw [this, hel s c n h1 h2, List.drop_zero, List.take_left' (by simp [h1])]
  · refine read_outside score_al ht ?_
    rw [hsz]; omega

/-- Five outlier scores whose bytes are numbers: the first byte of a score is 10 i + 1, of a core distance 10 i + 2, of an id 10 i + 3. -/
private def fiveScores : List (List (List Nat)) :=
  (List.range 5).map fun i => [[10 * i + 1, 0, 0, 0, 0, 0, 0, 0], [10 * i + 2, 0, 0, 0, 0, 0, 0, 0], [10 * i + 3, 0, 0, 0]]

example : Typed outlierScore fiveScores := by unfold Typed; decide

/-- **C86 is violated**, concretely: a C++ program reads the core distance of score 0, the id of score 1, the score of score 3 as scores 0, 1 and 2. -/
theorem C86_violated : (List.range 3).map (fun i => cppRead outlierScore (block outlierScore fiveScores) i 0) =
    [.ok [some 2, some 0, some 0, some 0, some 0, some 0, some 0, some 0], .ok [some 13, some 0, some 0, some 0, none, none, none, none],
     .ok [some 31, some 0, some 0, some 0, some 0, some 0, some 0, some 0]] := by decide +kernel

private theorem prefix_read {d : Decl} (ha : ∀ f ∈ d.fields, 0 < f.align) {vs : List (List B)} (ht : Typed d [vs]) {j p k : Nat} {v : List B}
    (hp : (cOffsets d)[j]? = some p) (hv : vs[j]? = some v) (hk : k ≤ v.length) : read (block d [vs]) p k = .ok ((v.take k).map some) := by
  obtain ⟨h1, h2⟩ := element_field ha (ht vs (by simp)) hp hv
  have := read_element ha ht (m := 0) (vs := vs) rfl (r := p) (n := k) (by omega)
  rw [Nat.zero_mul, Nat.zero_add] at this
  rw [this, List.map_take, ← h2, List.take_take, Nat.min_eq_left hk]

/-- **C86 is violated** for graphs: a C++ program that follows `mst` reads a part of a pointer as the number of vertices, and each list in place of the one before; reading `edges` is
    undefined behaviour. -/
theorem C86_graph_violated (n va vb wt edges : List B) (ht : Typed undirectedGraph [[n, va, vb, wt, edges]]) :
    let b := block undirectedGraph [[n, va, vb, wt, edges]]
    cppRead undirectedGraph b 0 0 = .ok ((va.take 4).map some) ∧ cppRead undirectedGraph b 0 1 = .ok (vb.map some) ∧ cppRead undirectedGraph b 0 2 = .ok (wt.map some) ∧
    cppRead undirectedGraph b 0 3 = .ok (edges.map some) ∧ (cppRead undirectedGraph b 0 4).IsUB := by
  have ha : ∀ f ∈ undirectedGraph.fields, 0 < f.align := by decide
  have hl := ht _ (List.mem_singleton.2 rfl)
  simp [undirectedGraph, w8, w4] at hl
  obtain ⟨h0, h1, h2, h3, h4⟩ := hl
  refine ⟨?_, ?_, ?_, ?_, ?_⟩
  · exact prefix_read ha ht (j := 1) (p := 8) (k := 4) (by decide) rfl (by omega)
  · have := prefix_read ha ht (j := 2) (p := 16) (k := 8) (v := vb) (by decide) rfl (by omega)
    rw [List.take_of_length_le (by omega)] at this
    exact this
  · have := prefix_read ha ht (j := 3) (p := 24) (k := 8) (v := wt) (by decide) rfl (by omega)
    rw [List.take_of_length_le (by omega)] at this
    exact this
  · have := prefix_read ha ht (j := 4) (p := 32) (k := 8) (v := edges) (by decide) rfl (by omega)
    rw [List.take_of_length_le (by omega)] at this
    exact this
  · exact C86_last_member_violated undirectedGraph rfl (by decide) _ ht 0 4 rfl rfl

/-- **C86 is violated** for clusters: a C++ program reads a part of the birth level as the label, the death level as the birth level, the propagated stability as the stability; reading
    `hasChildren` is undefined behaviour. -/
theorem C86_cluster_violated (vs : List (List B)) (ht : Typed cluster [vs]) :
    let b := block cluster [vs]
    (∀ v, vs[1]? = some v → cppRead cluster b 0 0 = .ok ((v.take 4).map some)) ∧ (∀ v, vs[2]? = some v → cppRead cluster b 0 1 = .ok (v.map some)) ∧
    (∀ v, vs[6]? = some v → cppRead cluster b 0 5 = .ok (v.map some)) ∧ (cppRead cluster b 0 13).IsUB := by
  have ha : ∀ f ∈ cluster.fields, 0 < f.align := by decide
  have hl := ht _ (List.mem_singleton.2 rfl)
  have hlen : ∀ (j : Nat) (v : List B), vs[j]? = some v → (cluster.fields[j]?).map (·.size) = some v.length := by
    intro j v hv
    have := congrArg (·[j]?) hl
    simp only [List.getElem?_map, hv] at this
    rw [← this]; rfl
  refine ⟨fun v hv => ?_, fun v hv => ?_, fun v hv => ?_, ?_⟩
  · have h8 : v.length = 8 := by have := hlen 1 v hv; simpa [cluster, w8] using this.symm
    exact prefix_read ha ht (j := 1) (p := 8) (k := 4) (by decide) hv (by omega)
  · have h8 : v.length = 8 := by have := hlen 2 v hv; simpa [cluster, w8] using this.symm
    have := prefix_read ha ht (j := 2) (p := 16) (k := 8) (v := v) (by decide) hv (by omega)
    rw [List.take_of_length_le (by omega)] at this
    exact this
  · have h8 : v.length = 8 := by have := hlen 6 v hv; simpa [cluster, w8] using this.symm
    have := prefix_read ha ht (j := 6) (p := 48) (k := 8) (v := v) (by decide) hv (by omega)
    rw [List.take_of_length_le (by omega)] at this
    exact this
  · exact C86_last_member_violated cluster rfl (by decide) _ ht 0 13 rfl rfl

/-- Graphs, clusters and plain structures with values exist. -/
example : Typed undirectedGraph [[[5, 0, 0, 0], List.replicate 8 1, List.replicate 8 2, List.replicate 8 3, List.replicate 8 4]] := by unfold Typed; decide
example : Typed cluster [cluster.fields.map fun f => List.replicate f.size 7] := by unfold Typed; decide
example : Typed hdbscan [hdbscan.fields.map fun f => List.replicate f.size 7] ∧ ∀ f ∈ hdbscan.fields, 0 < f.align := by unfold Typed; decide

end Verif.Props
