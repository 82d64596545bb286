import Verif.Lemmas.Stability
/-
Properties C25 to C31 and C54: the hierarchy and the cluster tree.
-/
namespace Verif.Props
open Spec
variable {W S : Type}

/-- C25. For every admissible spanning tree input and every `minPoints ≥ 1` the construction returns (it terminates, makes no
    out-of-bounds access, reads nothing uninitialised and follows no null cluster). Every point ends as noise, with a recorded
    noise level and a recorded last cluster that exists: they are the weight of, and the label in, the last line in which the
    point is not noise. -/
theorem C25_hierarchy_succeeds [LinearOrder W] (ar : Arith W S) (g : Graph W) (minPoints : Nat) (hm : 1 ≤ minPoints) (hn : g.numVertices < 2 ^ 32)
    (hg : TreeInput g.numVertices g.va g.vb g.wt g.edges) :
    ∃ res : Hier.Result W S, Hier.compute ar minPoints false g = .ok res ∧ res.cur = List.replicate g.numVertices 0 ∧
      res.noise.length = g.numVertices ∧ res.last.length = g.numVertices ∧
      ∀ p, p < g.numVertices → ∃ (w : W) (l : Nat) (c : Cl W S), res.noise[p]? = some (some w) ∧ res.last[p]? = some (some l) ∧
        res.clusters[l]? = some (some c) ∧ l ≠ 0 ∧
        ∃ i, 1 ≤ i ∧ Carries res.hierarchy i p l ∧ HasWeight res.hierarchy i w ∧ ∀ j x, i < j → Carries res.hierarchy j p x → x = 0 := by
  obtain ⟨f, hr, ec, hd, hs, _⟩ := Hier.input_rep hg
  obtain ⟨res, hist, cur, noise, last, e, h⟩ := Hier.obs ar hr hg.nonempty ec rfl hn hm hd hs
  refine ⟨res, e, ?_, by rw [h.noise]; simp, by rw [h.last]; simp, ?_⟩
  · rw [h.cur]
    apply List.ext_getElem
    · simp
    · intro i h1 h2
      simp only [List.length_map, List.length_range] at h1
      simp [h.zero i h1]
  · intro p hp
    obtain ⟨s, w, f', q1, q2, q3, q4, q5⟩ := h.bk.noise p hp (h.zero p hp)
    have hlt := h.bk.lt s p hp
    rw [Hier.lab_get q1] at hlt
    obtain ⟨c, hc, _⟩ := h.bk.cl (f' p) (by omega) hlt
    have hsl := Hier.lt_of_get q1
    have hlab : Hier.lab hist cur s p = f' p := by rw [Hier.lab_get q1]
    refine ⟨w, f' p, c, by rw [h.noise]; simp [hp, q4], by rw [h.last]; simp [hp, q5], hc, q2, s + 1, by omega, ?_, h.hasWeight q1, ?_⟩
    · exact (h.carries (by omega)).2 ⟨by omega, hp, by simpa using hlab⟩
    · intro j x hj hcj
      obtain ⟨_, _, hl⟩ := (h.carries (by omega)).1 hcj
      rw [← hl]
      exact h.bk.noise_stays hp (show s + 1 ≤ j - 1 by omega) q3

theorem atLeast_congr {m : Nat} {P Q : Nat → Prop} (h : ∀ v, P v ↔ Q v) : AtLeast m P ↔ AtLeast m Q := by
  unfold AtLeast
  constructor
  · rintro ⟨l, h1, h2, h3⟩; exact ⟨l, h1, h2, fun v hv => (h v).1 (h3 v hv)⟩
  · rintro ⟨l, h1, h2, h3⟩; exact ⟨l, h1, h2, fun v hv => (h v).2 (h3 v hv)⟩

/-- C26, for every `minPoints ≥ 1`. In the line of weight `w`, two points that are not noise carry the same label exactly when they
    are connected by edges of weight at most `w`; a point is noise exactly when fewer than `minPoints` points are connected to it
    in that way or none of them has an edge (not even a self edge) of weight at most `w`. -/
theorem C26_general [LinearOrder W] (ar : Arith W S) (g : Graph W) (minPoints : Nat) (hm : 1 ≤ minPoints) (hn : g.numVertices < 2 ^ 32)
    (hsize : minPoints ≤ g.numVertices) (hg : TreeInput g.numVertices g.va g.vb g.wt g.edges) :
    ∃ res : Hier.Result W S, Hier.compute ar minPoints false g = .ok res ∧
      ∀ i w A, (i, w, A) ∈ res.hierarchy → i ≠ 0 → A.length = g.numVertices ∧
        (∀ u v lu lv, A[u]? = some lu → A[v]? = some lv → lu ≠ 0 → lv ≠ 0 → (lu = lv ↔ ConnectedBy (triples g.va g.vb g.wt) w u v)) ∧
        (∀ u lu, A[u]? = some lu → (lu = 0 ↔ ¬ (AtLeast minPoints (fun v => ConnectedBy (triples g.va g.vb g.wt) w u v) ∧
          ∃ a b x, (a, b, x) ∈ triples g.va g.vb g.wt ∧ x ≤ w ∧ ConnectedBy (triples g.va g.vb g.wt) w u a))) := by
  obtain ⟨f, hr, ec, hd, hs, htr⟩ := Hier.input_rep hg
  obtain ⟨res, hist, cur, noise, last, e, h⟩ := Hier.obs ar hr hg.nonempty ec rfl hn hm hd hs
  refine ⟨res, e, ?_⟩
  intro i w A hmem hi
  rcases h.mem_lines.1 hmem with ⟨h0, _⟩ | ⟨s, f', q1, q2, q3⟩
  · exact absurd h0 hi
  · subst q3
    have hA : ∀ u lu, ((List.range g.numVertices).map f')[u]? = some lu → u < g.numVertices ∧ f' u = lu := by
      intro u lu hu
      have hun : u < g.numVertices := by
        have := Hier.lt_of_get hu
        simpa using this
      exact ⟨hun, by simpa [hun] using hu⟩
    obtain ⟨k, hk, hval⟩ : ∃ k, Hier.LineK g.numVertices minPoints g.wt.length f (w, f') k ∧ ∀ u, u < g.numVertices → f' u ≠ 0 → Hier.VK f k minPoints u := by
      by_cases hs0 : s = 0
      · subst hs0
        refine ⟨_, h.first _ q1, ?_⟩
        intro u hu _
        refine ⟨⟨List.range g.numVertices, List.nodup_range, by simpa using hsize, fun v hv => hs u v hu (List.mem_range.1 hv)⟩, ?_⟩
        have h0 := ec.lt 0 hg.nonempty
        exact ⟨_, _, hs u _ hu h0.1, 0, hg.nonempty, .inl ⟨rfl, rfl⟩⟩
      · obtain ⟨k, hk⟩ := h.line _ (List.mem_of_getElem? q1)
        refine ⟨k, hk, hk.valid ?_⟩
        intro hkM
        -- the first line has a larger weight, which is the weight of an edge
        have hlt := Hier.lt_of_get q1
        obtain ⟨x, hx⟩ : ∃ x, hist[0]? = some x := ⟨_, List.getElem?_eq_getElem (by omega)⟩
        obtain ⟨j, hj1, hj2⟩ := (h.first x hx).at'
        have h1 := (hk.wt j hj1).1 (by omega)
        have h2 := h.ord
        rw [List.pairwise_iff_getElem] at h2
        have h3 := h2 0 s (by simp; omega) (by simpa using hlt) (by omega)
        rw [List.getElem?_eq_some_iff] at hx q1
        obtain ⟨_, hx⟩ := hx
        obtain ⟨_, q1⟩ := q1
        simp only [List.getElem_map, hx, q1] at h3
        simp only at h1
        rw [hj2] at h1
        exact absurd h3 (not_lt.2 h1)
    have hconn := Hier.rk_iff hk.le hk.wt
    simp only at hconn
    refine ⟨by simp, ?_, ?_⟩
    · intro u v lu lv hu hv hu0 hv0
      obtain ⟨hu1, rfl⟩ := hA u lu hu
      obtain ⟨hv1, rfl⟩ := hA v lv hv
      rw [htr, ← hconn]
      exact hk.conn u v hu1 hv1 hu0 hv0
    · intro u lu hu
      obtain ⟨hu1, rfl⟩ := hA u lu hu
      have hVK : Hier.VK f k minPoints u ↔ (AtLeast minPoints (fun v => ConnectedBy (triples g.va g.vb g.wt) w u v) ∧
          ∃ a b x, (a, b, x) ∈ triples g.va g.vb g.wt ∧ x ≤ w ∧ ConnectedBy (triples g.va g.vb g.wt) w u a) := by
        rw [Hier.VK, htr]
        refine and_congr (atLeast_congr (hconn u)) ?_
        constructor
        · rintro ⟨v, x, h1, j, hj, hv⟩
          have hjM : j < g.wt.length := Nat.lt_of_lt_of_le hj hk.le
          refine ⟨(f j).1, (f j).2.1, (f j).2.2, List.mem_map.2 ⟨j, List.mem_range.2 hjM, rfl⟩, (hk.wt j hjM).1 hj, (hconn _ _).1 ?_⟩
          rcases hv with ⟨rfl, _⟩ | ⟨h2, h3⟩
          · exact h1
          · refine h1.tail ⟨j, hj, .inr ⟨rfl, h3⟩⟩
        · rintro ⟨a, b, x, h1, h2, h3⟩
          obtain ⟨j, hj, he⟩ := List.mem_map.1 h1
          refine ⟨a, b, (hconn _ _).2 h3, j, (hk.wt j (List.mem_range.1 hj)).2 (by rw [he]; exact h2), .inl ⟨by rw [he], by rw [he]⟩⟩
      rw [← hVK]
      constructor
      · intro h0; exact hk.zero u hu1 h0
      · intro hv
        by_contra hne
        exact hv (hval u hu1 hne)

/-- C26. In the line of weight `w`, two points that are not noise carry the same label exactly when they are connected by edges of
    weight at most `w`, and a point is noise exactly when fewer than `minPoints` points are connected to it in that way. -/
theorem C26_density [LinearOrder W] (ar : Arith W S) (g : Graph W) (minPoints : Nat) (hm : 2 ≤ minPoints) (hn : g.numVertices < 2 ^ 32)
    (hsize : minPoints ≤ g.numVertices) (hg : TreeInput g.numVertices g.va g.vb g.wt g.edges) :
    ∃ res : Hier.Result W S, Hier.compute ar minPoints false g = .ok res ∧
      ∀ i w A, (i, w, A) ∈ res.hierarchy → i ≠ 0 → A.length = g.numVertices ∧
        (∀ u v lu lv, A[u]? = some lu → A[v]? = some lv → lu ≠ 0 → lv ≠ 0 → (lu = lv ↔ ConnectedBy (triples g.va g.vb g.wt) w u v)) ∧
        (∀ u lu, A[u]? = some lu → (lu = 0 ↔ ¬ AtLeast minPoints (fun v => ConnectedBy (triples g.va g.vb g.wt) w u v))) := by
  obtain ⟨res, e, h⟩ := C26_general ar g minPoints (by omega) hn hsize hg
  refine ⟨res, e, fun i w A hmem hi => ?_⟩
  obtain ⟨h1, h2, h3⟩ := h i w A hmem hi
  refine ⟨h1, h2, fun u lu hu => ?_⟩
  rw [h3 u lu hu]
  refine not_congr ⟨fun h => h.1, fun h => ⟨h, ?_⟩⟩
  obtain ⟨l, q1, q2, q3⟩ := h
  obtain ⟨v, hv, hne⟩ : ∃ v ∈ l, v ≠ u := by
    match l, q1, q2 with
    | [], _, q2 => simp at q2; omega
    | [a], _, q2 => simp at q2; omega
    | a :: b :: t, q1, _ =>
      by_cases ha : a = u
      · refine ⟨b, by simp, ?_⟩
        rintro rfl
        subst ha
        simp at q1
      · exact ⟨a, by simp, ha⟩
  -- a walk to another point starts or ends with an edge
  have key : ∀ x y, ConnectedBy (triples g.va g.vb g.wt) w x y → x = y ∨ ∃ a b z, (a, b, z) ∈ triples g.va g.vb g.wt ∧ z ≤ w ∧
      ConnectedBy (triples g.va g.vb g.wt) w x a ∧ ConnectedBy (triples g.va g.vb g.wt) w y a := by
    intro x y hxy
    induction hxy with
    | rel x y hxy =>
      obtain ⟨z, hz, hle⟩ := hxy
      exact .inr ⟨x, y, z, hz, hle, .refl _, .symm _ _ (.rel _ _ ⟨z, hz, hle⟩)⟩
    | refl => exact .inl rfl
    | symm _ _ _ ih =>
      rcases ih with ih | ⟨a, b, z, i1, i2, i3, i4⟩
      · exact .inl ih.symm
      · exact .inr ⟨a, b, z, i1, i2, i4, i3⟩
    | trans x y t h1 h2 i1 i2 =>
      rcases i1 with i1 | ⟨a, b, z, j1, j2, j3, j4⟩
      · subst i1
        exact i2
      · exact .inr ⟨a, b, z, j1, j2, j3, .trans _ _ _ (.symm _ _ h2) j4⟩
  rcases key u v (q3 v hv) with h4 | ⟨a, b, z, j1, j2, j3, _⟩
  · exact absurd h4.symm hne
  · exact ⟨a, b, z, j1, j2, j3⟩

/-- C27. The hierarchy holds lines `1, ..., L` followed by line 0, which has weight 0 and all labels 0; the weights of lines `1, ..., L`
    are edge weights and strictly decrease, starting with the largest edge weight; the first line labels every point 1; a point that
    is noise in a line is noise in all later lines. -/
theorem C27_lines [LinearOrder W] (ar : Arith W S) (g : Graph W) (minPoints : Nat) (hm : 1 ≤ minPoints) (hn : g.numVertices < 2 ^ 32)
    (hg : TreeInput g.numVertices g.va g.vb g.wt g.edges) :
    ∃ (res : Hier.Result W S) (lines : Lines W), Hier.compute ar minPoints false g = .ok res ∧
      res.hierarchy = lines ++ [(0, ar.zeroW, List.replicate g.numVertices 0)] ∧
      lines.map (·.1) = List.range' 1 lines.length ∧ (lines.map (·.2.1)).Pairwise (· > ·) ∧
      (∀ x ∈ lines, x.2.1 ∈ g.wt ∧ x.2.2.length = g.numVertices) ∧
      (∃ w, lines[0]? = some (1, w, List.replicate g.numVertices 1) ∧ ∀ x ∈ g.wt, x ≤ w) ∧
      ∀ i j p, 1 ≤ i → i < j → j ≤ lines.length → Carries lines i p 0 → Carries lines j p 0 := by
  obtain ⟨f, hr, ec, hd, hs, htr⟩ := Hier.input_rep hg
  obtain ⟨res, hist, cur, noise, last, e, h⟩ := Hier.obs ar hr hg.nonempty ec rfl hn hm hd hs
  refine ⟨res, hist.zipIdx.map (fun h => (h.2 + 1, h.1.1, (List.range g.numVertices).map h.1.2)), e, h.lines, ?_, ?_, ?_, ?_, ?_⟩
  · apply List.ext_getElem
    · simp
    · intro i h1 h2
      simp
      omega
  · have : (hist.zipIdx.map (fun h => (h.2 + 1, h.1.1, (List.range g.numVertices).map h.1.2))).map (·.2.1) = hist.map (·.1) := by
      apply List.ext_getElem
      · simp
      · intro i h1 h2; simp
    rw [this]
    exact h.ord
  · intro x hx
    obtain ⟨⟨⟨w, f'⟩, s⟩, hy, rfl⟩ := List.mem_map.1 hx
    rw [List.mem_zipIdx_iff_getElem?] at hy
    obtain ⟨k, hk⟩ := h.line _ (List.mem_of_getElem? hy)
    obtain ⟨j, hj, hjw⟩ := hk.at'
    refine ⟨?_, by simp⟩
    simp only at hjw ⊢
    rw [← hjw, hr.wt]
    exact List.mem_map.2 ⟨j, List.mem_range.2 hj, rfl⟩
  · obtain ⟨⟨w, f'⟩, hx⟩ : ∃ x, hist[0]? = some x := ⟨_, List.getElem?_eq_getElem (List.length_pos_iff.2 h.ne)⟩
    refine ⟨w, ?_, ?_⟩
    · rw [List.getElem?_map, List.getElem?_zipIdx, hx]
      simp only [Option.map_some, Option.some.injEq, Prod.mk.injEq, Nat.zero_add, true_and]
      apply List.ext_getElem
      · simp
      · intro i h1 h2
        simp only [List.length_map, List.length_range] at h1
        have := h.bk.one i h1
        rw [Hier.lab_get hx] at this
        simpa using this
    · intro x hxw
      rw [hr.wt] at hxw
      obtain ⟨j, hj, rfl⟩ := List.mem_map.1 hxw
      exact ((h.first _ hx).wt j (List.mem_range.1 hj)).1 (List.mem_range.1 hj)
  · intro i j p hi hij hj hc
    have hsub : ∀ i, 1 ≤ i → ∀ p l, Carries (hist.zipIdx.map (fun h => (h.2 + 1, h.1.1, (List.range g.numVertices).map h.1.2))) i p l ↔ Carries res.hierarchy i p l := by
      intro i hi p l
      rw [h.lines]
      constructor
      · rintro ⟨w, A, h1, h2⟩; exact ⟨w, A, List.mem_append_left _ h1, h2⟩
      · rintro ⟨w, A, h1, h2⟩
        rcases List.mem_append.1 h1 with h1 | h1
        · exact ⟨w, A, h1, h2⟩
        · simp only [List.mem_singleton, Prod.mk.injEq] at h1
          omega
    rw [hsub i hi, h.carries hi] at hc
    rw [hsub j (by omega), h.carries (by omega)]
    exact ⟨by simpa using hj, hc.2.1, h.bk.noise_stays hc.2.1 (by omega) hc.2.2⟩

/-- C28. Index 0 of the cluster list is null and no other index is; the cluster at index `l` has label `l`; the root is cluster 1; every
    other cluster has a parent with a smaller label that is marked as having children, and its birth level is the weight at which
    the parent dies; a cluster is marked as having children exactly when it is a parent, and then it has at least two children. -/
theorem C28_tree [LinearOrder W] (ar : Arith W S) (g : Graph W) (minPoints : Nat) (hm : 1 ≤ minPoints) (hn : g.numVertices < 2 ^ 32)
    (hg : TreeInput g.numVertices g.va g.vb g.wt g.edges) :
    ∃ res : Hier.Result W S, Hier.compute ar minPoints false g = .ok res ∧ 2 ≤ res.clusters.length ∧ res.clusters[0]? = some none ∧
      (∀ l, 1 ≤ l → l < res.clusters.length → ∃ c : Cl W S, res.clusters[l]? = some (some c)) ∧
      ∀ (l : Nat) (c : Cl W S), res.clusters[l]? = some (some c) → c.label = l ∧ (c.parent = none ↔ l = 1) ∧
        (∀ q, c.parent = some q → q < l ∧ ∃ cq : Cl W S, res.clusters[q]? = some (some cq) ∧ cq.hasChildren = true ∧ c.birth = some cq.death) ∧
        (c.hasChildren = true ↔ ∃ (l1 : Nat) (c1 : Cl W S), res.clusters[l1]? = some (some c1) ∧ c1.parent = some l) ∧
        (c.hasChildren = true → ∃ (l1 l2 : Nat) (c1 c2 : Cl W S), l1 ≠ l2 ∧ res.clusters[l1]? = some (some c1) ∧ res.clusters[l2]? = some (some c2) ∧
          c1.parent = some l ∧ c2.parent = some l) := by
  obtain ⟨f, hr, ec, hd, hs, htr⟩ := Hier.input_rep hg
  obtain ⟨res, hist, cur, noise, last, e, h⟩ := Hier.obs ar hr hg.nonempty ec rfl hn hm hd hs
  refine ⟨res, e, h.bk.two, h.bk.zero, fun l h1 h2 => ?_, fun l c hc => ?_⟩
  · obtain ⟨c, hc, _⟩ := h.bk.cl l h1 h2
    exact ⟨c, hc⟩
  · obtain ⟨h1, h2, hi⟩ := h.bk.get hc
    refine ⟨hi.label, ⟨fun hp => ?_, fun hl => (hi.root hl).2⟩, fun q hq => ?_, h.bk.kids l c hc, fun hk => ?_⟩
    · by_contra hl
      obtain ⟨q, _, _, _, _, b2, _⟩ := hi.born hl
      rw [hp] at b2
      simp at b2
    · have hl : l ≠ 1 := fun hl => by
        have := (hi.root hl).2
        rw [hq] at this
        simp at this
      obtain ⟨q', _, _, _, _, b2, b3, b4, _⟩ := hi.born hl
      rw [hq] at b2
      simp only [Option.some.injEq] at b2
      subst b2
      obtain ⟨cq, s1, _, s3, _⟩ := h.spl l c q hc hq
      exact ⟨b4, cq, s1, (h.bk.kids q cq s1).2 ⟨l, c, hc, hq⟩, s3⟩
    · obtain ⟨l1, c1, q1, q2⟩ := (h.bk.kids l c hc).1 hk
      obtain ⟨_, _, _, _, l2, c2, s4, s5, s6⟩ := h.spl l1 c1 l q1 q2
      exact ⟨l2, l1, c2, c1, s4, s5, q1, s6, q2⟩

/-- C29. Every cluster `l` other than the root appears for the first time in some line `i + 1`; it is carried there by at least
    `minPoints` points; every point that ever carries `l` carries it in line `i + 1` and carried the parent's label in line `i`, whose
    weight is the birth level of `l`. No point ever carries the labels of two siblings. -/
theorem C29_birth [LinearOrder W] (ar : Arith W S) (g : Graph W) (minPoints : Nat) (hm : 1 ≤ minPoints) (hn : g.numVertices < 2 ^ 32)
    (hg : TreeInput g.numVertices g.va g.vb g.wt g.edges) :
    ∃ res : Hier.Result W S, Hier.compute ar minPoints false g = .ok res ∧
      (∀ (l : Nat) (c : Cl W S), res.clusters[l]? = some (some c) → l ≠ 1 →
        ∃ q b i, c.parent = some q ∧ c.birth = some b ∧ 1 ≤ i ∧ c.offset = i ∧ HasWeight res.hierarchy i b ∧
          (∀ j p, 1 ≤ j → j ≤ i → ¬ Carries res.hierarchy j p l) ∧
          AtLeast minPoints (fun p => Carries res.hierarchy (i + 1) p l) ∧
          (∀ j p, Carries res.hierarchy j p l → Carries res.hierarchy (i + 1) p l ∧ Carries res.hierarchy i p q)) ∧
      (∀ (l l' : Nat) (c c' : Cl W S) (q : Nat), res.clusters[l]? = some (some c) → res.clusters[l']? = some (some c') → l ≠ l' →
        c.parent = some q → c'.parent = some q → ∀ i j p, ¬ (Carries res.hierarchy i p l ∧ Carries res.hierarchy j p l')) := by
  obtain ⟨f, hr, ec, hd, hs, htr⟩ := Hier.input_rep hg
  obtain ⟨res, hist, cur, noise, last, e, h⟩ := Hier.obs ar hr hg.nonempty ec rfl hn hm hd hs
  -- every point that carries `l` carries it at birth
  have key : ∀ l s, l ≠ 0 → (∀ s', s' ≤ s → ∀ p, p < g.numVertices → Hier.lab hist cur s' p ≠ l) → (∃ p, p < g.numVertices ∧ Hier.lab hist cur (s + 1) p = l) →
      ∀ j p, Carries res.hierarchy j p l → p < g.numVertices ∧ Hier.lab hist cur (s + 1) p = l := by
    intro l s hl h1 h2 j p hc
    rcases Nat.eq_zero_or_pos j with hj | hj
    · subst hj
      exact absurd (h.carries_zero.1 hc).2 hl
    · obtain ⟨_, hp, hlab⟩ := (h.carries hj).1 hc
      refine ⟨hp, h.bk.back hp (s := s + 1) (t := j - 1) ?_ hl h2 hlab⟩
      by_contra hlt
      exact h1 (j - 1) (by omega) p hp hlab
  refine ⟨res, e, ?_, ?_⟩
  · intro l c hc hl
    have hl1 := (h.bk.get hc).1
    obtain ⟨q, s, w, f', b1, b2, b3, b4, b5, b6, b7, b8, b9, b10, b11⟩ := h.birth hl hc
    refine ⟨q, w, s + 1, b2, b5, by omega, b6, h.hasWeight b1, ?_, ?_, ?_⟩
    · intro j p hj1 hj2 hcr
      obtain ⟨_, hp, hlab⟩ := (h.carries hj1).1 hcr
      exact b11 (j - 1) (by omega) p hp hlab
    · refine ⟨(List.range g.numVertices).filter (fun p => decide (Hier.lab hist cur (s + 1) p = l)), List.nodup_range.filter _, ?_, ?_⟩
      · rw [← List.countP_eq_length_filter]
        exact b9
      · intro p hp
        rw [List.mem_filter, List.mem_range, decide_eq_true_eq] at hp
        exact (h.carries (by omega)).2 ⟨by omega, hp.1, by simpa using hp.2⟩
    · intro j p hcr
      obtain ⟨hp, hlab⟩ := key l s (by omega) b11 b10 j p hcr
      refine ⟨(h.carries (by omega)).2 ⟨by omega, hp, by simpa using hlab⟩, (h.carries (by omega)).2 ⟨by omega, hp, ?_⟩⟩
      rw [Nat.add_sub_cancel, Hier.lab_get b1]
      exact b8 p hp hlab
  · intro l l' c c' q hc hc' hne hq hq' i j p ⟨h1, h2⟩
    have hl : l ≠ 1 := fun hl => by
      have := ((h.bk.get hc).2.2.root hl).2
      rw [hq] at this
      simp at this
    have hl' : l' ≠ 1 := fun hl => by
      have := ((h.bk.get hc').2.2.root hl).2
      rw [hq'] at this
      simp at this
    have hl1 := (h.bk.get hc).1
    have hl1' := (h.bk.get hc').1
    obtain ⟨_, s, w, f', b1, _, _, _, b5, _, _, _, _, b10, b11⟩ := h.birth hl hc
    obtain ⟨_, s', w', f'', d1, _, _, _, d5, _, _, _, _, d10, d11⟩ := h.birth hl' hc'
    obtain ⟨cq, t1, _, t3, _⟩ := h.spl l c q hc hq
    obtain ⟨cq', u1, _, u3, _⟩ := h.spl l' c' q hc' hq'
    have hcq : cq' = cq := by
      rw [t1] at u1
      simp only [Option.some.injEq] at u1
      exact u1.symm
    subst hcq
    have hww : w = w' := by
      rw [b5] at t3
      rw [d5] at u3
      simp only [Option.some.injEq] at t3 u3
      exact t3.trans u3.symm
    have hss : s = s' := by
      subst hww
      have h2 := h.ord
      rw [List.pairwise_iff_getElem] at h2
      have k1 := Hier.lt_of_get b1
      have k2 := Hier.lt_of_get d1
      rw [List.getElem?_eq_some_iff] at b1 d1
      obtain ⟨_, b1⟩ := b1
      obtain ⟨_, d1⟩ := d1
      rcases Nat.lt_trichotomy s s' with hlt | heq | hgt
      · have := h2 s s' (by simpa using k1) (by simpa using k2) hlt
        simp only [List.getElem_map, b1, d1] at this
        exact absurd this (lt_irrefl _)
      · exact heq
      · have := h2 s' s (by simpa using k2) (by simpa using k1) hgt
        simp only [List.getElem_map, b1, d1] at this
        exact absurd this (lt_irrefl _)
    subst hss
    have k1 := (key l s (by omega) b11 b10 i p h1).2
    have k2 := (key l' s (by omega) d11 d10 j p h2).2
    exact hne (k1.symm.trans k2)

/-! ### A concrete input

Six points in two groups of three, `minPoints = 2`: edges of weight `a` inside the groups, self edges of weight `a`, one edge of
weight `b` between the groups. -/

def demo (a b : W) : Graph W where
  numVertices := 6
  va := [1, 2, 4, 5, 0, 1, 2, 3, 4, 5, 3]
  vb := [0, 1, 3, 4, 0, 1, 2, 3, 4, 5, 2]
  wt := [a, a, a, a, a, a, a, a, a, a, b]
  edges := [[0, 1], [0, 1, 2], [1, 2, 3], [2, 3, 4], [3, 4, 5], [4, 5]]

/-- The hypotheses of the hierarchy properties hold for it. -/
theorem demo_input [LinearOrder W] {a b : W} (hab : a ≤ b) : TreeInput (demo a b).numVertices (demo a b).va (demo a b).vb (demo a b).wt (demo a b).edges := by
  have hva : (demo a b).va = [1, 2, 4, 5, 0, 1, 2, 3, 4, 5, 3] := rfl
  have hvb : (demo a b).vb = [0, 1, 3, 4, 0, 1, 2, 3, 4, 5, 2] := rfl
  have hed : (demo a b).edges = [[0, 1], [0, 1, 2], [1, 2, 3], [2, 3, 4], [3, 4, 5], [4, 5]] := rfl
  have hlt : ∀ e ∈ (demo a b).va.zip (demo a b).vb, e.1 < 6 ∧ e.2 < 6 := by
    rw [hva, hvb]; decide
  have hc : ∀ u, u < 6 → Relation.EqvGen (fun x y => (x, y) ∈ (demo a b).va.zip (demo a b).vb) u 0 := by
    rw [hva, hvb]
    have e1 : Relation.EqvGen (fun a b => (a, b) ∈ [1, 2, 4, 5, 0, 1, 2, 3, 4, 5, 3].zip [0, 1, 3, 4, 0, 1, 2, 3, 4, 5, 2]) 1 0 := .rel _ _ (by decide)
    have e2 : Relation.EqvGen (fun a b => (a, b) ∈ [1, 2, 4, 5, 0, 1, 2, 3, 4, 5, 3].zip [0, 1, 3, 4, 0, 1, 2, 3, 4, 5, 2]) 2 0 := .trans _ _ _ (.rel _ _ (by decide)) e1
    have e3 : Relation.EqvGen (fun a b => (a, b) ∈ [1, 2, 4, 5, 0, 1, 2, 3, 4, 5, 3].zip [0, 1, 3, 4, 0, 1, 2, 3, 4, 5, 2]) 3 0 := .trans _ _ _ (.rel _ _ (by decide)) e2
    have e4 : Relation.EqvGen (fun a b => (a, b) ∈ [1, 2, 4, 5, 0, 1, 2, 3, 4, 5, 3].zip [0, 1, 3, 4, 0, 1, 2, 3, 4, 5, 2]) 4 0 := .trans _ _ _ (.rel _ _ (by decide)) e3
    have e5 : Relation.EqvGen (fun a b => (a, b) ∈ [1, 2, 4, 5, 0, 1, 2, 3, 4, 5, 3].zip [0, 1, 3, 4, 0, 1, 2, 3, 4, 5, 2]) 5 0 := .trans _ _ _ (.rel _ _ (by decide)) e4
    intro u hu
    match u, hu with
    | 0, _ => exact .refl _
    | 1, _ => exact e1
    | 2, _ => exact e2
    | 3, _ => exact e3
    | 4, _ => exact e4
    | 5, _ => exact e5
  have hout : ∀ v w, ¬ (v < 6 ∧ w < 6) → ((demo a b).va.zip (demo a b).vb).countP (joins v w) = 0 := by
    intro v w hvw
    rw [List.countP_eq_zero]
    intro e he hj
    have := hlt e he
    simp [joins] at hj
    omega
  refine ⟨by simp [demo], rfl, rfl, by simp [demo], by simp [demo], by simp [demo, hab], ⟨rfl, ?_⟩,
    fun u v hu hv => .trans _ _ _ (hc u hu) (.symm _ _ (hc v hv)), ?_⟩
  · intro v w hv
    by_cases hw : w < 6
    · rw [hva, hvb, hed]
      have : ∀ v, v < 6 → ∀ w, w < 6 → (([[0, 1], [0, 1, 2], [1, 2, 3], [2, 3, 4], [3, 4, 5], [4, 5]] : List (List Nat))[v]?.getD []).count w =
          (([1, 2, 4, 5, 0, 1, 2, 3, 4, 5, 3] : List Nat).zip [0, 1, 3, 4, 0, 1, 2, 3, 4, 5, 2]).countP (joins v w) := by decide +kernel
      exact this v hv w hw
    · rw [hout v w (by omega), hed, List.count_eq_zero]
      have : ∀ v, v < 6 → ∀ x ∈ ([[0, 1], [0, 1, 2], [1, 2, 3], [2, 3, 4], [3, 4, 5], [4, 5]] : List (List Nat))[v]?.getD [], x < 6 := by decide +kernel
      exact fun hx => hw (this v hv w hx)
  · intro v
    by_cases hv : v < 6
    · rw [hva, hvb]
      have : ∀ v, v < 6 → (([1, 2, 4, 5, 0, 1, 2, 3, 4, 5, 3] : List Nat).zip [0, 1, 3, 4, 0, 1, 2, 3, 4, 5, 2]).countP (joins v v) ≤ 1 := by decide +kernel
      exact this v hv
    · rw [hout v v (by omega)]; omega

/-- An arithmetic for the concrete run. -/
def demoArith : Arith Nat Nat :=
  { zeroW := 0, dmax := 1000, zeroS := 0, add := (· + ·), term := fun k w b => match b with | some b => k * (b - w) | none => 0 }

/-- The run on the concrete input: three lines, two clusters below the root. -/
theorem demo_run : (Hier.compute demoArith 2 false (demo 1 5) >>= fun r => .ok (r.hierarchy, r.noise, r.last, r.clusters.length)) =
    .ok ([(1, 5, [1, 1, 1, 1, 1, 1]), (2, 1, [2, 2, 2, 3, 3, 3]), (0, 0, [0, 0, 0, 0, 0, 0])],
      [some 1, some 1, some 1, some 1, some 1, some 1], [some 2, some 2, some 2, some 3, some 3, some 3], 4) := by decide +kernel

example : ∃ res : Hier.Result Nat Nat, Hier.compute demoArith 2 false (demo 1 5) = .ok res ∧ res.cur = List.replicate 6 0 := by
  obtain ⟨res, h1, h2, _⟩ := C25_hierarchy_succeeds demoArith (demo 1 5) 2 (by decide) (by decide) (demo_input (by decide))
  exact ⟨res, h1, h2⟩

example := C26_density demoArith (demo 1 5) 2 (by decide) (by decide) (by decide) (demo_input (by decide))
example := C26_general demoArith (demo 1 5) 1 (by decide) (by decide) (by decide) (demo_input (by decide))
example := C27_lines demoArith (demo 1 5) 2 (by decide) (by decide) (demo_input (by decide))
example := C28_tree demoArith (demo 1 5) 2 (by decide) (by decide) (demo_input (by decide))
example := C29_birth demoArith (demo 1 5) 2 (by decide) (by decide) (demo_input (by decide))

/-- Outside the hypotheses of C25: an edge of weight NaN is never removed, so the main loop does not end, whatever the number of
    iterations allowed. -/
theorem C25_nan_diverges (fuel : Nat) : Hier.mainLoop (S := Nat) { zeroW := Fl.fin 0, dmax := Fl.fin 1000, zeroS := 0, add := (· + ·), term := fun _ _ _ => 0 } 2 false
    [0, 1] [1, 1] [Fl.nan, Fl.nan] fuel 2
    (Hier.initial { zeroW := Fl.fin 0, dmax := Fl.fin 1000, zeroS := 0, add := (· + ·), term := fun _ _ _ => 0 }
      { numVertices := 2, va := [0, 1], vb := [1, 1], wt := [Fl.nan, Fl.nan], edges := [[1], [0, 1]] }) = .diverge := by
  induction fuel with
  | zero => rfl
  | succ fuel ih => exact ih

end Verif.Props
