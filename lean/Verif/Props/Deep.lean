import Verif.Props.Farther
import Verif.Props.Order
import Verif.Props.Density
/-
C123: the deepest rows of every cluster without children have outlier score 0.
-/
namespace Verif.Props
open Spec Race
variable {D W S T : Type}

/-- The rows that stay in a childless cluster to its end are noise in the next line and from then on. -/
private theorem leaf_end [LinearOrder W] (ar : Arith W S) (g : Graph W) (minPoints : Nat) (hm : 1 ≤ minPoints) (hn : g.numVertices < 2 ^ 32)
    (hg : TreeInput g.numVertices g.va g.vb g.wt g.edges) :
    ∃ res : Hier.Result W S, Hier.compute ar minPoints false g = .ok res ∧ ∀ (l : Nat) (c : Cl W S), res.clusters[l]? = some (some c) → (∀ k, ¬ IsChild res.clusters k l) →
      ∃ i, 1 ≤ i ∧ HasWeight res.hierarchy i c.death ∧ (∃ p, Carries res.hierarchy i p l) ∧ ∀ p, Carries res.hierarchy i p l → LastSeen res.hierarchy p i l := by
  obtain ⟨f, hr, ec, hd, hs, htr⟩ := Hier.input_rep hg
  obtain ⟨res, hist, cur, noise, last, e, h⟩ := Hier.obs ar hr hg.nonempty ec rfl hn hm hd hs
  refine ⟨res, e, fun l c hc hleaf => ?_⟩
  obtain ⟨h1, h2, hi⟩ := h.bk.get hc
  have h0 : c.numPoints = 0 := by
    rw [hi.num]
    refine Hier.cnt_eq_zero.2 fun p hp hpl => ?_
    rw [h.zero p hp] at hpl
    omega
  obtain ⟨s, w, f', d1, ⟨p, d2, d3⟩, d4, d5⟩ := hi.dead h0
  have hsl := Hier.lt_of_get d1
  refine ⟨s + 1, by omega, by rw [d5]; exact h.hasWeight d1, ⟨p, (h.carries (by omega)).2 ⟨by omega, d2, ?_⟩⟩, fun p hcr => ⟨by omega, by omega, hcr, fun j x hj hx => ?_⟩⟩
  · rw [Nat.add_sub_cancel, Hier.lab_get d1]; exact d3
  · obtain ⟨-, hp, hlab⟩ := (h.carries (by omega)).1 hcr
    rw [Nat.add_sub_cancel] at hlab
    have hz : Hier.lab hist cur (s + 1) p = 0 := by
      by_contra hy0
      rcases h.bk.mono s p hp hsl with q | ⟨-, q | q⟩
      · rw [hlab] at q; exact d4 (s + 1) (by omega) p hp q
      · exact hy0 q
      · generalize hx' : Hier.lab hist cur (s + 1) p = y at q hy0
        have hyl : y < res.clusters.length := by rw [← hx']; exact h.bk.lt (s + 1) p hp
        have hy1 : y ≠ 1 := fun hy => q 0 (by omega) p hp (by rw [h.bk.one p hp, hy])
        obtain ⟨cy, hcy, -⟩ := h.bk.cl y (by omega) hyl
        obtain ⟨r, t, w', f'', b1, b2, -, -, -, -, -, b8, -, ⟨p1, b9, b10⟩, b11⟩ := h.birth hy1 hcy
        have hts : t = s := by
          have k1 : ¬ s + 1 ≤ t := fun hle => b11 (s + 1) hle p hp hx'
          have k2 : ¬ t + 1 ≤ s := fun hle => q (t + 1) hle p1 b9 b10
          omega
        subst hts
        have hr' := b8 p hp hx'
        rw [Hier.lab_get b1] at hlab
        exact hleaf y ⟨cy, hcy, by rw [b2, ← hr']; exact congrArg some hlab⟩
    obtain ⟨-, -, hx'⟩ := (h.carries (by omega)).1 hx
    rw [← hx']
    exact h.bk.noise_stays hp (by omega) hz

/-- The same for data sets: the rows that stay in a childless cluster to its end are at least `minPoints`. -/
private theorem leaf_data [LinearOrder W] (ar : Arith W S) (m : Nat) (hm : 2 ≤ m) (dis : Distance W) (n : Nat) (hsize : m ≤ n) (hn : n < 2 ^ 32) (d : Nat → Nat → W) (core : Nat → W)
    (hget : ∀ i j, i < n → j < n → i ≠ j → dis.get ar.zeroW i j = .ok (d i j)) (hsym : ∀ i j, d i j = d j i)
    (hcore : ∀ i, i < n → dis.coreDistances[i]? = some (some (core i))) (hmax : ∀ i j, i < n → j < n → i ≠ j → mutualReach d core i j < ar.dmax) :
    ∃ (res : Hier.Result W S), Run.hierarchy ar m dis n = .ok res ∧
      (∃ lines : Lines W, res.hierarchy = lines ++ [(0, ar.zeroW, List.replicate n 0)] ∧ lines.map (·.1) = List.range' 1 lines.length) ∧
      (∀ k q, IsChild res.clusters k q → res.clusters.length ≠ 2) ∧ (res.clusters.length ≠ 2 → ∃ l, Leaf res.clusters l) ∧
      ∀ (l : Nat) (c : Cl W S), res.clusters[l]? = some (some c) → (∀ k, ¬ IsChild res.clusters k l) →
        ∃ i, HasWeight res.hierarchy i c.death ∧ AtLeast m (fun p => p < n ∧ LastSeen res.hierarchy p i l) := by
  obtain ⟨g, g', e1, e2, e3, hin, hconn, -⟩ := Run.sorted_mst ar.zeroW ar.dmax dis n (by omega) d core hget hsym hcore hmax
  subst e3
  obtain ⟨res, e, h⟩ := leaf_end ar g' m (by omega) hn hin
  obtain ⟨res', k1, k2⟩ := C26_density ar g' m hm hn hsize hin
  rw [e] at k1; cases k1
  obtain ⟨res', lines, d1, d2, d3, -⟩ := C27_lines ar g' m (by omega) hn hin
  rw [e] at d1; cases d1
  refine ⟨res, by rw [Run.hierarchy, e1]; simp only [Outcome.ok_bind, e2]; exact e, ⟨lines, d2, d3⟩, ?_, fun h2 => ?_, fun l c hc hleaf => ?_⟩
  · rintro k q ⟨c, hc, hp⟩ h2
    obtain ⟨res', f1, -, f2, -, f4⟩ := C28_tree ar g' m (by omega) hn hin
    rw [e] at f1; cases f1
    have hk := (List.getElem?_eq_some_iff.1 hc).1
    have hk1 : k ≠ 1 := fun hk1 => by rw [((f4 k c hc).2.1).2 hk1] at hp; cases hp
    have hk0 : k = 0 := by omega
    rw [hk0, f2] at hc
    cases hc
  · obtain ⟨res', f1, f0, f2, f3, f4⟩ := C28_tree ar g' m (by omega) hn hin
    rw [e] at f1; cases f1
    obtain ⟨c, hc⟩ := f3 (res.clusters.length - 1) (by omega) (by omega)
    refine ⟨res.clusters.length - 1, ?_, ?_⟩
    · cases hp : c.parent with
      | none => have := (f4 _ c hc).2.1.1 hp; omega
      | some q => exact ⟨q, c, hc, hp⟩
    · rintro k ⟨ck, g1, g2⟩
      have := ((f4 k ck g1).2.2.1 _ g2).1
      have := (List.getElem?_eq_some_iff.1 g1).1
      omega
  obtain ⟨i, i1, i2, ⟨p, w, A, hA, hp⟩, i4⟩ := h l c hc hleaf
  obtain ⟨l1, l2, l3⟩ := k2 i w A hA (by omega)
  have hl0 : l ≠ 0 := (i4 p ⟨w, A, hA, hp⟩).2.1
  have hmany : AtLeast m (fun v => ConnectedBy (triples g'.va g'.vb g'.wt) w p v) := by
    by_contra hno
    exact hl0 ((l3 p l hp).2 hno)
  obtain ⟨L, q1, q2, q3⟩ := hmany
  -- points of the graph are points of the line
  have hpl : p < A.length := (List.getElem?_eq_some_iff.1 hp).1
  have hlt : ∀ v, ConnectedBy (triples g'.va g'.vb g'.wt) w p v → v < A.length := by
    intro v hv
    have key : ∀ a b, Reachable g'.numVertices (mutualReach d core) w a b → (a < g'.numVertices ↔ b < g'.numVertices) := by
      intro a b hab
      induction hab with
      | rel x y hxy => exact ⟨fun _ => hxy.2.1, fun _ => hxy.1⟩
      | refl x => exact Iff.rfl
      | symm x y _ ih => exact ih.symm
      | trans x y z _ _ ih1 ih2 => exact ih1.trans ih2
    rw [l1] at hpl ⊢
    exact (key p v ((hconn w p v).1 hv)).1 hpl
  refine ⟨i, i2, L, q1, q2, fun v hv => ⟨by rw [← l1]; exact hlt v (q3 v hv), i4 v ?_⟩⟩
  obtain ⟨lv, hlv⟩ : ∃ x, A[v]? = some x := ⟨_, List.getElem?_eq_getElem (hlt v (q3 v hv))⟩
  have hv0 : lv ≠ 0 := by
    intro h0
    refine (l3 v lv hlv).1 h0 ⟨L, q1, q2, fun x hx => ?_⟩
    exact .trans _ _ _ (.symm _ _ (q3 v hv)) (q3 x hx)
  have := (l2 p v l lv hp hlv hl0 hv0).2 (q3 v hv)
  exact ⟨w, A, hA, by rw [hlv, this]⟩

/-- **C123.** On every supported data set and for every `2 ≤ m ≤ rows`, with any threads: every cluster of the tree that has a parent and no children has at least `m` rows that are last seen in it
    and have outlier score 0 - those that stay to its end. There is such a cluster if the hierarchy splits. `hself` says that the score `1 - a / a` is computed as 0. -/
theorem C123_deep [LinearOrder W] [CCmp S] [LinearOrder T] (env : Api.Env D W S T) (hq : SortsAscending env.qsort) (hself : ∀ a, a ≠ env.ar.zeroW → env.oops.ratio a a = env.oops.zero)
    (data : List D) (rows cols : Nat) (f : Nat → Nat → W) (h : Supported env data rows cols f) (h5 : 5 ≤ rows) (m : Nat) (hm : 2 ≤ m) (hmr : m ≤ rows) (th : Threads) (hth : Interleaves th) :
    ∃ obj : Api.Obj W S T, (∀ par, Complete rows rows par → Race.fresh th env par m data rows cols true = .ok obj) ∧
      (∀ l, Leaf obj.results.clusters l →
        AtLeast m (fun p => (∃ i, LastSeen obj.results.hierarchy p i l) ∧ ∃ o ∈ obj.results.outliers, o.id = p ∧ o.score = env.oops.zero)) ∧
      (obj.results.clusters.length ≠ 2 → ∃ l, Leaf obj.results.clusters l) := by
  have hfew := h.few
  obtain ⟨o0, core, g, res0, hf, r1, r2, hget, hcore, hmax, -, -, -, -, -, hfull⟩ := stages hq h h5 hm hmr
  obtain ⟨o2, b1, b2, -⟩ := C63_threads_partial env hq data rows cols f h h5 m hm hmr
  have e : o2 = o0 := fresh_same b1 hf
  subst e
  obtain ⟨obj, lost, -, s2, s3⟩ := b2 th hth
  have hget' : ∀ i j, i < rows → j < rows → i ≠ j → o2.dis.get env.ar.zeroW i j = .ok (distOf env.dops f i j) := fun i j hi hj _ => by rw [← h.zero]; exact hget i j hi hj
  obtain ⟨out, c1, c2, -, c4⟩ := full_rep env.qsort env.ar env.smax env.oops m o2.dis rows (distOf env.dops f) core hq (by omega) (by omega) (by omega)
    hget' (fun i j => distOf_symm env.dops f i j) (fun i hi => (hcore i hi).1) hmax
  have eo : out = o2.results := by
    have := c1 seqSchedule (List.range rows) seqSchedule_complete (.refl _)
    rw [hfull seqSchedule (List.range rows) seqSchedule_complete (.refl _)] at this
    exact (Outcome.ok.inj this).symm
  subst eo
  obtain ⟨res, k1, ⟨lines, k2, k3⟩, k5, k6, k4⟩ := leaf_data (S := S) env.ar m hm o2.dis rows hmr (by omega) (distOf env.dops f) core hget' (fun i j => distOf_symm env.dops f i j) (fun i hi => (hcore i hi).1) hmax
  obtain ⟨res', t1, t2, -, -, t5⟩ := doRun_frame (full_hierarchy (hfull seqSchedule (List.range rows) seqSchedule_complete (.refl _))).1
  rw [k1] at t1; cases t1
  have t2' : res.hierarchy = o2.results.hierarchy := t2
  have t5' : Frames res.clusters o2.results.clusters := t5
  -- parents in the three lists of clusters
  have hA : ∀ (k : Nat) (c : Cl W S), res.clusters[k]? = some (some c) → ∃ c', o2.results.clusters[k]? = some (some c') ∧ Frame c c' := by
    intro k c hc
    have h1 := t5'.get k
    rw [hc] at h1
    cases e' : o2.results.clusters[k]? with
    | none => rw [e'] at h1; exact False.elim h1
    | some x =>
      rw [e'] at h1
      cases x with
      | none => exact False.elim h1
      | some c0 => exact ⟨c0, rfl, h1⟩
  have hB : ∀ (k : Nat) (c : Cl W S), o2.results.clusters[k]? = some (some c) → ∃ c', res.clusters[k]? = some (some c') ∧ Frame c' c := by
    intro k c hc
    have h1 := t5'.get k
    rw [hc] at h1
    cases e' : res.clusters[k]? with
    | none => rw [e'] at h1; exact False.elim h1
    | some x =>
      rw [e'] at h1
      cases x with
      | none => exact False.elim h1
      | some c0 => exact ⟨c0, rfl, h1⟩
  have hC : ∀ k q, IsChild obj.results.clusters k q ↔ IsChild o2.results.clusters k q := by
    intro k q
    unfold IsChild
    rw [s2.clusters k]
    constructor
    · rintro ⟨c, hc, hp⟩
      cases e' : o2.results.clusters[k]? with
      | none => rw [e'] at hc; cases hc
      | some x =>
        rw [e'] at hc
        cases x with
        | none => cases hc
        | some c0 =>
          refine ⟨c0, rfl, ?_⟩
          rw [← hp]
          cases hc
          split <;> rfl
    · rintro ⟨c, hc, hp⟩
      rw [hc]
      refine ⟨_, rfl, ?_⟩
      split <;> exact hp
  have hlen : obj.results.clusters.length = o2.results.clusters.length := by
    have hn : ∀ k, obj.results.clusters[k]? = none ↔ o2.results.clusters[k]? = none := fun k => by rw [s2.clusters k, Option.map_eq_none_iff]
    simp only [List.getElem?_eq_none_iff] at hn
    have k1 := (hn obj.results.clusters.length).1 (le_refl _)
    have k2 := (hn o2.results.clusters.length).2 (le_refl _)
    omega
  refine ⟨obj, s3, fun l hl => ?_, fun h2 => ?_⟩
  rotate_left
  · obtain ⟨l, ⟨q, c, g1, g2⟩, g3⟩ := k6 (by rw [t5'.length, ← hlen]; exact h2)
    obtain ⟨c', g4, g5⟩ := hA l c g1
    refine ⟨l, ⟨q, (hC l q).2 ⟨c', g4, g5.parent ▸ g2⟩⟩, fun k hk => ?_⟩
    obtain ⟨ck, g6, g7⟩ := (hC k l).1 hk
    obtain ⟨ck', g8, g9⟩ := hB k ck g6
    exact g3 k ⟨ck', g8, by rw [g9.parent]; exact g7⟩
  obtain ⟨⟨q, hq1⟩, hno⟩ := hl
  rw [hC] at hq1
  have hno2 : ∀ k, ¬ IsChild o2.results.clusters k l := fun k hk => hno k ((hC k l).2 hk)
  obtain ⟨cl, hcl, hcq⟩ := hq1
  obtain ⟨c0, hc0, hfr⟩ := hB l cl hcl
  obtain ⟨i, i1, L, i2, i3, i4⟩ := k4 l c0 hc0 fun k ⟨ck, g1, g2⟩ => by
    obtain ⟨ck', g3, g4⟩ := hA k ck g1
    exact hno2 k ⟨ck', g3, g4.parent ▸ g2⟩
  rw [t2'] at i1 i4 k2
  rw [s2.hierarchy, s2.outliers]
  refine ⟨L, i2, i3, fun p hp => ⟨⟨i, (i4 p hp).2⟩, ?_⟩⟩
  have hpr : p < rows := (i4 p hp).1
  obtain ⟨o, ho, rfl⟩ := List.mem_map.1 (c2.mem_iff.2 (List.mem_range.2 hpr))
  refine ⟨o, ho, rfl, ?_⟩
  obtain ⟨-, -, eps, l1, c, -, -, p3, p4, ⟨j1, p5⟩, p6, p7, p8⟩ := c4 o ho
  obtain ⟨a1, a2, a3, a4⟩ := (i4 o.id hp).2
  have ei : i = j1 := by
    rcases Nat.lt_trichotomy i j1 with q | q | q
    · exact absurd (a4 j1 l1 q p5.2.2.1) p5.2.1
    · exact q
    · exact absurd (p5.2.2.2.2 i l q a3) a2
  subst ei
  obtain ⟨w1, A1, y1, y2⟩ := a3
  obtain ⟨w2, A2, y3, y4⟩ := p5.2.2.1
  have u1 := line_unique k2 k3 a1 y1 y3
  cases u1
  rw [y2] at y4
  have el := Option.some.inj y4
  subst el
  obtain ⟨B1, z1⟩ := i1
  obtain ⟨B2, z2⟩ := p5.2.2.2.1
  have eeps : c0.death = eps := congrArg Prod.fst (line_unique k2 k3 a1 z1 z2)
  have h2 : o2.results.clusters.length ≠ 2 := by rw [← t5'.length]; exact k5 l q ⟨c0, hc0, by rw [hfr.parent]; exact hcq⟩
  have elow : c.propLowest = eps := by
    obtain ⟨-, ⟨⟨t, ct, v1, v2, v3, v4⟩, -⟩, -⟩ := p8 h2
    have : t = l := by
      rcases Relation.ReflTransGen.cases_tail v3 with q | ⟨y, -, q⟩
      · exact q.symm
      · exact absurd q (hno2 y)
    subst this
    rw [hcl] at v1
    cases v1
    rw [← v4, ← hfr.death, eeps]
  rw [p6]
  split
  · rfl
  · rename_i hz
    rw [elow]
    exact hself eps hz

/-- Exact scores. -/
theorem exactScore_self {K : Type} [Field K] (a : K) (ha : a ≠ 0) : (exactScore K).ratio a a = (exactScore K).zero := by
  simp [exactScore, div_self ha]

/-- Scores computed with doubles: `a / a` is exactly 1. -/
theorem doubleScore_self (a : F64) (ha : a ≠ F64.of 0) : doubleScore.ratio a a = doubleScore.zero := by
  have h0 : a.1 ≠ 0 := fun h => ha (Subtype.ext (by rw [h, of_zero]))
  show F64.of (1 - (F64.of (a.1 / a.1)).1) = F64.of 0
  rw [div_self h0, of_one, sub_self]

/-- C123 for doubles, rounding included. -/
theorem C123_doubles (qsort : (OScore F64 F64 → OScore F64 F64 → Int) → List (OScore F64 F64) → List (OScore F64 F64)) (hq : SortsAscending qsort) (data : List F64) (rows cols : Nat)
    (f : Nat → Nat → F64) (h : Supported (doubleEnv qsort) data rows cols f) (h5 : 5 ≤ rows) (m : Nat) (hm : 2 ≤ m) (hmr : m ≤ rows) (th : Threads) (hth : Interleaves th) :
    ∃ obj : Api.Obj F64 F64 F64, (∀ par, Complete rows rows par → Race.fresh th (doubleEnv qsort) par m data rows cols true = .ok obj) ∧
      (∀ l, Leaf obj.results.clusters l → AtLeast m (fun p => (∃ i, LastSeen obj.results.hierarchy p i l) ∧ ∃ o ∈ obj.results.outliers, o.id = p ∧ o.score.1 = 0)) ∧
      (obj.results.clusters.length ≠ 2 → ∃ l, Leaf obj.results.clusters l) := by
  obtain ⟨obj, a1, a2, a3⟩ := C123_deep (doubleEnv qsort) hq doubleScore_self data rows cols f h h5 m hm hmr th hth
  refine ⟨obj, a1, fun l hl => ?_, a3⟩
  obtain ⟨L, l1, l2, l3⟩ := a2 l hl
  refine ⟨L, l1, l2, fun p hp => ?_⟩
  obtain ⟨q1, o, q2, q3, q4⟩ := l3 p hp
  exact ⟨q1, o, q2, q3, by rw [q4]; exact of_zero⟩

/-- Cases of C123. -/
example := C123_deep lineEnv (isort_sorts _) (fun a ha => exactScore_self a ha) linePts 5 1 (lineSq linePts) linePts_supported (by omega) 2 (by omega) (by omega) hasty hasty_interleaves
example := C123_doubles isort (isort_sorts _) roundPts 8 1 (doubleSq roundPts) roundPts_supported (by omega) 3 (by omega) (by omega) hasty hasty_interleaves

/-- The first case in numbers: clusters 2 and 3 are childless; rows 1 and 3 stay in 2, rows 0 and 2 stay in 3 to the end; row 4 leaves 3 earlier. -/
example : (Api.fresh lineEnv (backPar 5 5) 2 linePts 5 1 true >>= fun o => .ok (o.results.hierarchy, o.results.outliers.map (fun s => (s.id, s.score)))) =
    .ok ([(1, 4, [1, 1, 1, 1, 1]), (2, 2, [3, 2, 3, 2, 3]), (3, 1, [3, 0, 3, 0, 0]), (0, 0, [0, 0, 0, 0, 0])], [(0, 0), (2, 0), (1, 0), (3, 0), (4, 1 / 2)]) := by decide +kernel

end Verif.Props
