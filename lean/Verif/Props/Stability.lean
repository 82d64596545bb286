import Verif.Props.Hierarchy
import Mathlib.Algebra.Order.Ring.Rat
import Mathlib.Algebra.Field.Rat
/-
Properties C30, C31 and C54: sizes, death levels, stabilities and virtual children of the clusters.
-/
namespace Verif.Props
open Spec
variable {W S : Type}

theorem count_cnt {n : Nat} (cur : Nat → Nat) (l : Nat) : ((List.range n).map cur).count l = Hier.cnt n (fun p => cur p = l) := by
  rw [Hier.cnt, List.count, List.countP_map]
  apply List.countP_congr
  intro p _
  simp

theorem reaches_top [LinearOrder W] {ar : Arith W S} {g : Graph W} {minPoints : Nat} (hm : 1 ≤ minPoints) (hn : g.numVertices < 2 ^ 32)
    (hg : TreeInput g.numVertices g.va g.vb g.wt g.edges) {f} (hr : Graph.ERep g g.wt.length f) (ec : Hier.EC g.numVertices g.wt.length f)
    (hd : Describes g.numVertices g.edges (Hier.prs f g.wt.length)) (hs : ∀ u v, u < g.numVertices → v < g.numVertices → Hier.RK f g.wt.length u v)
    {x : Nat × Hier.St W S}
    (h : Relation.ReflTransGen (Hier.Step ar minPoints false g.va g.vb g.wt) (g.wt.length, Hier.initial ar g) x) :
    ∃ hist cur noise last, Hier.Top ar g.numVertices minPoints g.wt.length f x.1 x.2 hist cur noise last := by
  induction h with
  | refl => exact ⟨_, _, _, _, Hier.initial_top hg.nonempty ec rfl hd hs⟩
  | tail _ h2 ih =>
    obtain ⟨hist, cur, noise, last, ht⟩ := ih
    obtain ⟨k, hk, he⟩ := h2
    rw [hk] at ht
    obtain ⟨k', st', hist', cur', noise', last', e, _, ht', _⟩ := Hier.level_rep ec hr.va hr.vb hr.wt hn hm ht
    rw [e] at he
    have := Outcome.ok.inj he
    subst this
    exact ⟨hist', cur', noise', last', ht'⟩

/-- C30. After every level of the construction, the count kept in a cluster is the number of points that carry its label; when it is
    zero, the death level is the weight of the last line in which a point carries the label. -/
theorem C30_sizes [LinearOrder W] (ar : Arith W S) (g : Graph W) (minPoints : Nat) (hm : 1 ≤ minPoints) (hn : g.numVertices < 2 ^ 32)
    (hg : TreeInput g.numVertices g.va g.vb g.wt g.edges) (k : Nat) (st : Hier.St W S)
    (hst : Relation.ReflTransGen (Hier.Step ar minPoints false g.va g.vb g.wt) (g.wt.length, Hier.initial ar g) (k, st))
    (l : Nat) (c : Cl W S) (hc : st.wk.clusters[l]? = some (some c)) :
    c.numPoints = st.wk.cur.count l ∧ (c.numPoints ≠ 0 → c.death = ar.zeroW) ∧
      (c.numPoints = 0 → ∃ i, HasWeight st.lines i c.death ∧ (∃ p, Carries st.lines i p l) ∧ ∀ j p, i < j → ¬ Carries st.lines j p l) := by
  obtain ⟨f, hr, ec, hd, hs, htr⟩ := Hier.input_rep hg
  obtain ⟨hist, cur, noise, last, ht⟩ := reaches_top hm hn hg hr ec hd hs hst
  obtain ⟨h1, h2, hi⟩ := ht.bk.get hc
  refine ⟨?_, hi.alive, ?_⟩
  · rw [show st.wk.cur = _ from ht.rep.cur, count_cnt]
    exact hi.num
  · intro h0
    obtain ⟨s, w, f', d1, ⟨p, d2, d3⟩, d4, d5⟩ := hi.dead h0
    have hl : st.lines = _ := ht.lines
    have hmem : ∀ i w A, (i, w, A) ∈ st.lines ↔ ∃ s g', hist[s]? = some (w, g') ∧ i = s + 1 ∧ A = (List.range g.numVertices).map g' := by
      intro i w A
      rw [hl, List.mem_map]
      constructor
      · rintro ⟨⟨⟨w', g'⟩, s⟩, hx, he⟩
        rw [List.mem_zipIdx_iff_getElem?] at hx
        simp only [Prod.mk.injEq] at he
        exact ⟨s, g', by rw [← he.2.1]; exact hx, he.1.symm, he.2.2.symm⟩
      · rintro ⟨s, g', hx, rfl, rfl⟩
        exact ⟨((w, g'), s), by rw [List.mem_zipIdx_iff_getElem?]; exact hx, rfl⟩
    refine ⟨s + 1, ⟨_, (hmem _ _ _).2 ⟨s, f', by rw [d5]; exact d1, rfl, rfl⟩⟩, ⟨p, w, _, (hmem _ _ _).2 ⟨s, f', d1, rfl, rfl⟩, by simp [d2, d3]⟩, ?_⟩
    rintro j p' hj ⟨w', A, hA, hAl⟩
    obtain ⟨s', g', q1, q2, q3⟩ := (hmem _ _ _).1 hA
    subst q3
    have hp' : p' < g.numVertices := by
      have := Hier.lt_of_get hAl
      simpa using this
    refine d4 s' (by omega) p' hp' ?_
    rw [Hier.lab_get q1]
    simpa [hp'] using hAl

/-- C30, at the end: every cluster has lost all its points, and its death level is the weight of the last line in which a point
    carries its label. -/
theorem C30_final [LinearOrder W] (ar : Arith W S) (g : Graph W) (minPoints : Nat) (hm : 1 ≤ minPoints) (hn : g.numVertices < 2 ^ 32)
    (hg : TreeInput g.numVertices g.va g.vb g.wt g.edges) :
    ∃ res : Hier.Result W S, Hier.compute ar minPoints false g = .ok res ∧ ∀ (l : Nat) (c : Cl W S), res.clusters[l]? = some (some c) →
      c.numPoints = 0 ∧ ∃ i, 1 ≤ i ∧ HasWeight res.hierarchy i c.death ∧ (∃ p, Carries res.hierarchy i p l) ∧
        ∀ j p, i < j → ¬ Carries res.hierarchy j p l := by
  obtain ⟨f, hr, ec, hd, hs, htr⟩ := Hier.input_rep hg
  obtain ⟨res, hist, cur, noise, last, e, h⟩ := Hier.obs ar hr hg.nonempty ec rfl hn hm hd hs
  refine ⟨res, e, fun l c hc => ?_⟩
  obtain ⟨h1, h2, hi⟩ := h.bk.get hc
  have h0 : c.numPoints = 0 := by
    rw [hi.num]
    refine Hier.cnt_eq_zero.2 fun p hp hpl => ?_
    rw [h.zero p hp] at hpl
    omega
  obtain ⟨s, w, f', d1, ⟨p, d2, d3⟩, d4, d5⟩ := hi.dead h0
  have hsl := Hier.lt_of_get d1
  refine ⟨h0, s + 1, by omega, by rw [d5]; exact h.hasWeight d1, ⟨p, (h.carries (by omega)).2 ⟨by omega, d2, ?_⟩⟩, ?_⟩
  · rw [Nat.add_sub_cancel, Hier.lab_get d1]; exact d3
  · intro j p' hj hcr
    obtain ⟨_, hp', hl⟩ := (h.carries (by omega)).1 hcr
    exact d4 (j - 1) (by omega) p' hp' hl

/-- All counts are exact: every cluster holds as many points as carry its label. -/
def Counted (wk : Hier.Work W S) : Prop := ∀ (l : Nat) (c : Cl W S), l ≠ 0 → wk.clusters[l]? = some (some c) → c.numPoints = wk.cur.count l

/-- C30, inside a level: both ways in which points change cluster (a new cluster, or noise) keep all counts exact; in particular
    the unsigned subtraction does not wrap. -/
theorem C30_events (ar : Arith W S) (wk : Hier.Work W S) (points : List Nat) (L : Nat) (level : W) (c : Cl W S) (hcount : Counted wk)
    (hnd : points.Nodup) (hpts : ∀ p ∈ points, wk.cur[p]? = some L) (hL : L ≠ 0) (hc : wk.clusters[L]? = some (some c))
    (hnext : wk.next = wk.clusters.length) (hlt : ∀ l ∈ wk.cur, l < wk.clusters.length)
    (hnoise : wk.noise.length = wk.cur.length) (hlast : wk.last.length = wk.cur.length) :
    points.length ≤ c.numPoints ∧
    (∃ wk', Hier.newCluster ar points L level wk = .ok wk' ∧ Counted wk') ∧ (∃ wk', Hier.newNoise ar points L level wk = .ok wk' ∧ Counted wk') := by
  obtain ⟨n, cur, hcur⟩ : ∃ (n : Nat) (cur : Nat → Nat), wk.cur = (List.range n).map cur := by
    refine ⟨wk.cur.length, fun i => wk.cur[i]?.getD 0, ?_⟩
    apply List.ext_getElem
    · simp
    · intro i h1 h2; simp [h1]
  obtain ⟨noise, hno⟩ : ∃ noise : Nat → Option W, wk.noise = (List.range n).map noise := by
    refine ⟨fun i => wk.noise[i]?.getD none, ?_⟩
    rw [hcur] at hnoise
    apply List.ext_getElem
    · simpa using hnoise
    · intro i h1 h2; simp [h1]
  obtain ⟨last, hla⟩ : ∃ last : Nat → Option Nat, wk.last = (List.range n).map last := by
    refine ⟨fun i => wk.last[i]?.getD none, ?_⟩
    rw [hcur] at hlast
    apply List.ext_getElem
    · simpa using hlast
    · intro i h1 h2; simp [h1]
  have hp : ∀ p ∈ points, p < n ∧ cur p = L := by
    intro p hp
    have := hpts p hp
    rw [hcur] at this
    have hpn : p < n := by
      have := Hier.lt_of_get this
      simpa using this
    exact ⟨hpn, by simpa [hpn] using this⟩
  have hlt' : ∀ p, p < n → cur p < wk.clusters.length := by
    intro p hp
    apply hlt
    rw [hcur]
    exact List.mem_map.2 ⟨p, List.mem_range.2 hp, rfl⟩
  have hnum : c.numPoints = Hier.cnt n (fun p => cur p = L) := by rw [hcount L c hL hc, hcur, count_cnt]
  have hsplit := Hier.cnt_split (P := fun p => cur p = L) hnd hp
  have hLlt := Hier.lt_of_get hc
  have hsub : subIndex c.numPoints points.length = Hier.cnt n (fun p => cur p = L ∧ p ∉ points) := by
    rw [Hier.subIndex_eq (by omega), hnum, hsplit]
    omega
  have hrel : ∀ x, x ≠ L → Hier.cnt n (fun p => Hier.relabel cur points x p = L) = Hier.cnt n (fun p => cur p = L ∧ p ∉ points) := by
    intro x hx
    apply Hier.cnt_congr
    intro p _
    by_cases hpp : p ∈ points
    · rw [Hier.relabel_in hpp]; simp [hpp, hx]
    · rw [Hier.relabel_out hpp]; simp [hpp]
  have hother : ∀ x l, x ≠ l → l ≠ L → Hier.cnt n (fun p => Hier.relabel cur points x p = l) = Hier.cnt n (fun p => cur p = l) := by
    intro x l hx hl
    apply Hier.cnt_congr
    intro p _
    by_cases hpp : p ∈ points
    · rw [Hier.relabel_in hpp, (hp p hpp).2]
      simp [hx, hl.symm]
    · rw [Hier.relabel_out hpp]
  refine ⟨by omega, ?_, ?_⟩
  · obtain ⟨c', e1, e2, _, _⟩ := Hier.detach_split ar c points.length level
    refine ⟨{ wk with cur := (List.range n).map (Hier.relabel cur points wk.clusters.length),
                      clusters := wk.clusters.set L (some c') ++ [some (Cl.init ar wk.clusters.length (some L) (some level) points.length)],
                      next := wk.clusters.length + 1, fresh := wk.fresh ++ [wk.clusters.length] }, ?_, ?_⟩
    · rw [Hier.newCluster, hcur, Hier.setAll_rep wk.next points cur (fun p h => (hp p h).1), Outcome.ok_bind, Hier.getCl_ok hc, Outcome.ok_bind]
      simp only
      rw [← e1, wr_ok hLlt, Outcome.ok_bind, hnext]
      rfl
    · intro l d hl0 hd
      simp only at hd ⊢
      rw [count_cnt]
      by_cases hl : l < wk.clusters.length
      · rw [List.getElem?_append_left (by simpa using hl), List.getElem?_set] at hd
        by_cases hlL : L = l
        · subst hlL
          simp only [if_true, hl, Option.some.injEq] at hd
          subst hd
          rw [e2.num, hsub, hrel _ (by omega)]
        · rw [if_neg hlL] at hd
          rw [hother _ _ (by omega) (fun h => hlL h.symm), hcount l d hl0 hd, hcur, count_cnt]
      · have hll := Hier.lt_of_get hd
        simp only [List.length_append, List.length_set, List.length_singleton] at hll
        have hle : l = wk.clusters.length := by omega
        subst hle
        rw [List.getElem?_append_right (by simp)] at hd
        simp only [List.length_set, Nat.sub_self, List.getElem?_cons_zero, Option.some.injEq] at hd
        subst hd
        have h1 := Hier.cnt_split (n := n) (P := fun p => Hier.relabel cur points wk.clusters.length p = wk.clusters.length) hnd
          (fun p h => ⟨(hp p h).1, Hier.relabel_in h⟩)
        rw [h1, Hier.cnt_eq_zero.2, Nat.zero_add]
        · rfl
        · rintro p hpn ⟨q1, q2⟩
          rw [Hier.relabel_out q2] at q1
          have := hlt' p hpn
          omega
  · obtain ⟨c', e1, e2, _, _⟩ := Hier.detach_virtual ar c points.length level points
    refine ⟨{ wk with cur := (List.range n).map (Hier.relabel cur points 0), clusters := wk.clusters.set L (some c'),
                      noise := (List.range n).map (fun p => if p ∈ points then some level else noise p),
                      last := (List.range n).map (fun p => if p ∈ points then some L else last p) }, ?_, ?_⟩
    · rw [Hier.newNoise, hcur, Hier.setAll_rep 0 points cur (fun p h => (hp p h).1), Outcome.ok_bind, Hier.getCl_ok hc, Outcome.ok_bind]
      simp only
      rw [← e1, wr_ok hLlt, Outcome.ok_bind, hno, Hier.setAll_rep _ points noise (fun p h => (hp p h).1), Outcome.ok_bind, hla,
        Hier.setAll_rep _ points last (fun p h => (hp p h).1), Outcome.ok_bind]
      rfl
    · intro l d hl0 hd
      simp only at hd ⊢
      rw [count_cnt]
      rw [List.getElem?_set] at hd
      by_cases hlL : L = l
      · subst hlL
        simp only [if_true, hLlt, Option.some.injEq] at hd
        subst hd
        rw [e2.num, hsub, hrel _ (by omega)]
      · rw [if_neg hlL] at hd
        rw [hother _ _ (by omega) (fun h => hlL h.symm), hcount l d hl0 hd, hcur, count_cnt]

/-- C31. In exact arithmetic and with positive edge weights, the stability of every cluster other than the root is the sum, over the
    points that ever carry its label, of one over the weight of the last line in which the point carries it minus one over the
    birth level; it is positive. -/
theorem C31_stability {K : Type} [Field K] [LinearOrder K] [IsStrictOrderedRing K] (dmax : K) (g : Graph K) (minPoints : Nat) (hm : 1 ≤ minPoints)
    (hn : g.numVertices < 2 ^ 32) (hg : TreeInput g.numVertices g.va g.vb g.wt g.edges) (hpos : ∀ w ∈ g.wt, 0 < w) :
    ∃ res : Hier.Result K K, Hier.compute (exact K dmax) minPoints false g = .ok res ∧
      ∀ (l : Nat) (c : Cl K K), res.clusters[l]? = some (some c) → l ≠ 1 →
        ∃ (b : K) (members : List Nat) (leave : Nat → K), c.birth = some b ∧ members.Nodup ∧
          (∀ p, p ∈ members ↔ ∃ i, Carries res.hierarchy i p l) ∧ (∀ p ∈ members, LeavesAt res.hierarchy l p (leave p)) ∧
          c.stability = (members.map (fun p => 1 / leave p - 1 / b)).sum ∧ 0 < c.stability := by
  obtain ⟨f, hr, ec, hd, hs, htr⟩ := Hier.input_rep hg
  obtain ⟨res, hist, cur, noise, last, e, h⟩ := Hier.obs (exact K dmax) hr hg.nonempty ec rfl hn hm hd hs
  refine ⟨res, e, fun l c hc hl => ?_⟩
  obtain ⟨hl1, hl2, hi⟩ := h.bk.get hc
  obtain ⟨q, s0, b, f0, b1, b2, b3, b4, b5, b6, b7, b8, b9, ⟨p0, b10, b10'⟩, b11⟩ := h.birth hl hc
  have hback : ∀ s p, p < g.numVertices → Hier.lab hist cur s p = l → Hier.lab hist cur (s0 + 1) p = l := by
    intro s p hp hlab
    refine h.bk.back hp ?_ (by omega) ⟨p0, b10, b10'⟩ hlab
    by_contra hne
    exact b11 s (by omega) p hp hlab
  let mem : List Nat := (List.range g.numVertices).filter (fun p => decide (Hier.lab hist cur (s0 + 1) p = l))
  have hmem : ∀ p, p ∈ mem ↔ p < g.numVertices ∧ Hier.lab hist cur (s0 + 1) p = l := by
    intro p
    simp [mem]
  have hlv : ∀ p, ∃ s, p ∈ mem → s0 + 1 ≤ s ∧ s < hist.length ∧ Hier.lab hist cur s p = l ∧ (∀ t, s < t → Hier.lab hist cur t p ≠ l) ∧
      ∀ t, (Hier.lab hist cur t p = l ∧ Hier.lab hist cur (t + 1) p ≠ l) ↔ t = s := by
    intro p
    by_cases hp : p ∈ mem
    · obtain ⟨s, hs⟩ := h.leaves (by omega) ((hmem p).1 hp).1 ((hmem p).1 hp).2
      exact ⟨s, fun _ => hs⟩
    · exact ⟨0, fun h => absurd h hp⟩
  choose S hS using hlv
  have hwAt : ∀ s, s < hist.length → ∃ g', hist[s]? = some (Hier.wAt hist s, g') := by
    intro s hs
    refine ⟨hist[s].2, ?_⟩
    simp [Hier.wAt, hs]
  have hstab : c.stability = (mem.map (fun p => 1 / Hier.wAt hist (S p) - 1 / b)).sum := by
    rw [hi.stab hl (Hier.exact_additive K dmax), b5, Hier.stabSum_eq l b hist.length (le_refl _), Finset.sum_comm]
    have h1 : ∀ p ∈ Finset.range g.numVertices, (∑ s ∈ Finset.range hist.length,
        if Hier.lab hist cur s p = l ∧ Hier.lab hist cur (s + 1) p ≠ l then 1 / Hier.wAt hist s - 1 / b else 0) =
        if Hier.lab hist cur (s0 + 1) p = l then 1 / Hier.wAt hist (S p) - 1 / b else 0 := by
      intro p hp
      rw [Finset.mem_range] at hp
      by_cases hpm : Hier.lab hist cur (s0 + 1) p = l
      · rw [if_pos hpm]
        obtain ⟨_, k2, _, _, k5⟩ := hS p ((hmem p).2 ⟨hp, hpm⟩)
        rw [Finset.sum_eq_single (S p)]
        · rw [if_pos ((k5 (S p)).2 rfl)]
        · intro t _ hne
          rw [if_neg (fun hx => hne ((k5 t).1 hx))]
        · intro hx
          exact absurd (Finset.mem_range.2 k2) hx
      · rw [if_neg hpm]
        apply Finset.sum_eq_zero
        intro t _
        rw [if_neg (fun hx => hpm (hback t p hp hx.1))]
    rw [Finset.sum_congr rfl h1]
    have h2 : ∀ (F : Nat → K) (P : Nat → Prop) [DecidablePred P] (N : Nat), (∑ p ∈ Finset.range N, if P p then F p else 0) = (((List.range N).filter (fun p => decide (P p))).map F).sum := by
      intro F P _ N
      induction N with
      | zero => simp
      | succ N ih =>
        rw [Finset.sum_range_succ, ih, List.range_succ, List.filter_append, List.map_append, List.sum_append]
        congr 1
        by_cases hP : P N <;> simp [hP]
    exact h2 _ _ _
  have hwpos : ∀ s, s < hist.length → 0 < Hier.wAt hist s := by
    intro s hs
    obtain ⟨g', hg'⟩ := hwAt s hs
    obtain ⟨k, hk⟩ := h.line _ (List.mem_of_getElem? hg')
    obtain ⟨j, hj, hjw⟩ := hk.at'
    simp only at hjw
    rw [← hjw]
    apply hpos
    rw [hr.wt]
    exact List.mem_map.2 ⟨j, List.mem_range.2 hj, rfl⟩
  have hbw : b = Hier.wAt hist s0 := by simp [Hier.wAt, b1]
  have hterm : ∀ p ∈ mem, 0 < 1 / Hier.wAt hist (S p) - 1 / b := by
    intro p hp
    obtain ⟨k1, k2, _⟩ := hS p hp
    have h2 := h.ord
    rw [List.pairwise_iff_getElem] at h2
    have h3 := h2 s0 (S p) (by simp; omega) (by simpa using k2) (by omega)
    have hs0l := Hier.lt_of_get b1
    have e1 : Hier.wAt hist s0 = hist[s0].1 := by simp [Hier.wAt, hs0l]
    have e2 : Hier.wAt hist (S p) = hist[S p].1 := by simp [Hier.wAt, k2]
    simp only [List.getElem_map] at h3
    rw [sub_pos, hbw]
    refine one_div_lt_one_div_of_lt (hwpos _ k2) ?_
    rw [e1, e2]; exact h3
  refine ⟨b, mem, fun p => Hier.wAt hist (S p), b5, List.nodup_range.filter _, ?_, ?_, hstab, ?_⟩
  · intro p
    rw [hmem]
    constructor
    · rintro ⟨hp, hlab⟩
      exact ⟨s0 + 2, (h.carries (by omega)).2 ⟨by omega, hp, by simpa using hlab⟩⟩
    · rintro ⟨i, hci⟩
      rcases Nat.eq_zero_or_pos i with hi0 | hi0
      · subst hi0
        have := (h.carries_zero.1 hci).2
        omega
      · obtain ⟨_, hp, hlab⟩ := (h.carries hi0).1 hci
        exact ⟨hp, hback _ p hp hlab⟩
  · intro p hp
    obtain ⟨k1, k2, k3, k4, _⟩ := hS p hp
    have hpn := ((hmem p).1 hp).1
    obtain ⟨g', hg'⟩ := hwAt _ k2
    refine ⟨S p + 1, by omega, (h.carries (by omega)).2 ⟨by omega, hpn, by simpa using k3⟩, h.hasWeight hg', ?_⟩
    intro j hj hcj
    obtain ⟨_, _, hlab⟩ := (h.carries (by omega)).1 hcj
    exact k4 (j - 1) (by omega) hlab
  · rw [hstab]
    have hne : mem ≠ [] := List.ne_nil_of_mem ((hmem p0).2 ⟨b10, b10'⟩)
    have : ∀ (l : List Nat) (F : Nat → K), l ≠ [] → (∀ p ∈ l, 0 < F p) → 0 < (l.map F).sum := by
      intro l F hl hF
      induction l with
      | nil => exact absurd rfl hl
      | cons a t ih =>
        rw [List.map_cons, List.sum_cons]
        cases t with
        | nil => simpa using hF a (by simp)
        | cons b t => exact add_pos (hF a (by simp)) (ih (by simp) (fun p hp => hF p (by simp [hp])))
    exact this _ _ hne hterm

/-- C54. `cluster_virtual_child_contains_point` answers whether a point became noise directly from the cluster: the point carries its
    label in some line and is noise in every later one. This is also what `pointLastClusters` records. -/
theorem C54_virtual_child [LinearOrder W] (ar : Arith W S) (g : Graph W) (minPoints : Nat) (hm : 1 ≤ minPoints) (hn : g.numVertices < 2 ^ 32)
    (hg : TreeInput g.numVertices g.va g.vb g.wt g.edges) :
    ∃ res : Hier.Result W S, Hier.compute ar minPoints false g = .ok res ∧ ∀ (l : Nat) (c : Cl W S) (p : Nat), res.clusters[l]? = some (some c) →
      (c.containsPoint p = true ↔ ∃ i, 1 ≤ i ∧ Carries res.hierarchy i p l ∧ ∀ j x, i < j → Carries res.hierarchy j p x → x = 0) ∧
      (c.containsPoint p = true ↔ res.last[p]? = some (some l)) := by
  obtain ⟨f, hr, ec, hd, hs, htr⟩ := Hier.input_rep hg
  obtain ⟨res, hist, cur, noise, last, e, h⟩ := Hier.obs ar hr hg.nonempty ec rfl hn hm hd hs
  refine ⟨res, e, fun l c p hc => ?_⟩
  obtain ⟨hl1, _, hi⟩ := h.bk.get hc
  have h1 : c.containsPoint p = true ↔ ∃ i, 1 ≤ i ∧ Carries res.hierarchy i p l ∧ ∀ j x, i < j → Carries res.hierarchy j p x → x = 0 := by
    rw [Cl.containsPoint, decide_eq_true_eq, hi.vc]
    constructor
    · rintro ⟨hp, s, hs, q1, q2⟩
      refine ⟨s + 1, by omega, (h.carries (by omega)).2 ⟨by omega, hp, by simpa using q1⟩, ?_⟩
      intro j x hj hx
      obtain ⟨_, _, hlab⟩ := (h.carries (by omega)).1 hx
      rw [← hlab]
      exact h.bk.noise_stays hp (by omega) q2
    · rintro ⟨i, hi1, hci, hz⟩
      obtain ⟨q1, hp, q2⟩ := (h.carries hi1).1 hci
      refine ⟨hp, i - 1, by omega, q2, ?_⟩
      by_cases hil : i < hist.length
      · exact hz (i + 1) _ (by omega) ((h.carries (by omega)).2 ⟨by omega, hp, by rw [Nat.add_sub_cancel, Nat.sub_add_cancel hi1]⟩)
      · rw [Hier.lab_end (by omega)]
        exact h.zero p hp
  refine ⟨h1, ?_⟩
  rw [h1, h.last]
  constructor
  · rintro ⟨i, hi1, hci, hz⟩
    obtain ⟨q1, hp, q2⟩ := (h.carries hi1).1 hci
    obtain ⟨s, w, f', r1, r2, r3, _, r5⟩ := h.bk.noise p hp (h.zero p hp)
    have hss : s = i - 1 := by
      have hsl := Hier.lt_of_get r1
      rcases Nat.lt_trichotomy s (i - 1) with hlt | heq | hgt
      · have := h.bk.noise_stays hp (show s + 1 ≤ i - 1 by omega) r3
        omega
      · exact heq
      · have := hz (s + 1) (Hier.lab hist cur s p) (by omega) ((h.carries (by omega)).2 ⟨by omega, hp, by simp⟩)
        rw [Hier.lab_get r1] at this
        exact absurd this r2
    subst hss
    rw [Hier.lab_get r1] at q2
    simp only at q2
    simp [hp, r5, q2]
  · intro hx
    have hp : p < g.numVertices := by
      have := Hier.lt_of_get hx
      simpa using this
    have hx' : last p = some l := by simpa [hp] using hx
    obtain ⟨s, w, f', r1, r2, r3, _, r5⟩ := h.bk.noise p hp (h.zero p hp)
    have hsl := Hier.lt_of_get r1
    rw [hx'] at r5
    simp only [Option.some.injEq] at r5
    refine ⟨s + 1, by omega, (h.carries (by omega)).2 ⟨by omega, hp, ?_⟩, ?_⟩
    · rw [Nat.add_sub_cancel, Hier.lab_get r1]; exact r5.symm
    · intro j x hj hcx
      obtain ⟨_, _, hlab⟩ := (h.carries (by omega)).1 hcx
      rw [← hlab]
      exact h.bk.noise_stays hp (by omega) r3

example := C30_final demoArith (demo 1 5) 2 (by decide) (by decide) (demo_input (by decide))
example := C30_sizes demoArith (demo 1 5) 2 (by decide) (by decide) (demo_input (by decide)) _ _ .refl 1 _ rfl
example := C54_virtual_child demoArith (demo 1 5) 2 (by decide) (by decide) (demo_input (by decide))

example := C31_stability (K := ℚ) 1000 (demo 1 5) 2 (by decide) (by decide) (demo_input (by decide)) (by decide)

/-- In the concrete run both clusters have stability `3 * (1/1 - 1/5)`. -/
theorem C31_concrete : (Hier.compute (exact ℚ 1000) 2 false (demo 1 5) >>= fun r => .ok (r.clusters.map (fun c => c.map (·.stability)))) =
    .ok [none, some 0, some (12 / 5), some (12 / 5)] := by decide +kernel

/-- C30, the events on a concrete state: the cluster 1 of three points loses two of them. -/
example := C30_events demoArith { cur := [1, 1, 1], clusters := [none, some (Cl.init demoArith 1 none none 3)], next := 2, fresh := [],
                                  noise := [none, none, none], last := [none, none, none] } [0, 2] 1 5 _
  (by
    intro l c h0 h
    match l with
    | 0 => exact absurd rfl h0
    | 1 =>
      simp only [List.getElem?_cons_succ, List.getElem?_cons_zero, Option.some.injEq] at h
      subst h
      decide
    | l + 2 => simp at h) (by decide) (by decide) (by decide) rfl rfl (by decide) rfl rfl

end Verif.Props
