import Verif.Spec.Outlying
import Verif.Props.Farther
import Verif.Props.Scattered
import Verif.Props.Double
/-
C126: scattered rows have higher outlier scores than the rows of groups.
-/
namespace Verif.Props
open Spec Race
variable {D W S T : Type}

private theorem line_lt [LinearOrder W] {ar : Arith W S} {n m : Nat} {res : Hier.Result W S} {hist : List (W × (Nat → Nat))} {cur : Nat → Nat} {noise : Nat → Option W} {last : Nat → Option Nat}
    (h : Hier.Base ar n m res hist cur noise last) {s t : Nat} {w w' : W} {g g' : Nat → Nat} (hs : hist[s]? = some (w, g)) (ht : hist[t]? = some (w', g')) (hlt : s < t) : w' < w := by
  have h2 := h.ord
  rw [List.pairwise_iff_getElem] at h2
  have h3 := h2 s t (by simpa using Hier.lt_of_get hs) (by simpa using Hier.lt_of_get ht) hlt
  obtain ⟨a, ha⟩ := List.getElem?_eq_some_iff.1 hs
  obtain ⟨b, hb⟩ := List.getElem?_eq_some_iff.1 ht
  simp only [List.getElem_map, ha, hb] at h3
  exact h3

/-- When rows of groups and scattered rows leave the hierarchy. -/
private theorem outlying_data [LinearOrder W] (ar : Arith W S) (m : Nat) (hm : 2 ≤ m) (dis : Distance W) (n : Nat) (hmn : m ≤ n) (hn : n < 2 ^ 32) (d : Nat → Nat → W) (core : Nat → W)
    (hget : ∀ i j, i < n → j < n → i ≠ j → dis.get ar.zeroW i j = .ok (d i j)) (hsym : ∀ i j, d i j = d j i)
    (hcore : ∀ i, i < n → dis.coreDistances[i]? = some (some (core i))) (hmax : ∀ i j, i < n → j < n → i ≠ j → mutualReach d core i j < ar.dmax)
    (grp : Nat → Option Nat) (ε δ Δ : W) (hw : Outlying n m d grp ε δ Δ) (hc : ∀ i, i < n → grp i ≠ none → ε ≤ core i ∧ core i ≤ δ) (hco : ∀ i, i < n → grp i = none → Δ ≤ core i) :
    ∃ res : Hier.Result W S, Run.hierarchy ar m dis n = .ok res ∧ res.clusters.length ≠ 2 ∧
      (∀ p i l w, p < n → grp p ≠ none → LastSeen res.hierarchy p i l → HasWeight res.hierarchy i w → w ≤ δ) ∧
      ∀ p i l w, p < n → grp p = none → LastSeen res.hierarchy p i l → HasWeight res.hierarchy i w → Δ ≤ w ∧
        ∃ q, q < n ∧ grp q ≠ none ∧ ∀ j t, LastSeen res.hierarchy q j t → AtOrAbove res.clusters l t := by
  obtain ⟨g, g', e1, e2, e3, hin, hconn, hwt⟩ := Run.sorted_mst ar.zeroW ar.dmax dis n (by omega) d core hget hsym hcore hmax
  have hmeet := @sorted_mst_meets W _ ar.zeroW ar.dmax dis n (by omega) d core hget hsym hcore hmax g g' e1 e2
  subst e3
  obtain ⟨i1, j1, hi1, hj1, hgi, hgj, hij1⟩ := hw.two
  have hεδ : ε ≤ δ := le_trans (hc i1 hi1 hgi).1 (hc i1 hi1 hgi).2
  have hΔ : δ < Δ := hw.gap
  -- connected at δ exactly within groups
  have within : ∀ w a b, w < Δ → Reachable g'.numVertices (mutualReach d core) w a b → a = b ∨ (grp a ≠ none ∧ grp a = grp b) := by
    intro w a b hwΔ hab
    induction hab with
    | rel x y hxy =>
      right
      have h2 : d x y ≤ w := le_trans (le_trans (le_max_left _ _) (le_max_left _ _)) hxy.2.2.2
      have h3 : ¬ (grp x = none ∨ grp x ≠ grp y) := fun hne => absurd (le_trans (hw.far x y hxy.1 hxy.2.1 hxy.2.2.1 hne) h2) (not_le.2 hwΔ)
      rw [not_or, not_not] at h3
      exact h3
    | refl => exact .inl rfl
    | symm _ _ _ ih =>
      rcases ih with rfl | ⟨h1, h2⟩
      · exact .inl rfl
      · exact .inr ⟨h2 ▸ h1, h2.symm⟩
    | trans _ _ _ _ _ i1 i2 =>
      rcases i1 with rfl | ⟨h1, h2⟩
      · exact i2
      · rcases i2 with rfl | ⟨-, h4⟩
        · exact .inr ⟨h1, h2⟩
        · exact .inr ⟨h1, h2.trans h4⟩
  have join : ∀ a b, Reachable g'.numVertices d δ a b → Reachable g'.numVertices (mutualReach d core) δ a b := by
    intro a b hab
    refine Prim.eqv_mono ?_ hab
    rintro x y ⟨h1, h2, h3, h4⟩
    have h5 : ¬ (grp x = none ∨ grp x ≠ grp y) := fun hne => absurd (le_trans (hw.far x y h1 h2 h3 hne) h4) (not_le.2 hΔ)
    rw [not_or, not_not] at h5
    exact ⟨h1, h2, h3, max_le (max_le h4 (hc x h1 h5.1).2) (hc y h2 (h5.2 ▸ h5.1)).2⟩
  have hgrp : ∀ a b, a < g'.numVertices → b < g'.numVertices → grp a ≠ none → (Reachable g'.numVertices (mutualReach d core) δ a b ↔ grp a = grp b) := by
    intro a b ha hb hga
    refine ⟨fun hab => ?_, fun he => join a b (hw.link a b ha hb hga he)⟩
    rcases within δ a b hΔ hab with rfl | h2
    · rfl
    · exact h2.2
  obtain ⟨f, hr, ec, hd, hs, htr⟩ := Hier.input_rep hin
  obtain ⟨res, hist, cur, noise, last, e, h⟩ := Hier.obs ar hr hin.nonempty ec rfl hn (show 1 ≤ m by omega) hd hs
  have inp : Corr.Inp g'.numVertices g'.wt.length f := ⟨ec, hs⟩
  have hC : ∀ w u v, Corr.Conn g'.wt.length f w u v ↔ Reachable g'.numVertices (mutualReach d core) w u v := by
    intro w u v; rw [Corr.Conn, ← htr]; exact hconn w u v
  have hmem : ∀ i, i < g'.wt.length → ((f i).1, (f i).2.1, (f i).2.2) ∈ triples g'.va g'.vb g'.wt := by
    intro i hi; rw [htr]; exact List.mem_map.2 ⟨i, List.mem_range.2 hi, rfl⟩
  have hwmem : ∀ i, i < g'.wt.length → (f i).2.2 ∈ g'.wt := by
    intro i hi
    have := hr.wt
    rw [this]
    exact List.mem_map.2 ⟨i, List.mem_range.2 hi, rfl⟩
  have hcmin : ∀ i, i < g'.numVertices → ε ≤ core i := by
    intro i hi
    by_cases hg : grp i = none
    · exact le_trans hεδ (le_trans (le_of_lt hΔ) (hco i hi hg))
    · exact (hc i hi hg).1
  have hmin : ∀ w ∈ g'.wt, ε ≤ w := by
    intro w hw'
    rcases (hwt w).1 hw' with ⟨i, hi, rfl⟩ | ⟨i, j, hi, hj, -, rfl, -⟩
    · exact hcmin i hi
    · exact le_trans (hcmin j hj) (le_max_right _ _)
  have hdich : ∀ i, i < g'.wt.length → ((f i).2.2 ≤ δ ∧ grp (f i).1 ≠ none) ∨ Δ ≤ (f i).2.2 := by
    intro i hi
    have hl := ec.lt i hi
    rcases hmeet (hmem i hi) with ⟨-, h2⟩ | ⟨h1, h2, h3⟩
    · by_cases hg : grp (f i).1 = none
      · right; rw [h2]; exact hco _ hl.1 hg
      · left; rw [h2]; exact ⟨(hc _ hl.1 hg).2, hg⟩
    · by_cases hg : grp (f i).1 ≠ none ∧ grp (f i).1 = grp (f i).2.1
      · left
        refine ⟨?_, hg.1⟩
        by_contra hlt
        exact h3 δ (not_le.1 hlt) ((hgrp _ _ hl.1 hl.2 hg.1).2 hg.2)
      · right
        by_contra hlt
        rcases within _ _ _ (not_le.1 hlt) h2 with h4 | h4
        · exact h1 h4
        · exact hg h4
  -- the largest weight up to δ
  obtain ⟨i0, hi0, hi0w, hi0m⟩ : ∃ i0, i0 < g'.wt.length ∧ (f i0).2.2 ≤ δ ∧ ∀ i, i < g'.wt.length → (f i).2.2 ≤ δ → (f i).2.2 ≤ (f i0).2.2 := by
    have hne : ((Finset.range g'.wt.length).filter (fun i => (f i).2.2 ≤ δ)).Nonempty := by
      have h0 : core i1 ∈ g'.wt := (hwt _).2 (.inl ⟨i1, hi1, rfl⟩)
      rw [hr.wt] at h0
      obtain ⟨i, hi, he⟩ := List.mem_map.1 h0
      exact ⟨i, Finset.mem_filter.2 ⟨Finset.mem_range.2 (List.mem_range.1 hi), by rw [he]; exact (hc i1 hi1 hgi).2⟩⟩
    obtain ⟨i0, h1, h2⟩ := Finset.exists_max_image _ (fun i => (f i).2.2) hne
    rw [Finset.mem_filter, Finset.mem_range] at h1
    exact ⟨i0, h1.1, h1.2, fun i hi hle => h2 i (Finset.mem_filter.2 ⟨Finset.mem_range.2 hi, hle⟩)⟩
  have hsame : ∀ u v, Corr.Conn g'.wt.length f (f i0).2.2 u v ↔ Reachable g'.numVertices (mutualReach d core) δ u v := by
    intro u v
    rw [← hC]
    constructor
    · refine Prim.eqv_mono ?_
      rintro x y ⟨w, h1, h2⟩
      exact ⟨w, h1, le_trans h2 hi0w⟩
    · refine Prim.eqv_mono ?_
      rintro x y ⟨w, h1, h2⟩
      refine ⟨w, h1, ?_⟩
      obtain ⟨i, hi, he⟩ := List.mem_map.1 h1
      have := hi0m i (List.mem_range.1 hi)
      rw [he] at this
      exact this h2
  have hbig : ∀ u, u < g'.numVertices → (Corr.Big g'.wt.length f (f i0).2.2 m u ↔ grp u ≠ none) := by
    intro u hu
    constructor
    · rintro ⟨l, l1, l2, l3⟩ hg
      have hall : ∀ v ∈ l, v = u := by
        intro v hv
        rcases within δ u v hΔ ((hsame u v).1 (l3 v hv)) with h1 | h1
        · exact h1.symm
        · exact absurd hg h1.1
      have hsub : l ⊆ [u] := fun v hv => List.mem_singleton.2 (hall v hv)
      have := (l1.subperm hsub).length_le
      simp only [List.length_singleton] at this
      omega
    · intro hg
      obtain ⟨l, l1, l2, l3⟩ := hw.dense u hu hg
      refine ⟨l, l1, l2, fun v hv => (hsame u v).2 ?_⟩
      by_cases huv : u = v
      · subst huv; exact .refl _
      · exact join u v (.rel _ _ ⟨hu, (l3 v hv).1, huv, (l3 v hv).2⟩)
  have hg0 : grp (f i0).1 ≠ none := by
    rcases hdich i0 hi0 with h1 | h1
    · exact h1.2
    · exact absurd (le_trans h1 hi0w) (not_le.2 hΔ)
  have hline := (Corr.line_iff h inp hm hmn (f i0).2.2).2 ⟨(f i0).1, (ec.lt i0 hi0).1, (hbig _ (ec.lt i0 hi0).1).2 hg0, i0, hi0, rfl, .refl _⟩
  obtain ⟨⟨w0, gk⟩, hx, hw0⟩ := List.mem_map.1 hline
  obtain ⟨k, hk⟩ := List.mem_iff_getElem?.1 hx
  simp only at hw0
  subst hw0
  obtain ⟨k', hk'⟩ := h.line _ hx
  have hlab : ∀ p, Hier.lab hist cur k p = gk p := fun p => by rw [Hier.lab_get hk]
  have hne : ∀ p, p < g'.numVertices → (Hier.lab hist cur k p ≠ 0 ↔ grp p ≠ none) := by
    intro p hp
    rw [hlab, ← hbig p hp]
    exact inp.nonzero hm hmn hk' hp
  have hlg : ∀ p q, p < g'.numVertices → q < g'.numVertices → grp p ≠ none → grp q ≠ none → (Hier.lab hist cur k p = Hier.lab hist cur k q ↔ grp p = grp q) := by
    intro p q hp hq hgp hgq
    have h1 := (hne p hp).2 hgp
    have h2 := (hne q hq).2 hgq
    rw [hlab] at h1 h2
    rw [hlab, hlab, hk'.conn p q hp hq h1 h2, Hier.rk_iff hk'.le hk'.wt, ← hgrp p q hp hq hgp]
    exact hsame p q
  have two : ∃ p q, p < g'.numVertices ∧ q < g'.numVertices ∧ Hier.lab hist cur k p ≠ 0 ∧ Hier.lab hist cur k q ≠ 0 ∧ Hier.lab hist cur k p ≠ Hier.lab hist cur k q :=
    ⟨i1, j1, hi1, hj1, (hne i1 hi1).2 hgi, (hne j1 hj1).2 hgj, fun he => hij1 ((hlg i1 j1 hi1 hj1 hgi hgj).1 he)⟩
  have hat : ∀ (s : Nat) (w : W) (g0 : Nat → Nat), hist[s]? = some (w, g0) → ∃ i, i < g'.wt.length ∧ (f i).2.2 = w := by
    intro s w g0 hs'
    obtain ⟨k2, hk2⟩ := h.line _ (List.mem_of_getElem? hs')
    exact hk2.at'
  have high : ∀ (s : Nat) (w : W) (g0 : Nat → Nat), hist[s]? = some (w, g0) → s < k → Δ ≤ w := by
    intro s w g0 hs' hlt
    have h1 := line_lt h.toBase hs' hk hlt
    obtain ⟨i, hi, rfl⟩ := hat s w g0 hs'
    rcases hdich i hi with h2 | h2
    · exact absurd (hi0m i hi h2.1) (not_le.2 h1)
    · exact h2
  have low : ∀ (s : Nat) (w : W) (g0 : Nat → Nat), hist[s]? = some (w, g0) → k ≤ s → ε ≤ w ∧ w ≤ δ := by
    intro s w g0 hs' hle
    refine ⟨?_, ?_⟩
    · obtain ⟨i, hi, rfl⟩ := hat s w g0 hs'
      exact hmin _ (hwmem i hi)
    · rcases Nat.lt_or_eq_of_le hle with hlt | heq
      · exact le_trans (le_of_lt (line_lt h.toBase hk hs' hlt)) hi0w
      · subst heq
        rw [hk] at hs'
        cases hs'
        exact hi0w
  refine ⟨res, by rw [Run.hierarchy, e1]; simp only [Outcome.ok_bind, e2]; exact e, fun h2 => ?_, fun p i l w hp hg hl hwi => ?_, fun p i l w hp hg hl hwi => ?_⟩
  · obtain ⟨a, b, ha, hb, ha0, hb0, hab⟩ := two
    have := h.bk.lt k a ha
    have := h.bk.lt k b hb
    omega
  · obtain ⟨l1, l2, l3, l4⟩ := hl
    obtain ⟨g0, hs0⟩ := h.weight_of l1 hwi
    refine (low (i - 1) w g0 hs0 ?_).2
    by_contra hlt
    have hk1 := Hier.lt_of_get hk
    have := l4 (k + 1) _ (by omega) ((h.carries (by omega)).2 ⟨by omega, hp, rfl⟩)
    rw [Nat.add_sub_cancel] at this
    exact (hne p hp).2 hg this
  · obtain ⟨l1, l2, l3, l4⟩ := hl
    obtain ⟨g0, hs0⟩ := h.weight_of l1 hwi
    obtain ⟨-, -, hlp⟩ := (h.carries l1).1 l3
    have hz : Hier.lab hist cur k p = 0 := by
      by_contra hz
      exact (hne p hp).1 hz hg
    have hik : i - 1 < k := by
      by_contra hge
      have := h.bk.noise_stays hp (show k ≤ i - 1 by omega) hz
      rw [hlp] at this
      exact l2 this
    refine ⟨high _ w g0 hs0 hik, ?_⟩
    obtain ⟨k2, hk2⟩ := h.line _ (List.mem_of_getElem? hs0)
    have hlg0 : ∀ q, Hier.lab hist cur (i - 1) q = g0 q := fun q => by rw [Hier.lab_get hs0]
    obtain ⟨L, b1, b2, b3⟩ := (inp.nonzero hm hmn hk2 hp).1 (by show g0 p ≠ 0; rw [← hlg0, hlp]; exact l2)
    have hlt : ∀ v ∈ L, v < g'.numVertices := by
      intro v hv
      have key : ∀ a b, Reachable g'.numVertices (mutualReach d core) w a b → (a < g'.numVertices ↔ b < g'.numVertices) := by
        intro a b hab
        induction hab with
        | rel x y hxy => exact ⟨fun _ => hxy.2.1, fun _ => hxy.1⟩
        | refl x => exact Iff.rfl
        | symm x y _ ih => exact ih.symm
        | trans x y z _ _ ih1 ih2 => exact ih1.trans ih2
      exact (key p v ((hC w p v).1 (b3 v hv))).1 hp
    obtain ⟨q, hq, hgq⟩ : ∃ q ∈ L, grp q ≠ none := by
      by_contra hno
      refine hw.few ⟨L, b1, b2, fun v hv => ⟨hlt v hv, ?_⟩⟩
      by_contra hv'
      exact hno ⟨v, hv, hv'⟩
    have hqn := hlt q hq
    have hq0 : g0 q ≠ 0 := (inp.nonzero hm hmn hk2 hqn).2 ⟨L, b1, b2, fun v hv => (b3 q hq).symm.trans (b3 v hv)⟩
    have hql : Hier.lab hist cur (i - 1) q = l := by
      rw [← hlp, hlg0, hlg0]
      refine ((hk2.conn p q hp hqn (by show g0 p ≠ 0; rw [← hlg0, hlp]; exact l2) hq0).2 ?_).symm
      rw [Hier.rk_iff hk2.le hk2.wt]
      exact b3 q hq
    refine ⟨q, hqn, hgq, fun j t hjt => ?_⟩
    obtain ⟨t1, t2, t3, t4⟩ := hjt
    obtain ⟨t5, -, htq⟩ := (h.carries t1).1 t3
    have hij : i ≤ j := by
      by_contra hlt'
      have hi5 := ((h.carries l1).1 l3).1
      have := t4 i _ (by omega) ((h.carries l1).2 ⟨hi5, hqn, rfl⟩)
      rw [hql] at this
      exact l2 this
    have := h.chain hqn (show i - 1 ≤ j - 1 by omega) (by rw [htq]; exact t2)
    rwa [hql, htq] at this

/-- Core distances. -/
private theorem core_range [LinearOrder W] {n m : Nat} (hm : 2 ≤ m) {d : Nat → Nat → W} {grp : Nat → Option Nat} {ε δ Δ : W} (hw : Outlying n m d grp ε δ Δ) {i : Nat} (hi : i < n) {x : W}
    (hx : IsKth ((List.range n).map (d i)) m x) : (grp i ≠ none → ε ≤ x ∧ x ≤ δ) ∧ (grp i = none → Δ ≤ x) := by
  obtain ⟨h1, h2⟩ := hx
  rw [List.countP_map, List.countP_eq_length_filter] at h1 h2
  refine ⟨fun hg => ⟨?_, ?_⟩, fun hg => ?_⟩
  · by_contra hlt
    rw [not_le] at hlt
    refine hw.sparse i hi hg ⟨_, List.nodup_range.filter _, h2, fun v hv => ?_⟩
    rw [List.mem_filter, List.mem_range] at hv
    simp only [Function.comp_apply, decide_eq_true_eq] at hv
    exact ⟨hv.1, lt_of_le_of_lt hv.2 hlt⟩
  · by_contra hlt
    rw [not_le] at hlt
    obtain ⟨l, l1, l2, l3⟩ := hw.dense i hi hg
    have hsub : l ⊆ (List.range n).filter ((fun t => decide (t < x)) ∘ d i) := by
      intro v hv
      rw [List.mem_filter, List.mem_range]
      simp only [Function.comp_apply, decide_eq_true_eq]
      exact ⟨(l3 v hv).1, lt_of_le_of_lt (l3 v hv).2 hlt⟩
    have := (l1.subperm hsub).length_le
    omega
  · by_contra hlt
    rw [not_le] at hlt
    have hsub : (List.range n).filter ((fun t => decide (t ≤ x)) ∘ d i) ⊆ [i] := by
      intro v hv
      rw [List.mem_filter, List.mem_range] at hv
      simp only [Function.comp_apply, decide_eq_true_eq] at hv
      rw [List.mem_singleton]
      by_contra hvi
      exact absurd (le_trans (hw.far i v hi hv.1 (fun he => hvi he.symm) (.inl hg)) hv.2) (not_le.2 hlt)
    have := ((List.nodup_range.filter _).subperm hsub).length_le
    simp only [List.length_singleton] at this
    omega

/-- **C126**, but for core distances that are wrong because of ties (C19). On every supported data set and for every `2 ≤ m ≤ rows`, with any threads: if the rows form groups but for fewer than `m`
    scattered rows, then the score of every row of a group is at most the one computed as `1 - ε / δ`, and that of every scattered row at least the one computed as `1 - δ / Δ`.
    Missing: ties that give wrong core distances (`C126_violated`). -/
theorem C126_outlying_partial [LinearOrder W] [CCmp S] [LinearOrder T] (env : Api.Env D W S T) (hq : SortsAscending env.qsort) (hs : FallingScore env.ar.zeroW env.oops) (data : List D)
    (rows cols : Nat) (f : Nat → Nat → W) (h : Supported env data rows cols f) (h5 : 5 ≤ rows) (m : Nat) (hm : 2 ≤ m) (hmr : m ≤ rows) (th : Threads) (hth : Interleaves th) :
    ∃ obj : Api.Obj W S T, (∀ par, Complete rows rows par → Race.fresh th env par m data rows cols true = .ok obj) ∧ (obj.results.outliers.map (·.id)).Perm (List.range rows) ∧
      ∀ (grp : Nat → Option Nat) (ε δ Δ : W), env.ar.zeroW < ε → Outlying rows m (distOf env.dops f) grp ε δ Δ →
        (Untied rows m (distOf env.dops f) ∨ ∀ i, i < rows → ∃ c, obj.dis.coreDistances[i]? = some (some c) ∧ (grp i ≠ none → ε ≤ c ∧ c ≤ δ) ∧ (grp i = none → Δ ≤ c)) →
        ∀ o ∈ obj.results.outliers, (grp o.id ≠ none → o.score ≤ env.oops.ratio ε δ) ∧ (grp o.id = none → env.oops.ratio δ Δ ≤ o.score) := by
  have hfew := h.few
  obtain ⟨o0, core, g, res0, hf, r1, r2, hget, hcore, hmax, -, -, -, -, -, hfull⟩ := stages hq h h5 hm hmr
  obtain ⟨o2, b1, b2, -⟩ := C63_threads_partial env hq data rows cols f h h5 m hm hmr
  have e : o2 = o0 := fresh_same b1 hf
  subst e
  obtain ⟨obj, lost, -, s2, s3⟩ := b2 th hth
  have hget' : ∀ i j, i < rows → j < rows → i ≠ j → o2.dis.get env.ar.zeroW i j = .ok (distOf env.dops f i j) := fun i j hi hj _ => by rw [← h.zero]; exact hget i j hi hj
  obtain ⟨out, c1, c2, -, c4⟩ := full_rep env.qsort env.ar env.smax env.oops m o2.dis rows (distOf env.dops f) core hq (by omega) (by omega) (by omega)
    hget' (fun i j => distOf_symm env.dops f i j) (fun i hi => (hcore i hi).1) hmax
  have eo : out = o2.results := by
    have := c1 seqSchedule (List.range rows) seqSchedule_complete (.refl _)
    rw [hfull seqSchedule (List.range rows) seqSchedule_complete (.refl _)] at this
    exact (Outcome.ok.inj this).symm
  subst eo
  refine ⟨obj, s3, by rw [s2.outliers]; exact c2, fun grp ε δ Δ hε hw ht => ?_⟩
  have hc : ∀ i, i < rows → (grp i ≠ none → ε ≤ core i ∧ core i ≤ δ) ∧ (grp i = none → Δ ≤ core i) := by
    intro i hi
    rcases ht with ht | ht
    · obtain ⟨o3, core2, k1, k2, -⟩ := run_kth env hq data rows cols f h h5 m hm hmr ht
      have e : o3 = o2 := fresh_same k1 hf
      subst e
      have := (k2 i hi).1
      rw [(hcore i hi).1] at this
      rw [Option.some.inj (Option.some.inj this)]
      exact core_range hm hw hi (k2 i hi).2
    · obtain ⟨c, c1, c2⟩ := ht i hi
      rw [s2.dis, (hcore i hi).1] at c1
      rw [Option.some.inj (Option.some.inj c1)]
      exact c2
  obtain ⟨res, k1, k2, k3, k4⟩ := outlying_data (S := S) env.ar m hm o2.dis rows hmr (by omega) (distOf env.dops f) core hget' (fun i j => distOf_symm env.dops f i j) (fun i hi => (hcore i hi).1) hmax
    grp ε δ Δ hw (fun i hi => (hc i hi).1) (fun i hi => (hc i hi).2)
  obtain ⟨res', t1, t2, -, -, t5⟩ := doRun_frame (full_hierarchy (hfull seqSchedule (List.range rows) seqSchedule_complete (.refl _))).1
  rw [k1] at t1; cases t1
  have t2' : res.hierarchy = o2.results.hierarchy := t2
  have t5' : Frames res.clusters o2.results.clusters := t5
  have hlen : o2.results.clusters.length ≠ 2 := by rw [← t5'.length]; exact k2
  have hkid : ∀ a b, IsChild res.clusters a b → IsChild o2.results.clusters a b := by
    rintro a b ⟨c, hc', hp⟩
    have h1 := t5'.get a
    rw [hc'] at h1
    cases e' : o2.results.clusters[a]? with
    | none => rw [e'] at h1; exact False.elim h1
    | some x =>
      rw [e'] at h1
      cases x with
      | none => exact False.elim h1
      | some c0 => exact ⟨c0, e', h1.parent ▸ hp⟩
  have hab : ∀ a b, AtOrAbove res.clusters a b → AtOrAbove o2.results.clusters a b := fun a b hx => Relation.ReflTransGen.mono hkid _ _ hx
  rw [t2'] at k3 k4
  obtain ⟨i1, -, hi1, -, hgi, -, -⟩ := hw.two
  have hεδ : ε ≤ δ := le_trans ((hc i1 hi1).1 hgi).1 ((hc i1 hi1).1 hgi).2
  have hδ : env.ar.zeroW < δ := lt_of_lt_of_le hε hεδ
  have hcmin : ∀ i, i < rows → ε ≤ core i := by
    intro i hi
    by_cases hg : grp i = none
    · exact le_trans hεδ (le_trans (le_of_lt hw.gap) ((hc i hi).2 hg))
    · exact ((hc i hi).1 hg).1
  have hmin : ∀ w, ((∃ i, i < rows ∧ w = core i) ∨ ∃ i j, i < rows ∧ j < rows ∧ i ≠ j ∧ w = mutualReach (distOf env.dops f) core i j) → ε ≤ w := by
    rintro w (⟨i, hi, rfl⟩ | ⟨i, j, hi, hj, -, rfl⟩)
    · exact hcmin i hi
    · exact le_trans (hcmin j hj) (le_max_right _ _)
  -- score of a row
  have hrow : ∀ p, p < rows → ∃ o ∈ o2.results.outliers, o.id = p := by
    intro p hp
    obtain ⟨o, ho, hid⟩ := List.mem_map.1 (c2.mem_iff.2 (List.mem_range.2 hp))
    exact ⟨o, ho, hid⟩
  intro o ho
  rw [s2.outliers] at ho
  obtain ⟨p1, -, eps, l, c, -, -, p3, p4, ⟨i, p5⟩, p6, -, p8⟩ := c4 o ho
  obtain ⟨p8a, p8b, p8c⟩ := p8 hlen
  have hlast : LastSeen o2.results.hierarchy o.id i l := ⟨p5.1, p5.2.1, p5.2.2.1, p5.2.2.2.2⟩
  have he0 : eps ≠ env.ar.zeroW := (lt_of_lt_of_le hε (hmin _ p4)).ne'
  rw [p6, if_neg he0]
  refine ⟨fun hg => ?_, fun hg => ?_⟩
  · exact hs _ _ _ _ hε (hmin _ p8c) (lt_of_lt_of_le hε (hmin _ p4)) (k3 o.id i l eps p1 hg hlast p5.2.2.2.1)
  · obtain ⟨hΔ, q, hq1, hq2, hq3⟩ := k4 o.id i l eps p1 hg hlast p5.2.2.2.1
    obtain ⟨oq, hoq, rfl⟩ := hrow q hq1
    obtain ⟨-, -, eps', l', c', -, -, p3', p4', ⟨i', p5'⟩, -, -, p8'⟩ := c4 oq hoq
    obtain ⟨p8a', ⟨⟨t, ct, x1, x2, x3, x4⟩, -⟩, -⟩ := p8' hlen
    have hlast' : LastSeen o2.results.hierarchy oq.id i' l' := ⟨p5'.1, p5'.2.1, p5'.2.2.1, p5'.2.2.2.2⟩
    have hll := hab _ _ (hq3 i' l' hlast')
    have h1 : c.propLowest ≤ ct.death := p8b.2 t ct x1 x2 (x3.trans hll)
    have h2 := k3 oq.id i' l' eps' hq1 hq2 hlast' p5'.2.2.2.1
    refine hs _ _ _ _ (lt_of_lt_of_le hε (hmin _ p8c)) ?_ (lt_trans hδ hw.gap) hΔ
    rw [x4] at h1
    exact le_trans h1 (le_trans p8a' h2)

/-- Exact scores over an ordered field. -/
theorem exactScore_falling {K : Type} [Field K] [LinearOrder K] [IsStrictOrderedRing K] : FallingScore (0 : K) (exactScore K) := by
  intro a a' e e' ha haa he hee
  simp only [exactScore]
  have : a' / e' ≤ a / e := div_le_div₀ (le_of_lt (lt_of_lt_of_le ha haa)) haa he hee
  linarith

/-- Scores computed with doubles. -/
theorem doubleScore_falling : FallingScore (F64.of 0) doubleScore := by
  intro a a' e e' ha haa he hee
  have ha' : (0 : ℚ) < a'.1 := by have : (F64.of 0).1 < a'.1 := ha; rwa [of_zero] at this
  have he' : (0 : ℚ) < e.1 := by have : (F64.of 0).1 < e.1 := he; rwa [of_zero] at this
  have hd : a'.1 / e'.1 ≤ a.1 / e.1 := div_le_div₀ (le_of_lt (lt_of_lt_of_le ha' haa)) haa he' hee
  have h1 : (F64.of (a'.1 / e'.1)).1 ≤ (F64.of (a.1 / e.1)).1 := of_mono hd
  exact of_mono (by linarith)

/-- C126 in exact arithmetic: if `δ² < εΔ`, every scattered row has a higher score than every row of a group. -/
theorem C126_above_partial {K : Type} [Field K] [LinearOrder K] [IsStrictOrderedRing K] [CCmp S] (env : Api.Env D K S K) (hz : env.ar.zeroW = 0) (ho : env.oops = exactScore K) (hq : SortsAscending env.qsort)
    (data : List D) (rows cols : Nat) (f : Nat → Nat → K) (h : Supported env data rows cols f) (h5 : 5 ≤ rows) (m : Nat) (hm : 2 ≤ m) (hmr : m ≤ rows) (grp : Nat → Option Nat) (ε δ Δ : K)
    (hε : 0 < ε) (hw : Outlying rows m (distOf env.dops f) grp ε δ Δ) (ht : Untied rows m (distOf env.dops f)) (hsq : δ * δ < ε * Δ) (th : Threads) (hth : Interleaves th) :
    ∃ obj : Api.Obj K S K, (∀ par, Complete rows rows par → Race.fresh th env par m data rows cols true = .ok obj) ∧ (obj.results.outliers.map (·.id)).Perm (List.range rows) ∧
      ∀ o ∈ obj.results.outliers, ∀ o' ∈ obj.results.outliers, grp o.id ≠ none → grp o'.id = none → o.score < o'.score := by
  obtain ⟨obj, a, b, c⟩ := C126_outlying_partial env hq (by rw [hz, ho]; exact exactScore_falling) data rows cols f h h5 m hm hmr th hth
  refine ⟨obj, a, b, fun o h1 o' h2 g1 g2 => ?_⟩
  have k1 := (c grp ε δ Δ (by rw [hz]; exact hε) hw (.inl ht) o h1).1 g1
  have k2 := (c grp ε δ Δ (by rw [hz]; exact hε) hw (.inl ht) o' h2).2 g2
  rw [ho] at k1 k2
  simp only [exactScore] at k1 k2
  have hδ : 0 < δ := by
    by_contra hle
    rw [not_lt] at hle
    obtain ⟨i, -, hi, -, hgi, -, -⟩ := hw.two
    obtain ⟨l, l1, l2, l3⟩ := hw.dense i hi hgi
    exact hw.sparse i hi hgi ⟨l, l1, l2, fun v hv => ⟨(l3 v hv).1, lt_of_le_of_lt (l3 v hv).2 (lt_of_le_of_lt hle hε)⟩⟩
  have hΔ : 0 < Δ := lt_trans hδ hw.gap
  have : δ / Δ < ε / δ := by rw [div_lt_div_iff₀ hΔ hδ]; exact hsq
  linarith

/-- C126 for doubles, rounding included. -/
theorem C126_doubles_partial (qsort : (OScore F64 F64 → OScore F64 F64 → Int) → List (OScore F64 F64) → List (OScore F64 F64)) (hq : SortsAscending qsort) (data : List F64) (rows cols : Nat)
    (f : Nat → Nat → F64) (h : Supported (doubleEnv qsort) data rows cols f) (h5 : 5 ≤ rows) (m : Nat) (hm : 2 ≤ m) (hmr : m ≤ rows) (grp : Nat → Option Nat) (ε δ Δ : F64) (hε : 0 < ε.1)
    (hw : Outlying rows m (distOf (doubleEnv qsort).dops f) grp ε δ Δ) (ht : Untied rows m (distOf (doubleEnv qsort).dops f)) (th : Threads) (hth : Interleaves th) :
    ∃ obj : Api.Obj F64 F64 F64, (∀ par, Complete rows rows par → Race.fresh th (doubleEnv qsort) par m data rows cols true = .ok obj) ∧
      ∀ o ∈ obj.results.outliers, (grp o.id ≠ none → o.score ≤ F64.of (1 - (F64.of (ε.1 / δ.1)).1)) ∧ (grp o.id = none → F64.of (1 - (F64.of (δ.1 / Δ.1)).1) ≤ o.score) := by
  obtain ⟨obj, a, -, c⟩ := C126_outlying_partial (doubleEnv qsort) hq doubleScore_falling data rows cols f h h5 m hm hmr th hth
  exact ⟨obj, a, c grp ε δ Δ (by show (F64.of 0).1 < ε.1; rwa [of_zero]) hw (.inl ht)⟩

private theorem atLeast_by {n m : Nat} {P : Nat → Prop} [DecidablePred P] (h : m ≤ (List.range n).countP (fun j => decide (P j))) : AtLeast m (fun j => j < n ∧ P j) := by
  rw [List.countP_eq_length_filter] at h
  refine ⟨_, List.nodup_range.filter _, h, fun v hv => ?_⟩
  rw [List.mem_filter, List.mem_range, decide_eq_true_eq] at hv
  exact hv

private theorem not_atLeast_by {n m : Nat} {P : Nat → Prop} [DecidablePred P] (h : (List.range n).countP (fun j => decide (P j)) < m) : ¬ AtLeast m (fun j => j < n ∧ P j) := by
  rintro ⟨l, l1, l2, l3⟩
  rw [List.countP_eq_length_filter] at h
  have hsub : l ⊆ (List.range n).filter (fun j => decide (P j)) := by
    intro v hv
    rw [List.mem_filter, List.mem_range, decide_eq_true_eq]
    exact l3 v hv
  have := (l1.subperm hsub).length_le
  omega

/-- The rows 0, 2, 4 and 1, 3, 5 are groups, row 6 is scattered. -/
def outGrp (i : Nat) : Option Nat := if i < 6 then some (i % 2) else none

private theorem outlying_seven [LinearOrder W] {d : Nat → Nat → W} {ε δ Δ : W} (gap : δ < Δ) (st : d 0 2 ≤ δ ∧ d 2 4 ≤ δ ∧ d 1 3 ≤ δ ∧ d 3 5 ≤ δ)
    (far : ∀ i, i < 7 → ∀ j, j < 7 → i ≠ j → outGrp i = none ∨ outGrp i ≠ outGrp j → Δ ≤ d i j)
    (dense : ∀ i, i < 7 → outGrp i ≠ none → 2 ≤ (List.range 7).countP (fun j => decide (d i j ≤ δ))) (sparse : ∀ i, i < 7 → outGrp i ≠ none → (List.range 7).countP (fun j => decide (d i j < ε)) < 2) :
    Outlying 7 2 d outGrp ε δ Δ where
  gap := gap
  few := not_atLeast_by (by decide)
  two := ⟨0, 1, by omega, by omega, by decide, by decide, by decide⟩
  link := by
    have s1 : Reachable 7 d δ 0 2 := .rel _ _ ⟨by omega, by omega, by omega, st.1⟩
    have s2 : Reachable 7 d δ 2 4 := .rel _ _ ⟨by omega, by omega, by omega, st.2.1⟩
    have s3 : Reachable 7 d δ 1 3 := .rel _ _ ⟨by omega, by omega, by omega, st.2.2.1⟩
    have s4 : Reachable 7 d δ 3 5 := .rel _ _ ⟨by omega, by omega, by omega, st.2.2.2⟩
    have base : ∀ i, i < 6 → Reachable 7 d δ (i % 2) i := by
      intro i hi
      match i, hi with
      | 0, _ => exact .refl _
      | 1, _ => exact .refl _
      | 2, _ => exact s1
      | 3, _ => exact s3
      | 4, _ => exact .trans _ _ _ s1 s2
      | 5, _ => exact .trans _ _ _ s3 s4
    intro i j _ _ hg he
    unfold outGrp at hg he
    by_cases hi : i < 6
    · by_cases hj : j < 6
      · rw [if_pos hi, if_pos hj] at he
        have h1 := base i hi
        rw [Option.some.inj he] at h1
        exact .trans _ _ _ (.symm _ _ h1) (base j hj)
      · rw [if_pos hi, if_neg hj] at he
        cases he
    · rw [if_neg hi] at hg
      exact absurd rfl hg
  far i j hi hj := far i hi j hj
  dense i hi hg := atLeast_by (dense i hi hg)
  sparse i hi hg := not_atLeast_by (sparse i hi hg)

/-- Two groups of three points on a line, and a point far from them, exactly and with doubles. -/
def outPts : List Rat := [0, 20, 2, 23, 4, 24, 60]
def outDoubles : List F64 := [0, 20, 2, 23, 4, 24, 60].map F64.of

theorem outPts_supported : Supported lineEnv outPts 7 1 (lineSq outPts) where
  few := by omega
  zero := rfl
  zero_lt := by decide
  sum i j hij hj := sqSum_iff.1 <| (by decide +kernel : ∀ j, j < 7 → ∀ i, i < j → Distance.sumFrom lineEnv.dops outPts 1 i j 1 0 lineEnv.dops.zero = .ok (lineSq outPts i j)) j hj i hij
  lt i j hij hj := (by decide +kernel : ∀ j, j < 7 → ∀ i, i < j → lineEnv.dops.sqrt (lineSq outPts i j) < lineEnv.ar.dmax) j hj i hij

theorem outDoubles_supported : Supported (doubleEnv isort) outDoubles 7 1 (doubleSq outDoubles) where
  few := by omega
  zero := rfl
  zero_lt := by decide +kernel
  sum i j hij hj := sqSum_iff.1 <| (by decide +kernel : ∀ j, j < 7 → ∀ i, i < j → Distance.sumFrom doubleDist outDoubles 1 i j 1 0 doubleDist.zero = .ok (doubleSq outDoubles i j)) j hj i hij
  lt i j hij hj := (by decide +kernel : ∀ j, j < 7 → ∀ i, i < j → doubleDist.sqrt (doubleSq outDoubles i j) < F64.max) j hj i hij

theorem outPts_outlying : Outlying 7 2 (distOf lineEnv.dops (lineSq outPts)) outGrp 1 3 16 :=
  outlying_seven (by decide +kernel) (by decide +kernel) (by decide +kernel) (by decide +kernel) (by decide +kernel)

theorem outDoubles_outlying : Outlying 7 2 (distOf (doubleEnv isort).dops (doubleSq outDoubles)) outGrp (F64.of 1) (F64.of 3) (F64.of 16) :=
  outlying_seven (by decide +kernel) (by decide +kernel) (by decide +kernel) (by decide +kernel) (by decide +kernel)

/-- Cases of C126. -/
example := C126_above_partial lineEnv rfl rfl (isort_sorts _) outPts 7 1 (lineSq outPts) outPts_supported (by omega) 2 (by omega) (by omega) outGrp 1 3 16 (by decide +kernel) outPts_outlying
  (fun _ _ => .inl (le_refl _)) (by decide +kernel) hasty hasty_interleaves
example := C126_doubles_partial isort (isort_sorts _) outDoubles 7 1 (doubleSq outDoubles) outDoubles_supported (by omega) 2 (by omega) (by omega) outGrp (F64.of 1) (F64.of 3) (F64.of 16)
  (by decide +kernel) outDoubles_outlying (fun _ _ => .inl (le_refl _)) hasty hasty_interleaves

/-- The bounds are met: row 1 has the score 1 - 1/3, and the scattered row 6 the score 35/36. -/
example : (Api.fresh lineEnv (backPar 7 7) 2 outPts 7 1 true >>= fun o => .ok (o.results.outliers.map (fun s => (s.id, s.score)))) =
    .ok [(3, 0), (5, 0), (0, 0), (2, 0), (4, 0), (1, 2 / 3), (6, 35 / 36)] := by decide +kernel

/-- With `m` scattered rows the claim is false, for they can form a cluster: here they have score 0. -/
example : (Api.fresh lineEnv (backPar 8 8) 2 scatterPts 8 1 true >>= fun o => .ok (o.results.outliers.map (fun s => (s.id, s.score)))) =
    .ok [(0, 0), (1, 0), (2, 0), (3, 0), (4, 0), (5, 0), (6, 0), (7, 0)] := by decide +kernel

/-- The groups of C124 with repeated distances, and a row far from them. -/
def tiedOutPts : List Rat := tiedGroupPts ++ [300]
def tiedOutGrp (i : Nat) : Option Nat := if i < 8 then some (i % 2) else none

/-- **C126 is violated** by ties: because of wrong core distances (C19) the hierarchy never splits, and the scattered row 8 gets the score -803 / 197. -/
theorem C126_violated : Outlying 9 4 (distOf lineEnv.dops (lineSq tiedOutPts)) tiedOutGrp 2 3 96 ∧
    (Api.fresh lineEnv (backPar 9 9) 4 tiedOutPts 9 1 true >>= fun o => .ok (o.results.outliers.map (fun s => (s.id, s.score)))) =
      .ok [(0, -499), (2, -499), (6, -499), (4, -499), (1, -903 / 97), (3, -903 / 97), (5, -903 / 97), (7, -903 / 97), (8, -803 / 197)] := by
  refine ⟨⟨by decide +kernel, not_atLeast_by (by decide +kernel), ⟨0, 1, by omega, by omega, by decide, by decide, by decide⟩, fun i j hi hj hg he => ?_, fun i j hi hj => ?_, fun i hi hg => ?_, fun i hi hg => ?_⟩, by decide +kernel⟩
  · by_cases hij : i = j
    · subst hij; exact .refl _
    · exact .rel _ _ ⟨hi, hj, hij, (by decide +kernel : ∀ i, i < 9 → ∀ j, j < 9 → tiedOutGrp i ≠ none → tiedOutGrp i = tiedOutGrp j → distOf lineEnv.dops (lineSq tiedOutPts) i j ≤ 3) i hi j hj hg he⟩
  · exact (by decide +kernel : ∀ i, i < 9 → ∀ j, j < 9 → i ≠ j → tiedOutGrp i = none ∨ tiedOutGrp i ≠ tiedOutGrp j → (96 : Rat) ≤ distOf lineEnv.dops (lineSq tiedOutPts) i j) i hi j hj
  · exact atLeast_by ((by decide +kernel : ∀ i, i < 9 → tiedOutGrp i ≠ none → 4 ≤ (List.range 9).countP (fun j => decide (distOf lineEnv.dops (lineSq tiedOutPts) i j ≤ 3))) i hi hg)
  · exact not_atLeast_by ((by decide +kernel : ∀ i, i < 9 → tiedOutGrp i ≠ none → (List.range 9).countP (fun j => decide (distOf lineEnv.dops (lineSq tiedOutPts) i j < 2)) < 4) i hi hg)

end Verif.Props
