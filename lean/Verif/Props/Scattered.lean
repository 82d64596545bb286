import Verif.Spec.Scattered
import Verif.Lemmas.Scattered
import Verif.Props.Separated
/-
C125: well separated groups are found among scattered rows.
-/
namespace Verif.Props
open Spec Race
variable {D : Type} {K : Type} [Field K] [LinearOrder K] [IsStrictOrderedRing K]

/-- `hdbscan_do_run` on well separated groups and scattered rows. -/
private theorem scattered_data (dmax smax : K) (m : Nat) (hm : 2 ≤ m) (dis : Distance K) (n : Nat) (hmn : m ≤ n) (hn : n < 2 ^ 32) (d : Nat → Nat → K) (core : Nat → K)
    (hget : ∀ i j, i < n → j < n → i ≠ j → dis.get (0 : K) i j = .ok (d i j)) (hsym : ∀ i j, d i j = d j i)
    (hcore : ∀ i, i < n → dis.coreDistances[i]? = some (some (core i))) (hmax : ∀ i j, i < n → j < n → i ≠ j → mutualReach d core i j < dmax)
    (N : Nat) (grp : Nat → Option Nat) (ε δ Δ : K) (hw : Scattered n m N d grp ε δ Δ) (hc : ∀ i, i < n → grp i ≠ none → ε ≤ core i ∧ core i ≤ δ) (hco : ∀ i, i < n → grp i = none → Δ ≤ core i) (sch : Run.Schedule) (hsch : sch.Complete) :
    ∃ out : Run.Out K K, Run.doRun (exact K dmax) smax sch m dis n = .ok out ∧ LabelsTell n grp out.labels := by
  obtain ⟨g, g', e1, e2, e3, hin, hconn, hwt⟩ := Run.sorted_mst (exact K dmax).zeroW (exact K dmax).dmax dis n (by omega) d core hget hsym hcore hmax
  have hmeet := @sorted_mst_meets K _ (exact K dmax).zeroW (exact K dmax).dmax dis n (by omega) d core hget hsym hcore hmax g g' e1 e2
  subst e3
  obtain ⟨i1, j1, hi1, hj1, hgi, hgj, hij1⟩ := hw.two
  have hδ : 0 < δ := lt_of_lt_of_le hw.pos (le_trans (hc i1 hi1 hgi).1 (hc i1 hi1 hgi).2)
  have hεδ : ε ≤ δ := le_trans (hc i1 hi1 hgi).1 (hc i1 hi1 hgi).2
  have hΔ : δ < Δ := hw.gap
  have hΔ0 : 0 < Δ := lt_trans hδ hΔ
  -- connected at δ exactly within groups
  have within : ∀ w a b, w < Δ → Reachable g'.numVertices (mutualReach d core) w a b → a = b ∨ (grp a ≠ none ∧ grp a = grp b) := by
    intro w a b hwΔ hab
    induction hab with
    | rel x y hxy =>
      right
      have h2 : d x y ≤ w := le_trans (le_trans (le_max_left _ _) (le_max_left _ _)) hxy.2.2.2
      have h3 : ¬ (grp x = none ∨ grp x ≠ grp y) := fun hne => absurd (le_trans (hw.far x y hxy.1 hxy.2.1 hxy.2.2.1 hne) h2) (not_le.2 hwΔ)
      rw [not_or, not_not] at h3
      exact h3
    | refl => exact .inl rfl
    | symm _ _ _ ih =>
      rcases ih with rfl | ⟨h1, h2⟩
      · exact .inl rfl
      · exact .inr ⟨h2 ▸ h1, h2.symm⟩
    | trans _ _ _ _ _ i1 i2 =>
      rcases i1 with rfl | ⟨h1, h2⟩
      · exact i2
      · rcases i2 with rfl | ⟨-, h4⟩
        · exact .inr ⟨h1, h2⟩
        · exact .inr ⟨h1, h2.trans h4⟩
  have join : ∀ a b, Reachable g'.numVertices d δ a b → Reachable g'.numVertices (mutualReach d core) δ a b := by
    intro a b hab
    refine Prim.eqv_mono ?_ hab
    rintro x y ⟨h1, h2, h3, h4⟩
    have h5 : ¬ (grp x = none ∨ grp x ≠ grp y) := fun hne => absurd (le_trans (hw.far x y h1 h2 h3 hne) h4) (not_le.2 hΔ)
    rw [not_or, not_not] at h5
    exact ⟨h1, h2, h3, max_le (max_le h4 (hc x h1 h5.1).2) (hc y h2 (h5.2 ▸ h5.1)).2⟩
  have hgrp : ∀ a b, a < g'.numVertices → b < g'.numVertices → grp a ≠ none → (Reachable g'.numVertices (mutualReach d core) δ a b ↔ grp a = grp b) := by
    intro a b ha hb hga
    refine ⟨fun hab => ?_, fun he => join a b (hw.link a b ha hb hga he)⟩
    rcases within δ a b hΔ hab with rfl | h2
    · rfl
    · exact h2.2
  obtain ⟨f, hr, ec, hd, hs, htr⟩ := Hier.input_rep hin
  obtain ⟨res, hist, cur, noise, last, e, h⟩ := Hier.obs (exact K dmax) hr hin.nonempty ec rfl hn (show 1 ≤ m by omega) hd hs
  have inp : Corr.Inp g'.numVertices g'.wt.length f := ⟨ec, hs⟩
  have hC : ∀ w u v, Corr.Conn g'.wt.length f w u v ↔ Reachable g'.numVertices (mutualReach d core) w u v := by
    intro w u v; rw [Corr.Conn, ← htr]; exact hconn w u v
  have hmem : ∀ i, i < g'.wt.length → ((f i).1, (f i).2.1, (f i).2.2) ∈ triples g'.va g'.vb g'.wt := by
    intro i hi; rw [htr]; exact List.mem_map.2 ⟨i, List.mem_range.2 hi, rfl⟩
  have hwmem : ∀ i, i < g'.wt.length → (f i).2.2 ∈ g'.wt := by
    intro i hi
    have := hr.wt
    rw [this]
    exact List.mem_map.2 ⟨i, List.mem_range.2 hi, rfl⟩
  have hcmin : ∀ i, i < g'.numVertices → ε ≤ core i := by
    intro i hi
    by_cases hg : grp i = none
    · exact le_trans hεδ (le_trans (le_of_lt hΔ) (hco i hi hg))
    · exact (hc i hi hg).1
  have hmin : ∀ w ∈ g'.wt, ε ≤ w := by
    intro w hw'
    rcases (hwt w).1 hw' with ⟨i, hi, rfl⟩ | ⟨i, j, hi, hj, -, rfl, -⟩
    · exact hcmin i hi
    · exact le_trans (hcmin j hj) (le_max_right _ _)
  have hdich : ∀ i, i < g'.wt.length → ((f i).2.2 ≤ δ ∧ grp (f i).1 ≠ none) ∨ Δ ≤ (f i).2.2 := by
    intro i hi
    have hl := ec.lt i hi
    rcases hmeet (hmem i hi) with ⟨-, h2⟩ | ⟨h1, h2, h3⟩
    · by_cases hg : grp (f i).1 = none
      · right; rw [h2]; exact hco _ hl.1 hg
      · left; rw [h2]; exact ⟨(hc _ hl.1 hg).2, hg⟩
    · by_cases hg : grp (f i).1 ≠ none ∧ grp (f i).1 = grp (f i).2.1
      · left
        refine ⟨?_, hg.1⟩
        by_contra hlt
        exact h3 δ (not_le.1 hlt) ((hgrp _ _ hl.1 hl.2 hg.1).2 hg.2)
      · right
        by_contra hlt
        rcases within _ _ _ (not_le.1 hlt) h2 with h4 | h4
        · exact h1 h4
        · exact hg h4
  -- the largest weight up to δ
  obtain ⟨i0, hi0, hi0w, hi0m⟩ : ∃ i0, i0 < g'.wt.length ∧ (f i0).2.2 ≤ δ ∧ ∀ i, i < g'.wt.length → (f i).2.2 ≤ δ → (f i).2.2 ≤ (f i0).2.2 := by
    have hne : ((Finset.range g'.wt.length).filter (fun i => (f i).2.2 ≤ δ)).Nonempty := by
      have h0 : core i1 ∈ g'.wt := (hwt _).2 (.inl ⟨i1, hi1, rfl⟩)
      rw [hr.wt] at h0
      obtain ⟨i, hi, he⟩ := List.mem_map.1 h0
      exact ⟨i, Finset.mem_filter.2 ⟨Finset.mem_range.2 (List.mem_range.1 hi), by rw [he]; exact (hc i1 hi1 hgi).2⟩⟩
    obtain ⟨i0, h1, h2⟩ := Finset.exists_max_image _ (fun i => (f i).2.2) hne
    rw [Finset.mem_filter, Finset.mem_range] at h1
    exact ⟨i0, h1.1, h1.2, fun i hi hle => h2 i (Finset.mem_filter.2 ⟨Finset.mem_range.2 hi, hle⟩)⟩
  have hsame : ∀ u v, Corr.Conn g'.wt.length f (f i0).2.2 u v ↔ Reachable g'.numVertices (mutualReach d core) δ u v := by
    intro u v
    rw [← hC]
    constructor
    · refine Prim.eqv_mono ?_
      rintro x y ⟨w, h1, h2⟩
      exact ⟨w, h1, le_trans h2 hi0w⟩
    · refine Prim.eqv_mono ?_
      rintro x y ⟨w, h1, h2⟩
      refine ⟨w, h1, ?_⟩
      obtain ⟨i, hi, he⟩ := List.mem_map.1 h1
      have := hi0m i (List.mem_range.1 hi)
      rw [he] at this
      exact this h2
  have hbig : ∀ u, u < g'.numVertices → (Corr.Big g'.wt.length f (f i0).2.2 m u ↔ grp u ≠ none) := by
    intro u hu
    constructor
    · rintro ⟨l, l1, l2, l3⟩ hg
      have hall : ∀ v ∈ l, v = u := by
        intro v hv
        rcases within δ u v hΔ ((hsame u v).1 (l3 v hv)) with h1 | h1
        · exact h1.symm
        · exact absurd hg h1.1
      have hsub : l ⊆ [u] := fun v hv => List.mem_singleton.2 (hall v hv)
      have := (l1.subperm hsub).length_le
      simp only [List.length_singleton] at this
      omega
    · intro hg
      obtain ⟨l, l1, l2, l3⟩ := hw.dense u hu hg
      refine ⟨l, l1, l2, fun v hv => (hsame u v).2 ?_⟩
      by_cases huv : u = v
      · subst huv; exact .refl _
      · exact join u v (.rel _ _ ⟨hu, (l3 v hv).1, huv, (l3 v hv).2⟩)
  have hg0 : grp (f i0).1 ≠ none := by
    rcases hdich i0 hi0 with h1 | h1
    · exact h1.2
    · exact absurd (le_trans h1 hi0w) (not_le.2 hΔ)
  have hline := (Corr.line_iff h inp hm hmn (f i0).2.2).2 ⟨(f i0).1, (ec.lt i0 hi0).1, (hbig _ (ec.lt i0 hi0).1).2 hg0, i0, hi0, rfl, .refl _⟩
  obtain ⟨⟨w0, gk⟩, hx, hw0⟩ := List.mem_map.1 hline
  obtain ⟨k, hk⟩ := List.mem_iff_getElem?.1 hx
  simp only at hw0
  subst hw0
  obtain ⟨k', hk'⟩ := h.line _ hx
  have hlab : ∀ p, Hier.lab hist cur k p = gk p := fun p => by rw [Hier.lab_get hk]
  have hne : ∀ p, p < g'.numVertices → (Hier.lab hist cur k p ≠ 0 ↔ grp p ≠ none) := by
    intro p hp
    rw [hlab, ← hbig p hp]
    exact inp.nonzero hm hmn hk' hp
  have hlg : ∀ p q, p < g'.numVertices → q < g'.numVertices → grp p ≠ none → grp q ≠ none → (Hier.lab hist cur k p = Hier.lab hist cur k q ↔ grp p = grp q) := by
    intro p q hp hq hgp hgq
    have h1 := (hne p hp).2 hgp
    have h2 := (hne q hq).2 hgq
    rw [hlab] at h1 h2
    rw [hlab, hlab, hk'.conn p q hp hq h1 h2, Hier.rk_iff hk'.le hk'.wt, ← hgrp p q hp hq hgp]
    exact hsame p q
  have two : ∃ p q, p < g'.numVertices ∧ q < g'.numVertices ∧ Hier.lab hist cur k p ≠ 0 ∧ Hier.lab hist cur k q ≠ 0 ∧ Hier.lab hist cur k p ≠ Hier.lab hist cur k q :=
    ⟨i1, j1, hi1, hj1, (hne i1 hi1).2 hgi, (hne j1 hj1).2 hgj, fun he => hij1 ((hlg i1 j1 hi1 hj1 hgi hgj).1 he)⟩
  have size : ∀ p, p < g'.numVertices → Hier.lab hist cur k p ≠ 0 → m ≤ ((Finset.range g'.numVertices).filter (fun q => Hier.lab hist cur k q = Hier.lab hist cur k p)).card := by
    intro p hp hp0
    have hg := (hne p hp).1 hp0
    obtain ⟨l, l1, l2, l3⟩ := hw.dense p hp hg
    rw [← List.toFinset_card_of_nodup l1] at l2
    refine le_trans l2 (Finset.card_le_card fun v hv => ?_)
    have hv' := l3 v (List.mem_toFinset.1 hv)
    rw [Finset.mem_filter, Finset.mem_range]
    refine ⟨hv'.1, ?_⟩
    by_cases hpv : p = v
    · rw [hpv]
    · have h5 : ¬ (grp p = none ∨ grp p ≠ grp v) := fun hx => absurd (le_trans (hw.far p v hp hv'.1 hpv hx) hv'.2) (not_le.2 hΔ)
      rw [not_or, not_not] at h5
      exact (hlg v p hv'.1 hp (h5.2 ▸ h5.1) hg).2 h5.2.symm
  have hN : ((Finset.range g'.numVertices).filter (fun q => Hier.lab hist cur k q = 0)).card ≤ N := by
    rw [← Finset.length_toList]
    refine hw.few _ (Finset.nodup_toList _) fun i hi => ?_
    rw [Finset.mem_toList, Finset.mem_filter, Finset.mem_range] at hi
    refine ⟨hi.1, ?_⟩
    by_contra hg
    exact (hne i hi.1).2 hg hi.2
  have hat : ∀ (s : Nat) (w : K) (g0 : Nat → Nat), hist[s]? = some (w, g0) → ∃ i, i < g'.wt.length ∧ (f i).2.2 = w := by
    intro s w g0 hs'
    obtain ⟨k2, hk2⟩ := h.line _ (List.mem_of_getElem? hs')
    exact hk2.at'
  have high : ∀ (s : Nat) (w : K) (g0 : Nat → Nat), hist[s]? = some (w, g0) → s < k → Δ ≤ w := by
    intro s w g0 hs' hlt
    have h1 := h.weight_lt hs' hk hlt
    obtain ⟨i, hi, rfl⟩ := hat s w g0 hs'
    rcases hdich i hi with h2 | h2
    · exact absurd (hi0m i hi h2.1) (not_le.2 h1)
    · exact h2
  have low : ∀ (s : Nat) (w : K) (g0 : Nat → Nat), hist[s]? = some (w, g0) → k ≤ s → ε ≤ w ∧ w ≤ δ := by
    intro s w g0 hs' hle
    refine ⟨?_, ?_⟩
    · obtain ⟨i, hi, rfl⟩ := hat s w g0 hs'
      exact hmin _ (hwmem i hi)
    · rcases Nat.lt_or_eq_of_le hle with hlt | heq
      · exact le_trans (le_of_lt (h.weight_lt hk hs' hlt)) hi0w
      · subst heq
        rw [hk] at hs'
        cases hs'
        exact hi0w
  have hst : Hier.StabSum res := by
    obtain ⟨res', k1, k2⟩ := C31_stability dmax g' m (by omega) hn hin (fun w hw' => lt_of_lt_of_le hw.pos (hmin w hw'))
    rw [e] at k1; cases k1
    exact k2
  have g1 : (N : K) * (1 / Δ) < m * ((1 / δ - 1 / Δ) - 1 / Δ) := by
    have e1 : (N : K) * (1 / Δ) = N / Δ := by ring
    have e2 : (1 / δ - 1 / Δ) - 1 / Δ = 1 / δ - 2 / Δ := by ring
    rw [e1, e2]
    exact hw.light
  have g2 : (N : K) * (1 / Δ) < m * ((1 / δ - 1 / Δ) - (1 / ε - 1 / δ)) := by
    have e1 : (N : K) * (1 / Δ) = N / Δ := by ring
    have e2 : (1 / δ - 1 / Δ) - (1 / ε - 1 / δ) = 2 / δ - 1 / Δ - 1 / ε := by ring
    rw [e1, e2]
    exact hw.even
  -- the selection
  obtain ⟨s, V, hall, hx', hsel, labels, hlen, hprom, hiff⟩ := Sel.labels_rep h.toBase smax
  obtain ⟨tree, hfresh, hncs⟩ := Sel.obs_tree h.toBase
  obtain ⟨s', root, p1, p2, p3, -, p5⟩ := C34_optimal (exact K dmax) (fun _ _ => rfl) rfl smax (List.range res.clusters.length) res.clusters tree hfresh hncs (.refl _)
  have es : s' = s := by rw [hall _ (.refl _)] at p1; exact (Outcome.ok.inj p1).symm
  subst es
  have er : root = V 1 := by
    have := (Sel.labels_spec h.toBase hx' hsel hlen hiff).1
    rw [p2] at this
    exact Option.some.inj (Option.some.inj this)
  subst er
  have hselected := h.mixed_selected h.spl hst two hw.pos hδ hΔ high low (by convert size) (by convert hN) g1 g2 p3 (fun T hT => (p5 T hT).1)
  have hlabel : ∀ p, p < g'.numVertices → Hier.lab hist cur k p ≠ 0 → labels[p]? = some (Hier.lab hist cur k p) := by
    intro p hp hp0
    refine (hiff p _ hp0).2 ⟨hselected p hp hp0, hp, ?_⟩
    obtain ⟨q, c, hcl, hpar⟩ := p3.notRoot _ (hselected p hp hp0)
    rw [Sel.kOf_eq hcl]
    have hl1 : Hier.lab hist cur k p ≠ 1 := fun hl => by rw [(tree.root _ c hcl).2 hl] at hpar; cases hpar
    obtain ⟨_, s1, _, _, -, -, -, -, -, b6, -, -, -, ⟨p1, b9, b10⟩, b11⟩ := h.birth hl1 hcl
    rw [b6]
    refine h.bk.back hp ?_ hp0 ⟨p1, b9, b10⟩ rfl
    by_contra hlt
    exact b11 k (by omega) p hp rfl
  refine ⟨{ clusters := s'.clusters, hierarchy := res.hierarchy, noise := res.noise, last := res.last, infinite := s'.infinite, labels := labels }, ?_, hlen, ?_⟩
  · simp only [Run.doRun, e1, e2, Outcome.ok_bind, Run.fromTree, e, hall _ (hsch.leaf _), hprom sch.group sch.steps hsch.group hsch.steps, Outcome.pure_eq]
  · intro p q lp lq hp hq hgp hgq
    simp only at hp hq
    have hpn : p < g'.numVertices := by rw [← hlen]; exact (List.getElem?_eq_some_iff.1 hp).1
    have hqn : q < g'.numVertices := by rw [← hlen]; exact (List.getElem?_eq_some_iff.1 hq).1
    rw [hlabel p hpn ((hne p hpn).2 hgp)] at hp
    rw [hlabel q hqn ((hne q hqn).2 hgq)] at hq
    cases hp
    cases hq
    exact ⟨(hne p hpn).2 hgp, hlg p q hpn hqn hgp hgq⟩


omit [IsStrictOrderedRing K] in
/-- Core distances of the rows of groups. -/
private theorem core_in {n m N : Nat} {d : Nat → Nat → K} {grp : Nat → Option Nat} {ε δ Δ : K} (hw : Scattered n m N d grp ε δ Δ) {i : Nat} (hi : i < n) (hg : grp i ≠ none) {x : K}
    (hx : IsKth ((List.range n).map (d i)) m x) : ε ≤ x ∧ x ≤ δ := by
  obtain ⟨h1, h2⟩ := hx
  rw [List.countP_map, List.countP_eq_length_filter] at h1 h2
  constructor
  · by_contra hlt
    rw [not_le] at hlt
    refine hw.sparse i hi hg ⟨_, List.nodup_range.filter _, h2, fun v hv => ?_⟩
    rw [List.mem_filter, List.mem_range] at hv
    simp only [Function.comp_apply, decide_eq_true_eq] at hv
    exact ⟨hv.1, lt_of_le_of_lt hv.2 hlt⟩
  · by_contra hlt
    rw [not_le] at hlt
    obtain ⟨l, l1, l2, l3⟩ := hw.dense i hi hg
    have hsub : l ⊆ (List.range n).filter ((fun t => decide (t < x)) ∘ d i) := by
      intro v hv
      rw [List.mem_filter, List.mem_range]
      simp only [Function.comp_apply, decide_eq_true_eq]
      exact ⟨(l3 v hv).1, lt_of_le_of_lt (l3 v hv).2 hlt⟩
    have := (l1.subperm hsub).length_le
    omega

omit [IsStrictOrderedRing K] in
/-- Core distances of scattered rows. -/
private theorem core_out {n m N : Nat} (hm : 2 ≤ m) {d : Nat → Nat → K} {grp : Nat → Option Nat} {ε δ Δ : K} (hw : Scattered n m N d grp ε δ Δ) {i : Nat} (hi : i < n) (hg : grp i = none) {x : K}
    (hx : IsKth ((List.range n).map (d i)) m x) : Δ ≤ x := by
  obtain ⟨-, h2⟩ := hx
  rw [List.countP_map, List.countP_eq_length_filter] at h2
  by_contra hlt
  rw [not_le] at hlt
  have hsub : (List.range n).filter ((fun t => decide (t ≤ x)) ∘ d i) ⊆ [i] := by
    intro v hv
    rw [List.mem_filter, List.mem_range] at hv
    simp only [Function.comp_apply, decide_eq_true_eq] at hv
    rw [List.mem_singleton]
    by_contra hvi
    exact absurd (le_trans (hw.far i v hi hv.1 (fun he => hvi he.symm) (.inl hg)) hv.2) (not_le.2 hlt)
  have := ((List.nodup_range.filter _).subperm hsub).length_le
  simp only [List.length_singleton] at this
  omega

/-- **C125**, but for the data race of C37 and for core distances that are wrong because of ties (C19). In exact arithmetic, on every supported data set and for every `2 ≤ m ≤ rows`: if the rows form
    well separated groups but for scattered rows that are few or far, then every row of a group gets a label other than 0, and two such rows get the same label exactly when they are in the same group.
    Missing: threads that lose the offset of a cluster (`C125_threads`, `C125_race_violated`), and ties that give wrong core distances (`C125_ties_violated`). -/
theorem C125_scattered_partial {T : Type} [LinearOrder T] (env : Api.Env D K K T) (dmax : K) (har : env.ar = exact K dmax) (hq : SortsAscending env.qsort) (data : List D) (rows cols : Nat) (f : Nat → Nat → K)
    (h : Supported env data rows cols f) (h5 : 5 ≤ rows) (m : Nat) (hm : 2 ≤ m) (hmr : m ≤ rows) :
    ∃ obj : Api.Obj K K T, (∀ par, Complete rows rows par → Api.fresh env par m data rows cols true = .ok obj) ∧
      ∀ (N : Nat) (grp : Nat → Option Nat) (ε δ Δ : K), Scattered rows m N (distOf env.dops f) grp ε δ Δ →
        (Untied rows m (distOf env.dops f) ∨ ∀ i, i < rows → ∃ c, obj.dis.coreDistances[i]? = some (some c) ∧ (grp i ≠ none → ε ≤ c ∧ c ≤ δ) ∧ (grp i = none → Δ ≤ c)) →
        LabelsTell rows grp obj.results.labels := by
  have hfew := h.few
  obtain ⟨obj, core, g, res0, hf, r1, r2, hget, hcore, hmax, -, -, -, -, -, hfull⟩ := stages hq h h5 hm hmr
  refine ⟨obj, hf, fun N grp ε δ Δ hw ht => ?_⟩
  have hc : ∀ i, i < rows → (grp i ≠ none → ε ≤ core i ∧ core i ≤ δ) ∧ (grp i = none → Δ ≤ core i) := by
    intro i hi
    rcases ht with ht | ht
    · obtain ⟨o2, core2, k1, k2, -⟩ := run_kth env hq data rows cols f h h5 m hm hmr ht
      have e : o2 = obj := fresh_same k1 hf
      subst e
      have := (k2 i hi).1
      rw [(hcore i hi).1] at this
      rw [Option.some.inj (Option.some.inj this)]
      exact ⟨fun hg => core_in hw hi hg (k2 i hi).2, fun hg => core_out hm hw hi hg (k2 i hi).2⟩
    · obtain ⟨c, c1, c2⟩ := ht i hi
      rw [(hcore i hi).1] at c1
      rw [Option.some.inj (Option.some.inj c1)]
      exact c2
  have hz : env.dops.zero = 0 := by rw [h.zero, har]; rfl
  obtain ⟨out, e1, e2⟩ := scattered_data dmax env.smax m hm obj.dis rows hmr (by omega) (distOf env.dops f) core (fun i j hi hj _ => by rw [← hz]; exact hget i j hi hj)
    (fun i j => distOf_symm env.dops f i j) (fun i hi => (hcore i hi).1) (fun i j hi hj hij => by have := hmax i j hi hj hij; rw [har] at this; exact this) N grp ε δ Δ hw
    (fun i hi => (hc i hi).1) (fun i hi => (hc i hi).2) seqSchedule seqSchedule_complete
  have e3 := (full_hierarchy (hfull seqSchedule (List.range rows) seqSchedule_complete (.refl _))).1
  rw [har, e1] at e3
  have e4 := Outcome.ok.inj e3
  subst e4
  exact e2

/-- C125 with any threads: the rows of a group have the same label, and different groups have different labels, unless they are 0. -/
theorem C125_threads {T : Type} [LinearOrder T] (env : Api.Env D K K T) (dmax : K) (har : env.ar = exact K dmax) (hq : SortsAscending env.qsort) (data : List D) (rows cols : Nat) (f : Nat → Nat → K)
    (h : Supported env data rows cols f) (h5 : 5 ≤ rows) (m : Nat) (hm : 2 ≤ m) (hmr : m ≤ rows) (N : Nat) (grp : Nat → Option Nat) (ε δ Δ : K)
    (hw : Scattered rows m N (distOf env.dops f) grp ε δ Δ) (ht : Untied rows m (distOf env.dops f)) (th : Threads) (hth : Interleaves th) :
    ∃ obj : Api.Obj K K T, (∀ par, Complete rows rows par → Race.fresh th env par m data rows cols true = .ok obj) ∧ obj.results.labels.length = rows ∧
      ∀ p q lp lq, obj.results.labels[p]? = some lp → obj.results.labels[q]? = some lq → grp p ≠ none → grp q ≠ none → (grp p = grp q → lp = lq) ∧ (lp = lq → lp ≠ 0 → grp p = grp q) := by
  obtain ⟨o1, a1, a2⟩ := C125_scattered_partial env dmax har hq data rows cols f h h5 m hm hmr
  obtain ⟨o2, b1, b2, -⟩ := C63_threads_partial env hq data rows cols f h h5 m hm hmr
  have e : o2 = o1 := fresh_same b1 a1
  subst e
  obtain ⟨obj, lost, -, s2, s3⟩ := b2 th hth
  obtain ⟨c1, c2⟩ := a2 N grp ε δ Δ hw (.inl ht)
  refine ⟨obj, s3, by rw [s2.labels, List.length_map, c1], fun p q lp lq hp hq hgp hgq => ?_⟩
  rw [s2.labels, List.getElem?_map, Option.map_eq_some_iff] at hp hq
  obtain ⟨a, ha, rfl⟩ := hp
  obtain ⟨b, hb, rfl⟩ := hq
  obtain ⟨k1, k2⟩ := c2 p q a b ha hb hgp hgq
  refine ⟨fun hg => by rw [k2.2 hg], fun he hne => ?_⟩
  by_cases hla : lost a
  · rw [if_pos hla] at hne; exact absurd rfl hne
  · rw [if_neg hla] at he hne
    by_cases hlb : lost b
    · rw [if_pos hlb] at he; exact absurd he hne
    · rw [if_neg hlb] at he; exact k2.1 he

/-- The groups of C124 are those without scattered rows. -/
theorem C125_none {n m : Nat} (hm : 1 ≤ m) {d : Nat → Nat → K} {grp : Nat → Nat} {ε δ Δ : K} (hδ : 0 < δ) (hw : WellSeparated n m d grp ε δ Δ) :
    Scattered n m 0 d (fun i => some (grp i)) ε δ Δ := by
  have hΔ : 0 < Δ := by have := hw.gap; linarith
  have hm0 : (0 : K) < m := Nat.cast_pos.2 hm
  refine ⟨hw.pos, by have := hw.gap; linarith, fun l _ hl => ?_, ?_, ?_, ?_, fun i j hi hj _ he => hw.link i j hi hj (Option.some.inj he), fun i j hi hj _ he => ?_, fun i hi _ => hw.dense i hi, fun i hi _ => hw.sparse i hi⟩
  · cases l with
    | nil => exact le_refl _
    | cons a l => exact absurd (hl a (List.mem_cons_self ..)).2 (by simp)
  · rw [Nat.cast_zero, zero_div]
    refine mul_pos hm0 ?_
    rw [sub_pos, div_lt_div_iff₀ hΔ hδ]
    have := hw.gap
    linarith
  · rw [Nat.cast_zero, zero_div]
    refine mul_pos hm0 ?_
    have := hw.even
    linarith
  · obtain ⟨i, j, hi, hj, hij⟩ := hw.two
    exact ⟨i, j, hi, hj, by simp, by simp, fun he => hij (Option.some.inj he)⟩
  · rcases he with he | he
    · cases he
    · exact hw.far i j hi hj (fun hx => he (by rw [hx]))

private theorem atLeast_of {n m : Nat} {P : Nat → Prop} [DecidablePred P] (h : m ≤ (List.range n).countP (fun j => decide (P j))) : AtLeast m (fun j => j < n ∧ P j) := by
  rw [List.countP_eq_length_filter] at h
  refine ⟨_, List.nodup_range.filter _, h, fun v hv => ?_⟩
  rw [List.mem_filter, List.mem_range, decide_eq_true_eq] at hv
  exact hv

private theorem not_atLeast_of {n m : Nat} {P : Nat → Prop} [DecidablePred P] (h : (List.range n).countP (fun j => decide (P j)) < m) : ¬ AtLeast m (fun j => j < n ∧ P j) := by
  rintro ⟨l, l1, l2, l3⟩
  rw [List.countP_eq_length_filter] at h
  have hsub : l ⊆ (List.range n).filter (fun j => decide (P j)) := by
    intro v hv
    rw [List.mem_filter, List.mem_range, decide_eq_true_eq]
    exact l3 v hv
  have := (l1.subperm hsub).length_le
  omega

/-- Two groups of three points on a line, whose rows alternate, and two points far from them and from each other. -/
def scatterPts : List Rat := [0, 10, 1, 11, 2, 12, 30, 45]

/-- Their groups. -/
def scatterGrp (i : Nat) : Option Nat := if i < 6 then some (i % 2) else none

theorem scatterPts_supported : Supported lineEnv scatterPts 8 1 (lineSq scatterPts) where
  few := by omega
  zero := rfl
  zero_lt := by decide
  sum i j hij hj := sqSum_iff.1 <| (by decide +kernel : ∀ j, j < 8 → ∀ i, i < j → Distance.sumFrom lineEnv.dops scatterPts 1 i j 1 0 lineEnv.dops.zero = .ok (lineSq scatterPts i j)) j hj i hij
  lt i j hij hj := (by decide +kernel : ∀ j, j < 8 → ∀ i, i < j → lineEnv.dops.sqrt (lineSq scatterPts i j) < lineEnv.ar.dmax) j hj i hij

theorem scatterPts_scattered : Scattered 8 2 2 (distOf lineEnv.dops (lineSq scatterPts)) scatterGrp 1 1 8 where
  pos := by decide +kernel
  gap := by decide +kernel
  few l h1 h2 := by
    have hsub : l ⊆ [6, 7] := by
      intro i hi
      have h3 := h2 i hi
      unfold scatterGrp at h3
      by_cases h6 : i < 6
      · rw [if_pos h6] at h3; exact absurd h3.2 (by simp)
      · simp only [List.mem_cons, List.not_mem_nil, or_false]
        omega
    exact (h1.subperm hsub).length_le
  light := by decide +kernel
  even := by decide +kernel
  two := ⟨0, 1, by omega, by omega, by decide, by decide, by decide⟩
  link := by
    have step : ∀ i j, i < 8 → j < 8 → i ≠ j → distOf lineEnv.dops (lineSq scatterPts) i j ≤ 1 → Reachable 8 (distOf lineEnv.dops (lineSq scatterPts)) 1 i j := fun i j a b c e => .rel _ _ ⟨a, b, c, e⟩
    have s1 := step 0 2 (by omega) (by omega) (by omega) (by decide +kernel)
    have s2 := step 2 4 (by omega) (by omega) (by omega) (by decide +kernel)
    have s3 := step 1 3 (by omega) (by omega) (by omega) (by decide +kernel)
    have s4 := step 3 5 (by omega) (by omega) (by omega) (by decide +kernel)
    have base : ∀ i, i < 6 → Reachable 8 (distOf lineEnv.dops (lineSq scatterPts)) 1 (i % 2) i := by
      intro i hi
      match i, hi with
      | 0, _ => exact .refl _
      | 1, _ => exact .refl _
      | 2, _ => exact s1
      | 3, _ => exact s3
      | 4, _ => exact .trans _ _ _ s1 s2
      | 5, _ => exact .trans _ _ _ s3 s4
    intro i j _ _ hg he
    unfold scatterGrp at hg he
    by_cases hi : i < 6
    · by_cases hj : j < 6
      · rw [if_pos hi, if_pos hj] at he
        have h1 := base i hi
        rw [Option.some.inj he] at h1
        exact .trans _ _ _ (.symm _ _ h1) (base j hj)
      · rw [if_pos hi, if_neg hj] at he
        cases he
    · rw [if_neg hi] at hg
      exact absurd rfl hg
  far i j hi hj := (by decide +kernel : ∀ i, i < 8 → ∀ j, j < 8 → i ≠ j → scatterGrp i = none ∨ scatterGrp i ≠ scatterGrp j → (8 : Rat) ≤ distOf lineEnv.dops (lineSq scatterPts) i j) i hi j hj
  dense i hi hg := atLeast_of ((by decide +kernel : ∀ i, i < 8 → scatterGrp i ≠ none → 2 ≤ (List.range 8).countP (fun j => decide (distOf lineEnv.dops (lineSq scatterPts) i j ≤ 1))) i hi hg)
  sparse i hi hg := not_atLeast_of ((by decide +kernel : ∀ i, i < 8 → scatterGrp i ≠ none → (List.range 8).countP (fun j => decide (distOf lineEnv.dops (lineSq scatterPts) i j < 1)) < 2) i hi hg)

/-- Cases of C125. The labels are 5, 4, 5, 4, 5, 4, 3, 3: the scattered rows have a label here, for two of them suffice for a cluster. -/
example : ∃ obj : Api.Obj Rat Rat Rat, (∀ par, Complete 8 8 par → Api.fresh lineEnv par 2 scatterPts 8 1 true = .ok obj) ∧ LabelsTell 8 scatterGrp obj.results.labels := by
  obtain ⟨obj, h1, h2⟩ := C125_scattered_partial lineEnv 1000 lineArithQ_eq (isort_sorts _) scatterPts 8 1 (lineSq scatterPts) scatterPts_supported (by omega) 2 (by omega) (by omega)
  exact ⟨obj, h1, h2 2 _ 1 1 8 scatterPts_scattered (.inl fun _ _ => .inl (le_refl _))⟩
example := C125_threads lineEnv 1000 lineArithQ_eq (isort_sorts _) scatterPts 8 1 (lineSq scatterPts) scatterPts_supported (by omega) 2 (by omega) (by omega) 2 scatterGrp 1 1 8 scatterPts_scattered
  (fun _ _ => .inl (le_refl _)) hasty hasty_interleaves
example := C125_none (by omega) (by decide +kernel) groupPts_separated

/-- **C125 is violated** by threads that lose the offset of a cluster (C37): one of the groups is noise. -/
theorem C125_race_violated : Interleaves hasty ∧
    (Race.fresh hasty lineEnv (backPar 8 8) 2 scatterPts 8 1 true >>= fun o => .ok o.results.labels) = .ok [5, 0, 5, 0, 5, 0, 3, 3] :=
  ⟨hasty_interleaves, by decide +kernel⟩

/-- **C125 is violated** by ties, even without scattered rows (`C124_ties_violated`). -/
theorem C125_ties_violated : Scattered 8 4 0 (distOf lineEnv.dops (lineSq tiedGroupPts)) (fun i => some (i % 2)) 2 3 96 ∧
    (Api.fresh lineEnv (backPar 8 8) 4 tiedGroupPts 8 1 true >>= fun o => .ok o.results.labels) = .ok [0, 0, 0, 0, 0, 0, 0, 0] :=
  ⟨C125_none (by omega) (by decide +kernel) C124_ties_violated.1, C124_ties_violated.2⟩

end Verif.Props
