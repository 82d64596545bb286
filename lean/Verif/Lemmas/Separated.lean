import Mathlib.Algebra.Order.BigOperators.Group.Finset
import Verif.Lemmas.Timeline
import Verif.Props.Stability
import Verif.Props.Selection
/-
Helper lemmas: when the clusters present in one line are worth more, point by point, than all other clusters, they are the ones selected.
-/
namespace Verif.Hier
open Spec
variable {K : Type} [Field K] [LinearOrder K] [IsStrictOrderedRing K]

section
variable {dmax : K} {n m : Nat} {res : Result K K} {hist : List (K × (Nat → Nat))}
    {cur : Nat → Nat} {noise : Nat → Option K} {last : Nat → Option Nat}

/-- What C31 says. -/
def StabSum (res : Result K K) : Prop :=
  ∀ (l : Nat) (c : Cl K K), res.clusters[l]? = some (some c) → l ≠ 1 →
    ∃ (b : K) (members : List Nat) (leave : Nat → K), c.birth = some b ∧ members.Nodup ∧
      (∀ p, p ∈ members ↔ ∃ i, Carries res.hierarchy i p l) ∧ (∀ p ∈ members, LeavesAt res.hierarchy l p (leave p)) ∧
      c.stability = (members.map (fun p => 1 / leave p - 1 / b)).sum ∧ 0 < c.stability

/-- The contribution of point `p` to the stability of cluster `t`. -/
structure Share (n : Nat) (hist : List (K × (Nat → Nat))) (cur : Nat → Nat) (t p : Nat) (x : K) (s1 s2 : Nat) (w1 w2 : K) : Prop where
  born : ∃ g, hist[s1]? = some (w1, g)
  left : ∃ g, hist[s2]? = some (w2, g)
  lt : s1 < s2
  first : lab hist cur (s1 + 1) p = t
  final : lab hist cur s2 p = t
  none_before : ∀ s, s ≤ s1 → ∀ q, q < n → lab hist cur s q ≠ t
  none_after : ∀ s, s2 < s → lab hist cur s p ≠ t
  eq : x = 1 / w2 - 1 / w1

omit [IsStrictOrderedRing K] in
/-- The stability of a cluster as a sum over all points. -/
theorem Base.shares (h : Base (exact K dmax) n m res hist cur noise last) (hst : StabSum res) {t : Nat} (ht : t ≠ 1) (hc : ∃ c, res.clusters[t]? = some (some c)) :
    ∃ κ : Nat → K, stabilityOf 0 res.clusters t = ∑ p ∈ Finset.range n, κ p ∧
      ∀ p, p < n → ((∀ s, lab hist cur s p ≠ t) ∧ κ p = 0) ∨ ∃ s1 s2 w1 w2, Share n hist cur t p (κ p) s1 s2 w1 w2 := by
  obtain ⟨c, hc⟩ := hc
  obtain ⟨h1, h2, hi⟩ := h.bk.get hc
  obtain ⟨b, mem, leave, e1, e2, e3, e4, e5, -⟩ := hst t c hc ht
  obtain ⟨q, s, w, g, b1, b2, b3, b4, b5, -, b7, b8, -, ⟨p1, b9, b10⟩, b11⟩ := h.birth ht hc
  rw [e1] at b5
  have hbw := Option.some.inj b5
  subst hbw
  have hlt : ∀ p ∈ mem, p < n := by
    intro p hp
    obtain ⟨i, hi1, hi2, -⟩ := e4 p hp
    exact ((h.carries hi1).1 hi2).2.1
  refine ⟨fun p => if p ∈ mem then 1 / leave p - 1 / b else 0, ?_, fun p hp => ?_⟩
  · rw [stabilityOf, hc]
    simp only
    rw [e5, ← List.sum_toFinset _ e2, Finset.sum_ite, Finset.sum_const_zero, add_zero]
    apply Finset.sum_congr
    · ext p
      simp only [List.mem_toFinset, Finset.mem_filter, Finset.mem_range]
      exact ⟨fun hp => ⟨hlt p hp, hp⟩, fun hp => hp.2⟩
    · intros; rfl
  · by_cases hm : p ∈ mem
    · right
      obtain ⟨i, l1, l2, l3, l4⟩ := e4 p hm
      obtain ⟨k1, k2, k3⟩ := (h.carries l1).1 l2
      obtain ⟨g', hg'⟩ := h.weight_of l1 l3
      have hs : s < i - 1 := by
        by_contra hle
        exact b11 (i - 1) (by omega) p hp k3
      refine ⟨s, i - 1, b, leave p, ⟨g, b1⟩, ⟨g', hg'⟩, hs, ?_, k3, b11, fun s' hs' hl => ?_, by simp only [if_pos hm]⟩
      · exact h.bk.back hp (by omega) (by omega) ⟨p1, b9, b10⟩ k3
      · have := h.lt_hist hp (by rw [hl]; omega)
        exact l4 (s' + 1) (by omega) ((h.carries (by omega)).2 ⟨by omega, hp, by simpa using hl⟩)
    · left
      refine ⟨fun s' hl => hm ((e3 p).2 ?_), by simp only [if_neg hm]⟩
      have := h.lt_hist hp (by rw [hl]; omega)
      exact ⟨s' + 1, (h.carries (by omega)).2 ⟨by omega, hp, by simpa using hl⟩⟩

omit [IsStrictOrderedRing K] in
theorem Base.weight_lt (h : Base (exact K dmax) n m res hist cur noise last) {s t : Nat} {w w' : K} {g g' : Nat → Nat} (hs : hist[s]? = some (w, g)) (ht : hist[t]? = some (w', g')) (hlt : s < t) : w' < w := by
  have h2 := h.ord
  rw [List.pairwise_iff_getElem] at h2
  have h3 := h2 s t (by simpa using lt_of_get hs) (by simpa using lt_of_get ht) hlt
  obtain ⟨a, ha⟩ := List.getElem?_eq_some_iff.1 hs
  obtain ⟨b, hb⟩ := List.getElem?_eq_some_iff.1 ht
  simp only [List.getElem_map, ha, hb] at h3
  exact h3

omit [IsStrictOrderedRing K] in
/-- The clusters of line `k` are a selection. -/
theorem Base.line_selection (h : Base (exact K dmax) n m res hist cur noise last) (spl : SplitOK res.clusters) {k : Nat} (hne : ∀ p, p < n → lab hist cur k p ≠ 0)
    (two : ∃ p q, p < n ∧ q < n ∧ lab hist cur k p ≠ lab hist cur k q) : Selection res.clusters ((List.range n).map (lab hist cur k)).dedup := by
  have tree := (Sel.obs_tree h).1
  have hin : ∀ t, t ∈ ((List.range n).map (lab hist cur k)).dedup ↔ ∃ p, p < n ∧ lab hist cur k p = t := by
    intro t; simp
  have hroot : ∀ p, p < n → lab hist cur k p ≠ 1 := by
    intro p hp h1
    obtain ⟨q, hq, hq1⟩ : ∃ q, q < n ∧ lab hist cur k q ≠ 1 := by
      obtain ⟨a, b, ha, hb, hab⟩ := two
      by_cases h2 : lab hist cur k a = 1
      · exact ⟨b, hb, fun h3 => hab (h2.trans h3.symm)⟩
      · exact ⟨a, ha, h2⟩
    have h2 := h.chain hq (Nat.zero_le k) (hne q hq)
    rw [h.bk.one q hq] at h2
    exact h.above_gone spl (above_of h2 (fun he => hq1 he.symm)) hq rfl (le_refl k) hp h1
  refine ⟨List.nodup_dedup _, fun t ht => ?_, fun s hs t ht hab => ?_, fun l hl => ?_⟩
  · obtain ⟨p, hp, rfl⟩ := (hin t).1 ht
    obtain ⟨c, hc, -⟩ := tree.cl (lab hist cur k p) (by have := hne p hp; omega) (h.bk.lt k p hp)
    cases hpar : c.parent with
    | none => exact absurd ((tree.root _ c hc).1 hpar) (hroot p hp)
    | some q => exact ⟨q, c, hc, hpar⟩
  · obtain ⟨p, hp, rfl⟩ := (hin s).1 hs
    obtain ⟨q, hq, rfl⟩ := (hin t).1 ht
    exact h.above_gone spl hab hq rfl (le_refl k) hp rfl
  · obtain ⟨⟨q, c, hc, hpar⟩, hleaf⟩ := hl
    have hl1 : l ≠ 1 := fun hl => by rw [(tree.root l c hc).2 hl] at hpar; cases hpar
    obtain ⟨h1, -, -⟩ := h.bk.get hc
    obtain ⟨_, s, _, _, -, -, -, -, -, -, -, -, -, ⟨p, hp, hpl⟩, -⟩ := h.birth hl1 hc
    refine ⟨lab hist cur k p, (hin _).2 ⟨p, hp, rfl⟩, ?_⟩
    rcases Nat.le_total (s + 1) k with hle | hle
    · have h2 := h.chain hp hle (hne p hp)
      rw [hpl] at h2
      have h3 : l = lab hist cur k p := by
        unfold AtOrAbove at h2
        rcases Relation.ReflTransGen.cases_tail h2 with h3 | ⟨x, -, h3⟩
        · exact h3
        · exact absurd h3 (hleaf x)
      rw [← h3]; exact .refl
    · have h2 := h.chain hp hle (by rw [hpl]; omega)
      rwa [hpl] at h2

/-- If the lines from `k` on have weights in `[ε, δ]`, those before weights of at least `Δ`, and there is no noise in line `k`, the clusters of line `k` are selected. -/
theorem Base.line_selected (h : Base (exact K dmax) n m res hist cur noise last) (spl : SplitOK res.clusters) (hst : StabSum res) {k : Nat}
    (hne : ∀ p, p < n → lab hist cur k p ≠ 0) (two : ∃ p q, p < n ∧ q < n ∧ lab hist cur k p ≠ lab hist cur k q) {ε δ Δ : K} (hε : 0 < ε) (hδ : 0 < δ) (hΔ : δ < Δ)
    (high : ∀ (s : Nat) (w : K) (g : Nat → Nat), hist[s]? = some (w, g) → s < k → Δ ≤ w) (low : ∀ (s : Nat) (w : K) (g : Nat → Nat), hist[s]? = some (w, g) → k ≤ s → ε ≤ w ∧ w ≤ δ)
    (g1 : 1 / Δ < 1 / δ - 1 / Δ) (g2 : 1 / ε - 1 / δ < 1 / δ - 1 / Δ)
    {E : List Nat} (hE : Selection res.clusters E) (hopt : ∀ T, Selection res.clusters T → (T.map (stabilityOf 0 res.clusters)).sum ≤ (E.map (stabilityOf 0 res.clusters)).sum) :
    ∀ p, p < n → lab hist cur k p ∈ E := by
  have tree := (Sel.obs_tree h).1
  have hT := h.line_selection spl hne two
  have hΔ0 : 0 < Δ := lt_trans hδ hΔ
  have hΔ1 : 0 < 1 / Δ := one_div_pos.2 hΔ0
  have wpos : ∀ (s : Nat) (w : K) (g : Nat → Nat), hist[s]? = some (w, g) → 0 < w := by
    intro s w g hs
    rcases Nat.lt_or_ge s k with hlt | hge
    · exact lt_of_lt_of_le hΔ0 (high s w g hs hlt)
    · exact lt_of_lt_of_le hε (low s w g hs hge).1
  -- the shares of all clusters
  have hsh : ∀ t, ∃ κ : Nat → K, (∃ q, IsChild res.clusters t q) → stabilityOf 0 res.clusters t = ∑ p ∈ Finset.range n, κ p ∧
      ∀ p, p < n → ((∀ s, lab hist cur s p ≠ t) ∧ κ p = 0) ∨ ∃ s1 s2 w1 w2, Share n hist cur t p (κ p) s1 s2 w1 w2 := by
    intro t
    by_cases ht : ∃ q, IsChild res.clusters t q
    · obtain ⟨q, c, hc, hpar⟩ := ht
      have ht1 : t ≠ 1 := fun ht => by rw [(tree.root t c hc).2 ht] at hpar; cases hpar
      obtain ⟨κ, h1⟩ := h.shares hst ht1 ⟨c, hc⟩
      exact ⟨κ, fun _ => h1⟩
    · exact ⟨fun _ => 0, fun hx => absurd hx ht⟩
  choose κ hκ using hsh
  have nonneg : ∀ t, (∃ q, IsChild res.clusters t q) → ∀ p, p < n → 0 ≤ κ t p := by
    intro t ht p hp
    rcases (hκ t ht).2 p hp with ⟨-, h0⟩ | ⟨s1, s2, w1, w2, sh⟩
    · rw [h0]
    · obtain ⟨a, ha⟩ := sh.born
      obtain ⟨b, hb⟩ := sh.left
      rw [sh.eq, sub_nonneg]
      exact one_div_le_one_div_of_le (wpos _ _ _ hb) (le_of_lt (h.weight_lt ha hb sh.lt))
  have xkid : ∀ p, p < n → ∃ q, IsChild res.clusters (lab hist cur k p) q := fun p hp => hT.notRoot _ (by simp only [List.mem_dedup, List.mem_map, List.mem_range]; exact ⟨p, hp, rfl⟩)
  have own : ∀ p, p < n → 1 / δ - 1 / Δ ≤ κ (lab hist cur k p) p := by
    intro p hp
    rcases (hκ _ (xkid p hp)).2 p hp with ⟨h0, -⟩ | ⟨s1, s2, w1, w2, sh⟩
    · exact absurd rfl (h0 k)
    · obtain ⟨a, ha⟩ := sh.born
      obtain ⟨b, hb⟩ := sh.left
      have k1 : s1 < k := by
        by_contra hle
        exact sh.none_before k (by omega) p hp rfl
      have k2 : k ≤ s2 := by
        by_contra hle
        exact sh.none_after k (by omega) rfl
      rw [sh.eq]
      have q1 : 1 / δ ≤ 1 / w2 := one_div_le_one_div_of_le (wpos _ _ _ hb) (low _ _ _ hb k2).2
      have q2 : 1 / w1 ≤ 1 / Δ := one_div_le_one_div_of_le hΔ0 (high _ _ _ ha k1)
      linarith
  have pos : 0 < 1 / δ - 1 / Δ := lt_trans hΔ1 g1
  have other : ∀ t, (∃ q, IsChild res.clusters t q) → ∀ p, p < n → t ≠ lab hist cur k p → κ t p < 1 / δ - 1 / Δ := by
    intro t ht p hp hne'
    rcases (hκ t ht).2 p hp with ⟨-, h0⟩ | ⟨s1, s2, w1, w2, sh⟩
    · rw [h0]; exact pos
    · obtain ⟨a, ha⟩ := sh.born
      obtain ⟨b, hb⟩ := sh.left
      obtain ⟨q, ht'⟩ := ht
      have ht0 : t ≠ 0 := by have := tree.up _ _ ht'; omega
      rw [sh.eq]
      rcases Nat.lt_or_ge s2 k with hlt | hge
      · have q1 : 1 / w2 ≤ 1 / Δ := one_div_le_one_div_of_le hΔ0 (high _ _ _ hb hlt)
        have q2 : 0 < 1 / w1 := one_div_pos.2 (wpos _ _ _ ha)
        linarith
      · have k1 : k ≤ s1 := by
          by_contra hlt
          have c1 := h.chain hp (show s1 + 1 ≤ k by omega) (hne p hp)
          have c2 := h.chain hp hge (by rw [sh.final]; exact ht0)
          rw [sh.first] at c1
          rw [sh.final] at c2
          have := h.above_le c1
          have := h.above_le c2
          omega
        have q1 : 1 / w2 ≤ 1 / ε := one_div_le_one_div_of_le hε (low _ _ _ hb hge).1
        have q2 : 1 / δ ≤ 1 / w1 := one_div_le_one_div_of_le (wpos _ _ _ ha) (low _ _ _ ha k1).2
        linarith
  -- no point is in two selected clusters
  have once : ∀ p, p < n → ∀ t ∈ E, ∀ t' ∈ E, (∃ s, lab hist cur s p = t) → (∃ s, lab hist cur s p = t') → t = t' := by
    intro p hp
    have key : ∀ t ∈ E, ∀ t' ∈ E, ∀ s s', s ≤ s' → lab hist cur s p = t → lab hist cur s' p = t' → t = t' := by
      intro t ht t' ht' s s' hle h1 h2
      by_contra hne'
      obtain ⟨q, hq⟩ := hE.notRoot t' ht'
      have ht0 : t' ≠ 0 := by have := tree.up _ _ hq; omega
      have c := h.chain hp hle (by rw [h2]; exact ht0)
      rw [h1, h2] at c
      exact hE.apart t ht t' ht' (above_of c hne')
    rintro t ht t' ht' ⟨s, hs⟩ ⟨s', hs'⟩
    rcases Nat.le_total s s' with hle | hle
    · exact key t ht t' ht' s s' hle hs hs'
    · exact (key t' ht' t ht s' s hle hs' hs).symm
  have total : ∀ T, Selection res.clusters T → (T.map (stabilityOf 0 res.clusters)).sum = ∑ p ∈ Finset.range n, ∑ t ∈ T.toFinset, κ t p := by
    intro T hT'
    rw [Finset.sum_comm, ← List.sum_toFinset _ hT'.nodup]
    refine Finset.sum_congr rfl fun t ht => (hκ t (hT'.notRoot t (List.mem_toFinset.1 ht))).1
  have lower : ∀ p, p < n → κ (lab hist cur k p) p ≤ ∑ t ∈ (((List.range n).map (lab hist cur k)).dedup).toFinset, κ t p := by
    intro p hp
    refine Finset.single_le_sum (f := fun t => κ t p) (fun t ht => nonneg t (hT.notRoot t (List.mem_toFinset.1 ht)) p hp) ?_
    rw [List.mem_toFinset, List.mem_dedup, List.mem_map]
    exact ⟨p, List.mem_range.2 hp, rfl⟩
  have upper : ∀ p, p < n → ∑ t ∈ E.toFinset, κ t p ≤ κ (lab hist cur k p) p ∧ (lab hist cur k p ∉ E → ∑ t ∈ E.toFinset, κ t p < κ (lab hist cur k p) p) := by
    intro p hp
    by_cases hex : ∃ t ∈ E, ∃ s, lab hist cur s p = t
    · obtain ⟨t, ht, s, hs⟩ := hex
      have hsum : ∑ t ∈ E.toFinset, κ t p = κ t p := by
        refine Finset.sum_eq_single t (fun t' ht' hne' => ?_) (fun hx => absurd (List.mem_toFinset.2 ht) hx)
        rw [List.mem_toFinset] at ht'
        rcases (hκ t' (hE.notRoot t' ht')).2 p hp with ⟨-, h0⟩ | ⟨s1, s2, w1, w2, sh⟩
        · exact h0
        · exact absurd (once p hp t' ht' t ht ⟨_, sh.final⟩ ⟨s, hs⟩) hne'
      rw [hsum]
      by_cases hx : t = lab hist cur k p
      · rw [← hx]; exact ⟨le_refl _, fun hn => absurd ht hn⟩
      · have := lt_of_lt_of_le (other t (hE.notRoot t ht) p hp hx) (own p hp)
        exact ⟨le_of_lt this, fun _ => this⟩
    · have hsum : ∑ t ∈ E.toFinset, κ t p = 0 := by
        refine Finset.sum_eq_zero fun t ht => ?_
        rw [List.mem_toFinset] at ht
        rcases (hκ t (hE.notRoot t ht)).2 p hp with ⟨-, h0⟩ | ⟨s1, s2, w1, w2, sh⟩
        · exact h0
        · exact absurd ⟨t, ht, _, sh.final⟩ hex
      rw [hsum]
      have := lt_of_lt_of_le pos (own p hp)
      exact ⟨le_of_lt this, fun _ => this⟩
  intro p hp
  by_contra hno
  have h1 := hopt _ hT
  rw [total _ hT, total _ hE] at h1
  have h2 : ∑ p ∈ Finset.range n, ∑ t ∈ E.toFinset, κ t p < ∑ p ∈ Finset.range n, κ (lab hist cur k p) p :=
    Finset.sum_lt_sum (fun q hq => (upper q (Finset.mem_range.1 hq)).1) ⟨p, Finset.mem_range.2 hp, (upper p hp).2 hno⟩
  have h3 : ∑ p ∈ Finset.range n, κ (lab hist cur k p) p ≤ ∑ p ∈ Finset.range n, ∑ t ∈ (((List.range n).map (lab hist cur k)).dedup).toFinset, κ t p :=
    Finset.sum_le_sum fun q hq => lower q (Finset.mem_range.1 hq)
  exact absurd h1 (not_le.2 (lt_of_lt_of_le h2 h3))

end
end Verif.Hier
