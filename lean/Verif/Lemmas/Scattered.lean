import Mathlib.Algebra.BigOperators.Ring.Finset
import Verif.Lemmas.Separated
/-
Helper lemmas: the same as in `Verif.Lemmas.Separated` when there is noise in the line.
-/
namespace Verif.Hier
open Spec
variable {K : Type} [Field K] [LinearOrder K] [IsStrictOrderedRing K]

section
variable {dmax : K} {n m : Nat} {res : Result K K} {hist : List (K × (Nat → Nat))}
    {cur : Nat → Nat} {noise : Nat → Option K} {last : Nat → Option Nat}

/-- The clusters of line `k`, and the leaves without any of their points. -/
def LineOrLeaf (n : Nat) (cs : List (Option (Cl K K))) (hist : List (K × (Nat → Nat))) (cur : Nat → Nat) (k t : Nat) : Prop :=
  (t ≠ 0 ∧ ∃ p, p < n ∧ lab hist cur k p = t) ∨ (Leaf cs t ∧ ∀ p, p < n → lab hist cur k p ≠ 0 → ∀ s, lab hist cur s p ≠ t)

omit [IsStrictOrderedRing K] in
open Classical in
theorem Base.mixed_selection (h : Base (exact K dmax) n m res hist cur noise last) (spl : SplitOK res.clusters) {k : Nat}
    (two : ∃ p q, p < n ∧ q < n ∧ lab hist cur k p ≠ 0 ∧ lab hist cur k q ≠ 0 ∧ lab hist cur k p ≠ lab hist cur k q) :
    Selection res.clusters ((List.range res.clusters.length).filter (fun t => decide (LineOrLeaf n res.clusters hist cur k t))) := by
  have tree := (Sel.obs_tree h).1
  have hleafcl : ∀ l, Leaf res.clusters l → ∃ c, res.clusters[l]? = some (some c) ∧ l ≠ 1 ∧ l ≠ 0 := by
    rintro l ⟨⟨q, c, hc, hpar⟩, -⟩
    refine ⟨c, hc, fun hl => ?_, fun hl => ?_⟩
    · rw [(tree.root l c hc).2 hl] at hpar
      cases hpar
    · rw [hl, tree.zero] at hc
      cases hc
  have hin : ∀ t, t ∈ (List.range res.clusters.length).filter (fun t => decide (LineOrLeaf n res.clusters hist cur k t)) ↔ LineOrLeaf n res.clusters hist cur k t := by
    intro t
    rw [List.mem_filter, List.mem_range, decide_eq_true_eq]
    refine ⟨fun hx => hx.2, fun hx => ⟨?_, hx⟩⟩
    rcases hx with ⟨-, p, hp, rfl⟩ | ⟨hl, -⟩
    · exact h.bk.lt k p hp
    · obtain ⟨c, hc, -⟩ := hleafcl t hl
      exact (List.getElem?_eq_some_iff.1 hc).1
  have hroot : ∀ p, p < n → lab hist cur k p ≠ 1 := by
    intro p hp h1
    obtain ⟨q, hq, hq0, hq1⟩ : ∃ q, q < n ∧ lab hist cur k q ≠ 0 ∧ lab hist cur k q ≠ 1 := by
      obtain ⟨a, b, ha, hb, ha0, hb0, hab⟩ := two
      by_cases h2 : lab hist cur k a = 1
      · exact ⟨b, hb, hb0, fun h3 => hab (h2.trans h3.symm)⟩
      · exact ⟨a, ha, ha0, h2⟩
    have h2 := h.chain hq (Nat.zero_le k) hq0
    rw [h.bk.one q hq] at h2
    exact h.above_gone spl (above_of h2 (fun he => hq1 he.symm)) hq rfl (le_refl k) hp h1
  refine ⟨List.nodup_range.filter _, fun t ht => ?_, fun s hs t ht hab => ?_, fun l hl => ?_⟩
  · rcases (hin t).1 ht with ⟨h0, p, hp, rfl⟩ | ⟨hl, -⟩
    · obtain ⟨c, hc, -⟩ := tree.cl (lab hist cur k p) (by omega) (h.bk.lt k p hp)
      cases hpar : c.parent with
      | none => exact absurd ((tree.root _ c hc).1 hpar) (hroot p hp)
      | some q => exact ⟨q, c, hc, hpar⟩
    · exact hl.1
  · rcases (hin s).1 hs with ⟨h0, p, hp, rfl⟩ | ⟨hl, -⟩
    · rcases (hin t).1 ht with ⟨-, q, hq, rfl⟩ | ⟨hl, hno⟩
      · exact h.above_gone spl hab hq rfl (le_refl k) hp rfl
      · obtain ⟨c, hc, hl1, hl0⟩ := hleafcl t hl
        obtain ⟨_, r, _, _, -, -, -, -, -, -, -, -, -, ⟨p', hp', hpl⟩, -⟩ := h.birth hl1 hc
        have hr : r + 1 ≤ k := by
          by_contra hlt
          have hz : lab hist cur k p' = 0 := by
            by_contra hz
            exact hno p' hp' hz _ hpl
          have := h.bk.noise_stays hp' (show k ≤ r + 1 by omega) hz
          rw [hpl] at this
          exact hl0 this
        exact h.above_gone spl hab hp' hpl hr hp rfl
    · unfold Above at hab
      obtain ⟨y, -, hy⟩ := Relation.TransGen.tail'_iff.1 hab
      exact hl.2 y hy
  · by_cases hex : ∃ p, p < n ∧ lab hist cur k p ≠ 0 ∧ ∃ s, lab hist cur s p = l
    · obtain ⟨p, hp, hp0, s, hpl⟩ := hex
      refine ⟨lab hist cur k p, (hin _).2 (.inl ⟨hp0, p, hp, rfl⟩), ?_⟩
      obtain ⟨-, -, -, hl0⟩ := hleafcl l hl
      rcases Nat.le_total s k with hle | hle
      · have h2 := h.chain hp hle hp0
        rw [hpl] at h2
        have h3 : l = lab hist cur k p := by
          unfold AtOrAbove at h2
          rcases Relation.ReflTransGen.cases_tail h2 with h3 | ⟨x, -, h3⟩
          · exact h3
          · exact absurd h3 (hl.2 x)
        rw [← h3]; exact .refl
      · have h2 := h.chain hp hle (by rw [hpl]; exact hl0)
        rwa [hpl] at h2
    · refine ⟨l, (hin l).2 (.inr ⟨hl, fun p hp hp0 s hs => hex ⟨p, hp, hp0, s, hs⟩⟩), .refl⟩

open Classical in
/-- If the lines from `k` on have weights in `[ε, δ]`, those before weights of at least `Δ`, and the noise of line `k` cannot make up for the loss of a cluster of this line, the clusters of line `k` are selected. -/
theorem Base.mixed_selected (h : Base (exact K dmax) n m res hist cur noise last) (spl : SplitOK res.clusters) (hst : StabSum res) {k : Nat}
    (two : ∃ p q, p < n ∧ q < n ∧ lab hist cur k p ≠ 0 ∧ lab hist cur k q ≠ 0 ∧ lab hist cur k p ≠ lab hist cur k q) {ε δ Δ : K} (hε : 0 < ε) (hδ : 0 < δ) (hΔ : δ < Δ)
    (high : ∀ (s : Nat) (w : K) (g : Nat → Nat), hist[s]? = some (w, g) → s < k → Δ ≤ w) (low : ∀ (s : Nat) (w : K) (g : Nat → Nat), hist[s]? = some (w, g) → k ≤ s → ε ≤ w ∧ w ≤ δ)
    (size : ∀ p, p < n → lab hist cur k p ≠ 0 → m ≤ ((Finset.range n).filter (fun q => lab hist cur k q = lab hist cur k p)).card)
    {N : Nat} (hN : ((Finset.range n).filter (fun q => lab hist cur k q = 0)).card ≤ N)
    (g1 : (N : K) * (1 / Δ) < m * ((1 / δ - 1 / Δ) - 1 / Δ)) (g2 : (N : K) * (1 / Δ) < m * ((1 / δ - 1 / Δ) - (1 / ε - 1 / δ)))
    {E : List Nat} (hE : Selection res.clusters E) (hopt : ∀ T, Selection res.clusters T → (T.map (stabilityOf 0 res.clusters)).sum ≤ (E.map (stabilityOf 0 res.clusters)).sum) :
    ∀ p, p < n → lab hist cur k p ≠ 0 → lab hist cur k p ∈ E := by
  have tree := (Sel.obs_tree h).1
  have hT := h.mixed_selection spl two
  have hΔ0 : 0 < Δ := lt_trans hδ hΔ
  have hΔ1 : 0 < 1 / Δ := one_div_pos.2 hΔ0
  have wpos : ∀ (s : Nat) (w : K) (g : Nat → Nat), hist[s]? = some (w, g) → 0 < w := by
    intro s w g hs
    rcases Nat.lt_or_ge s k with hlt | hge
    · exact lt_of_lt_of_le hΔ0 (high s w g hs hlt)
    · exact lt_of_lt_of_le hε (low s w g hs hge).1
  have hsh : ∀ t, ∃ κ : Nat → K, (∃ q, IsChild res.clusters t q) → stabilityOf 0 res.clusters t = ∑ p ∈ Finset.range n, κ p ∧
      ∀ p, p < n → ((∀ s, lab hist cur s p ≠ t) ∧ κ p = 0) ∨ ∃ s1 s2 w1 w2, Share n hist cur t p (κ p) s1 s2 w1 w2 := by
    intro t
    by_cases ht : ∃ q, IsChild res.clusters t q
    · obtain ⟨q, c, hc, hpar⟩ := ht
      have ht1 : t ≠ 1 := fun ht => by rw [(tree.root t c hc).2 ht] at hpar; cases hpar
      obtain ⟨κ, h1⟩ := h.shares hst ht1 ⟨c, hc⟩
      exact ⟨κ, fun _ => h1⟩
    · exact ⟨fun _ => 0, fun hx => absurd hx ht⟩
  choose κ hκ using hsh
  have nonneg : ∀ t, (∃ q, IsChild res.clusters t q) → ∀ p, p < n → 0 ≤ κ t p := by
    intro t ht p hp
    rcases (hκ t ht).2 p hp with ⟨-, h0⟩ | ⟨s1, s2, w1, w2, sh⟩
    · rw [h0]
    · obtain ⟨a, ha⟩ := sh.born
      obtain ⟨b, hb⟩ := sh.left
      rw [sh.eq, sub_nonneg]
      exact one_div_le_one_div_of_le (wpos _ _ _ hb) (le_of_lt (h.weight_lt ha hb sh.lt))
  have inT : ∀ p, p < n → lab hist cur k p ≠ 0 → lab hist cur k p ∈ (List.range res.clusters.length).filter (fun t => decide (LineOrLeaf n res.clusters hist cur k t)) := by
    intro p hp hp0
    rw [List.mem_filter, List.mem_range, decide_eq_true_eq]
    exact ⟨h.bk.lt k p hp, .inl ⟨hp0, p, hp, rfl⟩⟩
  have own : ∀ p, p < n → lab hist cur k p ≠ 0 → 1 / δ - 1 / Δ ≤ κ (lab hist cur k p) p := by
    intro p hp hp0
    rcases (hκ _ (hT.notRoot _ (inT p hp hp0))).2 p hp with ⟨h0, -⟩ | ⟨s1, s2, w1, w2, sh⟩
    · exact absurd rfl (h0 k)
    · obtain ⟨a, ha⟩ := sh.born
      obtain ⟨b, hb⟩ := sh.left
      have k1 : s1 < k := by
        by_contra hle
        exact sh.none_before k (by omega) p hp rfl
      have k2 : k ≤ s2 := by
        by_contra hle
        exact sh.none_after k (by omega) rfl
      rw [sh.eq]
      have q1 : 1 / δ ≤ 1 / w2 := one_div_le_one_div_of_le (wpos _ _ _ hb) (low _ _ _ hb k2).2
      have q2 : 1 / w1 ≤ 1 / Δ := one_div_le_one_div_of_le hΔ0 (high _ _ _ ha k1)
      linarith
  -- contributions to other clusters
  obtain ⟨B, hB0, hB1, hB2, hBN⟩ : ∃ B : K, 0 ≤ B ∧ 1 / Δ ≤ B ∧ 1 / ε - 1 / δ ≤ B ∧ (N : K) * (1 / Δ) < m * ((1 / δ - 1 / Δ) - B) := by
    rcases le_total (1 / Δ) (1 / ε - 1 / δ) with hle | hle
    · exact ⟨1 / ε - 1 / δ, le_trans (le_of_lt hΔ1) hle, hle, le_refl _, g2⟩
    · exact ⟨1 / Δ, le_of_lt hΔ1, le_refl _, hle, g1⟩
  have hBA : B < 1 / δ - 1 / Δ := by
    by_contra hge
    have h1 : (m : K) * ((1 / δ - 1 / Δ) - B) ≤ 0 := mul_nonpos_of_nonneg_of_nonpos (Nat.cast_nonneg _) (by linarith [not_lt.1 hge])
    have h2 : 0 ≤ (N : K) * (1 / Δ) := mul_nonneg (Nat.cast_nonneg _) (le_of_lt hΔ1)
    linarith
  have early : ∀ t, (∃ q, IsChild res.clusters t q) → ∀ p, p < n → lab hist cur k p = 0 → κ t p ≤ 1 / Δ := by
    intro t ht p hp hp0
    rcases (hκ t ht).2 p hp with ⟨-, h0⟩ | ⟨s1, s2, w1, w2, sh⟩
    · rw [h0]; exact le_of_lt hΔ1
    · obtain ⟨a, ha⟩ := sh.born
      obtain ⟨b, hb⟩ := sh.left
      obtain ⟨q, ht'⟩ := ht
      have ht0 : t ≠ 0 := by have := tree.up _ _ ht'; omega
      have hlt : s2 < k := by
        by_contra hge
        have := h.bk.noise_stays hp (show k ≤ s2 by omega) hp0
        rw [sh.final] at this
        exact ht0 this
      rw [sh.eq]
      have q1 : 1 / w2 ≤ 1 / Δ := one_div_le_one_div_of_le hΔ0 (high _ _ _ hb hlt)
      have q2 : 0 < 1 / w1 := one_div_pos.2 (wpos _ _ _ ha)
      linarith
  have other : ∀ t, (∃ q, IsChild res.clusters t q) → ∀ p, p < n → lab hist cur k p ≠ 0 → t ≠ lab hist cur k p → κ t p ≤ B := by
    intro t ht p hp hp0 hne'
    rcases (hκ t ht).2 p hp with ⟨-, h0⟩ | ⟨s1, s2, w1, w2, sh⟩
    · rw [h0]; exact hB0
    · obtain ⟨a, ha⟩ := sh.born
      obtain ⟨b, hb⟩ := sh.left
      obtain ⟨q, ht'⟩ := ht
      have ht0 : t ≠ 0 := by have := tree.up _ _ ht'; omega
      rw [sh.eq]
      rcases Nat.lt_or_ge s2 k with hlt | hge
      · have q1 : 1 / w2 ≤ 1 / Δ := one_div_le_one_div_of_le hΔ0 (high _ _ _ hb hlt)
        have q2 : 0 < 1 / w1 := one_div_pos.2 (wpos _ _ _ ha)
        linarith
      · have k1 : k ≤ s1 := by
          by_contra hlt
          have c1 := h.chain hp (show s1 + 1 ≤ k by omega) hp0
          have c2 := h.chain hp hge (by rw [sh.final]; exact ht0)
          rw [sh.first] at c1
          rw [sh.final] at c2
          have := h.above_le c1
          have := h.above_le c2
          omega
        have q1 : 1 / w2 ≤ 1 / ε := one_div_le_one_div_of_le hε (low _ _ _ hb hge).1
        have q2 : 1 / δ ≤ 1 / w1 := one_div_le_one_div_of_le (wpos _ _ _ ha) (low _ _ _ ha k1).2
        linarith
  have once : ∀ p, p < n → ∀ t ∈ E, ∀ t' ∈ E, (∃ s, lab hist cur s p = t) → (∃ s, lab hist cur s p = t') → t = t' := by
    intro p hp
    have key : ∀ t ∈ E, ∀ t' ∈ E, ∀ s s', s ≤ s' → lab hist cur s p = t → lab hist cur s' p = t' → t = t' := by
      intro t ht t' ht' s s' hle h1 h2
      by_contra hne'
      obtain ⟨q, hq⟩ := hE.notRoot t' ht'
      have ht0 : t' ≠ 0 := by have := tree.up _ _ hq; omega
      have c := h.chain hp hle (by rw [h2]; exact ht0)
      rw [h1, h2] at c
      exact hE.apart t ht t' ht' (above_of c hne')
    rintro t ht t' ht' ⟨s, hs⟩ ⟨s', hs'⟩
    rcases Nat.le_total s s' with hle | hle
    · exact key t ht t' ht' s s' hle hs hs'
    · exact (key t' ht' t ht s' s hle hs' hs).symm
  have total : ∀ T, Selection res.clusters T → (T.map (stabilityOf 0 res.clusters)).sum = ∑ p ∈ Finset.range n, ∑ t ∈ T.toFinset, κ t p := by
    intro T hT'
    rw [Finset.sum_comm, ← List.sum_toFinset _ hT'.nodup]
    refine Finset.sum_congr rfl fun t ht => (hκ t (hT'.notRoot t (List.mem_toFinset.1 ht))).1
  -- what a point contributes to the selected clusters is what it contributes to one of them, or nothing
  have single : ∀ p, p < n → (∃ t ∈ E, ∑ t ∈ E.toFinset, κ t p = κ t p) ∨ ∑ t ∈ E.toFinset, κ t p = 0 := by
    intro p hp
    by_cases hex : ∃ t ∈ E, ∃ s, lab hist cur s p = t
    · obtain ⟨t, ht, s, hs⟩ := hex
      refine .inl ⟨t, ht, Finset.sum_eq_single t (fun t' ht' hne' => ?_) (fun hx => absurd (List.mem_toFinset.2 ht) hx)⟩
      rw [List.mem_toFinset] at ht'
      rcases (hκ t' (hE.notRoot t' ht')).2 p hp with ⟨-, h0⟩ | ⟨s1, s2, w1, w2, sh⟩
      · exact h0
      · exact absurd (once p hp t' ht' t ht ⟨_, sh.final⟩ ⟨s, hs⟩) hne'
    · refine .inr (Finset.sum_eq_zero fun t ht => ?_)
      rw [List.mem_toFinset] at ht
      rcases (hκ t (hE.notRoot t ht)).2 p hp with ⟨-, h0⟩ | ⟨s1, s2, w1, w2, sh⟩
      · exact h0
      · exact absurd ⟨t, ht, _, sh.final⟩ hex
  intro p0 hp0 hz0
  by_contra hno
  have h1 := hopt _ hT
  rw [total _ hT, total _ hE, ← sub_nonneg, ← Finset.sum_sub_distrib] at h1
  have h2 : ∀ p ∈ Finset.range n, (∑ t ∈ E.toFinset, κ t p) - (∑ t ∈ ((List.range res.clusters.length).filter (fun t => decide (LineOrLeaf n res.clusters hist cur k t))).toFinset, κ t p) ≤
      (if lab hist cur k p = 0 then 1 / Δ else 0) - (if lab hist cur k p = lab hist cur k p0 then (1 / δ - 1 / Δ) - B else 0) := by
    intro p hp
    rw [Finset.mem_range] at hp
    have hTn : ∀ t ∈ ((List.range res.clusters.length).filter (fun t => decide (LineOrLeaf n res.clusters hist cur k t))).toFinset, 0 ≤ κ t p :=
      fun t ht => nonneg t (hT.notRoot t (List.mem_toFinset.1 ht)) p hp
    by_cases hp' : lab hist cur k p = 0
    · rw [if_pos hp', if_neg (fun he : lab hist cur k p = lab hist cur k p0 => hz0 (he.symm.trans hp'))]
      have a1 := Finset.sum_nonneg hTn
      have a2 : ∑ t ∈ E.toFinset, κ t p ≤ 1 / Δ := by
        rcases single p hp with ⟨t, ht, e⟩ | e
        · rw [e]; exact early t (hE.notRoot t ht) p hp hp'
        · rw [e]; exact le_of_lt hΔ1
      linarith
    · rw [if_neg hp']
      have a1 := Finset.single_le_sum (f := fun t => κ t p) hTn (List.mem_toFinset.2 (inT p hp hp'))
      have a3 := own p hp hp'
      by_cases he : lab hist cur k p = lab hist cur k p0
      · rw [if_pos he]
        have a2 : ∑ t ∈ E.toFinset, κ t p ≤ B := by
          rcases single p hp with ⟨t, ht, e⟩ | e
          · rw [e]; exact other t (hE.notRoot t ht) p hp hp' (fun hx => hno (by rw [← he, ← hx]; exact ht))
          · rw [e]; exact hB0
        linarith
      · rw [if_neg he]
        have a2 : ∑ t ∈ E.toFinset, κ t p ≤ κ (lab hist cur k p) p := by
          rcases single p hp with ⟨t, ht, e⟩ | e
          · rw [e]
            by_cases hx : t = lab hist cur k p
            · rw [hx]
            · have := other t (hE.notRoot t ht) p hp hp' hx
              linarith
          · rw [e]; linarith
        linarith
  have h3 := le_trans h1 (Finset.sum_le_sum h2)
  rw [Finset.sum_sub_distrib, ← Finset.sum_filter, ← Finset.sum_filter, Finset.sum_const, Finset.sum_const, nsmul_eq_mul, nsmul_eq_mul] at h3
  have h4 : (((Finset.range n).filter (fun q => lab hist cur k q = 0)).card : K) * (1 / Δ) ≤ (N : K) * (1 / Δ) :=
    mul_le_mul_of_nonneg_right (Nat.cast_le.2 hN) (le_of_lt hΔ1)
  have h5 : (m : K) * ((1 / δ - 1 / Δ) - B) ≤ (((Finset.range n).filter (fun q => lab hist cur k q = lab hist cur k p0)).card : K) * ((1 / δ - 1 / Δ) - B) :=
    mul_le_mul_of_nonneg_right (Nat.cast_le.2 (size p0 hp0 hz0)) (by linarith)
  linarith

end
end Verif.Hier
