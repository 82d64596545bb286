import Verif.Lemmas.Labels
/-
Helper lemmas: the lowest death level below a cluster.
-/
namespace Verif.Sel
open Spec Relation Hier
variable {W S : Type}

theorem foldl_low [LinearOrder W] (f : Nat → W) : ∀ (ks : List Nat) (w0 : W),
    let r := ks.foldl (fun w k => if CCmp.lt (f k) w then f k else w) w0
    r ≤ w0 ∧ (∀ k ∈ ks, r ≤ f k) ∧ (r = w0 ∨ ∃ k ∈ ks, r = f k)
  | [], w0 => ⟨le_refl _, by simp, .inl rfl⟩
  | k :: ks, w0 => by
    obtain ⟨h1, h2, h3⟩ := foldl_low f ks (if CCmp.lt (f k) w0 then f k else w0)
    simp only [List.foldl_cons]
    have hle : (if CCmp.lt (f k) w0 then f k else w0) ≤ w0 ∧ (if CCmp.lt (f k) w0 then f k else w0) ≤ f k ∧
        ((if CCmp.lt (f k) w0 then f k else w0) = w0 ∨ (if CCmp.lt (f k) w0 then f k else w0) = f k) := by
      by_cases hc : f k < w0
      · simp [hc, hc.le]
      · simp [hc, not_lt.1 hc]
    refine ⟨le_trans h1 hle.1, ?_, ?_⟩
    · intro k' hk'
      rcases List.mem_cons.1 hk' with rfl | hk'
      · exact le_trans h1 hle.2.1
      · exact h2 k' hk'
    · rcases h3 with h3 | ⟨k', hk', h3⟩
      · rcases hle.2.2 with h | h
        · exact .inl (h3.trans h)
        · exact .inr ⟨k, by simp, h3.trans h⟩
      · exact .inr ⟨k', by simp [hk'], h3⟩

/-- The lowest death level below a cluster is the smallest death level of the leaves at or below it. -/
theorem low_spec [LinearOrder W] [CCmp S] {ar : Arith W S} {N : Nat} {K V : Nat → Cl W S} (ht : Tree N K) (hout : ∀ l, N ≤ l ∨ l = 0 → (K l).parent = none)
    (h : VInv ar N K 0 V) (hd : ∀ l, 1 ≤ l → l < N → (K l).death < ar.dmax) : ∀ (j l : Nat), N - l ≤ j → 1 ≤ l → l < N → (l ≠ 1 ∨ ∃ k, (K k).parent = some l) →
      (∃ t, t ≠ 1 ∧ t < N ∧ (∀ k, (K k).parent ≠ some t) ∧ ReflTransGen (fun a b => (K a).parent = some b) t l ∧ (V l).propLowest = (K t).death) ∧
      ∀ t, (∀ k, (K k).parent ≠ some t) → ReflTransGen (fun a b => (K a).parent = some b) t l → (V l).propLowest ≤ (K t).death := by
  have hin : ∀ k q, (K k).parent = some q → 1 ≤ k ∧ k < N := by
    intro k q hk
    by_contra hn
    have := hout k (by omega)
    rw [hk] at this; simp at this
  intro j
  induction j with
  | zero => intro l h0 h1 h2; omega
  | succ j ih =>
    intro l hj h1 h2 hnr
    have hlow := h.low l
    simp only at hlow
    obtain ⟨f1, f2, f3⟩ := foldl_low (fun l' => (V l').propLowest) (kidsAbove N K 0 l) ar.dmax
    generalize List.foldl (fun w l' => if CCmp.lt (V l').propLowest w then (V l').propLowest else w) ar.dmax (kidsAbove N K 0 l) = w at hlow f1 f2 f3
    by_cases hk : ∃ k, (K k).parent = some l
    · obtain ⟨k, hk⟩ := hk
      have hkid : ∀ k, (K k).parent = some l → 1 ≤ k ∧ k < N ∧ k ≠ 1 ∧ l < k ∧ k ∈ kidsAbove N K 0 l := by
        intro k hk
        obtain ⟨a1, a2⟩ := hin k l hk
        have := ht.up k l a1 a2 hk
        exact ⟨a1, a2, by omega, this.2, mem_kidsAbove.2 ⟨by omega, a2, hk⟩⟩
      have hrec : ∀ k, (K k).parent = some l → _ := fun k hk => ih k (by have := hkid k hk; omega) (hkid k hk).1 (hkid k hk).2.1 (.inl (hkid k hk).2.2.1)
      have hw : w < ar.dmax := by
        obtain ⟨⟨t, t1, t2, t3, t4, t5⟩, _⟩ := hrec k hk
        have := f2 k (hkid k hk).2.2.2.2
        rw [t5] at this
        have ht1 : 1 ≤ t := by
          rcases reflTransGen_iff_eq_or_transGen.1 t4 with h | h
          · have := (hkid k hk).1; omega
          · obtain ⟨b, hb, _⟩ := TransGen.head'_iff.1 h
            exact (hin t b hb).1
        exact lt_of_le_of_lt this (hd t ht1 t2)
      have hV : (V l).propLowest = w := by
        rw [hlow]
        have hne : CCmp.eq w ar.dmax = false := by simp [hw.ne]
        split
        · rw [hne]; rfl
        · rfl
      rw [hV]
      constructor
      · rcases f3 with f3 | ⟨k', hk', f3⟩
        · exact absurd f3 hw.ne
        · have hp := (mem_kidsAbove.1 hk').2.2
          obtain ⟨⟨t, t1, t2, t3, t4, t5⟩, _⟩ := hrec k' hp
          exact ⟨t, t1, t2, t3, t4.tail hp, by rw [f3, t5]⟩
      · intro t t1 t2
        rcases reflTransGen_iff_eq_or_transGen.1 t2 with h | h
        · subst h; exact absurd hk (t1 k)
        · obtain ⟨k', hk', hb⟩ := TransGen.tail'_iff.1 h
          have := (hrec k' hb).2 t t1 hk'
          exact le_trans (f2 k' (hkid k' hb).2.2.2.2) this
    · have hk' : ∀ k, (K k).parent ≠ some l := fun k hk2 => hk ⟨k, hk2⟩
      have hl1 : l ≠ 1 := by
        rcases hnr with h | h
        · exact h
        · exact absurd h hk
      have hpar : (K l).parent ≠ none := fun hp => hl1 ((ht.root l h1 h2).1 hp)
      have hnil : w = ar.dmax := by
        rcases f3 with f3 | ⟨k, hk2, _⟩
        · exact f3
        · exact absurd (mem_kidsAbove.1 hk2).2.2 (hk' k)
      have hV : (V l).propLowest = (K l).death := by
        rw [hlow, if_pos ⟨by omega, hpar⟩, hnil]
        simp
      rw [hV]
      refine ⟨⟨l, hl1, h2, hk', .refl, rfl⟩, fun t t1 t2 => ?_⟩
      rcases reflTransGen_iff_eq_or_transGen.1 t2 with h | h
      · rw [h]
      · obtain ⟨k, _, hb⟩ := TransGen.tail'_iff.1 h
        exact absurd hb (hk' k)

section
variable [LinearOrder W] {ar : Arith W S} {n m M : Nat} {f : Nat → Nat × Nat × W} {res : Result W S} {hist : List (W × (Nat → Nat))}
    {cur : Nat → Nat} {noise : Nat → Option W} {last : Nat → Option Nat}

theorem hist_lt (h : Base ar n m res hist cur noise last) {s t : Nat} {w w' : W} {g g' : Nat → Nat} (hs : hist[s]? = some (w, g)) (ht : hist[t]? = some (w', g'))
    (hst : s < t) : w' < w := by
  have := h.ord
  rw [List.pairwise_iff_getElem] at this
  have h1 := lt_of_get hs
  have h2 := lt_of_get ht
  have := this s t (by simpa using h1) (by simpa using h2) hst
  rw [List.getElem_map, List.getElem_map] at this
  rw [List.getElem?_eq_getElem h1, Option.some.injEq] at hs
  rw [List.getElem?_eq_getElem h2, Option.some.injEq] at ht
  rw [hs, ht] at this
  exact this

/-- Where a cluster dies. -/
theorem death_at (h : Base ar n m res hist cur noise last) {l : Nat} {c : Cl W S} (hc : res.clusters[l]? = some (some c)) :
    ∃ s g, hist[s]? = some (c.death, g) ∧ (∃ p, p < n ∧ g p = l) ∧ ∀ s' p, p < n → lab hist cur s' p = l → s' ≤ s := by
  obtain ⟨h1, h2, hi⟩ := h.bk.get hc
  have h0 : c.numPoints = 0 := by
    rw [hi.num, cnt_eq_zero]
    intro p hp hcp
    rw [h.zero p hp] at hcp
    omega
  obtain ⟨s, w, g, d1, d2, d3, d4⟩ := hi.dead h0
  refine ⟨s, g, by rw [d4]; exact d1, d2, fun s' p hp hl => ?_⟩
  by_contra hlt
  exact d3 s' (by omega) p hp hl

/-- A child dies at a lower level than its parent. -/
theorem death_lt (h : Obs ar n m M f res hist cur noise last) {l q : Nat} {c cq : Cl W S} (hc : res.clusters[l]? = some (some c))
    (hq : c.parent = some q) (hcq : res.clusters[q]? = some (some cq)) : c.death < cq.death := by
  obtain ⟨cq', s1, _, s3, _⟩ := h.spl l c q hc hq
  rw [hcq] at s1
  simp only [Option.some.injEq] at s1
  subst s1
  have hl : l ≠ 1 := fun hl => by
    have := ((h.bk.get hc).2.2.root hl).2
    rw [hq] at this
    simp at this
  obtain ⟨q', s, w, g, b1, b2, b3, b4, b5, b6, b7, b8, b9, ⟨p, b10, b11⟩, b12⟩ := h.birth hl hc
  obtain ⟨s', g', d1, _, d3⟩ := death_at h.toBase hc
  have := d3 (s + 1) p b10 b11
  have := hist_lt h.toBase b1 d1 (by omega)
  rw [b5] at s3
  simp only [Option.some.injEq] at s3
  rw [← s3]
  exact this

/-- A point leaves its last cluster not below the death level of that cluster. -/
theorem noise_ge (h : Base ar n m res hist cur noise last) {p : Nat} (hp : p < n) :
    ∃ (w : W) (l : Nat) (c : Cl W S), noise p = some w ∧ last p = some l ∧ res.clusters[l]? = some (some c) ∧ c.death ≤ w ∧
      ∃ (s : Nat) (g : Nat → Nat), hist[s]? = some (w, g) := by
  obtain ⟨s, w, g, n1, n2, n3, n4, n5⟩ := h.bk.noise p hp (h.zero p hp)
  have hlab : lab hist cur s p = g p := by rw [lab_get n1]
  have hlt := h.bk.lt s p hp
  rw [hlab] at hlt
  obtain ⟨c, hc, _⟩ := h.bk.cl (g p) (by omega) hlt
  refine ⟨w, g p, c, n4, n5, hc, ?_, s, g, n1⟩
  obtain ⟨s', g', d1, _, d3⟩ := death_at h hc
  have hle := d3 s p hp hlab
  rcases Nat.lt_or_eq_of_le hle with hlt2 | heq
  · exact (hist_lt h n1 d1 hlt2).le
  · subst heq
    rw [n1] at d1
    simp only [Option.some.injEq, Prod.mk.injEq] at d1
    rw [d1.1]

/-- Weights of lines are edge weights. -/
theorem weight_mem (h : Obs ar n m M f res hist cur noise last) {s : Nat} {w : W} {g : Nat → Nat} (hs : hist[s]? = some (w, g)) : ∃ i, i < M ∧ (f i).2.2 = w := by
  obtain ⟨k, hk⟩ := h.line _ (List.mem_of_getElem? hs)
  exact hk.at'

/-- The lowest death level below the last cluster of a point is an edge weight not above the level at which the point became noise, unless
    the tree consists of the root only. -/
theorem low_le_noise (h : Obs ar n m M f res hist cur noise last) [CCmp S] {V : Nat → Cl W S} (hV : VInv ar res.clusters.length (kOf ar res.clusters) 0 V)
    (hmax : ∀ i, i < M → (f i).2.2 < ar.dmax) (h2 : res.clusters.length ≠ 2) {p : Nat} (hp : p < n) :
    ∃ (w : W) (l : Nat), noise p = some w ∧ last p = some l ∧ 1 ≤ l ∧ l < res.clusters.length ∧ (V l).propLowest ≤ w ∧
      (∃ i, i < M ∧ (f i).2.2 = w) ∧ ∃ i, i < M ∧ (f i).2.2 = (V l).propLowest := by
  obtain ⟨htree, _, _⟩ := obs_tree h.toBase
  obtain ⟨hr, ht, hout⟩ := tree_of (ar := ar) htree
  obtain ⟨w, l, c, n1, n2, n3, n4, s0, g0, n5⟩ := noise_ge h.toBase hp
  obtain ⟨l1, l2, _⟩ := h.bk.get n3
  have hK := kOf_eq (ar := ar) n3
  have hdeath : ∀ l, 1 ≤ l → l < res.clusters.length → ∃ i, i < M ∧ (f i).2.2 = (kOf ar res.clusters l).death := by
    intro l h1 h2
    obtain ⟨s, g, d1, _⟩ := death_at h.toBase (hr.at' l h1 h2)
    exact weight_mem h d1
  have hd : ∀ l, 1 ≤ l → l < res.clusters.length → (kOf ar res.clusters l).death < ar.dmax := by
    intro l h1 h2
    obtain ⟨i, hi, he⟩ := hdeath l h1 h2
    rw [← he]; exact hmax i hi
  have hkid : l ≠ 1 ∨ ∃ k, (kOf ar res.clusters k).parent = some l := by
    by_cases hl : l = 1
    · right
      subst hl
      have := htree.two
      obtain ⟨c2, hc2, _⟩ := htree.cl 2 (by omega) (by omega)
      cases hp2 : c2.parent with
      | none => exact absurd ((htree.root 2 c2 hc2).1 hp2) (by omega)
      | some q =>
        have := htree.up 2 q ⟨c2, hc2, hp2⟩
        have : q = 1 := by omega
        subst this
        exact ⟨2, by rw [kOf_eq hc2]; exact hp2⟩
    · exact .inl hl
  obtain ⟨⟨t, t1, t2, t3, t4, t5⟩, _⟩ := low_spec ht (Props.kOf_zero htree) hV hd _ l (le_refl _) l1 l2 hkid
  -- the leaf dies not above `l`
  have hle : ∀ t, ReflTransGen (fun a b => (kOf ar res.clusters a).parent = some b) t l → (kOf ar res.clusters t).death ≤ (kOf ar res.clusters l).death := by
    intro t htl
    induction htl using ReflTransGen.head_induction_on with
    | refl => exact le_refl _
    | @head a b hab _ ih =>
      obtain ⟨ca, hca, hpa⟩ := child_iff (ar := ar).2 hab
      have hb := htree.up a b ⟨ca, hca, hpa⟩
      have := lt_of_get hca
      have := death_lt h hca hpa (hr.at' b hb.1 (by omega))
      rw [kOf_eq hca]
      exact le_trans this.le ih
  have ht0 : 1 ≤ t := by
    rcases reflTransGen_iff_eq_or_transGen.1 t4 with h | h
    · omega
    · obtain ⟨b, hb, _⟩ := TransGen.head'_iff.1 h
      by_contra hn
      have := Props.kOf_zero (ar := ar) htree t (by omega)
      rw [hb] at this; simp at this
  refine ⟨w, l, n1, n2, l1, l2, ?_, weight_mem h n5, ?_⟩
  · rw [t5]
    refine le_trans (hle t t4) ?_
    rw [hK]; exact n4
  · rw [t5]; exact hdeath t ht0 t2

end
end Verif.Sel
