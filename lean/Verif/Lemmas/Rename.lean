import Verif.Lemmas.Corr
/-
Helper lemmas: the renaming of the clusters of two corresponding hierarchies respects all that is recorded about them.
-/
namespace Verif.Corr
open Spec Relation Hier

theorem perm_of_bij {n : Nat} {σ τ : Nat → Nat} (b : Bij n σ τ) : ((List.range n).map σ).Perm (List.range n) := by
  rw [List.perm_ext_iff_of_nodup _ List.nodup_range]
  · intro x
    rw [List.mem_map, List.mem_range]
    constructor
    · rintro ⟨u, hu, rfl⟩; exact b.s u (List.mem_range.1 hu)
    · intro hx; exact ⟨τ x, List.mem_range.2 (b.t x hx), b.st x hx⟩
  · refine List.Nodup.map_on ?_ List.nodup_range
    intro x hx y hy he
    rw [← b.ts x (List.mem_range.1 hx), ← b.ts y (List.mem_range.1 hy), he]

theorem cnt_bij {n : Nat} {σ τ : Nat → Nat} (b : Bij n σ τ) {P Q : Nat → Prop} [DecidablePred P] [DecidablePred Q] (h : ∀ u, u < n → (Q (σ u) ↔ P u)) : cnt n Q = cnt n P := by
  rw [cnt, ← (perm_of_bij b).countP_eq, List.countP_map]
  exact List.countP_congr fun u hu => by simp [h u (List.mem_range.1 hu)]

section
variable {W S S' : Type} [LinearOrder W]

/-- The renaming `φ` of the clusters. -/
structure Ren (n : Nat) (σ : Nat → Nat) (ψ : W → W) (φ : Nat → Nat) (hist hist' : List (W × (Nat → Nat))) (cur cur' : Nat → Nat) (cs : List (Option (Cl W S)))
    (cs' : List (Option (Cl W S'))) : Prop where
  zero : φ 0 = 0
  one : φ 1 = 1
  lab : ∀ s u, u < n → lab hist' cur' s (σ u) = φ (lab hist cur s u)
  inj : ∀ l l', l < cs.length → l' < cs.length → φ l = φ l' → l = l'
  surj : ∀ l', 1 ≤ l' → l' < cs'.length → ∃ l, 1 ≤ l ∧ l < cs.length ∧ φ l = l'
  cl : ∀ (l : Nat) (c : Cl W S), cs[l]? = some (some c) → ∃ c' : Cl W S', cs'[φ l]? = some (some c') ∧ c'.parent = c.parent.map φ ∧ c'.birth = c.birth.map ψ ∧
    c'.death = ψ c.death ∧ (l ≠ 1 → c'.offset = c.offset)

variable {ar : Arith W S} {ar' : Arith W S'} {n m M M' : Nat} {f f' : Nat → Nat × Nat × W} {res : Result W S} {res' : Result W S'} {hist hist' : List (W × (Nat → Nat))}
  {cur cur' : Nat → Nat} {noise noise' : Nat → Option W} {last last' : Nat → Option Nat} {σ τ : Nat → Nat} {ψ : W → W}

/-- Every cluster is carried by some point. -/
theorem occurs (h : Obs ar n m M f res hist cur noise last) (hn : 1 ≤ n) {l : Nat} (h1 : 1 ≤ l) (h2 : l < res.clusters.length) : ∃ s u, u < n ∧ lab hist cur s u = l := by
  by_cases hl : l = 1
  · subst hl; exact ⟨0, 0, hn, h.bk.one 0 hn⟩
  · obtain ⟨c, hc, _⟩ := h.bk.cl l h1 h2
    obtain ⟨q, s, w, g, _, _, _, _, _, _, _, _, _, ⟨p, b10, b11⟩, _⟩ := h.birth hl hc
    exact ⟨s + 1, p, b10, b11⟩

/-- The first line of a cluster determines what is recorded at its birth. -/
theorem birth_of (h : Obs ar n m M f res hist cur noise last) {l s u : Nat} (hl : l ≠ 1) {c : Cl W S} (hc : res.clusters[l]? = some (some c)) (hu : u < n)
    (hs : lab hist cur (s + 1) u = l) (hf : ∀ s', s' ≤ s → ∀ p, p < n → lab hist cur s' p ≠ l) :
    c.parent = some (lab hist cur s u) ∧ c.offset = s + 1 ∧ ∃ w g, hist[s]? = some (w, g) ∧ c.birth = some w := by
  obtain ⟨q, s0, w, g, b1, b2, b3, b4, b5, b6, b7, b8, b9, ⟨p, b10, b11⟩, b12⟩ := h.birth hl hc
  have : s0 = s := by
    rcases Nat.lt_trichotomy s0 s with hlt | heq | hgt
    · exact absurd b11 (hf (s0 + 1) (by omega) p b10)
    · exact heq
    · exact absurd hs (b12 (s + 1) (by omega) u hu)
  subst this
  refine ⟨?_, b6, w, g, b1, b5⟩
  rw [b2, lab_get b1, ← b8 u hu hs]

/-- The last line of a cluster determines its death level. -/
theorem death_of (h : Obs ar n m M f res hist cur noise last) {l s u : Nat} {c : Cl W S} (hc : res.clusters[l]? = some (some c)) (hu : u < n)
    (hs : lab hist cur s u = l) (hf : ∀ s' p, p < n → lab hist cur s' p = l → s' ≤ s) : ∃ g, hist[s]? = some (c.death, g) := by
  obtain ⟨s0, g, d1, ⟨p, d2, d3⟩, d4⟩ := Sel.death_at h.toBase hc
  have e1 := d4 s u hu hs
  have e2 := hf s0 p d2 (by rw [lab_get d1]; exact d3)
  have : s0 = s := by omega
  subst this
  exact ⟨g, d1⟩

theorem twin_ren (h : Obs ar n m M f res hist cur noise last) (h' : Obs ar' n m M' f' res' hist' cur' noise' last') (hi : Inp n M f) (hi' : Inp n M' f')
    (hm : 2 ≤ m) (hmn : m ≤ n) (t : Twin n M M' f f' σ τ ψ) : ∃ φ, Ren n σ ψ φ hist hist' cur cur' res.clusters res'.clusters := by
  have hlen := twin_length h h' hi hi' hm hmn t
  have hst := steps_of h
  have hst' := steps_of h'
  rw [hlen] at hst'
  have al := twin_alike h h' hi hi' hm hmn t
  obtain ⟨φ, p0, p1, p2⟩ := rename hst hst' t.b al
  have hn : 1 ≤ n := by omega
  have ocz : ∀ l, l < res.clusters.length → ∃ s u, u < n ∧ lab hist cur s u = l := by
    intro l hl
    by_cases h0 : l = 0
    · exact ⟨hist.length, 0, hn, by rw [lab_end (le_refl _), h.zero 0 hn, h0]⟩
    · exact occurs h hn (by omega) hl
  have inj : ∀ l l', l < res.clusters.length → l' < res.clusters.length → φ l = φ l' → l = l' := by
    intro l l' h1 h2 he
    obtain ⟨s, u, hu, rfl⟩ := ocz l h1
    obtain ⟨s', u', hu', rfl⟩ := ocz l' h2
    exact p2 s u s' u' hu hu' he
  have one : φ 1 = 1 := by
    rw [← h.bk.one 0 hn, ← p1 0 0 hn, h'.bk.one _ (t.b.s 0 hn), h.bk.one 0 hn]
  have pull : ∀ s x, x < n → lab hist' cur' s x = φ (lab hist cur s (τ x)) := by
    intro s x hx
    rw [← p1 s _ (t.b.t x hx), t.b.st x hx]
  have rlt : ∀ s u, u < n → lab hist cur s u < res.clusters.length := fun s u hu => h.bk.lt s u hu
  refine ⟨φ, p0, one, p1, inj, ?_, ?_⟩
  · intro l' h1 h2
    obtain ⟨s, x, hx, rfl⟩ := occurs h' hn h1 h2
    refine ⟨lab hist cur s (τ x), ?_, rlt s _ (t.b.t x hx), (pull s x hx).symm⟩
    by_contra hne
    have : lab hist cur s (τ x) = 0 := by omega
    rw [pull s x hx, this, p0] at h1
    omega
  · intro l c hc
    obtain ⟨l1, l2, _⟩ := h.bk.get hc
    obtain ⟨s1, u1, hu1, hl1⟩ := occurs h hn l1 l2
    have hphi : ∀ l, 1 ≤ l → l < res.clusters.length → 1 ≤ φ l := by
      intro l h1 h2
      by_contra hne
      have : l = 0 := inj l 0 h2 (by omega) (by rw [p0]; omega)
      omega
    have hlt' : φ l < res'.clusters.length := by
      rw [← hl1, ← p1 s1 u1 hu1]
      exact h'.bk.lt s1 _ (t.b.s u1 hu1)
    obtain ⟨c', hc', _⟩ := h'.bk.cl (φ l) (hphi l l1 l2) hlt'
    have hback : ∀ s x, x < n → lab hist' cur' s x = φ l → lab hist cur s (τ x) = l := by
      intro s x hx he
      rw [pull s x hx] at he
      exact inj _ _ (rlt s _ (t.b.t x hx)) l2 he
    have hdeath : c'.death = ψ c.death := by
      obtain ⟨s, g, d1, ⟨p, d2, d3⟩, d4⟩ := Sel.death_at h.toBase hc
      obtain ⟨g', hg'⟩ := death_of h' hc' (t.b.s p d2) (s := s) (by rw [p1 s p d2, lab_get d1]; exact congrArg φ d3)
        (fun s' x hx he => d4 s' _ (t.b.t x hx) (hback s' x hx he))
      obtain ⟨g2, hg2⟩ := twin_line h h' hi hi' hm hmn t d1
      rw [hg'] at hg2
      simp only [Option.some.injEq, Prod.mk.injEq] at hg2
      exact hg2.1
    refine ⟨c', hc', ?_⟩
    by_cases hl : l = 1
    · subst hl
      obtain ⟨a1, a2⟩ := (h.bk.get hc).2.2.root rfl
      obtain ⟨a3, a4⟩ := (h'.bk.get hc').2.2.root one
      exact ⟨by rw [a2, a4]; rfl, by rw [a1, a3]; rfl, hdeath, fun hne => absurd rfl hne⟩
    · obtain ⟨q, s, w, g, b1, b2, b3, b4, b5, b6, b7, b8, b9, ⟨p, b10, b11⟩, b12⟩ := h.birth hl hc
      have hl' : φ l ≠ 1 := fun hx => hl (inj l 1 l2 (by have := h.bk.two; omega) (by rw [hx, one]))
      obtain ⟨e1, e2, w', g', e3, e4⟩ := birth_of h' hl' hc' (t.b.s p b10) (s := s) (by rw [p1 _ p b10, b11])
        (fun s' hs' x hx he => b12 s' hs' _ (t.b.t x hx) (hback s' x hx he))
      obtain ⟨g2, hg2⟩ := twin_line h h' hi hi' hm hmn t b1
      rw [e3] at hg2
      simp only [Option.some.injEq, Prod.mk.injEq] at hg2
      refine ⟨?_, ?_, hdeath, fun _ => by rw [e2, b6]⟩
      · rw [e1, p1 s p b10, b2, lab_get b1, ← b8 p b10 b11]; rfl
      · rw [e4, hg2.1, b5]; rfl

/-- Stabilities correspond. -/
theorem twin_stab (h : Obs ar n m M f res hist cur noise last) (h' : Obs ar' n m M' f' res' hist' cur' noise' last') (hi : Inp n M f) (hi' : Inp n M' f')
    (hm : 2 ≤ m) (hmn : m ≤ n) (t : Twin n M M' f f' σ τ ψ) {φ : Nat → Nat} (r : Ren n σ ψ φ hist hist' cur cur' res.clusters res'.clusters) (ha : Additive ar) (ha' : Additive ar')
    (γ : S → S') (g0 : γ ar.zeroS = ar'.zeroS) (gadd : ∀ a b, γ (ar.add a b) = ar'.add (γ a) (γ b)) (gterm : ∀ k w b, w ∈ hist.map (·.1) → b ∈ hist.map (·.1) → ar'.term k (ψ w) (some (ψ b)) = γ (ar.term k w (some b)))
    {l : Nat} (hl : l ≠ 1) {c : Cl W S} {c' : Cl W S'} (hc : res.clusters[l]? = some (some c)) (hc' : res'.clusters[φ l]? = some (some c')) : c'.stability = γ c.stability := by
  have hlen := twin_length h h' hi hi' hm hmn t
  obtain ⟨l1, l2, ci⟩ := h.bk.get hc
  obtain ⟨l1', l2', ci'⟩ := h'.bk.get hc'
  have hl' : φ l ≠ 1 := fun hx => hl (r.inj l 1 l2 (by have := h.bk.two; omega) (by rw [hx, r.one]))
  obtain ⟨c2, e1, _, e2, _⟩ := r.cl l c hc
  rw [hc', Option.some.injEq, Option.some.injEq] at e1
  subst e1
  obtain ⟨q, s, w, g, b1, b2, b3, b4, b5, _⟩ := h.birth hl hc
  rw [ci'.stab hl' ha', ci.stab hl ha, e2, b5, hlen]
  have step : ∀ s, s < hist.length → stepTerm ar' n hist' cur' (φ l) (some (ψ w)) s = γ (stepTerm ar n hist cur l (some w) s) := by
    intro s hs
    obtain ⟨⟨x, gx⟩, hx⟩ : ∃ x, hist[s]? = some x := ⟨_, List.getElem?_eq_getElem hs⟩
    obtain ⟨gx', hx'⟩ := twin_line h h' hi hi' hm hmn t hx
    simp only [stepTerm, hx, hx']
    have hmem : ∀ {s x gx}, hist[s]? = some (x, gx) → x ∈ hist.map (·.1) := fun hh => List.mem_map.2 ⟨_, List.mem_of_getElem? hh, rfl⟩
    rw [← gterm _ _ _ (hmem hx) (hmem b1)]
    congr 1
    refine cnt_bij t.b fun u hu => ?_
    have i1 : gx' (σ u) = φ (gx u) := by
      have := r.lab s u hu
      rwa [lab_get hx, lab_get hx'] at this
    rw [i1, r.lab (s + 1) u hu]
    have hlt := h.bk.lt s u hu
    rw [lab_get hx] at hlt
    have j1 : φ (gx u) = φ l ↔ gx u = l := ⟨r.inj _ _ hlt l2, fun e => by rw [e]⟩
    have j2 : φ (lab hist cur (s + 1) u) = φ l ↔ lab hist cur (s + 1) u = l := ⟨r.inj _ _ (h.bk.lt _ u hu) l2, fun e => by rw [e]⟩
    rw [j1, Ne, Ne, j2]
  have : ∀ N, N ≤ hist.length → stabSum ar' n hist' cur' (φ l) (some (ψ w)) N = γ (stabSum ar n hist cur l (some w) N) := by
    intro N
    induction N with
    | zero => intro _; simp [stabSum, g0]
    | succ N ih => intro hN; rw [stabSum_succ, stabSum_succ, gadd, ih (by omega), step N (by omega)]
  exact this _ (le_refl _)

end
end Verif.Corr
