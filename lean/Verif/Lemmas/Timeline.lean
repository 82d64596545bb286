import Verif.Lemmas.Labels
/-
Helper lemmas: the labels a point carries from line to line follow the cluster tree downwards.
-/
namespace Verif.Hier
open Spec
variable {W S : Type}

section
variable [LinearOrder W] {ar : Arith W S} {n m : Nat} {res : Result W S} {hist : List (W × (Nat → Nat))}
    {cur : Nat → Nat} {noise : Nat → Option W} {last : Nat → Option Nat}

/-- A label that changes, but not to noise, changes to that of a child. -/
theorem Base.step_child (h : Base ar n m res hist cur noise last) {s p : Nat} (hp : p < n) (hs : s < hist.length) (hne : lab hist cur (s + 1) p ≠ lab hist cur s p)
    (h0 : lab hist cur (s + 1) p ≠ 0) : IsChild res.clusters (lab hist cur (s + 1) p) (lab hist cur s p) := by
  rcases h.bk.mono s p hp hs with q | ⟨-, q | q⟩
  · exact absurd q hne
  · exact absurd q h0
  · generalize hx' : lab hist cur (s + 1) p = y at q h0
    have hyl : y < res.clusters.length := by rw [← hx']; exact h.bk.lt (s + 1) p hp
    have hy1 : y ≠ 1 := fun hy => q 0 (by omega) p hp (by rw [h.bk.one p hp, hy])
    obtain ⟨cy, hcy, -⟩ := h.bk.cl y (by omega) hyl
    obtain ⟨r, t, w', f'', b1, b2, -, -, -, -, -, b8, -, ⟨p1, b9, b10⟩, b11⟩ := h.birth hy1 hcy
    have hts : t = s := by
      have k1 : ¬ s + 1 ≤ t := fun hle => b11 (s + 1) hle p hp hx'
      have k2 : ¬ t + 1 ≤ s := fun hle => q (t + 1) hle p1 b9 b10
      omega
    subst hts
    refine ⟨cy, hcy, ?_⟩
    rw [b2, ← b8 p hp hx', lab_get b1]

/-- Later labels are below earlier ones. -/
theorem Base.chain (h : Base ar n m res hist cur noise last) {s t p : Nat} (hp : p < n) (hst : s ≤ t) (h0 : lab hist cur t p ≠ 0) :
    AtOrAbove res.clusters (lab hist cur s p) (lab hist cur t p) := by
  induction t with
  | zero =>
    have : s = 0 := by omega
    subst this; exact .refl
  | succ t ih =>
    by_cases hs : s = t + 1
    · subst hs; exact .refl
    · have hl := h.lt_hist hp h0
      have h0' : lab hist cur t p ≠ 0 := fun hz => h0 (h.bk.noise_stays hp (by omega) hz)
      have := ih (by omega) h0'
      by_cases hne : lab hist cur (t + 1) p = lab hist cur t p
      · rw [hne]; exact this
      · exact .head (h.step_child hp (by omega) hne h0) this

/-- Two lines of the same weight are the same. -/
theorem Base.same_line (h : Base ar n m res hist cur noise last) {s t : Nat} {w : W} {g g' : Nat → Nat} (hs : hist[s]? = some (w, g)) (ht : hist[t]? = some (w, g')) : s = t := by
  have key : ∀ (s t : Nat) (g g' : Nat → Nat), hist[s]? = some (w, g) → hist[t]? = some (w, g') → ¬ s < t := by
    intro s t g g' hs ht hlt
    have h2 := h.ord
    rw [List.pairwise_iff_getElem] at h2
    have h3 := h2 s t (by simpa using lt_of_get hs) (by simpa using lt_of_get ht) hlt
    obtain ⟨a, ha⟩ := List.getElem?_eq_some_iff.1 hs
    obtain ⟨b, hb⟩ := List.getElem?_eq_some_iff.1 ht
    simp only [List.getElem_map, ha, hb] at h3
    exact lt_irrefl _ h3
  have := key s t g g' hs ht
  have := key t s g' g ht hs
  omega

/-- Once a cluster has been seen, none of those above it is seen any more. -/
theorem Base.above_gone (h : Base ar n m res hist cur noise last) (spl : SplitOK res.clusters) {a b : Nat} (hab : Above res.clusters a b) : ∀ {r u p q : Nat}, p < n → lab hist cur r p = b → r ≤ u →
    q < n → lab hist cur u q ≠ a := by
  have tree := (Sel.obs_tree h).1
  have kid : ∀ {b c : Nat}, IsChild res.clusters b c → ∀ {r p : Nat}, p < n → lab hist cur r p = b → ∃ s, s + 1 ≤ r ∧ (∃ q, q < n ∧ lab hist cur s q = c) ∧
      ∀ u q, s + 1 ≤ u → q < n → lab hist cur u q ≠ c := by
    rintro b c ⟨cb, hcb, hpar⟩ r p hp hr
    have hb1 : b ≠ 1 := fun hb => by rw [(tree.root b cb hcb).2 hb] at hpar; cases hpar
    obtain ⟨c', s, w, g, b1, b2, b3, -, b5, -, -, b8, -, ⟨p1, b9, b10⟩, b11⟩ := h.birth hb1 hcb
    rw [hpar] at b2; cases b2
    obtain ⟨cq, hcq, hz, hbd, -⟩ := spl b cb c hcb hpar
    rw [b5] at hbd
    have hbd := Option.some.inj hbd
    obtain ⟨-, -, hi⟩ := h.bk.get hcq
    obtain ⟨s', w', f', d1, d2, d4, d5⟩ := hi.dead hz
    rw [← hbd] at d5
    subst d5
    have := h.same_line b1 d1
    subst this
    refine ⟨s, ?_, ⟨p1, b9, ?_⟩, fun u q hu hq => d4 u (by omega) q hq⟩
    · by_contra hlt
      exact b11 r (by omega) p hp hr
    · rw [lab_get b1]; exact b8 p1 b9 b10
  induction hab using Relation.TransGen.head_induction_on with
  | single hc =>
    intro r u p q hp hr hu hq
    obtain ⟨s, s1, -, s3⟩ := kid hc hp hr
    exact s3 u q (by omega) hq
  | head hc _ ih =>
    intro r u p q hp hr hu hq
    obtain ⟨s, s1, ⟨p', s2, s2'⟩, -⟩ := kid hc hp hr
    exact ih s2 s2' (by omega) hq

/-- Along the tree labels grow. -/
theorem Base.above_le (h : Base ar n m res hist cur noise last) {a b : Nat} (hab : AtOrAbove res.clusters a b) : a ≤ b := by
  have tree := (Sel.obs_tree h).1
  unfold AtOrAbove at hab
  induction hab with
  | refl => exact le_refl _
  | tail _ h2 ih => have := (tree.up _ _ h2).2; omega

omit [LinearOrder W] in
theorem above_of {cs : List (Option (Cl W S))} {a b : Nat} (h : AtOrAbove cs a b) (hne : a ≠ b) : Above cs a b := by
  rcases Relation.reflTransGen_iff_eq_or_transGen.1 h with h | h
  · exact absurd h hne
  · exact h

end
end Verif.Hier
