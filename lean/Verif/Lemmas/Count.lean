import Verif.Lemmas.Prominent
/-
Helper lemmas: how many clusters there can be.
-/
namespace Verif
open Spec Relation

/-- Disjoint sets of at least `m` elements each. -/
theorem pack {m n : Nat} (P : Nat → Nat → Prop) : ∀ (T : List Nat), T.Nodup → (∀ t ∈ T, AtLeast m (P t)) → (∀ t ∈ T, ∀ p, P t p → p < n) →
    (∀ t ∈ T, ∀ t' ∈ T, ∀ p, P t p → P t' p → t = t') → T.length * m ≤ n := by
  intro T hT hm hlt hdis
  obtain ⟨L, h1, h2, h3⟩ : ∃ L : List Nat, L.Nodup ∧ T.length * m ≤ L.length ∧ ∀ p ∈ L, ∃ t ∈ T, P t p := by
    clear hlt
    induction T with
    | nil => exact ⟨[], by simp, by simp, by simp⟩
    | cons t r ih =>
      obtain ⟨hn, hr⟩ := List.nodup_cons.1 hT
      obtain ⟨L, h1, h2, h3⟩ := ih hr (fun x hx => hm x (by simp [hx])) (fun x hx y hy => hdis x (by simp [hx]) y (by simp [hy]))
      obtain ⟨l, q1, q2, q3⟩ := hm t (by simp)
      refine ⟨l ++ L, List.nodup_append.2 ⟨q1, h1, ?_⟩, ?_, ?_⟩
      · rintro a ha b hb rfl
        obtain ⟨t', ht', hp⟩ := h3 a hb
        have := hdis t (by simp) t' (by simp [ht']) a (q3 a ha) hp
        subst this
        exact hn ht'
      · rw [List.length_append, List.length_cons, Nat.add_mul]; omega
      · intro p hp
        rcases List.mem_append.1 hp with hp | hp
        · exact ⟨t, by simp, q3 p hp⟩
        · obtain ⟨t', ht', hp⟩ := h3 p hp
          exact ⟨t', by simp [ht'], hp⟩
  have hsub : L ⊆ List.range n := fun p hp => by
    obtain ⟨t, ht, hp⟩ := h3 p hp
    exact List.mem_range.2 (hlt t ht p hp)
  have := (h1.subperm hsub).length_le
  rw [List.length_range] at this
  omega

namespace Hier
variable {W S : Type}
variable [LinearOrder W] {ar : Arith W S} {n m M : Nat} {f : Nat → Nat × Nat × W} {res : Result W S} {hist : List (W × (Nat → Nat))}
    {cur : Nat → Nat} {noise : Nat → Option W} {last : Nat → Option Nat}

omit [LinearOrder W] in
/-- A leaf is above no other cluster. -/
theorem leaf_top {cs : List (Option (Cl W S))} {l l' : Nat} (hl : ∀ x, ¬ IsChild cs x l) (h : AtOrAbove cs l l') : l = l' := by
  rcases ReflTransGen.cases_tail h with h | ⟨x, _, h⟩
  · exact h
  · exact absurd h (hl x)

theorem cluster_count (h : Obs ar n m M f res hist cur noise last) (hmn : m ≤ n) : res.clusters.length * m ≤ 2 * n := by
  classical
  obtain ⟨htree, _, _⟩ := Sel.obs_tree h.toBase
  have h2 := htree.two
  set N := res.clusters.length with hN
  have hlenC : ∀ l q, IsChild res.clusters l q → l < N := fun l q ⟨c, hc, _⟩ => (List.getElem?_eq_some_iff.1 hc).1
  -- the clusters with and without children
  set I := ((List.range' 1 (N - 1)).filter (fun l => decide (∃ x, IsChild res.clusters x l))) with hI
  set L := ((List.range' 1 (N - 1)).filter (fun l => ! decide (∃ x, IsChild res.clusters x l))) with hL
  have hsum : I.length + L.length = N - 1 := by
    have := List.length_eq_length_filter_add (l := List.range' 1 (N - 1)) (fun l => decide (∃ x, IsChild res.clusters x l))
    rw [List.length_range'] at this
    exact this.symm
  have hmI : ∀ l, l ∈ I → 1 ≤ l ∧ l < N ∧ ∃ x, IsChild res.clusters x l := by
    intro l hl
    rw [hI, List.mem_filter, List.mem_range'_1] at hl
    exact ⟨by omega, by omega, by simpa using hl.2⟩
  have hmL : ∀ l, l ∈ L → 1 ≤ l ∧ l < N ∧ ∀ x, ¬ IsChild res.clusters x l := by
    intro l hl
    rw [hL, List.mem_filter, List.mem_range'_1] at hl
    exact ⟨by omega, by omega, by simpa using hl.2⟩
  have hin : I.length * 2 ≤ N - 2 := by
    refine pack (fun q k => IsChild res.clusters (k + 2) q) I ((List.nodup_range' 1).filter _) ?_ ?_ ?_
    · intro q hq
      obtain ⟨h1, h3, x, c, hc, hp⟩ := hmI q hq
      obtain ⟨_, _, _, _, l2, c2, s4, s5, s6⟩ := h.spl x c q hc hp
      have hx := htree.up x q ⟨c, hc, hp⟩
      have hx2 := htree.up l2 q ⟨c2, s5, s6⟩
      refine ⟨[x - 2, l2 - 2], ?_, by simp, ?_⟩
      · simp; omega
      · intro k hk
        rcases List.mem_cons.1 hk with rfl | hk
        · rw [show x - 2 + 2 = x by omega]; exact ⟨c, hc, hp⟩
        · have hk' : k = l2 - 2 := by simpa using hk
          subst hk'
          rw [show l2 - 2 + 2 = l2 by omega]; exact ⟨c2, s5, s6⟩
    · intro q _ k hk
      have := hlenC _ _ hk
      omega
    · rintro q _ q' _ k ⟨c, hc, hp⟩ ⟨c', hc', hp'⟩
      rw [hc] at hc'
      simp only [Option.some.injEq] at hc'
      subst hc'
      rw [hp] at hp'
      simpa using hp'
  have hlv : L.length * m ≤ n := by
    refine pack (fun l p => p < n ∧ ∃ s, lab hist cur s p = l) L ((List.nodup_range' 1).filter _) ?_ (fun _ _ _ hp => hp.1) ?_
    · intro l hl
      obtain ⟨h1, h3, _⟩ := hmL l hl
      obtain ⟨c, hc, _⟩ := h.bk.cl l h1 h3
      by_cases hl1 : l = 1
      · refine ⟨List.range n, List.nodup_range, by simpa using hmn, fun p hp => ⟨List.mem_range.1 hp, 0, ?_⟩⟩
        rw [h.bk.one p (List.mem_range.1 hp), hl1]
      · obtain ⟨q, s, w, g, b1, b2, b3, b4, b5, b6, b7, b8, b9, b10, b11⟩ := h.birth hl1 hc
        refine ⟨(List.range n).filter (fun p => decide (lab hist cur (s + 1) p = l)), List.nodup_range.filter _, ?_, ?_⟩
        · rw [← List.countP_eq_length_filter]
          exact b9
        · intro p hp
          rw [List.mem_filter, List.mem_range, decide_eq_true_eq] at hp
          exact ⟨hp.1, _, hp.2⟩
    · rintro l hl l' hl' p ⟨hp, s, hs⟩ ⟨_, t, ht⟩
      obtain ⟨h1, _, h4⟩ := hmL l hl
      obtain ⟨h1', _, h4'⟩ := hmL l' hl'
      have := Sel.common_point h.toBase (p := p) (s := s) (t := t) hp (by omega) (by omega)
      rw [hs, ht] at this
      rcases this with hc | hc
      · exact leaf_top h4 hc
      · exact (leaf_top h4' hc).symm
  have hN2 : N ≤ 2 * L.length := by omega
  calc N * m ≤ 2 * L.length * m := Nat.mul_le_mul_right _ hN2
    _ = 2 * (L.length * m) := by rw [Nat.mul_assoc]
    _ ≤ 2 * n := Nat.mul_le_mul_left _ hlv

end Hier
end Verif
