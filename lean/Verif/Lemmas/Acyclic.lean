import Verif.Lemmas.Pipeline
/-
Helper lemmas: the spanning tree has no superfluous edge; connections below a level need an edge at that level.
-/
namespace Verif
open Spec Relation

namespace Prim
variable {W : Type} [LinearOrder W]

/-- `t` is among the points through which `s` was attached. -/
def Anc (pi : Nat → Nat) (t : Nat) : Nat → Prop := fun s => ReflTransGen (fun x y => 0 < x ∧ y = pi x) s t

/-- Without the edge of `a t`, the point `a t` is not connected with the point it was attached to. -/
theorem cut {n : Nat} {m : Nat → Nat → W} {a pi : Nat → Nat} (h : Run n m a pi) {t : Nat} (h0 : 0 < t) (ht : t < n) :
    ¬ EqvGen (fun x y => ∃ s, 0 < s ∧ s < n ∧ s ≠ t ∧ x = a (pi s) ∧ y = a s) (a (pi t)) (a t) := by
  have hge : ∀ s, s < n → Anc pi t s → t ≤ s := by
    intro s
    induction s using Nat.strong_induction_on with
    | _ s ih =>
      intro hs ha
      rcases ReflTransGen.cases_head ha with he | ⟨x, ⟨hx0, rfl⟩, hx⟩
      · omega
      · have := h.pi_lt s hx0 hs
        have := ih (pi s) this (by omega) hx
        omega
  have hstep : ∀ s, 0 < s → s < n → s ≠ t → (Anc pi t s ↔ Anc pi t (pi s)) := by
    intro s h1 h2 h3
    constructor
    · intro ha
      rcases ReflTransGen.cases_head ha with he | ⟨x, ⟨_, rfl⟩, hx⟩
      · exact absurd he h3
      · exact hx
    · intro ha
      exact .head ⟨h1, rfl⟩ ha
  have key : ∀ x y, EqvGen (fun x y => ∃ s, 0 < s ∧ s < n ∧ s ≠ t ∧ x = a (pi s) ∧ y = a s) x y →
      ((∃ s, s < n ∧ a s = x ∧ Anc pi t s) ↔ ∃ s, s < n ∧ a s = y ∧ Anc pi t s) := by
    intro x y hxy
    induction hxy with
    | rel x y hxy =>
      obtain ⟨s, h1, h2, h3, rfl, rfl⟩ := hxy
      have hp := h.pi_lt s h1 h2
      constructor
      · rintro ⟨s', e1, e2, e3⟩
        rw [h.inj s' (pi s) e1 (by omega) e2] at e3
        exact ⟨s, h2, rfl, (hstep s h1 h2 h3).2 e3⟩
      · rintro ⟨s', e1, e2, e3⟩
        rw [h.inj s' s e1 h2 e2] at e3
        exact ⟨pi s, by omega, rfl, (hstep s h1 h2 h3).1 e3⟩
    | refl => exact Iff.rfl
    | symm _ _ _ ih => exact ih.symm
    | trans _ _ _ _ _ i1 i2 => exact i1.trans i2
  intro hc
  obtain ⟨s, e1, e2, e3⟩ := (key _ _ hc).2 ⟨t, ht, rfl, .refl⟩
  have hp := h.pi_lt t h0 ht
  rw [h.inj s (pi t) e1 (by omega) e2] at e3
  have := hge (pi t) (by omega) e3
  omega

end Prim

namespace Run
variable {W S : Type} [LinearOrder W]

/-- What the sorted spanning tree has to say about single edges. -/
theorem sorted_cut (zero dmax : W) (dis : Distance W) (n : Nat) (hn : 1 ≤ n) (d : Nat → Nat → W) (core : Nat → W)
    (hget : ∀ i j, i < n → j < n → i ≠ j → dis.get zero i j = .ok (d i j)) (hsym : ∀ i j, d i j = d j i)
    (hcore : ∀ i, i < n → dis.coreDistances[i]? = some (some (core i)))
    (hmax : ∀ i j, i < n → j < n → i ≠ j → mutualReach d core i j < dmax) :
    ∃ g g' : Graph W, Mst.construct zero dmax true dis n = .ok g ∧ Graph.sortByWeight g = .ok g' ∧
      (∀ i, i < n → (i, i, core i) ∈ triples g'.va g'.vb g'.wt) ∧
      (∀ x y w, (x, y, w) ∈ triples g'.va g'.vb g'.wt → x < n ∧ y < n ∧ ((x = y ∧ w = core x) ∨ (x ≠ y ∧ w = mutualReach d core x y ∧
        ∀ w', w' < w → ¬ ConnectedBy (triples g'.va g'.vb g'.wt) w' x y))) := by
  have hr : Mst.Ready zero dis n d core := ⟨hget, fun i hi => by simp [rdInit, rd, hcore i hi], hsym⟩
  obtain ⟨g, a, pi, N, e, _, hrun, hN, hp, hva, hvb, hwt, hnv, hd⟩ := Mst.construct_rep hn hr hmax
  have htr : triples g.va g.vb g.wt = (List.range (n - 1)).map (fun i => (N i, i, mutualReach d core (N i) i)) ++
      (List.range n).map (fun v => (v, v, core v)) := by
    rw [triples, hva, hvb, hwt, List.zip_append (by simp), List.zip_append (by simp)]
    congr 1
    · apply List.ext_getElem
      · simp
      · intro i h1 h2; simp
    · apply List.ext_getElem
      · simp
      · intro i h1 h2; simp
  obtain ⟨g', e', hsort, hperm, _⟩ := Props.C23_edge_sort g (by rw [hva, hwt]; simp) (by rw [hvb, hwt]; simp)
  have hmem : ∀ x, x ∈ triples g'.va g'.vb g'.wt ↔ (∃ i, i < n - 1 ∧ x = (N i, i, mutualReach d core (N i) i)) ∨ ∃ i, i < n ∧ x = (i, i, core i) := by
    intro x
    rw [hperm.mem_iff, htr, List.mem_append, List.mem_map, List.mem_map]
    simp only [List.mem_range]
    constructor
    · rintro (⟨i, hi, rfl⟩ | ⟨i, hi, rfl⟩)
      · exact .inl ⟨i, hi, rfl⟩
      · exact .inr ⟨i, hi, rfl⟩
    · rintro (⟨i, hi, rfl⟩ | ⟨i, hi, rfl⟩)
      · exact .inl ⟨i, hi, rfl⟩
      · exact .inr ⟨i, hi, rfl⟩
  have hat : ∀ i, i < n - 1 → ∃ t, 0 < t ∧ t < n ∧ N i = a (pi t) ∧ i = a t := by
    intro i hi
    have : (N i, i) ∈ Prim.treeEdges a pi (n - 1) := hp.mem_iff.2 (List.mem_map.2 ⟨i, List.mem_range.2 hi, rfl⟩)
    obtain ⟨t, h1, h2, h3⟩ := Prim.mem_treeEdges.1 this
    simp only [Prod.mk.injEq] at h3
    exact ⟨t, h1, by omega, h3.1, h3.2⟩
  refine ⟨g, g', e, e', fun i hi => (hmem _).2 (.inr ⟨i, hi, rfl⟩), ?_⟩
  intro x y w hx
  rcases (hmem _).1 hx with ⟨i, hi, he⟩ | ⟨i, hi, he⟩
  · simp only [Prod.mk.injEq] at he
    obtain ⟨rfl, rfl, rfl⟩ := he
    refine ⟨(hN y hi).1, by omega, .inr ⟨(hN y hi).2, rfl, ?_⟩⟩
    intro w' hw' hc
    obtain ⟨t, h1, h2, h3, h4⟩ := hat y hi
    refine Prim.cut hrun h1 h2 ?_
    rw [← h3, ← h4]
    have key : ∀ u v, ConnectedBy (triples g'.va g'.vb g'.wt) w' u v → EqvGen (fun x y => ∃ s, 0 < s ∧ s < n ∧ s ≠ t ∧ x = a (pi s) ∧ y = a s) u v := by
      intro u v huv
      induction huv with
      | rel u v huv =>
        obtain ⟨z, hz, hzw⟩ := huv
        rcases (hmem _).1 hz with ⟨j, hj, hje⟩ | ⟨j, hj, hje⟩
        · simp only [Prod.mk.injEq] at hje
          obtain ⟨rfl, rfl, rfl⟩ := hje
          obtain ⟨s, s1, s2, s3, s4⟩ := hat v hj
          refine .rel _ _ ⟨s, s1, s2, ?_, s3, s4⟩
          rintro rfl
          rw [s3, s4, ← h3, ← h4] at hzw
          exact absurd hw' (not_lt.2 hzw)
        · simp only [Prod.mk.injEq] at hje
          obtain ⟨rfl, rfl, rfl⟩ := hje
          exact .refl _
      | refl => exact .refl _
      | symm _ _ _ ih => exact .symm _ _ ih
      | trans _ _ _ _ _ i1 i2 => exact .trans _ _ _ i1 i2
    exact key _ _ hc
  · simp only [Prod.mk.injEq] at he
    obtain ⟨rfl, rfl, rfl⟩ := he
    exact ⟨hi, hi, .inl ⟨rfl, rfl⟩⟩

end Run

namespace Corr
variable {W : Type} [LinearOrder W]

/-- A connection at level `w` either exists below `w` or contains an edge of weight `w`. -/
theorem conn_cases {E : List (Nat × Nat × W)} {w : W} {x y : Nat} (h : ConnectedBy E w x y) :
    (x = y ∨ ∃ e ∈ E, e.2.2 < w ∧ ConnectedBy E e.2.2 x y) ∨ ∃ e ∈ E, e.2.2 = w ∧ ConnectedBy E w x e.1 := by
  have mono : ∀ {w w' : W} {x y : Nat}, w ≤ w' → ConnectedBy E w x y → ConnectedBy E w' x y := by
    intro w w' x y hw hc
    exact Prim.eqv_mono (fun a b ⟨z, hz, hzw⟩ => ⟨z, hz, le_trans hzw hw⟩) hc
  induction h with
  | rel x y hxy =>
    obtain ⟨z, hz, hzw⟩ := hxy
    rcases lt_or_eq_of_le hzw with hlt | he
    · exact .inl (.inr ⟨_, hz, hlt, .rel _ _ ⟨z, hz, le_refl _⟩⟩)
    · exact .inr ⟨_, hz, he, .refl _⟩
  | refl => exact .inl (.inl rfl)
  | symm x y hxy ih =>
    rcases ih with (rfl | ⟨e, h1, h2, h3⟩) | ⟨e, h1, h2, h3⟩
    · exact .inl (.inl rfl)
    · exact .inl (.inr ⟨e, h1, h2, .symm _ _ h3⟩)
    · exact .inr ⟨e, h1, h2, .trans _ _ _ (.symm _ _ hxy) h3⟩
  | trans x y z hxy hyz i1 i2 =>
    rcases i1 with i1 | ⟨e, h1, h2, h3⟩
    · rcases i2 with i2 | ⟨e, h1, h2, h3⟩
      · left
        rcases i1 with rfl | ⟨e, h1, h2, h3⟩
        · exact i2
        · rcases i2 with rfl | ⟨e', h1', h2', h3'⟩
          · exact .inr ⟨e, h1, h2, h3⟩
          · rcases le_total e.2.2 e'.2.2 with hle | hle
            · exact .inr ⟨e', h1', h2', .trans _ _ _ (mono hle h3) h3'⟩
            · exact .inr ⟨e, h1, h2, .trans _ _ _ h3 (mono hle h3')⟩
      · exact .inr ⟨e, h1, h2, .trans _ _ _ hxy h3⟩
    · exact .inr ⟨e, h1, h2, h3⟩

end Corr
end Verif
