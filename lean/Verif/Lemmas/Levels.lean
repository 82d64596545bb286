import Verif.Lemmas.Corr
import Verif.Lemmas.Pipeline
/-
Helper lemmas: the edges of the spanning tree and the levels at which points get connected.
-/
namespace Verif.Props
open Spec
variable {W : Type} [LinearOrder W]

theorem ConnectedBy.mono {E : List (Nat × Nat × W)} {w w' : W} (h : w ≤ w') {u v : Nat} (hc : ConnectedBy E w u v) : ConnectedBy E w' u v :=
  Prim.eqv_mono (fun _ _ ⟨z, h1, h2⟩ => ⟨z, h1, h2.trans h⟩) hc

/-- A connection uses an edge of the largest weight allowed, or exists below it. -/
theorem uses_or_below {E : List (Nat × Nat × W)} {w : W} {u v : Nat} (h : ConnectedBy E w u v) :
    u = v ∨ (∃ w', w' < w ∧ ConnectedBy E w' u v) ∨ ∃ a b, (a, b, w) ∈ E ∧ a ≠ b ∧ ConnectedBy E w u a := by
  induction h with
  | rel x y hxy =>
    obtain ⟨z, hz, hle⟩ := hxy
    rcases hle.lt_or_eq with hlt | rfl
    · exact .inr (.inl ⟨z, hlt, .rel _ _ ⟨z, hz, le_refl _⟩⟩)
    · by_cases he : x = y
      · exact .inl he
      · exact .inr (.inr ⟨x, y, hz, he, .refl _⟩)
  | refl => exact .inl rfl
  | symm x y hxy ih =>
    rcases ih with rfl | ⟨w', h1, h2⟩ | ⟨a, b, h1, hab, h2⟩
    · exact .inl rfl
    · exact .inr (.inl ⟨w', h1, .symm _ _ h2⟩)
    · exact .inr (.inr ⟨a, b, h1, hab, .trans _ _ _ (.symm _ _ hxy) h2⟩)
  | trans x y z hxy hyz i1 i2 =>
    rcases i1 with rfl | ⟨w1, h1, h2⟩ | ⟨a, b, h1, hab, h2⟩
    · exact i2
    · rcases i2 with rfl | ⟨w2, h3, h4⟩ | ⟨a, b, h3, hab, h4⟩
      · exact .inr (.inl ⟨w1, h1, h2⟩)
      · exact .inr (.inl ⟨max w1 w2, max_lt h1 h3, .trans _ _ _ (ConnectedBy.mono (le_max_left _ _) h2) (ConnectedBy.mono (le_max_right _ _) h4)⟩)
      · exact .inr (.inr ⟨a, b, h3, hab, .trans _ _ _ hxy h4⟩)
    · exact .inr (.inr ⟨a, b, h1, hab, h2⟩)

/-- An edge of Prim's tree joins two points that are not connected below its weight. -/
theorem run_meets {n : Nat} {m : Nat → Nat → W} {a pi : Nat → Nat} (h : Prim.Run n m a pi) (hs : ∀ i j, m i j = m j i) {t : Nat} (h0 : 0 < t) (ht : t < n) :
    MeetAt n m (m (a (pi t)) (a t)) (a (pi t)) (a t) := by
  have hp := h.pi_lt t h0 ht
  refine ⟨fun he => ?_, .rel _ _ ⟨h.lt _ (by omega), h.lt _ ht, fun he => ?_, le_refl _⟩, fun w' hw hr => ?_⟩
  · have := h.inj _ _ (by omega) ht he; omega
  · have := h.inj _ _ (by omega) ht he; omega
  · have key : ∀ x y, Reachable n m w' x y → ((∃ s, s < t ∧ a s = x) ↔ ∃ s, s < t ∧ a s = y) := by
      intro x y hxy
      induction hxy with
      | rel x y hxy =>
        obtain ⟨hx, hy, _, hle⟩ := hxy
        obtain ⟨p, hp1, rfl⟩ := h.surj x hx
        obtain ⟨q, hq1, rfl⟩ := h.surj y hy
        have hin : ∀ s, s < n → ((∃ s', s' < t ∧ a s' = a s) ↔ s < t) := fun s hs' =>
          ⟨fun ⟨s', h1, h2⟩ => by have := h.inj s' s (by omega) hs' h2; omega, fun h1 => ⟨s, h1, rfl⟩⟩
        rw [hin p hp1, hin q hq1]
        constructor
        · intro hpt
          by_contra hqt
          exact absurd (h.cheapest t h0 ht p q hpt (by omega) hq1) (not_le.2 (lt_of_le_of_lt hle hw))
        · intro hqt
          by_contra hpt
          exact absurd (h.cheapest t h0 ht q p hqt (by omega) hp1) (not_le.2 (lt_of_le_of_lt (hs _ _ ▸ hle) hw))
      | refl => exact Iff.rfl
      | symm _ _ _ ih => exact ih.symm
      | trans _ _ _ _ _ i1 i2 => exact i1.trans i2
    obtain ⟨s, h1, h2⟩ := (key _ _ hr).1 ⟨pi t, hp, rfl⟩
    have := h.inj s t (by omega) ht h2
    omega

/-- A point meets no other point below its core distance. -/
theorem core_meets {n : Nat} {d : Nat → Nat → W} {core : Nat → W} {w' : W} {u v : Nat} (h : Reachable n (mutualReach d core) w' u v) (hne : u ≠ v) :
    core u ≤ w' ∧ core v ≤ w' := by
  have key : u = v ∨ (core u ≤ w' ∧ core v ≤ w') := by
    clear hne
    induction h with
    | rel x y hxy => exact .inr ⟨(le_max_right _ _).trans ((le_max_left _ _).trans hxy.2.2.2), (le_max_right _ _).trans hxy.2.2.2⟩
    | refl => exact .inl rfl
    | symm _ _ _ ih => exact ih.elim (fun e => .inl e.symm) (fun e => .inr e.symm)
    | trans _ _ _ _ _ i1 i2 =>
      rcases i1 with rfl | i1
      · exact i2
      · rcases i2 with rfl | i2
        · exact .inr i1
        · exact .inr ⟨i1.1, i2.2⟩
  exact key.resolve_left hne

/-- The edges of the sorted spanning tree are the self edges and pairs of points that meet at the weight of the edge. -/
theorem sorted_mst_meets (zero dmax : W) (dis : Distance W) (n : Nat) (hn : 1 ≤ n) (d : Nat → Nat → W) (core : Nat → W)
    (hget : ∀ i j, i < n → j < n → i ≠ j → dis.get zero i j = .ok (d i j)) (hsym : ∀ i j, d i j = d j i)
    (hcore : ∀ i, i < n → dis.coreDistances[i]? = some (some (core i)))
    (hmax : ∀ i j, i < n → j < n → i ≠ j → mutualReach d core i j < dmax) {g g' : Graph W} (e1 : Mst.construct zero dmax true dis n = .ok g)
    (e2 : Graph.sortByWeight g = .ok g') {a b : Nat} {w : W} (hmem : (a, b, w) ∈ triples g'.va g'.vb g'.wt) :
    (a = b ∧ w = core a) ∨ MeetAt n (mutualReach d core) w a b := by
  have hr : Mst.Ready zero dis n d core := ⟨hget, fun i hi => by simp [rdInit, rd, hcore i hi], hsym⟩
  have hms := Mst.mutualReach_symm (core := core) hsym
  obtain ⟨g0, α, pi, N, e, _, hrun, hN, hp, hva, hvb, hwt, hnv, hd⟩ := Mst.construct_rep hn hr hmax
  have : g0 = g := by rw [e] at e1; exact Outcome.ok.inj e1
  subst this
  obtain ⟨g1, e', _, hperm, _⟩ := C23_edge_sort g0 (by rw [hva, hwt]; simp) (by rw [hvb, hwt]; simp)
  have : g1 = g' := by rw [e'] at e2; exact Outcome.ok.inj e2
  subst this
  have htr : triples g0.va g0.vb g0.wt = (List.range (n - 1)).map (fun i => (N i, i, mutualReach d core (N i) i)) ++
      (List.range n).map (fun v => (v, v, core v)) := by
    rw [triples, hva, hvb, hwt, List.zip_append (by simp), List.zip_append (by simp)]
    congr 1
    · apply List.ext_getElem
      · simp
      · intro i h1 h2; simp
    · apply List.ext_getElem
      · simp
      · intro i h1 h2; simp
  have hm := hperm.mem_iff.1 hmem
  rw [htr, List.mem_append, List.mem_map, List.mem_map] at hm
  rcases hm with ⟨i, hi, he⟩ | ⟨i, hi, he⟩
  · right
    simp only [Prod.mk.injEq] at he
    obtain ⟨rfl, rfl, rfl⟩ := he
    have h1 : (N i, i) ∈ Prim.treeEdges α pi (n - 1) := hp.mem_iff.2 (List.mem_map.2 ⟨i, hi, rfl⟩)
    obtain ⟨t, h2, h3, h4⟩ := Prim.mem_treeEdges.1 h1
    simp only [Prod.mk.injEq] at h4
    rw [h4.1, show mutualReach d core (α (pi t)) i = mutualReach d core (α (pi t)) (α t) by rw [← h4.2]]
    have := run_meets hrun hms h2 (by omega)
    rwa [← h4.2] at this ⊢
  · left
    simp only [Prod.mk.injEq] at he
    obtain ⟨rfl, rfl, rfl⟩ := he
    exact ⟨rfl, rfl⟩

/-- The sorted spanning tree has `n - 1` edges between different points. -/
theorem sorted_mst_edges (zero dmax : W) (dis : Distance W) (n : Nat) (hn : 1 ≤ n) (d : Nat → Nat → W) (core : Nat → W)
    (hget : ∀ i j, i < n → j < n → i ≠ j → dis.get zero i j = .ok (d i j)) (hsym : ∀ i j, d i j = d j i)
    (hcore : ∀ i, i < n → dis.coreDistances[i]? = some (some (core i)))
    (hmax : ∀ i j, i < n → j < n → i ≠ j → mutualReach d core i j < dmax) {g g' : Graph W} (e1 : Mst.construct zero dmax true dis n = .ok g)
    (e2 : Graph.sortByWeight g = .ok g') : ((triples g'.va g'.vb g'.wt).filter (fun e => decide (e.1 ≠ e.2.1))).length = n - 1 := by
  obtain ⟨g0, N, e, htr, hN, _, _, hl1, hl2, _⟩ := C21_spanning_tree zero dmax dis n hn d core hget hsym hcore hmax
  have : g0 = g := by rw [e] at e1; exact Outcome.ok.inj e1
  subst this
  obtain ⟨g1, e', _, hperm, _⟩ := C23_edge_sort g0 hl1 hl2
  have : g1 = g' := by rw [e'] at e2; exact Outcome.ok.inj e2
  subst this
  rw [(hperm.filter _).length_eq, htr, List.filter_append, List.filter_eq_self.2, List.filter_eq_nil_iff.2]
  · simp
  · intro x hx
    obtain ⟨i, _, rfl⟩ := List.mem_map.1 hx
    simp
  · intro x hx
    obtain ⟨i, hi, rfl⟩ := List.mem_map.1 hx
    simpa using (hN i (List.mem_range.1 hi)).2

end Verif.Props
