import Verif.Lemmas.Acyclic
import Verif.Lemmas.Rename
/-
Helper lemmas: corresponding mutual reachability distances give corresponding spanning trees.
-/
namespace Verif.Corr
open Spec Relation Hier
variable {W : Type} [LinearOrder W]

/-- All that is used of a sorted spanning tree. -/
structure Good (n : Nat) (d : Nat → Nat → W) (core : Nat → W) (g : Graph W) : Prop where
  num : g.numVertices = n
  inp : TreeInput n g.va g.vb g.wt g.edges
  conn : ∀ M u v, ConnectedBy (triples g.va g.vb g.wt) M u v ↔ Reachable n (mutualReach d core) M u v
  self : ∀ i, i < n → (i, i, core i) ∈ triples g.va g.vb g.wt
  edge : ∀ x y w, (x, y, w) ∈ triples g.va g.vb g.wt → x < n ∧ y < n ∧ ((x = y ∧ w = core x) ∨ (x ≠ y ∧ w = mutualReach d core x y ∧
        ∀ w', w' < w → ¬ ConnectedBy (triples g.va g.vb g.wt) w' x y))

theorem good_of (zero dmax : W) (dis : Distance W) (n : Nat) (hn : 1 ≤ n) (d : Nat → Nat → W) (core : Nat → W)
    (hget : ∀ i j, i < n → j < n → i ≠ j → dis.get zero i j = .ok (d i j)) (hsym : ∀ i j, d i j = d j i)
    (hcore : ∀ i, i < n → dis.coreDistances[i]? = some (some (core i)))
    (hmax : ∀ i j, i < n → j < n → i ≠ j → mutualReach d core i j < dmax) :
    ∃ g g' : Graph W, Mst.construct zero dmax true dis n = .ok g ∧ Graph.sortByWeight g = .ok g' ∧ Good n d core g' := by
  obtain ⟨g, g', e1, e2, h1, h2, h3, _⟩ := Run.sorted_mst zero dmax dis n hn d core hget hsym hcore hmax
  obtain ⟨g0, g0', e1', e2', h4, h5⟩ := Run.sorted_cut zero dmax dis n hn d core hget hsym hcore hmax
  rw [e1] at e1'; cases e1'
  rw [e2] at e2'; cases e2'
  exact ⟨g, g', e1, e2, h1, h2, h3, h4, h5⟩

/-- Corresponding distances. -/
structure Same (n : Nat) (d d' : Nat → Nat → W) (core core' : Nat → W) (σ τ : Nat → Nat) (ψ : W → W) : Prop where
  b : Bij n σ τ
  mono : StrictMono ψ
  dist : ∀ i j, i < n → j < n → i ≠ j → d' (σ i) (σ j) = ψ (d i j)
  core : ∀ i, i < n → core' (σ i) = ψ (core i)

variable {n : Nat} {d d' : Nat → Nat → W} {core core' : Nat → W} {σ τ : Nat → Nat} {ψ : W → W}

theorem Same.mr (h : Same n d d' core core' σ τ ψ) {i j : Nat} (hi : i < n) (hj : j < n) (hij : i ≠ j) :
    mutualReach d' core' (σ i) (σ j) = ψ (mutualReach d core i j) := by
  simp only [mutualReach, h.dist i j hi hj hij, h.core i hi, h.core j hj, h.mono.monotone.map_max]

theorem Same.inj (h : Same n d d' core core' σ τ ψ) {i j : Nat} (hi : i < n) (hj : j < n) (he : σ i = σ j) : i = j := by
  rw [← h.b.ts i hi, ← h.b.ts j hj, he]

theorem Same.reach (h : Same n d d' core core' σ τ ψ) {w : W} {u v : Nat} (hu : u < n) (hv : v < n) :
    Reachable n (mutualReach d core) w u v ↔ Reachable n (mutualReach d' core') (ψ w) (σ u) (σ v) := by
  constructor
  · intro hc
    have key : ∀ u v, Reachable n (mutualReach d core) w u v → Reachable n (mutualReach d' core') (ψ w) (σ u) (σ v) := by
      intro u v hc
      induction hc with
      | rel x y hxy =>
        obtain ⟨h1, h2, h3, h4⟩ := hxy
        exact .rel _ _ ⟨h.b.s x h1, h.b.s y h2, fun e => h3 (h.inj h1 h2 e), by rw [h.mr h1 h2 h3]; exact h.mono.monotone h4⟩
      | refl => exact .refl _
      | symm _ _ _ ih => exact .symm _ _ ih
      | trans _ _ _ _ _ i1 i2 => exact .trans _ _ _ i1 i2
    exact key u v hc
  · intro hc
    have key : ∀ x y, Reachable n (mutualReach d' core') (ψ w) x y → Reachable n (mutualReach d core) w (τ x) (τ y) := by
      intro x y hc
      induction hc with
      | rel x y hxy =>
        obtain ⟨h1, h2, h3, h4⟩ := hxy
        have hne : τ x ≠ τ y := fun e => h3 (by rw [← h.b.st x h1, ← h.b.st y h2, e])
        refine .rel _ _ ⟨h.b.t x h1, h.b.t y h2, hne, ?_⟩
        rw [← h.b.st x h1, ← h.b.st y h2, h.mr (h.b.t x h1) (h.b.t y h2) hne] at h4
        exact h.mono.le_iff_le.1 h4
      | refl => exact .refl _
      | symm _ _ _ ih => exact .symm _ _ ih
      | trans _ _ _ _ _ i1 i2 => exact .trans _ _ _ i1 i2
    have := key _ _ hc
    rwa [h.b.ts u hu, h.b.ts v hv] at this

theorem twin_of {g g' : Graph W} (G : Good n d core g) (G' : Good n d' core' g') (h : Same n d d' core core' σ τ ψ) {M M' : Nat} {f f' : Nat → Nat × Nat × W}
    (hf : triples g.va g.vb g.wt = (List.range M).map f) (hf' : triples g'.va g'.vb g'.wt = (List.range M').map f') : Twin n M M' f f' σ τ ψ := by
  have cf : ∀ {w u v}, Conn M f w u v ↔ Reachable n (mutualReach d core) w u v := by
    intro w u v; rw [Conn, ← hf]; exact G.conn w u v
  have cf' : ∀ {w u v}, Conn M' f' w u v ↔ Reachable n (mutualReach d' core') w u v := by
    intro w u v; rw [Conn, ← hf']; exact G'.conn w u v
  have ed : ∀ i, i < M → f i ∈ triples g.va g.vb g.wt := fun i hi => by rw [hf]; exact List.mem_map.2 ⟨i, List.mem_range.2 hi, rfl⟩
  have ed' : ∀ i, i < M' → f' i ∈ triples g'.va g'.vb g'.wt := fun i hi => by rw [hf']; exact List.mem_map.2 ⟨i, List.mem_range.2 hi, rfl⟩
  have ix : ∀ e, e ∈ triples g.va g.vb g.wt → ∃ i, i < M ∧ f i = e := fun e he => by
    rw [hf] at he
    obtain ⟨i, hi, rfl⟩ := List.mem_map.1 he
    exact ⟨i, List.mem_range.1 hi, rfl⟩
  have ix' : ∀ e, e ∈ triples g'.va g'.vb g'.wt → ∃ i, i < M' ∧ f' i = e := fun e he => by
    rw [hf'] at he
    obtain ⟨i, hi, rfl⟩ := List.mem_map.1 he
    exact ⟨i, List.mem_range.1 hi, rfl⟩
  have conn : ∀ w u v, u < n → v < n → (Conn M f w u v ↔ Conn M' f' (ψ w) (σ u) (σ v)) := by
    intro w u v hu hv
    rw [cf, cf']; exact h.reach hu hv
  have range : ∀ e, e ∈ triples g'.va g'.vb g'.wt → ∃ w, e.2.2 = ψ w := by
    rintro ⟨x, y, w⟩ he
    obtain ⟨h1, h2, ⟨_, h3⟩ | ⟨h3, h4, _⟩⟩ := G'.edge x y w he
    · exact ⟨core (τ x), by rw [← h.core _ (h.b.t x h1), h.b.st x h1]; exact h3⟩
    · have hne : τ x ≠ τ y := fun e => h3 (by rw [← h.b.st x h1, ← h.b.st y h2, e])
      exact ⟨mutualReach d core (τ x) (τ y), by rw [← h.mr (h.b.t x h1) (h.b.t y h2) hne, h.b.st x h1, h.b.st y h2]; exact h4⟩
  refine ⟨h.b, h.mono, conn, ?_, fun i hi => range _ (ed' i hi)⟩
  intro w u hu
  constructor
  · rintro ⟨i, hi, hw, hc⟩
    have he := ed i hi
    rcases hfi : f i with ⟨x, y, w0⟩
    rw [hfi] at he hw hc
    simp only at hw hc
    subst hw
    obtain ⟨h1, h2, ⟨h3, h4⟩ | ⟨h3, h4, h5⟩⟩ := G.edge x y w0 he
    · obtain ⟨j, hj, hje⟩ := ix' _ (G'.self (σ x) (h.b.s x h1))
      refine ⟨j, hj, ?_, ?_⟩
      · rw [hje, h4]; exact h.core x h1
      · rw [hje]; exact (conn w0 u x hu h1).1 hc
    · have hxy : Conn M f w0 x y := .rel _ _ ⟨w0, List.mem_map.2 ⟨i, List.mem_range.2 hi, hfi⟩, le_refl _⟩
      have hxy' := (conn w0 x y h1 h2).1 hxy
      rcases conn_cases hxy' with (hn | ⟨e, e1, e2, e3⟩) | ⟨e, e1, e2, e3⟩
      · exact absurd (h.inj h1 h2 hn) h3
      · rw [← hf'] at e1
        obtain ⟨w1, hw1⟩ := range e e1
        rw [hw1] at e2 e3
        refine absurd ?_ (h5 w1 (h.mono.lt_iff_lt.1 e2))
        rw [hf]
        exact (conn w1 x y h1 h2).2 e3
      · rw [← hf'] at e1
        obtain ⟨j, hj, rfl⟩ := ix' e e1
        exact ⟨j, hj, e2, ((conn w0 u x hu h1).1 hc).trans e3⟩
  · rintro ⟨i, hi, hw, hc⟩
    have he := ed' i hi
    rcases hfi : f' i with ⟨x, y, w0⟩
    rw [hfi] at he hw hc
    simp only at hw hc
    subst hw
    obtain ⟨h1, h2, h3⟩ := G'.edge x y _ he
    have hx := h.b.t x h1
    have hy := h.b.t y h2
    have hux : Conn M f w u (τ x) := (conn w u (τ x) hu hx).2 (by rw [h.b.st x h1]; exact hc)
    rcases h3 with ⟨h3, h4⟩ | ⟨h3, h4, h5⟩
    · obtain ⟨j, hj, hje⟩ := ix _ (G.self (τ x) hx)
      refine ⟨j, hj, ?_, by rw [hje]; exact hux⟩
      rw [hje]
      refine h.mono.injective ?_
      rw [h4, ← h.core _ hx, h.b.st x h1]
    · have hxy' : Conn M' f' (ψ w) x y := .rel _ _ ⟨_, List.mem_map.2 ⟨i, List.mem_range.2 hi, hfi⟩, le_refl _⟩
      have hxy : Conn M f w (τ x) (τ y) := (conn w _ _ hx hy).2 (by rw [h.b.st x h1, h.b.st y h2]; exact hxy')
      rcases conn_cases hxy with (hn | ⟨e, e1, e2, e3⟩) | ⟨e, e1, e2, e3⟩
      · exact absurd (by rw [← h.b.st x h1, ← h.b.st y h2, hn]) h3
      · refine absurd ?_ (h5 _ (h.mono e2))
        rw [hf']
        have := (conn _ _ _ hx hy).1 e3
        rwa [h.b.st x h1, h.b.st y h2] at this
      · rw [← hf] at e1
        obtain ⟨j, hj, rfl⟩ := ix e e1
        exact ⟨j, hj, e2, hux.trans e3⟩

end Verif.Corr
