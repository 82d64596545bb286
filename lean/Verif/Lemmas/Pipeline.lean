import Verif.Model.Run
import Verif.Props.Mst
import Verif.Props.Graph
import Verif.Props.Hierarchy
/-
Helper lemmas: the sorted spanning tree is an admissible input of the hierarchy construction.
-/
namespace Verif.Run
open Spec
variable {W S : Type}

theorem zip_of_triples {va vb : List Nat} {wt : List W} (ha : va.length = wt.length) (hb : vb.length = wt.length) :
    va.zip vb = (triples va vb wt).map (fun x => (x.1, x.2.1)) := by
  rw [triples]
  apply List.ext_getElem
  · simp [ha, hb]
  · intro i h1 h2; simp

theorem sorted_mst [LinearOrder W] (zero dmax : W) (dis : Distance W) (n : Nat) (hn : 1 ≤ n) (d : Nat → Nat → W) (core : Nat → W)
    (hget : ∀ i j, i < n → j < n → i ≠ j → dis.get zero i j = .ok (d i j)) (hsym : ∀ i j, d i j = d j i)
    (hcore : ∀ i, i < n → dis.coreDistances[i]? = some (some (core i)))
    (hmax : ∀ i j, i < n → j < n → i ≠ j → mutualReach d core i j < dmax) :
    ∃ g g' : Graph W, Mst.construct zero dmax true dis n = .ok g ∧ Graph.sortByWeight g = .ok g' ∧ g'.numVertices = n ∧
      TreeInput n g'.va g'.vb g'.wt g'.edges ∧
      (∀ M u v, ConnectedBy (triples g'.va g'.vb g'.wt) M u v ↔ Reachable n (mutualReach d core) M u v) ∧
      (∀ w, w ∈ g'.wt ↔ (∃ i, i < n ∧ w = core i) ∨ (∃ i j, i < n ∧ j < n ∧ i ≠ j ∧ w = mutualReach d core i j ∧ w ∈ g'.wt)) := by
  obtain ⟨g, N, e, htr, hN, hspan, hnv, hl1, hl2, hdes⟩ := Props.C21_spanning_tree zero dmax dis n hn d core hget hsym hcore hmax
  obtain ⟨g0, e0, hconn, _⟩ := Props.C22_minimum zero dmax dis n hn d core hget hsym hcore hmax
  have : g0 = g := by rw [e] at e0; exact (Outcome.ok.inj e0).symm
  subst this
  obtain ⟨g', e', hsort, hperm, hed, hnv', hl1', hl2'⟩ := Props.C23_edge_sort g0 hl1 hl2
  have hzip := zip_of_triples hl1' hl2'
  have hzip0 := zip_of_triples hl1 hl2
  have hzp : (g'.va.zip g'.vb).Perm (g0.va.zip g0.vb) := by
    rw [hzip, hzip0]; exact hperm.map _
  have hz0 : g0.va.zip g0.vb = (List.range (n - 1)).map (fun i => (N i, i)) ++ (List.range n).map (fun v => (v, v)) := by
    rw [hzip0, htr]
    simp [Function.comp_def]
  have hlen : g'.wt.length = n - 1 + n := by
    have h1 := hzp.length_eq
    rw [hz0] at h1
    simp [hl1', hl2'] at h1
    exact h1
  have hends : ∀ e ∈ g'.va.zip g'.vb, e.1 < n ∧ e.2 < n := by
    intro e he
    have := hzp.mem_iff.1 he
    rw [hz0] at this
    rcases List.mem_append.1 this with h | h
    · obtain ⟨i, hi, rfl⟩ := List.mem_map.1 h
      rw [List.mem_range] at hi
      exact ⟨(hN i hi).1, by simp only; omega⟩
    · obtain ⟨i, hi, rfl⟩ := List.mem_map.1 h
      exact ⟨List.mem_range.1 hi, List.mem_range.1 hi⟩
  refine ⟨g0, g', e, e', by rw [hnv', hnv], ⟨by omega, hl1', hl2', ?_, ?_, hsort, ?_, ?_, ?_⟩, ?_, ?_⟩
  · intro a ha
    obtain ⟨i, hi, rfl⟩ := List.mem_iff_getElem.1 ha
    have hib : i < g'.vb.length := by omega
    exact (hends (g'.va[i], g'.vb[i]) (List.mem_iff_getElem.2 ⟨i, by simp; omega, by simp⟩)).1
  · intro b hb
    obtain ⟨i, hi, rfl⟩ := List.mem_iff_getElem.1 hb
    have hib : i < g'.va.length := by omega
    exact (hends (g'.va[i], g'.vb[i]) (List.mem_iff_getElem.2 ⟨i, by simp; omega, by simp⟩)).2
  · rw [hed]
    exact ⟨hdes.1, fun v w hv => by rw [hdes.2 v w hv, hzp.countP_eq]⟩
  · intro u v hu hv
    refine Prim.eqv_mono ?_ (hspan u v hu hv)
    intro a b hab
    exact hzp.mem_iff.2 (by rw [hz0]; exact List.mem_append_left _ hab)
  · intro v
    rw [hzp.countP_eq, hz0, List.countP_append]
    have h1 : ((List.range (n - 1)).map (fun i => (N i, i))).countP (joins v v) = 0 := by
      rw [List.countP_eq_zero]
      intro e he hj
      obtain ⟨i, hi, rfl⟩ := List.mem_map.1 he
      have := (hN i (List.mem_range.1 hi)).2
      simp [joins] at hj
      omega
    have h2 : ((List.range n).map (fun v => (v, v))).countP (joins v v) ≤ 1 := by
      rw [List.countP_map]
      have : (List.range n).countP (joins v v ∘ fun v => (v, v)) = (List.range n).count v := by
        rw [List.count]
        apply List.countP_congr
        intro x _
        simp [joins]
      rw [this]
      exact List.nodup_iff_count_le_one.1 List.nodup_range v
    omega
  · intro M u v
    rw [← hconn]
    have hiff : (fun a b => ∃ w, (a, b, w) ∈ triples g'.va g'.vb g'.wt ∧ w ≤ M) = (fun a b => ∃ w, (a, b, w) ∈ triples g0.va g0.vb g0.wt ∧ w ≤ M) := by
      funext a b
      simp only [hperm.mem_iff]
    rw [ConnectedBy, ConnectedBy, hiff]
  · intro w
    have hwt : ∀ x, x ∈ g'.wt ↔ ∃ t ∈ triples g0.va g0.vb g0.wt, t.2.2 = x := by
      intro x
      have : g'.wt = (triples g'.va g'.vb g'.wt).map (fun t => t.2.2) := by
        rw [triples]
        apply List.ext_getElem
        · simp [hl1', hl2']
        · intro i h1 h2; simp
      rw [this, List.mem_map]
      simp only [hperm.mem_iff]
    constructor
    · intro hw
      obtain ⟨t, ht, rfl⟩ := (hwt w).1 hw
      rw [htr] at ht
      rcases List.mem_append.1 ht with h | h
      · obtain ⟨i, hi, rfl⟩ := List.mem_map.1 h
        rw [List.mem_range] at hi
        exact .inr ⟨N i, i, (hN i hi).1, by omega, (hN i hi).2, rfl, hw⟩
      · obtain ⟨i, hi, rfl⟩ := List.mem_map.1 h
        exact .inl ⟨i, List.mem_range.1 hi, rfl⟩
    · rintro (⟨i, hi, rfl⟩ | ⟨_, _, _, _, _, _, hw⟩)
      · refine (hwt _).2 ⟨(i, i, core i), ?_, rfl⟩
        rw [htr]
        exact List.mem_append_right _ (List.mem_map.2 ⟨i, List.mem_range.2 hi, rfl⟩)
      · exact hw

end Verif.Run
