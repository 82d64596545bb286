import Verif.Props.Density
import Verif.Lemmas.Levels
/-
C27 for data sets: which levels have a hierarchy line.
-/
namespace Verif.Props
open Spec
variable {W S : Type}

section
variable [LinearOrder W]

/-- **C27** for a data set of `n ≥ minPoints ≥ 2` points with distances `d` and core distances `core`: the levels that have a line (other than line 0) are
    exactly the levels at which two different points get connected that lie in a component of at least `minPoints` points at that level. No such level is left
    out and no other level appears. -/
theorem C27_levels (ar : Arith W S) (minPoints : Nat) (hm : 2 ≤ minPoints) (dis : Distance W) (n : Nat)
    (hsize : minPoints ≤ n) (hn : n < 2 ^ 32) (d : Nat → Nat → W) (core : Nat → W)
    (hget : ∀ i j, i < n → j < n → i ≠ j → dis.get ar.zeroW i j = .ok (d i j)) (hsym : ∀ i j, d i j = d j i)
    (hcore : ∀ i, i < n → dis.coreDistances[i]? = some (some (core i)))
    (hmax : ∀ i j, i < n → j < n → i ≠ j → mutualReach d core i j < ar.dmax) :
    ∃ res : Hier.Result W S, Run.hierarchy ar minPoints dis n = .ok res ∧
      ∀ w, (∃ i, i ≠ 0 ∧ HasWeight res.hierarchy i w) ↔
        ∃ u v, MeetAt n (mutualReach d core) w u v ∧ AtLeast minPoints (fun x => Reachable n (mutualReach d core) w u x) := by
  obtain ⟨g, g', e1, e2, e3, hin, hconn, _⟩ := Run.sorted_mst ar.zeroW ar.dmax dis n (by omega) d core hget hsym hcore hmax
  have hmeet := @sorted_mst_meets _ _ ar.zeroW ar.dmax dis n (by omega) d core hget hsym hcore hmax g g' e1 e2
  subst e3
  obtain ⟨f, hr, ec, hd, hs, htr⟩ := Hier.input_rep hin
  obtain ⟨res, hist, cur, noise, last, e, h⟩ := Hier.obs ar hr hin.nonempty ec rfl hn (show 1 ≤ minPoints by omega) hd hs
  refine ⟨res, by rw [Run.hierarchy, e1]; simp only [Outcome.ok_bind, e2]; exact e, fun w => ?_⟩
  have hline := Corr.line_iff h ⟨ec, hs⟩ hm hsize w
  have hC : ∀ w u v, Corr.Conn g'.wt.length f w u v ↔ Reachable g'.numVertices (mutualReach d core) w u v := by
    intro w u v; rw [Corr.Conn, ← htr]; exact hconn w u v
  have hcon : ∀ w u v, ConnectedBy (triples g'.va g'.vb g'.wt) w u v ↔ Corr.Conn g'.wt.length f w u v := by
    intro w u v; rw [Corr.Conn, ← htr]
  have hw : (∃ i, i ≠ 0 ∧ HasWeight res.hierarchy i w) ↔ w ∈ hist.map (·.1) := by
    constructor
    · rintro ⟨i, hi, hw⟩
      obtain ⟨g0, hg0⟩ := h.weight_of (by omega) hw
      exact List.mem_map.2 ⟨_, List.mem_of_getElem? hg0, rfl⟩
    · intro hw
      obtain ⟨x, hx, rfl⟩ := List.mem_map.1 hw
      obtain ⟨s, hs'⟩ := List.mem_iff_getElem?.1 hx
      exact ⟨s + 1, by omega, h.hasWeight hs'⟩
  rw [hw, hline]
  constructor
  · rintro ⟨u, hu, ⟨l, q1, q2, q3⟩, i, h1, h2, h3⟩
    have hbig : ∀ x, Reachable g'.numVertices (mutualReach d core) w u x → AtLeast minPoints (fun y => Reachable g'.numVertices (mutualReach d core) w x y) :=
      fun x hx => ⟨l, q1, q2, fun y hy => .trans _ _ _ (.symm _ _ hx) ((hC w u y).1 (q3 y hy))⟩
    have hmem : ((f i).1, (f i).2.1, w) ∈ triples g'.va g'.vb g'.wt := by
      rw [htr, ← h2]; exact List.mem_map.2 ⟨i, List.mem_range.2 h1, rfl⟩
    have h3' := (hC w u _).1 h3
    rcases hmeet hmem with ⟨_, hc⟩ | hmt
    · -- a self edge: the point meets another point of its component at its core distance
      obtain ⟨l', p1, p2, p3⟩ := hbig _ h3'
      obtain ⟨v, hv, hne⟩ : ∃ v ∈ l', v ≠ (f i).1 := by
        by_contra hn'
        push Not at hn'
        have h5 := List.nodup_iff_count_le_one.1 p1 (f i).1
        have h4 : l' = List.replicate l'.length (f i).1 := List.eq_replicate_iff.2 ⟨rfl, hn'⟩
        rw [h4, List.count_replicate_self] at h5
        omega
      refine ⟨(f i).1, v, ⟨fun he => hne he.symm, p3 v hv, fun w' hlt hre => ?_⟩, hbig _ h3'⟩
      have := (core_meets hre (fun he => hne he.symm)).1
      rw [← hc] at this
      exact absurd this (not_le.2 hlt)
    · exact ⟨_, _, hmt, hbig _ h3'⟩
  · rintro ⟨u, v, ⟨hne, hre, hlow⟩, l, q1, q2, q3⟩
    have hcl := (hconn w u v).2 hre
    rcases uses_or_below hcl with he | ⟨w', hw', hc'⟩ | ⟨a, b, hab, _, hua⟩
    · exact absurd he hne
    · exact absurd ((hconn w' u v).1 hc') (hlow w' hw')
    · rw [htr] at hab
      obtain ⟨i, hi, he⟩ := List.mem_map.1 hab
      have hiM := List.mem_range.1 hi
      have hlt : a < g'.numVertices := by have := (ec.lt i hiM).1; rw [he] at this; exact this
      have hc := (hcon w u a).1 hua
      refine ⟨u, (Corr.Inp.conn_lt ⟨ec, hs⟩ hc).2 hlt, ⟨l, q1, q2, fun x hx => (hC w u x).2 (q3 x hx)⟩, i, hiM, by rw [he], by rw [he]; exact hc⟩

end

/-- Five points on a line: lines at 4, 2 and 1 only (see the example after `C26_data`); the core distances are 1 and 2. -/
example := C27_levels lineArith 2 (by omega)
    lineData 5 (by omega) (by omega) lineDist (fun i => [1, 2, 1, 2, 2].getD i 0)
    (fun i j hi hj => (by decide : ∀ i, i < 5 → ∀ j, j < 5 → i ≠ j → Distance.get (0 : Int) lineData i j = .ok (lineDist i j)) i hi j hj)
    (fun i j => by rw [lineDist, lineDist, ← Int.natAbs_neg, Int.neg_sub])
    (by decide)
    (fun i j hi hj => (by decide : ∀ i, i < 5 → ∀ j, j < 5 → i ≠ j → mutualReach lineDist (fun i => [1, 2, 1, 2, 2].getD i 0) i j < 1000) i hi j hj)

end Verif.Props
