import Verif.Lemmas.Groups
/-
Helper lemmas: what the stabilities of the clusters of a run consist of, and what the run reports about them.
-/
namespace Verif.Props
open Spec Relation
variable {W S : Type}

/-- The clusters of a run: births, members, calls; and the report. -/
theorem out_terms [LinearOrder W] [CCmp S] (ar : Arith W S) (smax : S) (sch : Run.Schedule) (hsch : sch.Complete) (minPoints : Nat) (hm : 2 ≤ minPoints) (dis : Distance W)
    (n : Nat) (hsize : minPoints ≤ n) (hn : n < 2 ^ 32) (d : Nat → Nat → W) (core : Nat → W)
    (hget : ∀ i j, i < n → j < n → i ≠ j → dis.get ar.zeroW i j = .ok (d i j)) (hsym : ∀ i j, d i j = d j i)
    (hcore : ∀ i, i < n → dis.coreDistances[i]? = some (some (core i)))
    (hmax : ∀ i j, i < n → j < n → i ≠ j → mutualReach d core i j < ar.dmax)
    {Wt : W → Prop} (hwt : ∀ i j, i < n → j < n → Wt (mutualReach d core i j))
    {out : Run.Out W S} (hout : Run.doRun ar smax sch minPoints dis n = .ok out) :
    (∀ (l : Nat) (c : Cl W S), out.clusters[l]? = some (some c) →
      (l ≠ 1 → ∃ (b : W) (members : List Nat) (leave : Nat → W) (es : List (Hier.Event W)), c.birth = some b ∧ Wt b ∧ members ≠ [] ∧ members.Nodup ∧ members.length ≤ n ∧
        (∀ p, p ∈ members ↔ ∃ i, Carries out.hierarchy i p l) ∧ (∀ p ∈ members, LeavesAt out.hierarchy l p (leave p) ∧ leave p < b ∧ Wt (leave p)) ∧
        c.stability = Hier.total ar es ∧ (∀ e ∈ es, e.1 ≠ 0) ∧ Hier.total (Hier.tallyArith ar.zeroW ar.dmax) es = (members.map (fun p => (leave p, some b)) : List (W × Option W))) ∧
      (l = 1 → ∃ es : List (Nat × W), (∀ e ∈ es, e.1 ≠ 0) ∧ c.birth = none ∧ c.stability = es.foldl (fun s e => ar.add s (ar.term e.1 e.2 none)) ar.zeroS)) ∧
    (out.infinite = true ↔ ∃ (l : Nat) (c : Cl W S), out.clusters[l]? = some (some c) ∧ CCmp.eq c.stability smax = true) := by
  obtain ⟨g, g', e1, e2, e3, hin, hconn, _⟩ := Run.sorted_mst ar.zeroW ar.dmax dis n (by omega) d core hget hsym hcore hmax
  obtain ⟨res, hres, hlev⟩ := C27_levels ar minPoints hm dis n hsize hn d core hget hsym hcore hmax
  subst e3
  obtain ⟨res2, hres2, hbirth, _⟩ := C29_birth ar g' minPoints (by omega) hn hin
  obtain ⟨res4, hres4, hterms⟩ := Hier.terms ar g' minPoints (by omega) hn hin
  obtain ⟨f, hr, ec, hd, hs, htr⟩ := Hier.input_rep hin
  obtain ⟨res', hist, cur, noise, last, e, h⟩ := Hier.obs ar hr hin.nonempty ec rfl hn (show 1 ≤ minPoints by omega) hd hs
  rw [Run.hierarchy, e1] at hres
  simp only [Outcome.ok_bind, e2] at hres
  rw [e] at hres; cases hres
  rw [e] at hres2; cases hres2
  rw [e] at hres4; cases hres4
  obtain ⟨s, V, hall, hx, hsel, labels, hlen, hprom, hiff⟩ := Sel.labels_rep h.toBase smax
  simp only [Run.doRun, e1, e2, Outcome.ok_bind, Run.fromTree, e, hall _ (hsch.leaf _), hprom sch.group sch.steps hsch.group hsch.steps, Outcome.pure_eq] at hout
  cases hout
  obtain ⟨htree, _, hncs⟩ := Sel.obs_tree h.toBase
  obtain ⟨hrr, ht, hout⟩ := Sel.tree_of (ar := ar) htree
  have hN := htree.two
  have hW : ∀ i w, i ≠ 0 → HasWeight res.hierarchy i w → Wt w := by
    intro i w hi hw
    obtain ⟨u, v, hmeet, _⟩ := (hlev w).1 ⟨i, hi, hw⟩
    rcases reach_value hmeet.2.1 with he | ⟨a, b, ha, hb, hab, hreach⟩
    · exact absurd he hmeet.1
    · rcases lt_or_eq_of_le hab with hlt | heq
      · exact absurd hreach (hmeet.2.2 _ hlt)
      · rw [← heq]; exact hwt a b ha hb
  -- the clusters before and after the propagation
  have hV : ∀ (l : Nat) (c : Cl W S), s.clusters[l]? = some (some c) → 1 ≤ l ∧ l < res.clusters.length ∧ res.clusters[l]? = some (some (Sel.kOf ar res.clusters l)) ∧
      c.birth = (Sel.kOf ar res.clusters l).birth ∧ c.stability = (Sel.kOf ar res.clusters l).stability := by
    intro l c hc
    have hlt : l < res.clusters.length := by
      have := (List.getElem?_eq_some_iff.1 hc).1
      rwa [hx.rep.len] at this
    have h0 : 1 ≤ l := by
      by_contra h0
      have : l = 0 := by omega
      subst this
      rw [hx.rep.zero] at hc; simp at hc
    have h1 := hx.rep.at' l h0 hlt
    rw [hc] at h1
    have h2 : c = V l := by simpa using h1
    have h3 := hx.inv.stat l
    exact ⟨h0, hlt, hrr.at' l h0 hlt, by rw [h2, h3], by rw [h2, h3]⟩
  refine ⟨fun l c hc => ⟨fun hl => ?_, fun hl => ?_⟩, ?_⟩
  · obtain ⟨h0, hlt, hK, hb, hst⟩ := hV l c hc
    obtain ⟨b, members, leave, es, h1, h2, h3, h4, h5, h6, h7, h8, h9⟩ := hterms l _ hK hl
    have hlen' : members.length ≤ g'.numVertices := by
      have := List.Subperm.length_le (h4.subperm (l₂ := List.range g'.numVertices) fun p hp => List.mem_range.2 (h6 p hp).2.2.2)
      simpa using this
    refine ⟨b, members, leave, es, hb.trans h1, ?_, h3, h4, hlen', h5, fun p hp => ⟨(h6 p hp).1, (h6 p hp).2.1, ?_⟩, hst.trans h7, h8, h9⟩
    · obtain ⟨q0, b', i0, b1, b2, b3, b4, b5, _⟩ := hbirth l _ hK hl
      rw [h1] at b2; cases b2
      exact hW i0 b (by omega) b5
    · obtain ⟨⟨i, i1, _, i3, _⟩, _⟩ := h6 p hp
      exact hW i _ (by omega) i3
  · subst hl
    obtain ⟨h0, hlt, hK, hb, hst⟩ := hV 1 c hc
    obtain ⟨_, _, hi⟩ := h.bk.get hK
    obtain ⟨es, c1, c2⟩ := hi.calls
    rw [(hi.root rfl).1] at c2
    exact ⟨es, c1, hb.trans (hi.root rfl).1, hst.trans c2⟩
  · show s.infinite = true ↔ _
    rw [hx.inf, List.any_eq_true]
    constructor
    · rintro ⟨l, hl, hc⟩
      rw [List.mem_range'_1] at hl
      have h1 := hx.rep.at' l (by omega) (by omega)
      refine ⟨l, _, h1, ?_⟩
      rw [hx.inv.stat l]
      exact hc
    · rintro ⟨l, c, hl, hc⟩
      obtain ⟨h0, hlt, _, _, hst⟩ := hV l c hl
      refine ⟨l, List.mem_range'_1.2 ⟨by omega, by omega⟩, ?_⟩
      rw [← hst]
      exact hc

end Verif.Props
