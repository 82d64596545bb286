import Verif.Lemmas.OutTerms
import Verif.Lemmas.AnyRun
/-
Helper lemmas: what the stabilities of the clusters of a run consist of, without any bound on the distances.
-/
namespace Verif.Props
open Spec Relation
variable {W S : Type}

/-- The clusters of a run: births, members, calls; and the report. -/
theorem out_any [LinearOrder W] [CCmp S] (ar : Arith W S) (smax : S) (sch : Run.Schedule) (hsch : sch.Complete) (minPoints : Nat) (hm : 2 ≤ minPoints) (dis : Distance W)
    (n : Nat) (hn1 : 1 ≤ n) (hn : n < 2 ^ 32) (d : Nat → Nat → W) (core : Nat → W)
    (hget : ∀ i j, i < n → j < n → i ≠ j → dis.get ar.zeroW i j = .ok (d i j)) (hsym : ∀ i j, d i j = d j i)
    (hcore : ∀ i, i < n → dis.coreDistances[i]? = some (some (core i))) (hle : ∀ i, i < n → core i ≤ ar.dmax)
    {Wt : W → Prop} (hwd : Wt ar.dmax) (hwt : ∀ i j, i < n → j < n → mutualReach d core i j ≤ ar.dmax → Wt (mutualReach d core i j)) (hwc : ∀ i, i < n → Wt (core i))
    {out : Run.Out W S} (hout : Run.doRun ar smax sch minPoints dis n = .ok out) :
    (∀ (l : Nat) (c : Cl W S), out.clusters[l]? = some (some c) →
      (l ≠ 1 → ∃ (b : W) (members : List Nat) (leave : Nat → W) (es : List (Hier.Event W)), c.birth = some b ∧ Wt b ∧ b ≤ ar.dmax ∧ members ≠ [] ∧ members.Nodup ∧ members.length ≤ n ∧
        (∀ p, p ∈ members ↔ ∃ i, Carries out.hierarchy i p l) ∧ (∀ p ∈ members, LeavesAt out.hierarchy l p (leave p) ∧ leave p < b ∧ Wt (leave p)) ∧
        c.stability = Hier.total ar es ∧ (∀ e ∈ es, e.1 ≠ 0) ∧ Hier.total (Hier.tallyArith ar.zeroW ar.dmax) es = (members.map (fun p => (leave p, some b)) : List (W × Option W))) ∧
      (l = 1 → ∃ es : List (Nat × W), (∀ e ∈ es, e.1 ≠ 0) ∧ c.birth = none ∧ c.stability = es.foldl (fun s e => ar.add s (ar.term e.1 e.2 none)) ar.zeroS)) ∧
    (out.infinite = true ↔ ∃ (l : Nat) (c : Cl W S), out.clusters[l]? = some (some c) ∧ CCmp.eq c.stability smax = true) := by
  obtain ⟨g, g', e1, gle, e2, hnv, hM, hwle, ⟨f, hf, ec, hd, hself, hconn, hcs⟩, _, hval⟩ := Run.sorted_any ar.zeroW ar.dmax dis n hn1 d core hget hsym hcore hle
  have hWt : ∀ w ∈ g'.wt, Wt w := by
    intro w hw
    rcases hval w hw with h | ⟨i, j, hi, hj, h⟩ | ⟨i, hi, h⟩
    · rw [h]; exact hwd
    · rw [h]; exact hwt i j hi hj (h ▸ hwle w hw)
    · rw [h]; exact hwc i hi
  obtain ⟨res, hist, cur, noise, last, e, h, _, _⟩ := Hier.any_rep (m := minPoints) ar hf hM ec hnv hn hm hd hself
  obtain ⟨res1, hist1, cur1, noise1, last1, e', h', hline', _⟩ := Hier.any_rep (m := minPoints) (Hier.tallyArith ar.zeroW ar.dmax) hf hM ec hnv hn hm hd hself
  obtain ⟨res4, hres4, hterms⟩ := Hier.terms_base ar g' minPoints e' (by rw [hnv]; exact h') (fun x hx => by
    obtain ⟨k, hk⟩ := hline' x hx
    obtain ⟨j, hj, hjw⟩ := hk.at'
    rw [← hjw, hf.wt]
    exact List.mem_map.2 ⟨j, List.mem_range.2 hj, rfl⟩)
  subst hnv
  rw [e] at hres4; cases hres4
  obtain ⟨s, V, hall, hx, hsel, labels, hlen, hprom, hiff⟩ := Sel.labels_rep h smax
  simp only [Run.doRun, e1, e2, Outcome.ok_bind, Run.fromTree, e, hall _ (hsch.leaf _), hprom sch.group sch.steps hsch.group hsch.steps, Outcome.pure_eq] at hout
  cases hout
  obtain ⟨htree, _, hncs⟩ := Sel.obs_tree h
  obtain ⟨hrr, ht, hout⟩ := Sel.tree_of (ar := ar) htree
  have hN := htree.two
  -- the clusters before and after the propagation
  have hV : ∀ (l : Nat) (c : Cl W S), s.clusters[l]? = some (some c) → 1 ≤ l ∧ l < res.clusters.length ∧ res.clusters[l]? = some (some (Sel.kOf ar res.clusters l)) ∧
      c.birth = (Sel.kOf ar res.clusters l).birth ∧ c.stability = (Sel.kOf ar res.clusters l).stability := by
    intro l c hc
    have hlt : l < res.clusters.length := by
      have := (List.getElem?_eq_some_iff.1 hc).1
      rwa [hx.rep.len] at this
    have h0 : 1 ≤ l := by
      by_contra h0
      have : l = 0 := by omega
      subst this
      rw [hx.rep.zero] at hc; simp at hc
    have h1 := hx.rep.at' l h0 hlt
    rw [hc] at h1
    have h2 : c = V l := by simpa using h1
    have h3 := hx.inv.stat l
    exact ⟨h0, hlt, hrr.at' l h0 hlt, by rw [h2, h3], by rw [h2, h3]⟩
  refine ⟨fun l c hc => ⟨fun hl => ?_, fun hl => ?_⟩, ?_⟩
  · obtain ⟨h0, hlt, hK, hb, hst⟩ := hV l c hc
    obtain ⟨b, members, leave, es, h1, h2, h3, h4, h5, h6, h7, h8, h9⟩ := hterms l _ hK hl
    have hlen' : members.length ≤ g'.numVertices := by
      have := List.Subperm.length_le (h4.subperm (l₂ := List.range g'.numVertices) fun p hp => List.mem_range.2 (h6 p hp).2.2.2)
      simpa using this
    exact ⟨b, members, leave, es, hb.trans h1, hWt b h2, hwle b h2, h3, h4, hlen', h5, fun p hp => ⟨(h6 p hp).1, (h6 p hp).2.1, hWt _ (h6 p hp).2.2.1⟩, hst.trans h7, h8, h9⟩
  · subst hl
    obtain ⟨h0, hlt, hK, hb, hst⟩ := hV 1 c hc
    obtain ⟨_, _, hi⟩ := h.bk.get hK
    obtain ⟨es, c1, c2⟩ := hi.calls
    rw [(hi.root rfl).1] at c2
    exact ⟨es, c1, hb.trans (hi.root rfl).1, hst.trans c2⟩
  · show s.infinite = true ↔ _
    rw [hx.inf, List.any_eq_true]
    constructor
    · rintro ⟨l, hl, hc⟩
      rw [List.mem_range'_1] at hl
      have h1 := hx.rep.at' l (by omega) (by omega)
      refine ⟨l, _, h1, ?_⟩
      rw [hx.inv.stat l]
      exact hc
    · rintro ⟨l, c, hl, hc⟩
      obtain ⟨h0, hlt, _, _, hst⟩ := hV l c hl
      refine ⟨l, List.mem_range'_1.2 ⟨by omega, by omega⟩, ?_⟩
      rw [← hst]
      exact hc

end Verif.Props
