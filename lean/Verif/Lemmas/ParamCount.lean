import Verif.Lemmas.ParamSel
import Verif.Lemmas.OutTerms
import Verif.Lemmas.Bound
/-
Two runs that see related values, where the stabilities are only known to be related as sums of few terms.
-/
namespace Verif.Param
open Verif Verif.Sel Verif.Spec
variable {W W' S S' : Type}

/-- Related calls of `cluster_detach_points`. -/
def EvRel (R : W → W' → Prop) (e : Hier.Event W) (e' : Hier.Event W') : Prop := e.1 = e'.1 ∧ R e.2.1 e'.2.1 ∧ OptRel R e.2.2 e'.2.2

theorem LRel.of_get {α β : Type} {R : α → β → Prop} : ∀ {a : List α} {b : List β}, a.length = b.length → (∀ i, i < a.length → OptRel R a[i]? b[i]?) → LRel R a b := by
  intro a
  induction a with
  | nil =>
    intro b hl _
    cases b with
    | nil => exact .nil
    | cons y b => cases hl
  | cons x a ih =>
    intro b hl h
    cases b with
    | nil => cases hl
    | cons y b =>
      refine .cons (h 0 (by simp)) (ih (by simpa using hl) fun i hi => ?_)
      have := h (i + 1) (by simpa using hi)
      simpa using this

/-- The calls themselves are what they lead to. -/
theorem total_trace (z d : W) : ∀ es : List (Hier.Event W), (∀ e ∈ es, e.1 ≠ 0) → (Hier.total (Hier.traceArith z d) es).1 = es := by
  intro es
  induction es using List.reverseRecOn with
  | nil => intro _; rfl
  | append_singleton es e ih =>
    intro h
    obtain ⟨k, w, b⟩ := e
    rw [Hier.total_snoc]
    have hk : k ≠ 0 := h (k, w, b) (by simp)
    show (Hier.total (Hier.traceArith z d) es).1 ++ ((Hier.traceArith z d).term k w b).1 = _
    rw [ih fun e he => h e (List.mem_append_left _ he)]
    simp [Hier.traceArith, hk]

theorem trace_rel {R R1 : W → W' → Prop} {z d : W} {z' d' : W'} (hz : R z z') (hd : R1 d d') :
    ArRel R R1 (fun s s' => LRel (EvRel R) s.1 s'.1) (Hier.traceArith z d) (Hier.traceArith z' d') where
  zeroW := hz
  dmax := hd
  zeroS := .nil
  grow k {a a' w w' b b'} hs hw hb := by
    by_cases hk : k = 0
    · subst hk
      simp only [Hier.traceArith, dite_true, List.append_nil]
      exact hs
    · simp only [Hier.traceArith, dif_neg hk]
      exact hs.append (.cons ⟨rfl, hw, hb⟩ .nil)

/-- What a result says about the calls. -/
theorem trace_terms [LinearOrder W] (z d : W) (g : Graph W) (m : Nat) (hm : 1 ≤ m) (hn : g.numVertices < 2 ^ 32) (hg : TreeInput g.numVertices g.va g.vb g.wt g.edges)
    {res : Hier.Result W {es : List (Hier.Event W) // ∀ e ∈ es, e.1 ≠ 0}} (hres : Hier.compute (Hier.traceArith z d) m false g = .ok res) :
    ∀ (l : Nat) (c : Cl W {es : List (Hier.Event W) // ∀ e ∈ es, e.1 ≠ 0}), res.clusters[l]? = some (some c) →
      (l ≠ 1 → (∀ e ∈ c.stability.1, ∃ b, e.2.2 = some b ∧ e.2.1 < b) ∧ (c.stability.1.map (·.1)).sum ≤ g.numVertices) ∧
      (l = 1 → ∀ e ∈ c.stability.1, e.2.2 = none) := by
  intro l c hc
  refine ⟨fun hl => ?_, fun hl => ?_⟩
  · obtain ⟨res', e1, h⟩ := Hier.terms (Hier.traceArith z d) g m hm hn hg
    rw [hres] at e1
    cases e1
    obtain ⟨b, members, leave, es, h1, h2, h3, h4, h5, h6, h7, h8, h9⟩ := h l c hc hl
    have he : c.stability.1 = es := by rw [h7]; exact total_trace z d es h8
    rw [he]
    refine ⟨fun e h10 => ?_, ?_⟩
    · have h11 := Hier.mem_tally (z := (Hier.traceArith z d).zeroW) (d := (Hier.traceArith z d).dmax) e h10 (h8 e h10)
      rw [h9, Multiset.mem_coe, List.mem_map] at h11
      obtain ⟨p, hp, h12⟩ := h11
      rw [← h12]
      exact ⟨b, rfl, (h6 p hp).2.1⟩
    · rw [Props.sum_counts (z := (Hier.traceArith z d).zeroW) (d := (Hier.traceArith z d).dmax), h9, Multiset.coe_card, List.length_map]
      have := List.Subperm.length_le (h4.subperm (l₂ := List.range g.numVertices) fun p hp => List.mem_range.2 (h6 p hp).2.2.2)
      simpa using this
  · subst hl
    obtain ⟨f, hr, ec, hd, hs, htr⟩ := Hier.input_rep hg
    obtain ⟨res', hist, cur, noise, last, e, h⟩ := Hier.obs (Hier.traceArith z d) hr hg.nonempty ec rfl hn hm hd hs
    rw [hres] at e
    cases e
    obtain ⟨_, _, hi⟩ := h.bk.get hc
    obtain ⟨es, c1, c2⟩ := hi.calls
    rw [(hi.root rfl).1] at c2
    rw [c2]
    have : ∀ es : List (Nat × W), ∀ e ∈ (es.foldl (fun s e => (Hier.traceArith z d).add s ((Hier.traceArith z d).term e.1 e.2 none)) (Hier.traceArith z d).zeroS).1, e.2.2 = none := by
      intro es
      induction es using List.reverseRecOn with
      | nil => intro e he; cases he
      | append_singleton es x ih =>
        intro e he
        rw [List.foldl_append] at he
        simp only [List.foldl_cons, List.foldl_nil] at he
        rcases List.mem_append.1 he with h | h
        · exact ih e h
        · by_cases hx : x.1 = 0
          · simp [Hier.traceArith, hx] at h
          · simp only [Hier.traceArith, dif_neg hx, List.mem_singleton] at h
            rw [h]
    exact this es

/-- The stages from the sorted spanning tree to the labels. -/
theorem fromTree_counted [LinearOrder W] [LinearOrder W'] [CCmp S] [CCmp S'] {R R1 : W → W' → Prop} {B : Nat} {Qc : Nat → S → S' → Prop} {Qt : S → S' → Prop} {ar : Arith W S} {ar' : Arith W' S'}
    (hz : R ar.zeroW ar'.zeroW) (hd : R1 ar.dmax ar'.dmax) (hc : Alike R1) (hR : ∀ {a b}, R a b → R1 a b) (hQ : Counted B Qc ar ar') (hQt : ∀ {p s s'}, Qc p s s' → Qt s s')
    {g : Graph W} {g' : Graph W'} (hg : GRel R g g') (hin : TreeInput g.numVertices g.va g.vb g.wt g.edges) (hin' : TreeInput g'.numVertices g'.va g'.vb g'.wt g'.edges)
    (hn : g.numVertices < 2 ^ 32) (m : Nat) (hm : 1 ≤ m)
    (hterm : ∀ es es', LRel (EvRel R) es es' → (∀ e ∈ es, e.1 ≠ 0 ∧ ∃ b, e.2.2 = some b ∧ e.2.1 < b) → (es.map (·.1)).sum ≤ g.numVertices → Qc ((es.map (·.1)).sum) (Hier.total ar es) (Hier.total ar' es'))
    (hroot : ∀ es es', LRel (EvRel R) es es' → (∀ e ∈ es, e.1 ≠ 0 ∧ e.2.2 = none) → Qt (Hier.total ar es) (Hier.total ar' es'))
    (hB : (2 + 4 * g.wt.length) * g.numVertices ≤ B) (smax : S) (smax' : S') (sch : Run.Schedule) (hsch : sch.Complete) :
    ORel (OutRel R R1 Qt) (Run.fromTree ar smax sch m g) (Run.fromTree ar' smax' sch m g') := by
  have hn' : g'.numVertices < 2 ^ 32 := by rw [← hg.num]; exact hn
  obtain ⟨f, hr, ec, hde, hs, htr⟩ := Hier.input_rep hin
  obtain ⟨res, hist, cur, noise, last, e, h⟩ := Hier.obs ar hr hin.nonempty ec rfl hn hm hde hs
  obtain ⟨f', hr', ec', hde', hs', htr'⟩ := Hier.input_rep hin'
  obtain ⟨res', hist', cur', noise', last', e', h'⟩ := Hier.obs ar' hr' hin'.nonempty ec' rfl hn' hm hde' hs'
  have hA := Hier.map_compute (Hier.total_hom ar) m false g
  have hA' := Hier.map_compute (Hier.total_hom ar') m false g'
  have hcr := compute_rel (trace_rel hz hd) hc hR m false hg
  obtain ⟨t, t1, t2⟩ := Outcome.bind_eq_ok.1 (show Hier.compute (Hier.traceArith ar.zeroW ar.dmax) m false g >>= (fun a => Outcome.ok (Hier.mapResult _ a)) = .ok res from by rw [← e, hA]; rfl)
  obtain ⟨t', t1', t2'⟩ := Outcome.bind_eq_ok.1 (show Hier.compute (Hier.traceArith ar'.zeroW ar'.dmax) m false g' >>= (fun a => Outcome.ok (Hier.mapResult _ a)) = .ok res' from by rw [← e', hA']; rfl)
  rw [t1, t1'] at hcr
  have hrr : ResRel R R1 (fun s s' => LRel (EvRel R) s.1 s'.1) t t' := by cases hcr with | ok h => exact h
  have hq := trace_terms _ _ g m hm hn hin t1
  have t2 := Outcome.ok.inj t2
  have t2' := Outcome.ok.inj t2'
  -- the clusters of the hierarchies
  have hcl : ∀ (l : Nat) (c : Cl W S), res.clusters[l]? = some (some c) → ∃ (c' : Cl W' S') (es : List (Hier.Event W)) (es' : List (Hier.Event W')),
      res'.clusters[l]? = some (some c') ∧ ClRel R R1 (fun _ _ => True) c c' ∧ c.stability = Hier.total ar es ∧ c'.stability = Hier.total ar' es' ∧ LRel (EvRel R) es es' ∧
      (∀ e ∈ es, e.1 ≠ 0) ∧ (l ≠ 1 → (∀ e ∈ es, ∃ b, e.2.2 = some b ∧ e.2.1 < b) ∧ (es.map (·.1)).sum ≤ g.numVertices) ∧ (l = 1 → ∀ e ∈ es, e.2.2 = none) := by
    intro l c hlc
    rw [← t2] at hlc
    simp only [Hier.mapResult, Hier.mapCls, List.getElem?_map] at hlc
    cases h0 : t.clusters[l]? with
    | none => rw [h0] at hlc; cases hlc
    | some o =>
      rw [h0] at hlc
      cases o with
      | none => cases hlc
      | some c0 =>
        have hrel := hrr.clusters.get l
        rw [h0] at hrel
        cases h0' : t'.clusters[l]? with
        | none => rw [h0'] at hrel; exact False.elim hrel
        | some o' =>
          rw [h0'] at hrel
          cases o' with
          | none => exact False.elim hrel
          | some c0' =>
            have hrel : ClRel R R1 _ c0 c0' := hrel
            have he : c = Hier.mapCl (fun es => Hier.total ar es.1) c0 := by
              simp only [Option.map_some, Option.some.injEq] at hlc
              exact hlc.symm
            refine ⟨Hier.mapCl (fun es => Hier.total ar' es.1) c0', c0.stability.1, c0'.stability.1, ?_, ?_, by rw [he]; rfl, rfl, hrel.stability, c0.stability.2, fun hl => (hq l c0 h0).1 hl, fun hl => (hq l c0 h0).2 hl⟩
            · rw [← t2']
              simp only [Hier.mapResult, Hier.mapCls, List.getElem?_map, h0', Option.map_some]
            · rw [he]
              exact ⟨hrel.label, hrel.birth, hrel.death, hrel.numPoints, hrel.offset, trivial, trivial, hrel.propLowest, hrel.ncs, hrel.pncs, hrel.vchild, hrel.parent, hrel.desc, hrel.hasChildren⟩
  have hlen : res.clusters.length = res'.clusters.length := by
    rw [← t2, ← t2']
    simp only [Hier.mapResult, Hier.mapCls, List.length_map]
    exact hrr.clusters.length
  have hhier : LRel (LineRel R) res.hierarchy res'.hierarchy := by rw [← t2, ← t2']; exact hrr.hierarchy
  -- the propagations
  obtain ⟨s, V, hall, hx, hsel, labels, _, hprom, _⟩ := Sel.labels_rep h.toBase smax
  obtain ⟨s', V', hall', hx', hsel', labels', _, hprom', _⟩ := Sel.labels_rep h'.toBase smax'
  obtain ⟨htree, hunp, hncs⟩ := Sel.obs_tree h.toBase
  obtain ⟨hrep, ht, hout⟩ := Sel.tree_of (ar := ar) htree
  obtain ⟨htree', hunp', hncs'⟩ := Sel.obs_tree h'.toBase
  obtain ⟨hrep', ht', hout'⟩ := Sel.tree_of (ar := ar') htree'
  rw [← hlen] at hrep' ht' hout' hx'
  have hk : ∀ l, 1 ≤ l → l < res.clusters.length → ∃ (es : List (Hier.Event W)) (es' : List (Hier.Event W')),
      ClRel R R1 (fun _ _ => True) (kOf ar res.clusters l) (kOf ar' res'.clusters l) ∧ (kOf ar res.clusters l).stability = Hier.total ar es ∧ (kOf ar' res'.clusters l).stability = Hier.total ar' es' ∧ LRel (EvRel R) es es' ∧
      (∀ e ∈ es, e.1 ≠ 0) ∧ (l ≠ 1 → (∀ e ∈ es, ∃ b, e.2.2 = some b ∧ e.2.1 < b) ∧ (es.map (·.1)).sum ≤ g.numVertices) ∧ (l = 1 → ∀ e ∈ es, e.2.2 = none) := by
    intro l h1 h2
    obtain ⟨c', es, es', k1, k2, k3, k4, k5, k6, k7, k8⟩ := hcl l _ (hrep.at' l h1 h2)
    have := hrep'.at' l h1 h2
    rw [k1] at this
    have : c' = kOf ar' res'.clusters l := by simpa using this
    subst this
    exact ⟨es, es', k2, k3, k4, k5, k6, k7, k8⟩
  have hout0 : ∀ l, l < 1 ∨ res.clusters.length ≤ l → (kOf ar res.clusters l).parent = none := by
    rintro l (hl | hl)
    · have : l = 0 := by omega
      subst this
      unfold kOf
      rw [hrep.zero]
      rfl
    · exact hout l hl
  have hout0' : ∀ l, l < 1 ∨ res.clusters.length ≤ l → (kOf ar' res'.clusters l).parent = none := by
    rintro l (hl | hl)
    · have : l = 0 := by omega
      subst this
      unfold kOf
      rw [hrep'.zero]
      rfl
    · exact hout' l hl
  classical
  have hcex : ∀ l, ∃ c : Nat, c ≤ g.numVertices ∧ (2 ≤ l → l < res.clusters.length → Qc c (kOf ar res.clusters l).stability (kOf ar' res'.clusters l).stability) := by
    intro l
    by_cases hl : 2 ≤ l ∧ l < res.clusters.length
    · obtain ⟨es, es', k2, k3, k4, k5, k6, k7, k8⟩ := hk l (by omega) hl.2
      obtain ⟨k9, k10⟩ := k7 (by omega)
      refine ⟨_, k10, fun _ _ => ?_⟩
      rw [k3, k4]
      exact hterm es es' k5 (fun e he => ⟨k6 e he, k9 e he⟩) k10
    · exact ⟨0, Nat.zero_le _, fun h1 h2 => absurd ⟨h1, h2⟩ hl⟩
  choose c c1 c2 using hcex
  have hsum : ∑ l ∈ Finset.range res.clusters.length, c l ≤ B := by
    refine le_trans (Finset.sum_le_card_nsmul _ _ g.numVertices fun l _ => c1 l) ?_
    rw [Finset.card_range, smul_eq_mul]
    exact (Nat.mul_le_mul_right _ (Hier.compute_count e).1).trans hB
  have hch := chosen (R := R) (R1 := R1) ht (fun l h1 h2 => (hk l h1 h2).choose_spec.choose_spec.1) hout0 hout0' hc hR hd hQ (fun l h1 h2 => c2 l h1 h2) hsum hx.inv hx'.inv
  have hclusters : LRel (OptRel (ClRel R R1 Qt)) s.clusters s'.clusters := by
    refine LRel.of_get (by rw [hx.rep.len, hx'.rep.len]) fun l hl => ?_
    rw [hx.rep.len] at hl
    by_cases h0 : 1 ≤ l
    · rw [hx.rep.at' l h0 hl, hx'.rep.at' l h0 hl]
      obtain ⟨es, es', k2, k3, k4, k5, k6, k7, k8⟩ := hk l h0 hl
      obtain ⟨_, w2, w3, w4, p, w5, w6⟩ := hch l h0 hl
      have v := hx.inv.stat l
      have v' := hx'.inv.stat l
      have hst : Qt (kOf ar res.clusters l).stability (kOf ar' res'.clusters l).stability := by
        by_cases h1 : l = 1
        · rw [k3, k4]
          exact hroot es es' k5 fun e he => ⟨k6 e he, k8 h1 e he⟩
        · exact hQt (c2 l (by omega) hl)
      show ClRel R R1 Qt (V l) (V' l)
      refine ⟨?_, ?_, ?_, ?_, ?_, ?_, hQt w6, w4, ?_, w2, ?_, ?_, w3, ?_⟩ <;> rw [v, v']
      · exact k2.label
      · exact k2.birth
      · exact k2.death
      · exact k2.numPoints
      · exact k2.offset
      · exact hst
      · exact k2.ncs
      · exact k2.vchild
      · exact k2.parent
      · exact k2.hasChildren
    · have : l = 0 := by omega
      subst this
      rw [hx.rep.zero, hx'.rep.zero]
      exact trivial
  have hlab : labels = labels' := by
    have h1 := prominent_rel hclusters hhier g.numVertices sch.group sch.steps
    rw [hprom _ _ hsch.group hsch.steps, hg.num, hprom' _ _ hsch.group hsch.steps] at h1
    cases h1 with | ok h => exact h
  simp only [Run.fromTree, e, e', Outcome.ok_bind, hall _ (hsch.leaf _), hall' _ (hsch.leaf _), hprom sch.group sch.steps hsch.group hsch.steps, hprom' sch.group sch.steps hsch.group hsch.steps, Outcome.pure_eq]
  refine .ok ⟨hclusters, hhier, ?_, ?_, hlab⟩
  · show LRel (OptRel R) res.noise res'.noise
    rw [← t2, ← t2']; exact hrr.noise
  · show res.last = res'.last
    rw [← t2, ← t2']; exact hrr.last

end Verif.Param
