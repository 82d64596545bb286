import Verif.Lemmas.TwoOrder
import Verif.Lemmas.ParamCount
import Verif.Lemmas.BoundRun
import Verif.Props.Outlier
/-
Two runs on data whose distances compare alike and whose stabilities compare alike as sums of few terms.
-/
namespace Verif.Param
open Verif Spec
variable {D D' W W' S S' T : Type}

section
variable [LinearOrder W] [LinearOrder W'] [LinearOrder T]

theorem before_rel {R : W → W' → Prop} (hlt : ∀ {a a' b b'}, R a a' → R b b' → (a < b ↔ a' < b')) {x y : OScore W T} {x' y' : OScore W' T} (hx : ScRel R x x') (hy : ScRel R y y')
    (h : Before x y) : Before x' y' := by
  rcases h with h | ⟨h, h1⟩
  · exact .inl (by rw [← hx.score, ← hy.score]; exact h)
  · refine .inr ⟨by rw [← hx.score, ← hy.score]; exact h, ?_⟩
    rcases h1 with h1 | ⟨h1, h2⟩
    · exact .inl ((hlt hx.core hy.core).1 h1)
    · refine .inr ⟨?_, by rw [← hx.id, ← hy.id]; exact h2⟩
      rcases lt_trichotomy x'.core y'.core with h3 | h3 | h3
      · exact absurd ((hlt hx.core hy.core).2 h3) (by rw [h1]; exact lt_irrefl _)
      · exact h3
      · exact absurd ((hlt hy.core hx.core).2 h3) (by rw [h1]; exact lt_irrefl _)

omit [LinearOrder W] in
theorem before_asymm {x y : OScore W' T} (h : Before x y) (h' : Before y x) : False := by
  rcases h with h | ⟨e, h | ⟨e1, h⟩⟩ <;> rcases h' with h' | ⟨e', h' | ⟨e1', h'⟩⟩
  · exact lt_asymm h h'
  · rw [e'] at h; exact lt_irrefl _ h
  · rw [e'] at h; exact lt_irrefl _ h
  · rw [e] at h'; exact lt_irrefl _ h'
  · exact lt_asymm h h'
  · rw [e1'] at h; exact lt_irrefl _ h
  · rw [e] at h'; exact lt_irrefl _ h'
  · rw [e1] at h'; exact lt_irrefl _ h'
  · exact lt_asymm h h'

/-- Sorted lists with related elements are related position by position. -/
theorem sorted_rel {R : W → W' → Prop} (hlt : ∀ {a a' b b'}, R a a' → R b b' → (a < b ↔ a' < b')) : ∀ {xs : List (OScore W T)} {ys : List (OScore W' T)}, xs.Pairwise Before → ys.Pairwise Before →
    (xs.map (·.id)).Perm (ys.map (·.id)) → (∀ x ∈ xs, ∀ y ∈ ys, x.id = y.id → ScRel R x y) → LRel (ScRel R) xs ys := by
  intro xs
  induction xs with
  | nil =>
    intro ys _ _ hp _
    have : ys = [] := by simpa using hp
    rw [this]; exact .nil
  | cons x xs ih =>
    intro ys hx hy hp h
    cases ys with
    | nil => simp at hp
    | cons y ys =>
      rw [List.pairwise_cons] at hx hy
      have hid : x.id = y.id := by
        by_contra hne
        have h1 : x.id ∈ (y :: ys).map (·.id) := hp.subset (by simp)
        obtain ⟨y2, hy2, e2⟩ := List.mem_map.1 h1
        have h2 : y.id ∈ (x :: xs).map (·.id) := hp.symm.subset (by simp)
        obtain ⟨x2, hx2, e3⟩ := List.mem_map.1 h2
        have hy2' : y2 ∈ ys := by
          rcases List.mem_cons.1 hy2 with rfl | h
          · exact absurd e2.symm hne
          · exact h
        have hx2' : x2 ∈ xs := by
          rcases List.mem_cons.1 hx2 with rfl | h
          · exact absurd e3 hne
          · exact h
        have b1 := hx.1 x2 hx2'
        have b2 := before_rel hlt (h x (by simp) y2 hy2 e2.symm) (h x2 hx2 y (by simp) e3) b1
        exact before_asymm b2 (hy.1 y2 hy2')
      refine .cons (h x (by simp) y (by simp) hid) (ih hx.2 hy.2 ?_ fun a ha b hb e => h a (List.mem_cons_of_mem _ ha) b (List.mem_cons_of_mem _ hb) e)
      simp only [List.map_cons, hid] at hp
      exact hp.cons_inv

end

/-- The results of the two runs are related, the scores if the hierarchies split. -/
theorem fresh_counted [LinearOrder W] [LinearOrder W'] [CCmp S] [CCmp S'] [LinearOrder T] {env : Api.Env D W S T} {env' : Api.Env D' W' S' T} (hq : SortsAscending env.qsort)
    (hq' : SortsAscending env'.qsort) {data : List D} {data' : List D'} {rows cols cols' : Nat} {f : Nat → Nat → W} {f' : Nat → Nat → W'} (h : Supported env data rows cols f)
    (h' : Supported env' data' rows cols' f') (h5 : 5 ≤ rows) {m : Nat} (hm : 2 ≤ m) (hmr : m ≤ rows) {R : W → W' → Prop}
    (hR : Fits rows (distOf env.dops f) (distOf env'.dops f') env.ar.dmax env'.ar.dmax R) {B : Nat} {Qc : Nat → S → S' → Prop} {Qt : S → S' → Prop} (hQ : Counted B Qc env.ar env'.ar)
    (hQt : ∀ {p s s'}, Qc p s s' → Qt s s')
    (hterm : ∀ es es', LRel (EvRel R) es es' → (∀ e ∈ es, e.1 ≠ 0 ∧ ∃ b, e.2.2 = some b ∧ e.2.1 < b) → (es.map (·.1)).sum ≤ rows → Qc ((es.map (·.1)).sum) (Hier.total env.ar es) (Hier.total env'.ar es'))
    (hroot : ∀ es es', LRel (EvRel R) es es' → (∀ e ∈ es, e.1 ≠ 0 ∧ e.2.2 = none) → Qt (Hier.total env.ar es) (Hier.total env'.ar es')) (hB : 2 ^ 40 ≤ B)
    (hs0 : env.oops.zero = env'.oops.zero) (hratio : ∀ {a a' b b'}, R a a' → R b b' → b ≠ env.ar.zeroW → env.oops.ratio a b = env'.oops.ratio a' b') :
    ∃ (obj : Api.Obj W S T) (obj' : Api.Obj W' S' T),
      (∀ par, Complete rows rows par → Api.fresh env par m data rows cols true = .ok obj ∧ Api.fresh env' par m data' rows cols' true = .ok obj') ∧
      OutRel R (OrMax R env.ar.dmax env'.ar.dmax) Qt obj.results.toOut obj'.results.toOut ∧
      (∀ i, i < rows → ∃ c c', obj.dis.coreDistances[i]? = some (some c) ∧ obj'.dis.coreDistances[i]? = some (some c') ∧ R c c') ∧
      (obj.results.clusters.length ≠ 2 → LRel (ScRel R) obj.results.outliers obj'.results.outliers) := by
  have hfew := h.few
  obtain ⟨obj, obj', hf, hdr, hshort, hcr⟩ := fresh_order hq hq' h h' h5 hm hmr hR
  obtain ⟨o1, core, _, _, hf1, r1, r2, hget, hc, hmax, _, _, _, _, _, hfull⟩ := Props.stages hq h h5 hm hmr
  obtain ⟨o1', core', _, _, hf1', r1', r2', hget', hc', hmax', _, _, _, _, _, hfull'⟩ := Props.stages hq' h' h5 hm hmr
  have hp : Complete rows rows ⟨Distance.pairs rows, List.range rows, Props.seqSchedule, List.range rows⟩ := ⟨.refl _, .refl _, Props.seqSchedule_complete, .refl _⟩
  obtain rfl : o1 = obj := Outcome.ok.inj ((hf1 _ hp).symm.trans (hf _ hp).1)
  obtain rfl : o1' = obj' := Outcome.ok.inj ((hf1' _ hp).symm.trans (hf _ hp).2)
  have hz : R env.ar.zeroW env'.ar.zeroW := by
    have := hR.dist 0 0 (by omega) (by omega)
    rw [← h.zero, ← h'.zero]
    simpa [distOf] using this
  have halike := orMax_alike hR
  have htriv : ArRel R (OrMax R env.ar.dmax env'.ar.dmax) (fun (_ : S) (_ : S') => True) env.ar env'.ar := ⟨hz, .inr ⟨rfl, rfl⟩, trivial, fun _ {_ _ _ _ _ _} _ _ _ => trivial⟩
  have htree := tree_rel htriv halike (fun h => .inl h) (fun {a b} h hne => h.resolve_right fun e => hne e.1) hdr rows hshort
  obtain ⟨g0, g, a1, a2, an, ain, _, _⟩ := Run.sorted_mst env.ar.zeroW env.ar.dmax o1.dis rows (by omega) (distOf env.dops f) core (fun i j a b _ => by rw [← h.zero]; exact hget i j a b)
    (Props.distOf_symm _ _) (fun i hi => (hc i hi).1) hmax
  obtain ⟨g0', g', a1', a2', an', ain', _, _⟩ := Run.sorted_mst env'.ar.zeroW env'.ar.dmax o1'.dis rows (by omega) (distOf env'.dops f') core' (fun i j a b _ => by rw [← h'.zero]; exact hget' i j a b)
    (Props.distOf_symm _ _) (fun i hi => (hc' i hi).1) hmax'
  rw [a1, a1', Outcome.ok_bind, Outcome.ok_bind, a2, a2'] at htree
  have hg : GRel R g g' := by cases htree with | ok h => exact h
  have hwt : g.wt.length ≤ 2 * rows := by
    obtain ⟨b1, b2, b3⟩ := Mst.construct_length a1
    have := Graph.sort_length (by omega) (by omega) a2
    omega
  have hb : (2 + 4 * g.wt.length) * g.numVertices ≤ B := by
    rw [an]
    refine le_trans (Nat.mul_le_mul (show 2 + 4 * g.wt.length ≤ 2 ^ 20 by omega) (show rows ≤ 2 ^ 20 by omega)) ?_
    exact le_trans (by norm_num) hB
  have hseq := Props.seqSchedule_complete
  have hft := fromTree_counted (Qt := Qt) hz (.inr ⟨rfl, rfl⟩) halike (fun h => .inl h) hQ hQt hg (by rw [an]; exact ain) (by rw [an']; exact ain') (by omega) m (by omega)
    (by rw [an]; exact hterm) hroot hb env.smax env'.smax Props.seqSchedule hseq
  have e1 := hfull Props.seqSchedule (List.range rows) hseq (.refl _)
  have e1' := hfull' Props.seqSchedule (List.range rows) hseq (.refl _)
  obtain ⟨d1, _⟩ := Props.full_hierarchy e1
  obtain ⟨d1', _⟩ := Props.full_hierarchy e1'
  simp only [Run.doRun, a1, a2, Outcome.ok_bind] at d1
  simp only [Run.doRun, a1', a2', Outcome.ok_bind] at d1'
  rw [d1, d1'] at hft
  have hout : OutRel R (OrMax R env.ar.dmax env'.ar.dmax) Qt o1.results.toOut o1'.results.toOut := by cases hft with | ok h => exact h
  refine ⟨o1, o1', hf, hout, hcr, fun hne => ?_⟩
  -- the scores
  obtain ⟨out, f1, f2, f3, f4⟩ := Props.full_rep env.qsort env.ar env.smax env.oops m o1.dis rows (distOf env.dops f) core hq (by omega) (by omega) (by omega)
    (fun i j hi hj _ => by rw [← h.zero]; exact hget i j hi hj) (Props.distOf_symm _ _) (fun i hi => (hc i hi).1) hmax
  obtain rfl := Outcome.ok.inj ((f1 Props.seqSchedule (List.range rows) hseq (.refl _)).symm.trans e1)
  obtain ⟨out', f1', f2', f3', f4'⟩ := Props.full_rep env'.qsort env'.ar env'.smax env'.oops m o1'.dis rows (distOf env'.dops f') core' hq' (by omega) (by omega) (by omega)
    (fun i j hi hj _ => by rw [← h'.zero]; exact hget' i j hi hj) (Props.distOf_symm _ _) (fun i hi => (hc' i hi).1) hmax'
  obtain rfl := Outcome.ok.inj ((f1' Props.seqSchedule (List.range rows) hseq (.refl _)).symm.trans e1')
  have hne' : o1'.results.clusters.length ≠ 2 := by
    have := hout.clusters.length
    intro e
    exact hne (this.trans e)
  refine sorted_rel (fun ha hb => hR.lt ha hb) f3 f3' (f2.trans f2'.symm) fun x hx y hy e => ?_
  obtain ⟨x1, x2, eps, l, c, x3, x4, x5, x6, x7, x8, x9, x10⟩ := f4 x hx
  obtain ⟨y1, y2, eps', l', c', y3, y4, y5, y6, y7, y8, y9, y10⟩ := f4' y hy
  have hl : l = l' := by
    have h1 : o1.results.last[x.id]? = o1'.results.last[x.id]? := by
      have : o1.results.last = o1'.results.last := hout.last
      rw [this]
    rw [x4, e, y4] at h1
    simpa using h1
  subst hl
  have heps : R eps eps' := by
    have h1 := hout.noise.get x.id
    rw [x3, e, y3] at h1
    exact h1
  have hcc : ClRel R (OrMax R env.ar.dmax env'.ar.dmax) Qt c c' := by
    have h1 := hout.clusters.get l
    rw [x5, y5] at h1
    exact h1
  have hcore : R x.core y.core := by
    obtain ⟨a, a', h1, h2, h3⟩ := hcr x.id x1
    rw [(hc x.id x1).1] at h1
    rw [e, (hc' y.id y1).1] at h2
    rw [x2, y2]
    have h1 : core x.id = a := by simpa using h1
    have h2 : core' y.id = a' := by simpa using h2
    rw [h1, h2]
    exact h3
  have hlow : R c.propLowest c'.propLowest := by
    refine hcc.propLowest.resolve_right fun hd => ?_
    have h1 := (x10 hne).1
    rw [hd.1] at h1
    exact absurd (hR.small heps).1 (not_lt.2 h1)
  have hez : eps = env.ar.zeroW ↔ eps' = env'.ar.zeroW := by
    have h1 := hR.lt heps hz
    have h2 := hR.lt hz heps
    constructor
    · intro e
      rw [e] at h1 h2
      exact le_antisymm (not_lt.1 fun h => lt_irrefl _ (h2.2 h)) (not_lt.1 fun h => lt_irrefl _ (h1.2 h))
    · intro e
      rw [e] at h1 h2
      exact le_antisymm (not_lt.1 fun h => lt_irrefl _ (h2.1 h)) (not_lt.1 fun h => lt_irrefl _ (h1.1 h))
  refine ⟨?_, hcore, e⟩
  rw [x8, y8]
  by_cases h0 : eps = env.ar.zeroW
  · rw [if_pos h0, if_pos (hez.1 h0), hs0]
  · rw [if_neg h0, if_neg (fun h => h0 (hez.2 h))]
    exact hratio hlow heps h0

end Verif.Param
