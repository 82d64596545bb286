import Verif.Spec.Farther
import Verif.Props.SingleLink
import Verif.Props.RaceMore
/-
C121: of two rows last seen in the same cluster, the one that leaves it earlier has the higher outlier score.
-/
namespace Verif.Props
open Spec Race
variable {D W S T : Type}

/-- The number of a line determines the line. -/
theorem line_unique [LinearOrder W] {n : Nat} {H lines : Lines W} {z : W} (e : H = lines ++ [(0, z, List.replicate n 0)]) (hi : lines.map (·.1) = List.range' 1 lines.length)
    {i : Nat} (h1 : 1 ≤ i) {a b : W × List Nat} (ha : (i, a) ∈ H) (hb : (i, b) ∈ H) : a = b := by
  have hmem : ∀ c, (i, c) ∈ H → (i, c) ∈ lines := by
    intro c hc
    rw [e, List.mem_append, List.mem_singleton] at hc
    rcases hc with hc | hc
    · exact hc
    · have := congrArg Prod.fst hc; simp at this; omega
  have hn : (lines.map (·.1)).Nodup := by rw [hi]; exact List.nodup_range'
  have := List.inj_on_of_nodup_map hn (hmem a ha) (hmem b hb) rfl
  exact (Prod.mk.injEq _ _ _ _ ▸ this).2

private theorem dist_pos [LinearOrder W] {ops : DistOps D W} {f : Nat → Nat → W} {rows : Nat} (hpos : ∀ i j, i < j → j < rows → ops.zero ≤ ops.sqrt (f i j)) {i j : Nat} (hi : i < rows) (hj : j < rows) :
    ops.zero ≤ distOf ops f i j := by
  unfold distOf
  rcases Nat.lt_trichotomy i j with a | a | a
  · rw [if_pos a]; exact hpos i j a hj
  · rw [if_neg (by omega), if_pos a]
  · rw [if_neg (by omega), if_neg (by omega)]; exact hpos j i a hi

/-- **C121, the part that holds.** On every supported data set without negative distances and for every `2 ≤ m ≤ rows`: if two rows are last seen in the same cluster, the first one in a line of
    weight `w` and the second one in a line of weight `w' ≥ w`, the score of the second is at least that of the first, unless the hierarchy never splits and `w` is 0. The same holds with threads.
    Missing: that last case, in which the claim is false (`C121_violated`). -/
theorem C121_farther_partial [LinearOrder W] [CCmp S] [LinearOrder T] (env : Api.Env D W S T) (hq : SortsAscending env.qsort) (hs : MonotoneScore env.ar.zeroW env.oops) (data : List D)
    (rows cols : Nat) (f : Nat → Nat → W) (h : Supported env data rows cols f) (h5 : 5 ≤ rows) (hpos : ∀ i j, i < j → j < rows → env.dops.zero ≤ env.dops.sqrt (f i j))
    (m : Nat) (hm : 2 ≤ m) (hmr : m ≤ rows) (th : Threads) (hth : Interleaves th) :
    ∃ obj : Api.Obj W S T, (∀ par, Complete rows rows par → Race.fresh th env par m data rows cols true = .ok obj) ∧
      ∀ o ∈ obj.results.outliers, ∀ o' ∈ obj.results.outliers, ∀ l i i' w w', LastSeen obj.results.hierarchy o.id i l → HasWeight obj.results.hierarchy i w →
        LastSeen obj.results.hierarchy o'.id i' l → HasWeight obj.results.hierarchy i' w' → w ≤ w' → (obj.results.clusters.length ≠ 2 ∨ env.ar.zeroW < w) → o.score ≤ o'.score := by
  have hfew := h.few
  obtain ⟨o0, core, g, res, hf, r1, r2, hget, hcore, hmax, hg1, hg2, -, hcomp, hres, hfull⟩ := stages hq h h5 hm hmr
  obtain ⟨o2, b1, b2, -⟩ := C63_threads_partial env hq data rows cols f h h5 m hm hmr
  have e : o2 = o0 := fresh_same b1 hf
  subst e
  obtain ⟨obj, lost, -, s2, s3⟩ := b2 th hth
  obtain ⟨out, c1, -, -, c4⟩ := full_rep env.qsort env.ar env.smax env.oops m o2.dis rows (distOf env.dops f) core hq (by omega) (by omega) (by omega)
    (fun i j hi hj _ => by rw [← h.zero]; exact hget i j hi hj) (fun i j => distOf_symm env.dops f i j) (fun i hi => (hcore i hi).1) hmax
  have eo : out = o2.results := by
    have := c1 seqSchedule (List.range rows) seqSchedule_complete (.refl _)
    rw [hfull seqSchedule (List.range rows) seqSchedule_complete (.refl _)] at this
    exact (Outcome.ok.inj this).symm
  subst eo
  rw [← hg1] at hg2
  obtain ⟨res', lines, d1, d2, d3, -⟩ := C27_lines env.ar g m (by omega) (by omega) hg2
  rw [hcomp] at d1; cases d1
  rw [hres] at d2
  have hlen : obj.results.clusters.length = o2.results.clusters.length := by
    have hn : ∀ k, obj.results.clusters[k]? = none ↔ o2.results.clusters[k]? = none := fun k => by rw [s2.clusters k, Option.map_eq_none_iff]
    simp only [List.getElem?_eq_none_iff] at hn
    have k1 := (hn obj.results.clusters.length).1 (le_refl _)
    have k2 := (hn o2.results.clusters.length).2 (le_refl _)
    omega
  have hc0 : ∀ i, i < rows → env.ar.zeroW ≤ core i := by
    intro i hi
    obtain ⟨x, x1, x2⟩ := Distance.coreOf_safe (zero := env.dops.zero) (dmax := env.ar.dmax) (dis := o2.dis) (i := i) (d := distOf env.dops f i) (fun j hj => hget i j hi (by omega))
    rw [(hcore i hi).2] at x1
    rw [Outcome.ok.inj x1]
    rcases x2 with rfl | ⟨j, hj, rfl⟩
    · exact h.zero_lt.le
    · rw [← h.zero]; exact dist_pos hpos hi (by omega)
  have hw0 : ∀ w, ((∃ i, i < rows ∧ w = core i) ∨ ∃ i j, i < rows ∧ j < rows ∧ i ≠ j ∧ w = mutualReach (distOf env.dops f) core i j) → env.ar.zeroW ≤ w := by
    rintro w (⟨i, hi, rfl⟩ | ⟨i, j, hi, hj, hij, rfl⟩)
    · exact hc0 i hi
    · exact (hc0 i hi).trans (by simp [mutualReach])
  have hlast : ∀ (p l i l' i' : Nat) (w eps : W), LastSeen o2.results.hierarchy p i l → HasWeight o2.results.hierarchy i w → LastSeen o2.results.hierarchy p i' l' →
      HasWeight o2.results.hierarchy i' eps → l = l' ∧ w = eps := by
    rintro p l i l' i' w eps ⟨a1, a2, a3, a4⟩ ⟨A, hA⟩ ⟨b1, b2, b3, b4⟩ ⟨B, hB⟩
    have ei : i = i' := by
      rcases Nat.lt_trichotomy i i' with q | q | q
      · exact absurd (a4 i' l' q b3) b2
      · exact q
      · exact absurd (b4 i l q a3) a2
    subst ei
    obtain ⟨w1, A1, k1, k2⟩ := a3
    obtain ⟨w2, A2, k3, k4⟩ := b3
    have u1 := line_unique d2 d3 a1 k1 k3
    have u2 := line_unique d2 d3 a1 hA hB
    cases u1
    rw [k2] at k4
    exact ⟨Option.some.inj k4, congrArg Prod.fst u2⟩
  refine ⟨obj, s3, fun o ho o' ho' l i i' w w' hl hw hl' hw' hww hsp => ?_⟩
  rw [s2.outliers] at ho ho'
  rw [s2.hierarchy] at hl hw hl' hw'
  rw [hlen] at hsp
  obtain ⟨-, -, eps, l1, c, -, -, p3, p4, ⟨j1, p5⟩, p6, p7, p8⟩ := c4 o ho
  obtain ⟨-, -, eps', l2, c', -, -, p3', p4', ⟨j2, p5'⟩, p6', p7', p8'⟩ := c4 o' ho'
  obtain ⟨q1, q2⟩ := hlast o.id l i l1 j1 w eps hl hw ⟨p5.1, p5.2.1, p5.2.2.1, p5.2.2.2.2⟩ p5.2.2.2.1
  obtain ⟨q1', q2'⟩ := hlast o'.id l i' l2 j2 w' eps' hl' hw' ⟨p5'.1, p5'.2.1, p5'.2.2.1, p5'.2.2.2.2⟩ p5'.2.2.2.1
  subst q1 q2 q1' q2'
  have ec : c = c' := by rw [p3] at p3'; exact Option.some.inj (Option.some.inj p3')
  subst ec
  have hlow : env.ar.zeroW ≤ c.propLowest := by
    by_cases h2 : o2.results.clusters.length = 2
    · rw [p7 h2]; exact h.zero_lt.le
    · exact hw0 _ (p8 h2).2.2
  have hw1 := hw0 _ p4
  rw [p6, p6']
  by_cases hz : w = env.ar.zeroW
  · rw [if_pos hz]
    have h2 : o2.results.clusters.length ≠ 2 := by
      rcases hsp with q | q
      · exact q
      · rw [hz] at q; exact absurd q (lt_irrefl _)
    split
    · exact le_refl _
    · rename_i hz'
      have hlt : env.ar.zeroW < w' := lt_of_le_of_ne (hw1.trans hww) (Ne.symm hz')
      exact hs.nonneg _ _ hlow (p8' h2).1 hlt
  · have hlt : env.ar.zeroW < w := lt_of_le_of_ne hw1 (Ne.symm hz)
    rw [if_neg hz, if_neg (lt_of_lt_of_le hlt hww).ne']
    exact hs.mono _ _ _ hlow hlt hww

/-- Exact scores over an ordered field. -/
theorem exactScore_monotone {K : Type} [Field K] [LinearOrder K] [IsStrictOrderedRing K] : MonotoneScore (0 : K) (exactScore K) where
  mono a e e' ha he hee := by
    simp only [exactScore]
    have : a / e' ≤ a / e := div_le_div_of_nonneg_left ha he hee
    linarith
  nonneg a e _ hae he := by
    simp only [exactScore]
    have := (div_le_one he).2 hae
    linarith

/-- Scores computed with doubles. -/
theorem doubleScore_monotone : MonotoneScore (F64.of 0) doubleScore where
  mono a e e' ha he hee := by
    have ha' : (0 : ℚ) ≤ a.1 := by have : (F64.of 0).1 ≤ a.1 := ha; rwa [of_zero] at this
    have he' : (0 : ℚ) < e.1 := by have : (F64.of 0).1 < e.1 := he; rwa [of_zero] at this
    have hd : a.1 / e'.1 ≤ a.1 / e.1 := div_le_div_of_nonneg_left ha' he' hee
    have h1 : (F64.of (a.1 / e'.1)).1 ≤ (F64.of (a.1 / e.1)).1 := of_mono hd
    exact of_mono (by linarith)
  nonneg a e ha hae he := by
    have he' : (0 : ℚ) < e.1 := by have : (F64.of 0).1 < e.1 := he; rwa [of_zero] at this
    have hd : a.1 / e.1 ≤ 1 := (div_le_one he').2 hae
    have h1 : (F64.of (a.1 / e.1)).1 ≤ (F64.of 1).1 := of_mono hd
    rw [of_one] at h1
    exact of_mono (by linarith)

/-- C121 for doubles, rounding included. -/
theorem C121_doubles_partial (qsort : (OScore F64 F64 → OScore F64 F64 → Int) → List (OScore F64 F64) → List (OScore F64 F64)) (hq : SortsAscending qsort) (data : List F64) (rows cols : Nat)
    (f : Nat → Nat → F64) (h : Supported (doubleEnv qsort) data rows cols f) (h5 : 5 ≤ rows) (m : Nat) (hm : 2 ≤ m) (hmr : m ≤ rows) (th : Threads) (hth : Interleaves th) :
    ∃ obj : Api.Obj F64 F64 F64, (∀ par, Complete rows rows par → Race.fresh th (doubleEnv qsort) par m data rows cols true = .ok obj) ∧
      ∀ o ∈ obj.results.outliers, ∀ o' ∈ obj.results.outliers, ∀ l i i' w w', LastSeen obj.results.hierarchy o.id i l → HasWeight obj.results.hierarchy i w →
        LastSeen obj.results.hierarchy o'.id i' l → HasWeight obj.results.hierarchy i' w' → w ≤ w' → (obj.results.clusters.length ≠ 2 ∨ 0 < w.1) → o.score ≤ o'.score := by
  obtain ⟨obj, a, b⟩ := C121_farther_partial (doubleEnv qsort) hq doubleScore_monotone data rows cols f h h5 (fun i j _ _ => by
    show (F64.of 0).1 ≤ (F64.sqrt (f i j)).1
    rw [of_zero]
    exact sqrt_nonneg' _) m hm hmr th hth
  refine ⟨obj, a, fun o ho o' ho' l i i' w w' h1 h2 h3 h4 h6 h7 => b o ho o' ho' l i i' w w' h1 h2 h3 h4 h6 (h7.imp_right fun q => ?_)⟩
  show (F64.of 0).1 < w.1
  rwa [of_zero]

/-- **C121 is violated** when the hierarchy never splits: of the rows 0, 0, 0, 1, 3, all last seen in cluster 1, row 0 stays to level 0 and has score 0, while row 4 leaves after level 3 and has score
    -997 / 3 (with `D_MAX` = 1000), which is smaller. -/
theorem C121_violated : (Api.fresh lineEnv (backPar 5 5) 3 [0, 0, 0, 1, 3] 5 1 true >>= fun o => .ok (o.results.hierarchy, o.results.outliers.map (fun s => (s.id, s.score)))) =
    .ok ([(1, 3, [1, 1, 1, 1, 1]), (2, 1, [1, 1, 1, 1, 0]), (3, 0, [1, 1, 1, 0, 0]), (0, 0, [0, 0, 0, 0, 0])], [(3, -999), (4, -997 / 3), (0, 0), (1, 0), (2, 0)]) := by decide +kernel

/-- Cases of C121. -/
example := C121_farther_partial lineEnv (isort_sorts _) exactScore_monotone linePts 5 1 (lineSq linePts) linePts_supported (by omega)
  (fun i j hij hj => (by decide +kernel : ∀ j, j < 5 → ∀ i, i < j → lineEnv.dops.zero ≤ lineEnv.dops.sqrt (lineSq linePts i j)) j hj i hij) 2 (by omega) (by omega) hasty hasty_interleaves
example := C121_doubles_partial isort (isort_sorts _) roundPts 8 1 (doubleSq roundPts) roundPts_supported (by omega) 2 (by omega) (by omega) hasty hasty_interleaves

/-- In a hierarchy that splits: rows 0, 3 and 4 are last seen in cluster 2, at levels 0, 1 and 2; their scores are 0, 1 and 1. -/
example : (Api.fresh lineEnv (backPar 8 8) 2 [0, 0, 0, 1, 3, 20, 21, 21] 8 1 true >>= fun o => .ok (o.results.hierarchy, o.results.outliers.map (fun s => (s.id, s.score)))) =
    .ok ([(1, 17, [1, 1, 1, 1, 1, 1, 1, 1]), (2, 2, [2, 2, 2, 2, 2, 3, 3, 3]), (3, 1, [2, 2, 2, 2, 0, 3, 3, 3]), (4, 0, [2, 2, 2, 0, 0, 0, 3, 3]), (0, 0, [0, 0, 0, 0, 0, 0, 0, 0])],
      [(0, 0), (1, 0), (2, 0), (6, 0), (7, 0), (3, 1), (5, 1), (4, 1)]) := by decide +kernel

end Verif.Props
