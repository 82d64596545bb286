import Verif.Lemmas.TwoFresh
import Verif.Lemmas.CoreMap
import Verif.Lemmas.CoreMax
import Verif.Props.Invariance
/-
C61, C62: rearranged rows and scaled data.
-/
namespace Verif.Props
open Spec
variable {D W S T : Type}

/-! ### C61 -/

theorem exactSum_additive {S : Type} [AddMonoid S] {ar : Arith W S} (h : ExactSum ar) : Hier.Additive ar where
  add_assoc a b c := by simp only [h.add, add_assoc]
  add_zero a := by rw [h.add, h.zero, add_zero]
  term_zero w b := by rw [h.term_zero, h.zero]
  term_add j k w b := by rw [h.term_add, h.add]

theorem distOf_rearranged [LinearOrder W] {env : Api.Env D W S T} (ha : PlainArith env.dops) {data data' : List D} {rows cols : Nat} {f f' : Nat → Nat → W} (h : Supported env data rows cols f)
    (h' : Supported env data' rows cols f') {σ : Nat → Nat} (hσ : Rearranges rows σ) (hrow : ∀ i, i < rows → SameRow data data' cols i (σ i)) (i j : Nat) (hi : i < rows) (hj : j < rows) :
    distOf env.dops f' (σ i) (σ j) = distOf env.dops f i j := by
  refine (distOf_congr ha h h' hi hj (hσ.lt i hi) (hσ.lt j hj) (hrow i hi) (hrow j hj) ?_ ?_).symm
  · intro e k _; rw [e]
  · intro e k _; rw [hσ.inj i j hi hj e]

/-- **C61, proved part**. The rows of a data set are stored in another order: row `i` becomes row `σ i`. Then the core distances, the hierarchy, the number of clusters and the outlier scores
    are the same up to the new names of the points and up to the numbers given to the clusters. This holds with rounding, provided that `minPoints` is 2 or the number of rows
    or that among the distances from a point none is repeated that is as large as its core distance (unless it is the smallest of all). Missing: other ties, where the claim is false (`C61_violated`), and the final labels with rounding (see `C61_labels_partial`). -/
theorem C61_rearranged_partial [LinearOrder W] [CCmp S] [LinearOrder T] (env : Api.Env D W S T) (hq : SortsAscending env.qsort) (ha : PlainArith env.dops) (data data' : List D) (rows cols : Nat)
    (f f' : Nat → Nat → W) (h : Supported env data rows cols f) (h' : Supported env data' rows cols f') (h5 : 5 ≤ rows) (m : Nat) (hm : 2 ≤ m) (hmr : m ≤ rows) (σ : Nat → Nat)
    (hσ : Rearranges rows σ) (hrow : ∀ i, i < rows → SameRow data data' cols i (σ i)) (htie : Untied rows m (distOf env.dops f)) :
    ∃ (obj obj' : Api.Obj W S T) (φ : Nat → Nat),
      (∀ par, Complete rows rows par → Api.fresh env par m data rows cols true = .ok obj ∧ Api.fresh env par m data' rows cols true = .ok obj') ∧
      (∀ i, i < rows → ∃ c, obj.dis.coreDistances[i]? = some (some c) ∧ obj'.dis.coreDistances[σ i]? = some (some c)) ∧
      SameHierarchy rows σ φ id obj.results.hierarchy obj'.results.hierarchy ∧
      obj'.results.clusters.length = obj.results.clusters.length ∧
      (∀ a ∈ obj.results.outliers, ∃ b ∈ obj'.results.outliers, b.id = σ a.id ∧ b.core = a.core ∧ b.score = a.score) := by
  have hd := distOf_rearranged ha h h' hσ hrow
  obtain ⟨obj, obj', core, hf, hc, _, _, _, M, M', f1, f1', res, res', hist, hist', cur, cur', noise, noise', last, last', s, s', V, V', τ, φ, χ, _, _, _, _, _, H, L, _, O⟩ :=
    Corr.fresh_two hq h h' h5 hm hmr hσ strictMono_id (fun i j a b _ => hd i j a b) (Corr.core_rearranged h h' hm hmr hσ hd htie)
  exact ⟨obj, obj', φ, hf, fun i hi => ⟨core i, (hc i hi).1, (hc i hi).2.1⟩, H, L, O rfl (fun _ _ => rfl) (.inr rfl)⟩

/-- **C61 without rounding in the stabilities**: the final labels are the same, too, up to the numbers given to the clusters. Missing: ties (see `C61_violated`), and rounding. -/
theorem C61_labels_partial [LinearOrder W] [AddCommGroup S] [LinearOrder S] [IsOrderedAddMonoid S] [LinearOrder T] (env : Api.Env D W S T) (hq : SortsAscending env.qsort)
    (ha : PlainArith env.dops) (hx : ExactSum env.ar) (data data' : List D) (rows cols : Nat)
    (f f' : Nat → Nat → W) (h : Supported env data rows cols f) (h' : Supported env data' rows cols f') (h5 : 5 ≤ rows) (m : Nat) (hm : 2 ≤ m) (hmr : m ≤ rows) (σ : Nat → Nat)
    (hσ : Rearranges rows σ) (hrow : ∀ i, i < rows → SameRow data data' cols i (σ i)) (htie : Untied rows m (distOf env.dops f)) :
    ∃ (obj obj' : Api.Obj W S T) (φ : Nat → Nat),
      (∀ par, Complete rows rows par → Api.fresh env par m data rows cols true = .ok obj ∧ Api.fresh env par m data' rows cols true = .ok obj') ∧
      SameHierarchy rows σ φ id obj.results.hierarchy obj'.results.hierarchy ∧
      ∀ p, p < rows → ∃ l, obj.results.labels[p]? = some l ∧ obj'.results.labels[σ p]? = some (φ l) := by
  have hd := distOf_rearranged ha h h' hσ hrow
  obtain ⟨obj, obj', core, hf, hc, _, _, _, M, M', f1, f1', res, res', hist, hist', cur, cur', noise, noise', last, last', s, s', V, V', τ, φ, χ, p, p', t, r, i, H, L, _, O⟩ :=
    Corr.fresh_two hq h h' h5 hm hmr hσ strictMono_id (fun i j a b _ => hd i j a b) (Corr.core_rearranged h h' hm hmr hσ hd htie)
  exact ⟨obj, obj', φ, hf, H, fun x hxr => Corr.twin_labels p p' hm hmr t r i hx.add hx.zero (exactSum_additive hx) id strictMono_id (fun _ _ => rfl) (fun _ _ _ _ _ => rfl) hxr⟩

/-- Eight points on a line, among them no duplicates, in two orders. -/
def tiedPts : List Rat := [3, 7, 5, 13, 10, 11, 12, 1]
def tiedPts' : List Rat := [5, 13, 1, 12, 3, 10, 11, 7]

theorem tiedPts_supported : Supported lineEnv tiedPts 8 1 (lineSq tiedPts) where
  few := by omega
  zero := rfl
  zero_lt := by decide
  sum i j hij hj := sqSum_iff.1 <| (by decide +kernel : ∀ j, j < 8 → ∀ i, i < j → Distance.sumFrom lineEnv.dops tiedPts 1 i j 1 0 lineEnv.dops.zero = .ok (lineSq tiedPts i j)) j hj i hij
  lt i j hij hj := (by decide +kernel : ∀ j, j < 8 → ∀ i, i < j → lineEnv.dops.sqrt (lineSq tiedPts i j) < lineEnv.ar.dmax) j hj i hij

theorem tiedPts'_supported : Supported lineEnv tiedPts' 8 1 (lineSq tiedPts') where
  few := by omega
  zero := rfl
  zero_lt := by decide
  sum i j hij hj := sqSum_iff.1 <| (by decide +kernel : ∀ j, j < 8 → ∀ i, i < j → Distance.sumFrom lineEnv.dops tiedPts' 1 i j 1 0 lineEnv.dops.zero = .ok (lineSq tiedPts' i j)) j hj i hij
  lt i j hij hj := (by decide +kernel : ∀ j, j < 8 → ∀ i, i < j → lineEnv.dops.sqrt (lineSq tiedPts' i j) < lineEnv.ar.dmax) j hj i hij

/-- C61 fails when distances are tied: with `minPoints` 3 and exact arithmetic, eight points on a line are all noise in one order of the rows and two clusters and one noise point in another. -/
theorem C61_violated : ∃ obj obj' : Api.Obj Rat Rat Rat,
    (∀ par, Complete 8 8 par → Api.fresh lineEnv par 3 [3, 7, 5, 13, 10, 11, 12, 1] 8 1 true = .ok obj ∧ Api.fresh lineEnv par 3 [5, 13, 1, 12, 3, 10, 11, 7] 8 1 true = .ok obj') ∧
    obj.results.labels = [0, 0, 0, 0, 0, 0, 0, 0] ∧ obj'.results.labels = [3, 2, 0, 2, 3, 2, 2, 3] := by
  obtain ⟨obj, _, hf, -⟩ := C55_run_partial lineEnv (isort_sorts _) tiedPts 8 1 _ tiedPts_supported (by omega) 3 (by omega) (by omega)
  obtain ⟨obj', _, hf', -⟩ := C55_run_partial lineEnv (isort_sorts _) tiedPts' 8 1 _ tiedPts'_supported (by omega) 3 (by omega) (by omega)
  refine ⟨obj, obj', fun par hp => ⟨hf par hp, hf' par hp⟩, ?_, ?_⟩
  · have e : (Api.fresh lineEnv (backPar 8 8) 3 tiedPts 8 1 true >>= fun o => .ok o.results.labels) = .ok [0, 0, 0, 0, 0, 0, 0, 0] := by decide +kernel
    rw [hf _ (backPar_complete 8 8)] at e
    exact Outcome.ok.inj e
  · have e : (Api.fresh lineEnv (backPar 8 8) 3 tiedPts' 8 1 true >>= fun o => .ok o.results.labels) = .ok [3, 2, 0, 2, 3, 2, 2, 3] := by decide +kernel
    rw [hf' _ (backPar_complete 8 8)] at e
    exact Outcome.ok.inj e

/-- The points of `linePts` in reverse order. -/
theorem linePtsRev_supported : Supported lineEnv [3, 9, 1, 7, 0] 5 1 (lineSq [3, 9, 1, 7, 0]) where
  few := by omega
  zero := rfl
  zero_lt := by decide
  sum i j hij hj := sqSum_iff.1 <| (by decide +kernel : ∀ j, j < 5 → ∀ i, i < j → Distance.sumFrom lineEnv.dops [3, 9, 1, 7, 0] 1 i j 1 0 lineEnv.dops.zero = .ok (lineSq [3, 9, 1, 7, 0] i j)) j hj i hij
  lt i j hij hj := (by decide +kernel : ∀ j, j < 5 → ∀ i, i < j → lineEnv.dops.sqrt (lineSq [3, 9, 1, 7, 0] i j) < lineEnv.ar.dmax) j hj i hij

theorem rev_rearranges : Rearranges 5 (fun i => 4 - i) := ⟨by omega, by omega⟩

theorem rev_rows (i : Nat) (hi : i < 5) : SameRow linePts [3, 9, 1, 7, 0] 1 i (4 - i) := by
  intro k hk
  interval_cases k
  interval_cases i <;> rfl

theorem linePts_untied : Untied 5 3 (distOf lineEnv.dops (lineSq linePts)) :=
  fun i hi => .inr <| .inr fun j j' hj hj' hne he => absurd he
    ((by decide +kernel : ∀ i, i < 5 → ∀ j, j < 5 → ∀ j', j' < 5 → j ≠ j' → distOf lineEnv.dops (lineSq linePts) i j ≠ distOf lineEnv.dops (lineSq linePts) i j') i hi j hj j' hj' hne)

theorem lineArithQ_exact : ExactSum lineEnv.ar where
  zero := rfl
  add _ _ := rfl
  term_zero w b := by show ((0 : Nat) : Rat) * _ = 0; simp
  term_add j k w b := by show ((j + k : Nat) : Rat) * _ = (j : Rat) * _ + (k : Rat) * _; push_cast; ring

example := C61_rearranged_partial lineEnv (isort_sorts _) lineEnv_plain linePts [3, 9, 1, 7, 0] 5 1 _ _ linePts_supported linePtsRev_supported (by omega) 3 (by omega) (by omega) (fun i => 4 - i)
  rev_rearranges rev_rows linePts_untied

example := C61_labels_partial lineEnv (isort_sorts _) lineEnv_plain lineArithQ_exact linePts [3, 9, 1, 7, 0] 5 1 _ _ linePts_supported linePtsRev_supported (by omega) 2 (by omega) (by omega)
  (fun i => 4 - i) rev_rearranges rev_rows (fun _ _ => .inl (by omega))

/-! ### C62 -/

/-- Core distances when every distance is changed by a strictly increasing function. -/
theorem core_monotone [LinearOrder W] {env : Api.Env D W S T} {data data' : List D} {rows cols cols' : Nat} {f f' : Nat → Nat → W} (h : Supported env data rows cols f)
    (h' : Supported env data' rows cols' f') {m : Nat} (hm : 2 ≤ m) (hmr : m ≤ rows) {ψ : W → W} (hψ : StrictMono ψ)
    (hd : ∀ i j, i < rows → j < rows → distOf env.dops f' i j = ψ (distOf env.dops f i j))
    (dis dis' : Distance W) (r1 : dis.rows = rows) (r1' : dis'.rows = rows) (r2 : dis.numNeighbors = m - 1) (r2' : dis'.numNeighbors = m - 1)
    (hget : ∀ i j, i < rows → j < rows → dis.get env.dops.zero i j = .ok (distOf env.dops f i j)) (hget' : ∀ i j, i < rows → j < rows → dis'.get env.dops.zero i j = .ok (distOf env.dops f' i j))
    (i : Nat) (x x' : W) (hi : i < rows) (hx : Distance.coreOf env.dops.zero env.ar.dmax dis i = .ok x) (hx' : Distance.coreOf env.dops.zero env.ar.dmax dis' i = .ok x') : x' = ψ x := by
  classical
  have hlt : x < env.ar.dmax := by
    obtain ⟨y, e, hy⟩ := Distance.coreOf_lt (zero := env.dops.zero) (dmax := env.ar.dmax) (dis := dis) (i := i) (d := distOf env.dops f i)
      (fun j hj => ⟨hget i j hi (by omega), Corr.supported_lt h hi (by omega)⟩) (by omega)
    rw [hx] at e; cases e; exact hy
  have := Distance.coreOf_map (dis' := dis') (i' := i) (θ := fun w => if w = env.ar.dmax then env.ar.dmax else ψ w) (P := fun w => w = env.ar.dmax ∨ ∃ j, j < rows ∧ w = distOf env.dops f i j)
    ?_ (.inl rfl) (if_pos rfl) (by rw [r1, r1']) (by rw [r2, r2']) ?_ hx
  · rw [hx', if_neg hlt.ne] at this
    exact Outcome.ok.inj this
  · rintro a b (rfl | ⟨j, hj, rfl⟩) (rfl | ⟨k, hk, rfl⟩) hab
    · exact absurd hab (lt_irrefl _)
    · exact absurd hab (not_lt.2 (Corr.supported_lt h hi hk).le)
    · simp only [if_pos, if_neg hab.ne]
      rw [← hd i j hi hj]; exact Corr.supported_lt h' hi hj
    · simp only [if_neg (Corr.supported_lt h hi hj).ne, if_neg (Corr.supported_lt h hi hk).ne]
      exact hψ hab
  · intro j hj
    rw [r1] at hj
    refine ⟨_, .inr ⟨j, hj, rfl⟩, hget i j hi hj, ?_⟩
    rw [hget' i j hi hj, hd i j hi hj, if_neg (Corr.supported_lt h hi hj).ne]

theorem distOf_monotone [LinearOrder W] {env : Api.Env D W S T} {rows : Nat} {f f' : Nat → Nat → W} {ψ : W → W} (h0 : ψ env.dops.zero = env.dops.zero)
    (hd : ∀ i j, i < j → j < rows → env.dops.sqrt (f' i j) = ψ (env.dops.sqrt (f i j))) (i j : Nat) (hi : i < rows) (hj : j < rows) :
    distOf env.dops f' i j = ψ (distOf env.dops f i j) := by
  unfold distOf
  rcases Nat.lt_trichotomy i j with a | a | a
  · rw [if_pos a, if_pos a]; exact hd i j a hj
  · rw [if_neg (by omega), if_pos a, if_neg (by omega), if_pos a, h0]
  · rw [if_neg (by omega), if_neg (by omega), if_neg (by omega), if_neg (by omega)]; exact hd j i a hi

theorem id_rearranges (n : Nat) : Rearranges n id := ⟨fun _ h => h, fun _ _ _ _ h => h⟩

/-- **C62, any change of scale**. Only the order of the distances matters for the hierarchy: if every distance is changed by the same strictly increasing function `ψ`, the core distances
    and the levels change by `ψ` and nothing else changes in the hierarchy, up to the numbers given to the clusters. No assumption on ties. -/
theorem C62_monotone [LinearOrder W] [CCmp S] [LinearOrder T] (env : Api.Env D W S T) (hq : SortsAscending env.qsort) (data data' : List D) (rows cols cols' : Nat) (f f' : Nat → Nat → W)
    (h : Supported env data rows cols f) (h' : Supported env data' rows cols' f') (h5 : 5 ≤ rows) (m : Nat) (hm : 2 ≤ m) (hmr : m ≤ rows) (ψ : W → W) (hψ : StrictMono ψ)
    (h0 : ψ env.dops.zero = env.dops.zero) (hd : ∀ i j, i < j → j < rows → env.dops.sqrt (f' i j) = ψ (env.dops.sqrt (f i j))) :
    ∃ (obj obj' : Api.Obj W S T) (φ : Nat → Nat),
      (∀ par, Complete rows rows par → Api.fresh env par m data rows cols true = .ok obj ∧ Api.fresh env par m data' rows cols' true = .ok obj') ∧
      (∀ i, i < rows → ∃ c, obj.dis.coreDistances[i]? = some (some c) ∧ obj'.dis.coreDistances[i]? = some (some (ψ c))) ∧
      SameHierarchy rows id φ ψ obj.results.hierarchy obj'.results.hierarchy ∧
      obj'.results.clusters.length = obj.results.clusters.length := by
  have hd' := distOf_monotone (env := env) h0 hd
  obtain ⟨obj, obj', core, hf, hc, _, _, _, M, M', f1, f1', res, res', hist, hist', cur, cur', noise, noise', last, last', s, s', V, V', τ, φ, χ, _, _, _, _, _, H, L, _, O⟩ :=
    Corr.fresh_two hq h h' h5 hm hmr (id_rearranges rows) hψ (fun i j a b _ => hd' i j a b) (core_monotone h h' hm hmr hψ hd')
  exact ⟨obj, obj', φ, hf, fun i hi => ⟨core i, (hc i hi).1, (hc i hi).2.1⟩, H, L⟩

/-- **C62, proved part**, in exact arithmetic. If all distances are multiplied by `c > 0`, the core distances and the levels of the hierarchy are multiplied by `c`, the final labels are the
    same up to the numbers given to the clusters (as long as the levels are positive, so that the stabilities are finite), and so are the outlier scores if the hierarchy splits.
    Missing: the scores of hierarchies that never split, where the claim is false (`C62_unsplit_violated`); rounding. -/
theorem C62_scaled_partial {K : Type} [Field K] [LinearOrder K] [IsStrictOrderedRing K] (env : Api.Env D K K K) (dmax : K) (har : env.ar = exact K dmax) (hops : env.oops = exactScore K)
    (hq : SortsAscending env.qsort) (data data' : List D) (rows cols cols' : Nat) (f f' : Nat → Nat → K) (h : Supported env data rows cols f) (h' : Supported env data' rows cols' f')
    (h5 : 5 ≤ rows) (m : Nat) (hm : 2 ≤ m) (hmr : m ≤ rows) (c : K) (hc : 0 < c) (hd : ∀ i j, i < j → j < rows → env.dops.sqrt (f' i j) = c * env.dops.sqrt (f i j)) :
    ∃ (obj obj' : Api.Obj K K K) (φ : Nat → Nat),
      (∀ par, Complete rows rows par → Api.fresh env par m data rows cols true = .ok obj ∧ Api.fresh env par m data' rows cols' true = .ok obj') ∧
      (∀ i, i < rows → ∃ x, obj.dis.coreDistances[i]? = some (some x) ∧ obj'.dis.coreDistances[i]? = some (some (c * x))) ∧
      SameHierarchy rows id φ (c * ·) obj.results.hierarchy obj'.results.hierarchy ∧
      obj'.results.clusters.length = obj.results.clusters.length ∧
      ((∀ i w, 1 ≤ i → HasWeight obj.results.hierarchy i w → 0 < w) → ∀ p, p < rows → ∃ l, obj.results.labels[p]? = some l ∧ obj'.results.labels[p]? = some (φ l)) ∧
      (obj.results.clusters.length ≠ 2 → ∀ a ∈ obj.results.outliers, ∃ b ∈ obj'.results.outliers, b.id = a.id ∧ b.core = c * a.core ∧ b.score = a.score) := by
  have hz : env.dops.zero = 0 := by rw [h.zero, har]; rfl
  have hψ : StrictMono (fun x : K => c * x) := fun a b hab => mul_lt_mul_of_pos_left hab hc
  have hd' := distOf_monotone (env := env) (ψ := (c * ·)) (by simp [hz]) hd
  obtain ⟨obj, obj', core, hf, hco, _, _, _, M, M', f1, f1', res, res', hist, hist', cur, cur', noise, noise', last, last', s, s', V, V', τ, φ, χ, p, p', t, r, i, H, L, _, O⟩ :=
    Corr.fresh_two hq h h' h5 hm hmr (id_rearranges rows) hψ (fun i j a b _ => hd' i j a b) (core_monotone h h' hm hmr hψ hd')
  refine ⟨obj, obj', φ, hf, fun i hi => ⟨core i, (hco i hi).1, (hco i hi).2.1⟩, H, L, fun _ x hx => ?_, fun hs => O ?_ ?_ (.inl hs)⟩
  · refine Corr.twin_labels p p' hm hmr t r i (by rw [har]; intros; rfl) (by rw [har]; rfl) (by rw [har]; exact Hier.exact_additive K dmax) (fun x => c⁻¹ * x)
      (fun a b hab => mul_lt_mul_of_pos_left hab (inv_pos.2 hc)) (fun a b => mul_add _ _ _) (fun k w b _ _ => ?_) hx
    rw [har]
    show (k : K) * (1 / (c * w) - 1 / (c * b)) = c⁻¹ * ((k : K) * (1 / w - 1 / b))
    rw [one_div, one_div, one_div, one_div, mul_inv, mul_inv]
    ring
  · rw [har]; exact mul_zero c
  · intro a b
    rw [hops]
    show 1 - c * a / (c * b) = 1 - a / b
    rw [mul_div_mul_left _ _ hc.ne']

/-- Distances of scaled data. -/
theorem euclid_scaled (data : List ℝ) (c : ℝ) (hc : 0 < c) (cols i j : Nat) : euclid (data.map (c * ·)) cols i j = c * euclid data cols i j := by
  have hg : ∀ k, (data.map (c * ·)).getD k 0 = c * data.getD k 0 := by
    intro k
    rw [List.getD_eq_getElem?_getD, List.getD_eq_getElem?_getD, List.getElem?_map]
    cases data[k]? <;> simp
  unfold euclid
  simp only [hg, ← mul_sub, mul_pow]
  rw [← Finset.mul_sum, Real.sqrt_mul (by positivity), Real.sqrt_sq hc.le]

/-- **C62 for real data**: all coordinates are multiplied by `c > 0`, for instance to convert metres to feet. Same gaps as in `C62_scaled_partial`. -/
theorem C62_units_partial (env : Api.Env ℝ ℝ ℝ ℝ) (dmax : ℝ) (h0 : 0 < dmax) (hdo : env.dops = realOps) (har : env.ar = exact ℝ dmax) (hops : env.oops = exactScore ℝ)
    (hq : SortsAscending env.qsort) (data : List ℝ) (rows cols : Nat) (hr : rows ≤ 65536) (hl : rows * cols ≤ data.length) (c : ℝ) (hc : 0 < c)
    (hlt : ∀ i j, i < j → j < rows → euclid data cols i j < dmax) (hlt' : ∀ i j, i < j → j < rows → c * euclid data cols i j < dmax)
    (h5 : 5 ≤ rows) (m : Nat) (hm : 2 ≤ m) (hmr : m ≤ rows) :
    ∃ (obj obj' : Api.Obj ℝ ℝ ℝ) (φ : Nat → Nat),
      (∀ par, Complete rows rows par → Api.fresh env par m data rows cols true = .ok obj ∧ Api.fresh env par m (data.map (c * ·)) rows cols true = .ok obj') ∧
      (∀ i, i < rows → ∃ x, obj.dis.coreDistances[i]? = some (some x) ∧ obj'.dis.coreDistances[i]? = some (some (c * x))) ∧
      SameHierarchy rows id φ (c * ·) obj.results.hierarchy obj'.results.hierarchy ∧
      obj'.results.clusters.length = obj.results.clusters.length ∧
      ((∀ i w, 1 ≤ i → HasWeight obj.results.hierarchy i w → 0 < w) → ∀ p, p < rows → ∃ l, obj.results.labels[p]? = some l ∧ obj'.results.labels[p]? = some (φ l)) ∧
      (obj.results.clusters.length ≠ 2 → ∀ a ∈ obj.results.outliers, ∃ b ∈ obj'.results.outliers, b.id = a.id ∧ b.core = c * a.core ∧ b.score = a.score) :=
  C62_scaled_partial env dmax har hops hq data (data.map (c * ·)) rows cols cols _ _
    (real_supported env hdo (by rw [har]; rfl) (by rw [har]; exact h0) data rows cols hr hl (fun i j a b => by rw [har]; exact hlt i j a b))
    (real_supported env hdo (by rw [har]; rfl) (by rw [har]; exact h0) (data.map (c * ·)) rows cols hr (by simpa using hl)
      (fun i j a b => by rw [har, euclid_scaled _ _ hc]; exact hlt' i j a b))
    h5 m hm hmr c hc (fun i j _ _ => by rw [hdo]; exact euclid_scaled data c hc cols i j)

/-- The points of `linePts` in a unit half as large. -/
theorem linePts2_supported : Supported lineEnv [0, 14, 2, 18, 6] 5 1 (lineSq [0, 14, 2, 18, 6]) where
  few := by omega
  zero := rfl
  zero_lt := by decide
  sum i j hij hj := sqSum_iff.1 <| (by decide +kernel : ∀ j, j < 5 → ∀ i, i < j → Distance.sumFrom lineEnv.dops [0, 14, 2, 18, 6] 1 i j 1 0 lineEnv.dops.zero = .ok (lineSq [0, 14, 2, 18, 6] i j)) j hj i hij
  lt i j hij hj := (by decide +kernel : ∀ j, j < 5 → ∀ i, i < j → lineEnv.dops.sqrt (lineSq [0, 14, 2, 18, 6] i j) < lineEnv.ar.dmax) j hj i hij

theorem linePts2_double (i j : Nat) (hij : i < j) (hj : j < 5) : lineEnv.dops.sqrt (lineSq [0, 14, 2, 18, 6] i j) = 2 * lineEnv.dops.sqrt (lineSq linePts i j) :=
  (by decide +kernel : ∀ j, j < 5 → ∀ i, i < j → lineEnv.dops.sqrt (lineSq [0, 14, 2, 18, 6] i j) = 2 * lineEnv.dops.sqrt (lineSq linePts i j)) j hj i hij

theorem lineArithQ_eq : lineEnv.ar = exact Rat 1000 := by
  show lineArithQ = _
  unfold lineArithQ exact
  congr 1
  funext k w b
  cases b <;> rfl

/-- C62 fails for the scores when the hierarchy never splits: with `minPoints` 5, the scores of five points depend on the unit of length. -/
theorem C62_unsplit_violated : ∃ obj obj' : Api.Obj Rat Rat Rat,
    (∀ par, Complete 5 5 par → Api.fresh lineEnv par 5 [0, 7, 1, 9, 3] 5 1 true = .ok obj ∧ Api.fresh lineEnv par 5 [0, 14, 2, 18, 6] 5 1 true = .ok obj') ∧
    obj.results.outliers.map (·.score) = List.replicate 5 (-991 / 9) ∧ obj'.results.outliers.map (·.score) = List.replicate 5 (-491 / 9) := by
  obtain ⟨obj, _, hf, -⟩ := C55_run_partial lineEnv (isort_sorts _) linePts 5 1 _ linePts_supported (by omega) 5 (by omega) (by omega)
  obtain ⟨obj', _, hf', -⟩ := C55_run_partial lineEnv (isort_sorts _) _ 5 1 _ linePts2_supported (by omega) 5 (by omega) (by omega)
  refine ⟨obj, obj', fun par hp => ⟨hf par hp, hf' par hp⟩, ?_, ?_⟩
  · have e : (Api.fresh lineEnv (backPar 5 5) 5 linePts 5 1 true >>= fun o => .ok (o.results.outliers.map (·.score))) = .ok (List.replicate 5 (-991 / 9)) := by decide +kernel
    rw [hf _ (backPar_complete 5 5)] at e
    exact Outcome.ok.inj e
  · have e : (Api.fresh lineEnv (backPar 5 5) 5 [0, 14, 2, 18, 6] 5 1 true >>= fun o => .ok (o.results.outliers.map (·.score))) = .ok (List.replicate 5 (-491 / 9)) := by decide +kernel
    rw [hf' _ (backPar_complete 5 5)] at e
    exact Outcome.ok.inj e

example := C62_monotone lineEnv (isort_sorts _) linePts [0, 14, 2, 18, 6] 5 1 1 _ _ linePts_supported linePts2_supported (by omega) 2 (by omega) (by omega) (2 * ·)
  (fun a b hab => mul_lt_mul_of_pos_left hab (by norm_num)) (mul_zero 2) linePts2_double

example := C62_scaled_partial lineEnv 1000 lineArithQ_eq rfl (isort_sorts _) linePts [0, 14, 2, 18, 6] 5 1 1 _ _ linePts_supported linePts2_supported (by omega) 2 (by omega) (by omega) 2 (by norm_num)
  linePts2_double

/-- The levels of these points are positive and the hierarchy splits. -/
example : (Api.fresh lineEnv (backPar 5 5) 2 linePts 5 1 true >>= fun o => .ok (o.results.hierarchy.map (fun x => (x.1, x.2.1)), o.results.clusters.length)) =
    .ok ([(1, 4), (2, 2), (3, 1), (0, 0)], 4) := by decide +kernel

example := C62_units_partial realEnv 1000 (by norm_num) rfl rfl rfl (isort_sorts _) [0, 1, 7, 2, 1, 3, 9, 4, 3, 5] 5 2 (by omega) (by simp) 3 (by norm_num)
  (fun i j hij hj => by
    have : euclid [0, 1, 7, 2, 1, 3, 9, 4, 3, 5] 2 i j ≤ 100 := by
      unfold euclid
      rw [Real.sqrt_le_left (by norm_num)]
      interval_cases j <;> interval_cases i <;> norm_num [Finset.sum_range_succ]
    linarith)
  (fun i j hij hj => by
    have : euclid [0, 1, 7, 2, 1, 3, 9, 4, 3, 5] 2 i j ≤ 100 := by
      unfold euclid
      rw [Real.sqrt_le_left (by norm_num)]
      interval_cases j <;> interval_cases i <;> norm_num [Finset.sum_range_succ]
    linarith)
  (by omega) 2 (by omega) (by omega)

end Verif.Props
