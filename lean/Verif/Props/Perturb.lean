import Verif.Props.MinPoints
import Mathlib.Analysis.InnerProductSpace.PiL2
import Mathlib.Tactic.IntervalCases
/-
C91: small errors in the data move the hierarchy little. C92: further rows never separate points.
-/
namespace Verif.Props
open Spec
variable {D W S T : Type}

/-- A run whose core distances are the right ones. -/
theorem run_kth [LinearOrder W] [CCmp S] [LinearOrder T] (env : Api.Env D W S T) (hq : SortsAscending env.qsort) (data : List D) (rows cols : Nat) (f : Nat → Nat → W)
    (h : Supported env data rows cols f) (h5 : 5 ≤ rows) (m : Nat) (hm : 2 ≤ m) (hmr : m ≤ rows) (ht : Untied rows m (distOf env.dops f)) :
    ∃ (obj : Api.Obj W S T) (core : Nat → W), (∀ par, Complete rows rows par → Api.fresh env par m data rows cols true = .ok obj) ∧
      (∀ i, i < rows → obj.dis.coreDistances[i]? = some (some (core i)) ∧ IsKth ((List.range rows).map (distOf env.dops f i)) m (core i)) ∧
      (∀ i w A, (i, w, A) ∈ obj.results.hierarchy → i ≠ 0 → A.length = rows ∧
        (∀ u v lu lv, A[u]? = some lu → A[v]? = some lv → lu ≠ 0 → lv ≠ 0 → (lu = lv ↔ Reachable rows (mutualReach (distOf env.dops f) core) w u v)) ∧
        (∀ u lu, A[u]? = some lu → (lu = 0 ↔ ¬ AtLeast m (fun v => Reachable rows (mutualReach (distOf env.dops f) core) w u v)))) := by
  obtain ⟨obj, core, hf, -, -, hget, hcore, hline, -⟩ := C55_run_partial env hq data rows cols f h h5 m hm hmr
  obtain ⟨objS, coreS, gS, resS, hfS, r1, r2, gS', hcS, -⟩ := stages hq h h5 hm hmr
  have hpar := backPar_complete rows rows
  have e1 : objS = obj := by have a := hfS _ hpar; rw [hf _ hpar] at a; exact (Outcome.ok.inj a).symm
  subst e1
  refine ⟨objS, core, hf, fun i hi => ⟨(hcore i hi).1, ?_⟩, hline⟩
  have a1 : core i = coreS i := by have a := (hcS i hi).1; rw [(hcore i hi).1] at a; exact Option.some.inj (Option.some.inj a)
  have k1 := Distance.coreOf_kth (d := distOf env.dops f i) (fun j hj => gS' i j hi (by omega)) (fun j hj => (Corr.supported_lt h hi (by omega)).le) (by omega)
    (by rw [r2, Nat.sub_add_cancel (by omega), r1]; exact ht i hi) (hcS i hi).2
  rw [r1, r2, Nat.sub_add_cancel (by omega)] at k1
  rw [a1]
  exact k1

/-- Core distances of rows that have at least as many neighbours within the changed distances. -/
theorem kth_le_of_embed [LinearOrder W] {n n' m : Nat} {d d' : Nat → W} {x x' : W} (h : IsKth ((List.range n).map d) m x) (h' : IsKth ((List.range n').map d') m x') {φ : Nat → Nat}
    (hlt : ∀ i, i < n → φ i < n') (hinj : ∀ i j, i < n → j < n → φ i = φ j → i = j) {σ : W → W} (hσ : Monotone σ) (hd : ∀ j, j < n → d' (φ j) ≤ σ (d j)) : x' ≤ σ x := by
  by_contra hgt
  rw [not_le] at hgt
  have h1 := h.2
  have h2 := h'.1
  rw [List.countP_map, List.countP_eq_length_filter] at h1 h2
  have hsub : (((List.range n).filter ((fun t => decide (t ≤ x)) ∘ d)).map φ).Subperm ((List.range n').filter ((fun t => decide (t < x')) ∘ d')) := by
    refine List.Nodup.subperm ?_ ?_
    · refine List.Nodup.map_on (fun a ha b hb e => ?_) (List.nodup_range.filter _)
      rw [List.mem_filter, List.mem_range] at ha hb
      exact hinj a b ha.1 hb.1 e
    · intro j hj
      obtain ⟨i, hi, rfl⟩ := List.mem_map.1 hj
      simp only [List.mem_filter, List.mem_range, Function.comp, decide_eq_true_eq] at hi ⊢
      exact ⟨hlt i hi.1, lt_of_le_of_lt ((hd i hi.1).trans (hσ hi.2)) hgt⟩
  have := hsub.length_le
  rw [List.length_map] at this
  omega

theorem reach_embed [LinearOrder W] {n n' : Nat} {a b : Nat → Nat → W} {v w : W} {φ : Nat → Nat} (hlt : ∀ i, i < n → φ i < n') (hinj : ∀ i j, i < n → j < n → φ i = φ j → i = j)
    {σ : W → W} (hσ : Monotone σ) (hab : ∀ i j, i < n → j < n → i ≠ j → b (φ i) (φ j) ≤ σ (a i j)) (hvw : σ v ≤ w) {i j : Nat} (h : Reachable n a v i j) : Reachable n' b w (φ i) (φ j) := by
  induction h with
  | rel x y hxy =>
    obtain ⟨hx, hy, hne, hle⟩ := hxy
    exact .rel _ _ ⟨hlt x hx, hlt y hy, fun e => hne (hinj x y hx hy e), ((hab x y hx hy hne).trans (hσ hle)).trans hvw⟩
  | refl x => exact .refl _
  | symm x y _ ih => exact .symm _ _ ih
  | trans x y z _ _ ih1 ih2 => exact .trans _ _ _ ih1 ih2

/-- Points that share a cluster in a line of the first hierarchy share one in the lines of the second that belong to large enough weights. -/
theorem joins_embed [LinearOrder W] {n n' m : Nat} {mr mr' : Nat → Nat → W} {A A' : List Nat} {w w' : W} {φ : Nat → Nat} (hlt : ∀ i, i < n → φ i < n')
    (hinj : ∀ i j, i < n → j < n → φ i = φ j → i = j) {σ : W → W} (hσ : Monotone σ) (hab : ∀ i j, i < n → j < n → i ≠ j → mr' (φ i) (φ j) ≤ σ (mr i j)) (hww : σ w ≤ w')
    (hA : A.length = n ∧ (∀ u v lu lv, A[u]? = some lu → A[v]? = some lv → lu ≠ 0 → lv ≠ 0 → (lu = lv ↔ Reachable n mr w u v)) ∧
      (∀ u lu, A[u]? = some lu → (lu = 0 ↔ ¬ AtLeast m (fun v => Reachable n mr w u v))))
    (hA' : A'.length = n' ∧ (∀ u v lu lv, A'[u]? = some lu → A'[v]? = some lv → lu ≠ 0 → lv ≠ 0 → (lu = lv ↔ Reachable n' mr' w' u v)) ∧
      (∀ u lu, A'[u]? = some lu → (lu = 0 ↔ ¬ AtLeast m (fun v => Reachable n' mr' w' u v))))
    {u v l : Nat} (hu : A[u]? = some l) (hv : A[v]? = some l) (hl : l ≠ 0) : ∃ l', l' ≠ 0 ∧ A'[φ u]? = some l' ∧ A'[φ v]? = some l' := by
  obtain ⟨len, same, noise⟩ := hA
  obtain ⟨len', same', noise'⟩ := hA'
  have hun : ∀ {x}, A[x]? = some l → x < n := fun hx => len ▸ (List.getElem?_eq_some_iff.1 hx).1
  have hmem : ∀ x, x < n → ∃ lx, A'[φ x]? = some lx := fun x hx => ⟨_, List.getElem?_eq_getElem (by rw [len']; exact hlt x hx)⟩
  have hin : ∀ {x y}, x < n → Reachable n mr w x y → y < n := by
    intro x y hx hr
    have : ∀ a b, Reachable n mr w a b → (a < n ↔ b < n) := by
      intro a b hab
      induction hab with
      | rel x y hxy => exact ⟨fun _ => hxy.2.1, fun _ => hxy.1⟩
      | refl x => exact Iff.rfl
      | symm x y _ ih => exact ih.symm
      | trans x y z _ _ ih1 ih2 => exact ih1.trans ih2
    exact (this x y hr).1 hx
  have hnz : ∀ x lx, A[x]? = some l → A'[φ x]? = some lx → lx ≠ 0 := by
    intro x lx h1 h2 h0
    have := mt (noise x l h1).2 hl
    rw [not_not] at this
    obtain ⟨L, n1, n2, n3⟩ := this
    refine (noise' (φ x) lx h2).1 h0 ⟨L.map φ, List.Nodup.map_on (fun a ha b hb e => hinj a b (hin (hun h1) (n3 a ha)) (hin (hun h1) (n3 b hb)) e) n1, by rw [List.length_map]; exact n2, fun y hy => ?_⟩
    obtain ⟨z, hz, rfl⟩ := List.mem_map.1 hy
    exact reach_embed hlt hinj hσ hab hww (n3 z hz)
  obtain ⟨lu, hlu⟩ := hmem u (hun hu)
  obtain ⟨lv, hlv⟩ := hmem v (hun hv)
  have hu0 := hnz u lu hu hlu
  have hv0 := hnz v lv hv hlv
  have e := (same' _ _ lu lv hlu hlv hu0 hv0).2 (reach_embed hlt hinj hσ hab hww ((same u v l l hu hv hl hl).1 rfl))
  exact ⟨lu, hu0, hlu, by rw [hlv, e]⟩

/-- **C91, the part that holds.** If every distance of two data sets with the same number of rows differs by at most `eps`, so do the core distances, and points that share a cluster in a line of weight
    `w` of one hierarchy share a cluster in every line of weight `w + eps` or more of the other. So what is noise at `w + eps` is noise at `w` in the other one. This holds for the computed distances, with
    rounding. Missing: repeated distances as in C19, with which the claim is false (`C91_violated`). -/
theorem C91_stable_partial [AddCommGroup W] [LinearOrder W] [IsOrderedAddMonoid W] [CCmp S] [LinearOrder T] (env : Api.Env D W S T) (hq : SortsAscending env.qsort) (data data' : List D)
    (rows cols cols' : Nat) (f f' : Nat → Nat → W) (h : Supported env data rows cols f) (h' : Supported env data' rows cols' f') (h5 : 5 ≤ rows) (m : Nat) (hm : 2 ≤ m) (hmr : m ≤ rows)
    (ht : Untied rows m (distOf env.dops f)) (ht' : Untied rows m (distOf env.dops f')) (eps : W) (he : 0 ≤ eps)
    (hclose : ∀ i j, i < j → j < rows → |distOf env.dops f i j - distOf env.dops f' i j| ≤ eps) :
    ∃ obj obj' : Api.Obj W S T, (∀ par, Complete rows rows par → Api.fresh env par m data rows cols true = .ok obj ∧ Api.fresh env par m data' rows cols' true = .ok obj') ∧
      (∀ i, i < rows → ∃ c c', obj.dis.coreDistances[i]? = some (some c) ∧ obj'.dis.coreDistances[i]? = some (some c') ∧ |c - c'| ≤ eps) ∧
      ∀ i w A i' w' A', (i, w, A) ∈ obj.results.hierarchy → i ≠ 0 → (i', w', A') ∈ obj'.results.hierarchy → i' ≠ 0 → ∀ u v l : Nat, l ≠ 0 →
        (w + eps ≤ w' → A[u]? = some l → A[v]? = some l → ∃ l', l' ≠ 0 ∧ A'[u]? = some l' ∧ A'[v]? = some l') ∧
        (w' + eps ≤ w → A'[u]? = some l → A'[v]? = some l → ∃ l', l' ≠ 0 ∧ A[u]? = some l' ∧ A[v]? = some l') := by
  obtain ⟨obj, core, hf, hcore, hline⟩ := run_kth env hq data rows cols f h h5 m hm hmr ht
  obtain ⟨obj', core', hf', hcore', hline'⟩ := run_kth env hq data' rows cols' f' h' h5 m hm hmr ht'
  have hσ : Monotone (fun x : W => x + eps) := fun a b hab => add_le_add_left hab eps
  have hd : ∀ i j, i < rows → j < rows → |distOf env.dops f i j - distOf env.dops f' i j| ≤ eps := by
    intro i j hi hj
    rcases lt_trichotomy i j with hij | rfl | hij
    · exact hclose i j hij hj
    · simpa [distOf] using he
    · rw [distOf_symm env.dops f i j, distOf_symm env.dops f' i j]; exact hclose j i hij hi
  have hd1 : ∀ i j, i < rows → j < rows → distOf env.dops f' i j ≤ distOf env.dops f i j + eps := fun i j hi hj => by
    have := (abs_sub_comm _ _).trans_le (hd i j hi hj)
    rw [add_comm]; exact sub_le_iff_le_add.1 ((le_abs_self _).trans this)
  have hd2 : ∀ i j, i < rows → j < rows → distOf env.dops f i j ≤ distOf env.dops f' i j + eps := fun i j hi hj => by
    rw [add_comm]; exact sub_le_iff_le_add.1 ((le_abs_self _).trans (hd i j hi hj))
  have hc1 : ∀ i, i < rows → core' i ≤ core i + eps := fun i hi =>
    kth_le_of_embed (hcore i hi).2 (hcore' i hi).2 (φ := id) (fun _ h => h) (fun _ _ _ _ h => h) hσ (fun j hj => hd1 i j hi hj)
  have hc2 : ∀ i, i < rows → core i ≤ core' i + eps := fun i hi =>
    kth_le_of_embed (hcore' i hi).2 (hcore i hi).2 (φ := id) (fun _ h => h) (fun _ _ _ _ h => h) hσ (fun j hj => hd2 i j hi hj)
  have hmr1 : ∀ i j, i < rows → j < rows → i ≠ j → mutualReach (distOf env.dops f') core' i j ≤ mutualReach (distOf env.dops f) core i j + eps := fun i j hi hj _ =>
    max_le (max_le ((hd1 i j hi hj).trans (hσ (le_max_of_le_left (le_max_left _ _)))) ((hc1 i hi).trans (hσ (le_max_of_le_left (le_max_right _ _))))) ((hc1 j hj).trans (hσ (le_max_right _ _)))
  have hmr2 : ∀ i j, i < rows → j < rows → i ≠ j → mutualReach (distOf env.dops f) core i j ≤ mutualReach (distOf env.dops f') core' i j + eps := fun i j hi hj _ =>
    max_le (max_le ((hd2 i j hi hj).trans (hσ (le_max_of_le_left (le_max_left _ _)))) ((hc2 i hi).trans (hσ (le_max_of_le_left (le_max_right _ _))))) ((hc2 j hj).trans (hσ (le_max_right _ _)))
  refine ⟨obj, obj', fun par hp => ⟨hf par hp, hf' par hp⟩, fun i hi => ⟨core i, core' i, (hcore i hi).1, (hcore' i hi).1, ?_⟩, ?_⟩
  · rw [abs_sub_le_iff]
    exact ⟨sub_le_iff_le_add.2 (by rw [add_comm]; exact hc2 i hi), sub_le_iff_le_add.2 (by rw [add_comm]; exact hc1 i hi)⟩
  · intro i w A i' w' A' hA hi hA' hi' u v l hl
    exact ⟨fun hww hu hv => joins_embed (φ := id) (fun _ h => h) (fun _ _ _ _ h => h) hσ hmr1 hww (hline i w A hA hi) (hline' i' w' A' hA' hi') hu hv hl,
      fun hww hu hv => joins_embed (φ := id) (fun _ h => h) (fun _ _ _ _ h => h) hσ hmr2 hww (hline' i' w' A' hA' hi') (hline i w A hA hi) hu hv hl⟩

/-- The length of a vector given by its coordinates is a norm. -/
theorem sqrt_sum_norm (n : Nat) (x : Nat → ℝ) : Real.sqrt (∑ k ∈ Finset.range n, x k ^ 2) = ‖(WithLp.toLp 2 (fun k : Fin n => x k) : EuclideanSpace ℝ (Fin n))‖ := by
  rw [EuclideanSpace.norm_eq, Finset.sum_range]
  simp

/-- Moving both ends by at most `δ` changes a distance by at most `2 * δ`. -/
theorem euclid_moved {data data' : List ℝ} {cols i j : Nat} {δ : ℝ} (hi : shift data data' cols i ≤ δ) (hj : shift data data' cols j ≤ δ) :
    |euclid data cols i j - euclid data' cols i j| ≤ 2 * δ := by
  unfold euclid
  unfold shift at hi hj
  rw [sqrt_sum_norm] at hi hj
  rw [sqrt_sum_norm, sqrt_sum_norm]
  refine (abs_norm_sub_norm_le _ _).trans ?_
  rw [two_mul]
  refine le_trans (le_of_eq_of_le ?_ (norm_sub_le _ _)) (add_le_add hi hj)
  congr 1
  ext k
  simp
  ring

/-- **C91 for real data**: if no row moves by more than `δ`, points that share a cluster in a line of weight `w` of one hierarchy share a cluster in every line of weight `w + 2 * δ` or more of the other.
    Same gap as in `C91_stable_partial`. -/
theorem C91_moved_partial [CCmp S] [LinearOrder T] (env : Api.Env ℝ ℝ S T) (hq : SortsAscending env.qsort) (ho : env.dops = realOps) (hz : env.ar.zeroW = 0) (h0 : 0 < env.ar.dmax)
    (data data' : List ℝ) (rows cols : Nat) (hr : rows ≤ 65536) (hl : rows * cols ≤ data.length) (hl' : rows * cols ≤ data'.length)
    (hlt : ∀ i j, i < j → j < rows → euclid data cols i j < env.ar.dmax) (hlt' : ∀ i j, i < j → j < rows → euclid data' cols i j < env.ar.dmax) (h5 : 5 ≤ rows) (m : Nat) (hm : 2 ≤ m) (hmr : m ≤ rows)
    (ht : Untied rows m (euclid data cols)) (ht' : Untied rows m (euclid data' cols)) (δ : ℝ) (hmove : ∀ i, i < rows → shift data data' cols i ≤ δ) :
    ∃ obj obj' : Api.Obj ℝ S T, (∀ par, Complete rows rows par → Api.fresh env par m data rows cols true = .ok obj ∧ Api.fresh env par m data' rows cols true = .ok obj') ∧
      (∀ i, i < rows → ∃ c c', obj.dis.coreDistances[i]? = some (some c) ∧ obj'.dis.coreDistances[i]? = some (some c') ∧ |c - c'| ≤ 2 * δ) ∧
      ∀ i w A i' w' A', (i, w, A) ∈ obj.results.hierarchy → i ≠ 0 → (i', w', A') ∈ obj'.results.hierarchy → i' ≠ 0 → ∀ u v l : Nat, l ≠ 0 →
        (w + 2 * δ ≤ w' → A[u]? = some l → A[v]? = some l → ∃ l', l' ≠ 0 ∧ A'[u]? = some l' ∧ A'[v]? = some l') ∧
        (w' + 2 * δ ≤ w → A'[u]? = some l → A'[v]? = some l → ∃ l', l' ≠ 0 ∧ A[u]? = some l' ∧ A[v]? = some l') := by
  have hδ : 0 ≤ δ := (Real.sqrt_nonneg _).trans (hmove 0 (by omega))
  have hdist : ∀ data : List ℝ, distOf env.dops (fun i j => ∑ k ∈ Finset.range cols, (data.getD (i * cols + k) 0 - data.getD (j * cols + k) 0) ^ 2) = euclid data cols := by
    intro data
    funext i j
    rw [ho]
    unfold distOf euclid
    rcases lt_trichotomy i j with hij | rfl | hij
    · rw [if_pos hij]; rfl
    · rw [if_neg (lt_irrefl _), if_pos rfl]; simp [realOps]
    · rw [if_neg (by omega), if_neg (by omega)]
      show Real.sqrt _ = _
      congr 1
      exact Finset.sum_congr rfl fun k _ => by ring
  have := C91_stable_partial env hq data data' rows cols cols _ _ (real_supported env ho hz h0 data rows cols hr hl hlt) (real_supported env ho hz h0 data' rows cols hr hl' hlt') h5 m hm hmr
    (by rw [hdist]; exact ht) (by rw [hdist]; exact ht') (2 * δ) (by linarith) (fun i j hij hj => by rw [hdist, hdist]; exact euclid_moved (hmove i (by omega)) (hmove j hj))
  exact this

/-- The hypotheses of `C91_moved_partial` for five points on a line of which one moves by 1/2, with `minPoints` 2. -/
example [CCmp S] [LinearOrder T] (env : Api.Env ℝ ℝ S T) (hq : SortsAscending env.qsort) (ho : env.dops = realOps) (hz : env.ar.zeroW = 0) (h0 : 20 < env.ar.dmax) :=
  C91_moved_partial env hq ho hz (by linarith) [0, 1, 3, 7, 15] [0, 1, 3, 7, 31 / 2] 5 1 (by omega) (by simp) (by simp)
    (fun i j hij hj => by
      refine lt_of_le_of_lt ?_ h0
      interval_cases j <;> interval_cases i <;> exact Real.sqrt_le_iff.2 ⟨by norm_num, by norm_num⟩)
    (fun i j hij hj => by
      refine lt_of_le_of_lt ?_ h0
      interval_cases j <;> interval_cases i <;> exact Real.sqrt_le_iff.2 ⟨by norm_num, by norm_num⟩)
    (by omega) 2 (by omega) (by omega) (fun _ _ => .inl le_rfl) (fun _ _ => .inl le_rfl) (1 / 2)
    (fun i hi => by interval_cases i <;> exact Real.sqrt_le_iff.2 ⟨by norm_num, by norm_num⟩)

/-- **C92, the part that holds.** The rows of a data set are among the rows of a larger one, row `i` being row `φ i` there. Then no core distance of these rows becomes larger, and points that share a cluster
    in a line of the hierarchy share a cluster in every line of the same or a larger weight in the hierarchy of the larger data set.
    Missing: repeated distances as in C19, with which the claim is false (`C92_violated`). -/
theorem C92_more_rows_partial [LinearOrder W] [CCmp S] [LinearOrder T] (env : Api.Env D W S T) (hq : SortsAscending env.qsort) (ha : PlainArith env.dops) (data data' : List D) (rows rows' cols : Nat)
    (f f' : Nat → Nat → W) (h : Supported env data rows cols f) (h' : Supported env data' rows' cols f') (h5 : 5 ≤ rows) (h5' : 5 ≤ rows') (m : Nat) (hm : 2 ≤ m) (hmr : m ≤ rows) (hmr' : m ≤ rows')
    (φ : Nat → Nat) (hlt : ∀ i, i < rows → φ i < rows') (hinj : ∀ i j, i < rows → j < rows → φ i = φ j → i = j) (hrow : ∀ i, i < rows → SameRow data data' cols i (φ i))
    (ht : Untied rows m (distOf env.dops f)) (ht' : Untied rows' m (distOf env.dops f')) :
    ∃ obj obj' : Api.Obj W S T, (∀ par, Complete rows rows par → Api.fresh env par m data rows cols true = .ok obj) ∧ (∀ par, Complete rows' rows' par → Api.fresh env par m data' rows' cols true = .ok obj') ∧
      (∀ i, i < rows → ∃ c c', obj.dis.coreDistances[i]? = some (some c) ∧ obj'.dis.coreDistances[φ i]? = some (some c') ∧ c' ≤ c) ∧
      ∀ i w A i' w' A', (i, w, A) ∈ obj.results.hierarchy → i ≠ 0 → (i', w', A') ∈ obj'.results.hierarchy → i' ≠ 0 → w ≤ w' → ∀ u v l : Nat, l ≠ 0 →
        A[u]? = some l → A[v]? = some l → ∃ l', l' ≠ 0 ∧ A'[φ u]? = some l' ∧ A'[φ v]? = some l' := by
  obtain ⟨obj, core, hf, hcore, hline⟩ := run_kth env hq data rows cols f h h5 m hm hmr ht
  obtain ⟨obj', core', hf', hcore', hline'⟩ := run_kth env hq data' rows' cols f' h' h5' m hm hmr' ht'
  have hd : ∀ i j, i < rows → j < rows → distOf env.dops f' (φ i) (φ j) = distOf env.dops f i j := fun i j hi hj => by
    refine (distOf_congr ha h h' hi hj (hlt i hi) (hlt j hj) (hrow i hi) (hrow j hj) ?_ ?_).symm
    · intro e k _; rw [e]
    · intro e k _; rw [hinj i j hi hj e]
  have hc : ∀ i, i < rows → core' (φ i) ≤ core i := fun i hi =>
    kth_le_of_embed (hcore i hi).2 (hcore' (φ i) (hlt i hi)).2 hlt hinj monotone_id (fun j hj => (hd i j hi hj).le)
  have hmr1 : ∀ i j, i < rows → j < rows → i ≠ j → mutualReach (distOf env.dops f') core' (φ i) (φ j) ≤ id (mutualReach (distOf env.dops f) core i j) := fun i j hi hj _ =>
    max_le_max (max_le_max (hd i j hi hj).le (hc i hi)) (hc j hj)
  refine ⟨obj, obj', hf, hf', fun i hi => ⟨core i, core' (φ i), (hcore i hi).1, (hcore' _ (hlt i hi)).1, hc i hi⟩, ?_⟩
  intro i w A i' w' A' hA hi hA' hi' hww u v l hl hu hv
  exact joins_embed hlt hinj monotone_id hmr1 hww (hline i w A hA hi) (hline' i' w' A' hA' hi') hu hv hl

/-- Five points on a line without repeated distances, and one of them moved. -/
theorem movedPts_supported : Supported lineEnv [0, 1, 3, 7, 16] 5 1 (lineSq [0, 1, 3, 7, 16]) where
  few := by omega
  zero := rfl
  zero_lt := by decide
  sum i j hij hj := sqSum_iff.1 <| (by decide +kernel : ∀ j, j < 5 → ∀ i, i < j → Distance.sumFrom lineEnv.dops [0, 1, 3, 7, 16] 1 i j 1 0 lineEnv.dops.zero = .ok (lineSq [0, 1, 3, 7, 16] i j)) j hj i hij
  lt i j hij hj := (by decide +kernel : ∀ j, j < 5 → ∀ i, i < j → lineEnv.dops.sqrt (lineSq [0, 1, 3, 7, 16] i j) < lineEnv.ar.dmax) j hj i hij

theorem untied_of_distinct [LinearOrder W] {rows m : Nat} {d : Nat → Nat → W} (h : ∀ i, i < rows → ∀ j, j < rows → ∀ j', j' < rows → j ≠ j' → ¬ d i j = d i j') : Untied rows m d :=
  fun i hi => .inr (.inr fun j j' hj hj' hne he => absurd he (h i hi j hj j' hj' hne))

/-- The hypotheses of C91 for these points, with `minPoints` 3 and `eps` 1. -/
example := C91_stable_partial lineEnv (isort_sorts _) apartPts [0, 1, 3, 7, 16] 5 1 1 (lineSq apartPts) (lineSq [0, 1, 3, 7, 16]) apartPts_supported movedPts_supported (by omega) 3 (by omega) (by omega)
  C87_premises.1 (untied_of_distinct (by decide +kernel)) 1 (by decide +kernel)
  (fun i j hij hj => (by decide +kernel : ∀ j, j < 5 → ∀ i, i < j → |distOf lineEnv.dops (lineSq apartPts) i j - distOf lineEnv.dops (lineSq [0, 1, 3, 7, 16]) i j| ≤ 1) j hj i hij)

/-- **C91 is violated** when distances are repeated: the second of these points is moved by 1; before, point 3 is noise in the line of weight 250, afterwards it shares a cluster with point 4 in the line of
    weight 200. Its core distance changes from 300 to 200. -/
theorem C91_violated :
    (Api.fresh lineEnv (backPar 8 8) 3 [100, 0, 0, 300, 200, 700, 750, 950] 8 1 true >>= fun o => .ok (o.dis.coreDistances[3]?, o.results.hierarchy[2]?)) =
      .ok (some (some 300), some (3, 250, [2, 2, 2, 0, 2, 3, 3, 3])) ∧
    (Api.fresh lineEnv (backPar 8 8) 3 [100, 1, 0, 300, 200, 700, 750, 950] 8 1 true >>= fun o => .ok (o.dis.coreDistances[3]?, o.results.hierarchy[2]?)) =
      .ok (some (some 200), some (3, 200, [2, 2, 2, 2, 2, 0, 0, 0])) := by
  constructor <;> decide +kernel

/-- Six points: the five points and one between them. -/
theorem morePts_supported : Supported lineEnv [0, 1, 3, 31, 7, 15] 6 1 (lineSq [0, 1, 3, 31, 7, 15]) where
  few := by omega
  zero := rfl
  zero_lt := by decide
  sum i j hij hj := sqSum_iff.1 <| (by decide +kernel : ∀ j, j < 6 → ∀ i, i < j → Distance.sumFrom lineEnv.dops [0, 1, 3, 31, 7, 15] 1 i j 1 0 lineEnv.dops.zero = .ok (lineSq [0, 1, 3, 31, 7, 15] i j)) j hj i hij
  lt i j hij hj := (by decide +kernel : ∀ j, j < 6 → ∀ i, i < j → lineEnv.dops.sqrt (lineSq [0, 1, 3, 31, 7, 15] i j) < lineEnv.ar.dmax) j hj i hij

/-- The hypotheses of C92 for these points, with `minPoints` 3. -/
example := C92_more_rows_partial lineEnv (isort_sorts _) lineEnv_plain apartPts [0, 1, 3, 31, 7, 15] 5 6 1 (lineSq apartPts) (lineSq [0, 1, 3, 31, 7, 15]) apartPts_supported morePts_supported (by omega) (by omega)
  3 (by omega) (by omega) (by omega) (fun i => if i < 3 then i else i + 1) (by decide) (fun i j _ _ e => by split_ifs at e <;> omega)
  (fun i hi k hk => (by decide +kernel : ∀ i, i < 5 → ∀ k, k < 1 → apartPts[i * 1 + k]? = ([0, 1, 3, 31, 7, 15] : List Rat)[(if i < 3 then i else i + 1) * 1 + k]?) i hi k hk)
  C87_premises.1 (untied_of_distinct (by decide +kernel))

/-- **C92 is violated** when distances are repeated: a second point at 0 is added; before, the points at 30 and 20 share a cluster in the line of weight 20, afterwards the point at 30 is noise in the line of
    weight 25. -/
theorem C92_violated :
    (Api.fresh lineEnv (backPar 7 7) 3 [10, 0, 30, 20, 70, 75, 95] 7 1 true >>= fun o => .ok (o.dis.coreDistances[2]?, o.results.hierarchy[2]?)) =
      .ok (some (some 20), some (3, 20, [2, 2, 2, 2, 0, 0, 0])) ∧
    (Api.fresh lineEnv (backPar 8 8) 3 [10, 0, 0, 30, 20, 70, 75, 95] 8 1 true >>= fun o => .ok (o.dis.coreDistances[3]?, o.results.hierarchy[2]?)) =
      .ok (some (some 30), some (3, 25, [2, 2, 2, 0, 2, 3, 3, 3])) := by
  constructor <;> decide +kernel

end Verif.Props
