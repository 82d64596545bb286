import Verif.Props.Perturb
/-
C127: rows that are far away change nothing nearby.
-/
namespace Verif.Props
open Spec
variable {D W S T : Type}

/-- Core distances are not smaller than with the far rows, if those are below the distance of these rows. -/
private theorem kth_near [LinearOrder W] {n n' m : Nat} {d d' : Nat → W} {x x' Δ : W} (h : IsKth ((List.range n).map d) m x) (h' : IsKth ((List.range n').map d') m x') {φ : Nat → Nat}
    (hd : ∀ j, j < n → d' (φ j) = d j) (hfar : ∀ j, j < n' → (∀ i, i < n → φ i ≠ j) → Δ ≤ d' j) (hx : x' < Δ) : x ≤ x' := by
  by_contra hgt
  rw [not_le] at hgt
  have h1 := h.1
  have h2 := h'.2
  rw [List.countP_map, List.countP_eq_length_filter] at h1 h2
  have hsub : ((List.range n').filter ((fun t => decide (t ≤ x')) ∘ d')).Subperm (((List.range n).filter ((fun t => decide (t < x)) ∘ d)).map φ) := by
    refine List.Nodup.subperm (List.nodup_range.filter _) fun j hj => ?_
    simp only [List.mem_filter, List.mem_range, Function.comp, decide_eq_true_eq] at hj
    have hex : ∃ i, i < n ∧ φ i = j := by
      by_contra hno
      exact absurd (le_trans (hfar j hj.1 fun i hi e => hno ⟨i, hi, e⟩) hj.2) (not_le.2 hx)
    obtain ⟨i, hi, rfl⟩ := hex
    refine List.mem_map.2 ⟨i, ?_, rfl⟩
    simp only [List.mem_filter, List.mem_range, Function.comp, decide_eq_true_eq]
    exact ⟨hi, lt_of_le_of_lt ((hd i hi) ▸ hj.2) hgt⟩
  have := hsub.length_le
  rw [List.length_map] at this
  omega

/-- Paths of small steps stay among the near rows. -/
private theorem reach_near [LinearOrder W] {n n' : Nat} {a b : Nat → Nat → W} {w w' : W} {φ : Nat → Nat}
    (hstep : ∀ i y, i < n → y < n' → φ i ≠ y → b (φ i) y ≤ w' → ∃ j, j < n ∧ y = φ j ∧ i ≠ j ∧ a i j ≤ w) (hsym : ∀ x y, b x y = b y x) {x y : Nat}
    (h : Reachable n' b w' x y) : (∀ i, i < n → x = φ i → ∃ j, j < n ∧ y = φ j ∧ Reachable n a w i j) ∧ (∀ j, j < n → y = φ j → ∃ i, i < n ∧ x = φ i ∧ Reachable n a w i j) := by
  induction h with
  | rel x y hxy =>
    obtain ⟨hx, hy, hne, hle⟩ := hxy
    constructor
    · rintro i hi rfl
      obtain ⟨j, hj, rfl, hij, hw⟩ := hstep i y hi hy hne hle
      exact ⟨j, hj, rfl, .rel _ _ ⟨hi, hj, hij, hw⟩⟩
    · rintro j hj rfl
      obtain ⟨i, hi, rfl, hij, hw⟩ := hstep j x hj hx (fun e => hne e.symm) (by rw [hsym]; exact hle)
      exact ⟨i, hi, rfl, .symm _ _ (.rel _ _ ⟨hj, hi, hij, hw⟩)⟩
  | refl x => exact ⟨fun i hi e => ⟨i, hi, e, .refl _⟩, fun i hi e => ⟨i, hi, e, .refl _⟩⟩
  | symm x y _ ih =>
    exact ⟨fun i hi e => by obtain ⟨j, a1, a2, a3⟩ := ih.2 i hi e; exact ⟨j, a1, a2, .symm _ _ a3⟩, fun i hi e => by obtain ⟨j, a1, a2, a3⟩ := ih.1 i hi e; exact ⟨j, a1, a2, .symm _ _ a3⟩⟩
  | trans x y z _ _ ih1 ih2 =>
    constructor
    · intro i hi e
      obtain ⟨j, a1, a2, a3⟩ := ih1.1 i hi e
      obtain ⟨k, b1, b2, b3⟩ := ih2.1 j a1 a2
      exact ⟨k, b1, b2, .trans _ _ _ a3 b3⟩
    · intro i hi e
      obtain ⟨j, a1, a2, a3⟩ := ih2.2 i hi e
      obtain ⟨k, b1, b2, b3⟩ := ih1.2 j a1 a2
      exact ⟨k, b1, b2, .trans _ _ _ b3 a3⟩

/-- **C127, the part that holds.** The rows of a data set are among the rows of a larger one, row `i` being row `φ i` there, and all further rows have a distance of at least `Δ` from them. Then core distances
    that are less than `Δ` in the larger data set are the same in both, and below `Δ` the two hierarchies agree on these rows: rows that share a cluster in a line of weight `w < Δ` of one share a cluster in every
    line of the same or a larger weight of the other.
    Missing: repeated distances as in C19, with which the claim is false (`C127_violated`). -/
theorem C127_far_rows_partial [LinearOrder W] [CCmp S] [LinearOrder T] (env : Api.Env D W S T) (hq : SortsAscending env.qsort) (ha : PlainArith env.dops) (data data' : List D) (rows rows' cols : Nat)
    (f f' : Nat → Nat → W) (h : Supported env data rows cols f) (h' : Supported env data' rows' cols f') (h5 : 5 ≤ rows) (h5' : 5 ≤ rows') (m : Nat) (hm : 2 ≤ m) (hmr : m ≤ rows) (hmr' : m ≤ rows')
    (φ : Nat → Nat) (hlt : ∀ i, i < rows → φ i < rows') (hinj : ∀ i j, i < rows → j < rows → φ i = φ j → i = j) (hrow : ∀ i, i < rows → SameRow data data' cols i (φ i))
    (ht : Untied rows m (distOf env.dops f)) (ht' : Untied rows' m (distOf env.dops f')) (Δ : W)
    (hfar : ∀ i j, i < rows → j < rows' → (∀ k, k < rows → φ k ≠ j) → Δ ≤ distOf env.dops f' (φ i) j) :
    ∃ obj obj' : Api.Obj W S T, (∀ par, Complete rows rows par → Api.fresh env par m data rows cols true = .ok obj) ∧ (∀ par, Complete rows' rows' par → Api.fresh env par m data' rows' cols true = .ok obj') ∧
      (∀ i, i < rows → ∃ c c', obj.dis.coreDistances[i]? = some (some c) ∧ obj'.dis.coreDistances[φ i]? = some (some c') ∧ (c' < Δ → c = c')) ∧
      ∀ i w A i' w' A', (i, w, A) ∈ obj.results.hierarchy → i ≠ 0 → (i', w', A') ∈ obj'.results.hierarchy → i' ≠ 0 → ∀ u v l : Nat, u < rows → v < rows → l ≠ 0 →
        (w ≤ w' → A[u]? = some l → A[v]? = some l → ∃ l', l' ≠ 0 ∧ A'[φ u]? = some l' ∧ A'[φ v]? = some l') ∧
        (w' ≤ w → w' < Δ → A'[φ u]? = some l → A'[φ v]? = some l → ∃ l', l' ≠ 0 ∧ A[u]? = some l' ∧ A[v]? = some l') := by
  obtain ⟨obj, core, hf, hcore, hline⟩ := run_kth env hq data rows cols f h h5 m hm hmr ht
  obtain ⟨obj', core', hf', hcore', hline'⟩ := run_kth env hq data' rows' cols f' h' h5' m hm hmr' ht'
  have hd : ∀ i j, i < rows → j < rows → distOf env.dops f' (φ i) (φ j) = distOf env.dops f i j := fun i j hi hj => by
    refine (distOf_congr ha h h' hi hj (hlt i hi) (hlt j hj) (hrow i hi) (hrow j hj) ?_ ?_).symm
    · intro e k _; rw [e]
    · intro e k _; rw [hinj i j hi hj e]
  have hc : ∀ i, i < rows → core' (φ i) ≤ core i := fun i hi =>
    kth_le_of_embed (hcore i hi).2 (hcore' (φ i) (hlt i hi)).2 hlt hinj monotone_id (fun j hj => (hd i j hi hj).le)
  have hc' : ∀ i, i < rows → core' (φ i) < Δ → core i ≤ core' (φ i) := fun i hi hx =>
    kth_near (hcore i hi).2 (hcore' (φ i) (hlt i hi)).2 (fun j hj => hd i j hi hj) (fun j hj hno => hfar i j hi hj hno) hx
  have hmr1 : ∀ i j, i < rows → j < rows → i ≠ j → mutualReach (distOf env.dops f') core' (φ i) (φ j) ≤ id (mutualReach (distOf env.dops f) core i j) := fun i j hi hj _ =>
    max_le_max (max_le_max (hd i j hi hj).le (hc i hi)) (hc j hj)
  refine ⟨obj, obj', hf, hf', fun i hi => ⟨core i, core' (φ i), (hcore i hi).1, (hcore' _ (hlt i hi)).1, fun hx => le_antisymm (hc' i hi hx) (hc i hi)⟩, ?_⟩
  intro i w A i' w' A' hA hi hA' hi' u v l hu hv hl
  refine ⟨fun hww hu hv => joins_embed hlt hinj monotone_id hmr1 hww (hline i w A hA hi) (hline' i' w' A' hA' hi') hu hv hl, fun hww hwΔ hlu hlv => ?_⟩
  obtain ⟨len, same, noise⟩ := hline i w A hA hi
  obtain ⟨len', same', noise'⟩ := hline' i' w' A' hA' hi'
  have hstep : ∀ i y, i < rows → y < rows' → φ i ≠ y → mutualReach (distOf env.dops f') core' (φ i) y ≤ w' → ∃ j, j < rows ∧ y = φ j ∧ i ≠ j ∧ mutualReach (distOf env.dops f) core i j ≤ w := by
    intro i y hi hy hne hle
    have k1 : distOf env.dops f' (φ i) y ≤ w' := le_trans (le_trans (le_max_left _ _) (le_max_left _ _)) hle
    have k2 : core' (φ i) ≤ w' := le_trans (le_trans (le_max_right _ _) (le_max_left _ _)) hle
    have k3 : core' y ≤ w' := le_trans (le_max_right _ _) hle
    have hex : ∃ j, j < rows ∧ φ j = y := by
      by_contra hno
      exact absurd (le_trans (hfar i y hi hy fun k hk e => hno ⟨k, hk, e⟩) k1) (not_le.2 hwΔ)
    obtain ⟨j, hj, rfl⟩ := hex
    refine ⟨j, hj, rfl, fun e => hne (by rw [e]), max_le (max_le ?_ ?_) ?_⟩
    · rw [← hd i j hi hj]; exact k1.trans hww
    · exact (hc' i hi (lt_of_le_of_lt k2 hwΔ)).trans (k2.trans hww)
    · exact (hc' j hj (lt_of_le_of_lt k3 hwΔ)).trans (k3.trans hww)
  have hsym : ∀ x y, mutualReach (distOf env.dops f') core' x y = mutualReach (distOf env.dops f') core' y x := by
    intro x y
    unfold mutualReach
    rw [distOf_symm env.dops f' x y, max_assoc, max_assoc, max_comm (core' x)]
  have hback : ∀ i j, i < rows → j < rows → Reachable rows' (mutualReach (distOf env.dops f') core') w' (φ i) (φ j) → Reachable rows (mutualReach (distOf env.dops f) core) w i j := by
    intro i j hi hj hr
    obtain ⟨k, hk, e, hr'⟩ := (reach_near hstep hsym hr).1 i hi rfl
    rw [hinj j k hj hk e]
    exact hr'
  have hnz : ∀ x, x < rows → ∀ lx l', A[x]? = some lx → A'[φ x]? = some l' → l' ≠ 0 → lx ≠ 0 := by
    intro x hx lx l' h1 h2 h3 h0
    have := mt (noise' (φ x) l' h2).2 h3
    rw [not_not] at this
    obtain ⟨L, n1, n2, n3⟩ := this
    refine (noise x lx h1).1 h0 ?_
    have hpre : ∀ y ∈ L, ∃ j, j < rows ∧ y = φ j ∧ Reachable rows (mutualReach (distOf env.dops f) core) w x j := fun y hy => (reach_near hstep hsym (n3 y hy)).1 x hx rfl
    classical
    refine ⟨L.map (fun y => if hy : y ∈ L then (hpre y hy).choose else 0), ?_, by rw [List.length_map]; exact n2, fun z hz => ?_⟩
    · refine List.Nodup.map_on (fun a ha' b hb e => ?_) n1
      rw [dif_pos ha', dif_pos hb] at e
      rw [(hpre a ha').choose_spec.2.1, (hpre b hb).choose_spec.2.1, e]
    · obtain ⟨y, hy, rfl⟩ := List.mem_map.1 hz
      rw [dif_pos hy]
      exact (hpre y hy).choose_spec.2.2
  obtain ⟨lu, hlu'⟩ : ∃ x, A[u]? = some x := ⟨_, List.getElem?_eq_getElem (by rw [len]; exact hu)⟩
  obtain ⟨lv, hlv'⟩ : ∃ x, A[v]? = some x := ⟨_, List.getElem?_eq_getElem (by rw [len]; exact hv)⟩
  have hu0 := hnz u hu lu l hlu' hlu hl
  have hv0 := hnz v hv lv l hlv' hlv hl
  have e := (same u v lu lv hlu' hlv' hu0 hv0).2 (hback u v hu hv ((same' _ _ l l hlu hlv hl hl).1 rfl))
  exact ⟨lu, hu0, hlu', by rw [hlv', e]⟩

/-- The five points of C87 and one far from them. -/
theorem farPts_supported : Supported lineEnv [0, 1, 3, 60, 7, 15] 6 1 (lineSq [0, 1, 3, 60, 7, 15]) where
  few := by omega
  zero := rfl
  zero_lt := by decide
  sum i j hij hj := sqSum_iff.1 <| (by decide +kernel : ∀ j, j < 6 → ∀ i, i < j → Distance.sumFrom lineEnv.dops [0, 1, 3, 60, 7, 15] 1 i j 1 0 lineEnv.dops.zero = .ok (lineSq [0, 1, 3, 60, 7, 15] i j)) j hj i hij
  lt i j hij hj := (by decide +kernel : ∀ j, j < 6 → ∀ i, i < j → lineEnv.dops.sqrt (lineSq [0, 1, 3, 60, 7, 15] i j) < lineEnv.ar.dmax) j hj i hij

/-- The hypotheses of C127 for these points, with `minPoints` 3 and `Δ` 40. The lines of the weights 12, 6 and 3 agree. -/
example := C127_far_rows_partial lineEnv (isort_sorts _) lineEnv_plain apartPts [0, 1, 3, 60, 7, 15] 5 6 1 (lineSq apartPts) (lineSq [0, 1, 3, 60, 7, 15]) apartPts_supported farPts_supported (by omega) (by omega)
  3 (by omega) (by omega) (by omega) (fun i => if i < 3 then i else i + 1) (by decide) (fun i j _ _ e => by split_ifs at e <;> omega)
  (fun i hi k hk => (by decide +kernel : ∀ i, i < 5 → ∀ k, k < 1 → apartPts[i * 1 + k]? = ([0, 1, 3, 60, 7, 15] : List Rat)[(if i < 3 then i else i + 1) * 1 + k]?) i hi k hk)
  C87_premises.1 (untied_of_distinct (by decide +kernel)) 40
  (fun i j hi hj hno => (by decide +kernel : ∀ i, i < 5 → ∀ j, j < 6 → (∀ k, k < 5 → (if k < 3 then k else k + 1) ≠ j) → (40 : Rat) ≤ distOf lineEnv.dops (lineSq [0, 1, 3, 60, 7, 15]) (if i < 3 then i else i + 1) j)
    i hi j hj hno)

/-- **C127 is violated** when distances are repeated: two rows at 100 are added to rows between 0 and 4. The core distance of a row at 3 changes from 0 to 97; before, it is in the cluster of all rows in the line
    of weight 1, afterwards it is noise in the line of weight 2. -/
theorem C127_violated :
    (Api.fresh lineEnv (backPar 7 7) 3 [4, 3, 2, 1, 0, 0, 3] 7 1 true >>= fun o => .ok (o.dis.coreDistances[1]?, o.results.hierarchy[0]?)) =
      .ok (some (some 0), some (1, 1, [1, 1, 1, 1, 1, 1, 1])) ∧
    (Api.fresh lineEnv (backPar 9 9) 3 [4, 100, 100, 3, 2, 1, 0, 0, 3] 9 1 true >>= fun o => .ok (o.dis.coreDistances[3]?, o.results.hierarchy[2]?)) =
      .ok (some (some 97), some (3, 2, [1, 0, 0, 0, 1, 1, 1, 1, 0])) := by
  constructor <;> decide +kernel

end Verif.Props
