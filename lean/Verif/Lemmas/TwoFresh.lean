import Verif.Lemmas.TwoObjs
import Verif.Props.Distance
import Verif.Lemmas.CoreTie
/-
Helper lemmas: two objects run on corresponding data, from the data to the results.
-/
namespace Verif.Corr
open Spec Relation Hier
variable {D W S T : Type}

/-- There is at most one `k`-th smallest value. -/
theorem kth_unique [LinearOrder W] {ts : List W} {k : Nat} {x y : W} (h : IsKth ts k x) (h' : IsKth ts k y) : x = y := by
  have key : ∀ {x y : W}, IsKth ts k x → IsKth ts k y → ¬ x < y := by
    intro x y h h' hlt
    have : ts.countP (fun t => decide (t ≤ x)) ≤ ts.countP (fun t => decide (t < y)) :=
      List.countP_mono_left fun t _ ht => by simpa using lt_of_le_of_lt (by simpa using ht) hlt
    have h1 := h.2
    have h2 := h'.1
    omega
  exact le_antisymm (not_lt.1 (key h' h)) (not_lt.1 (key h h'))

theorem kth_perm [LinearOrder W] {ts ts' : List W} (hp : ts.Perm ts') {k : Nat} {x : W} (h : IsKth ts k x) : IsKth ts' k x :=
  ⟨by rw [← hp.countP_eq]; exact h.1, by rw [← hp.countP_eq]; exact h.2⟩

theorem bij_perm {n : Nat} {σ τ : Nat → Nat} (b : Bij n σ τ) : ((List.range n).map σ).Perm (List.range n) := by
  have hn : ((List.range n).map σ).Nodup := List.Nodup.map_on (fun x hx y hy he => by
    have := congrArg τ he
    rwa [b.ts x (List.mem_range.1 hx), b.ts y (List.mem_range.1 hy)] at this) List.nodup_range
  have hs : ((List.range n).map σ) ⊆ List.range n := by
    intro x hx
    obtain ⟨y, hy, rfl⟩ := List.mem_map.1 hx
    exact List.mem_range.2 (b.s y (List.mem_range.1 hy))
  exact (hn.subperm hs).perm_of_length_le (by simp)

theorem supported_lt [LinearOrder W] {env : Api.Env D W S T} {data : List D} {rows cols : Nat} {f : Nat → Nat → W} (h : Supported env data rows cols f) {i j : Nat} (hi : i < rows) (hj : j < rows) :
    distOf env.dops f i j < env.ar.dmax := by
  unfold distOf
  rcases Nat.lt_trichotomy i j with a | a | a
  · rw [if_pos a]; exact h.lt i j a hj
  · rw [if_neg (by omega), if_pos a, h.zero]; exact h.zero_lt
  · rw [if_neg (by omega), if_neg (by omega)]; exact h.lt j i a hi

/-- Two objects on corresponding data. -/
theorem fresh_two [LinearOrder W] [CCmp S] [LinearOrder T] {env : Api.Env D W S T} (hq : SortsAscending env.qsort) {data data' : List D} {rows cols cols' : Nat} {f f' : Nat → Nat → W}
    (h : Supported env data rows cols f) (h' : Supported env data' rows cols' f') (h5 : 5 ≤ rows) {m : Nat} (hm : 2 ≤ m) (hmr : m ≤ rows) {σ : Nat → Nat} {ψ : W → W}
    (hσ : Rearranges rows σ) (hψ : StrictMono ψ) (hd : ∀ i j, i < rows → j < rows → i ≠ j → distOf env.dops f' (σ i) (σ j) = ψ (distOf env.dops f i j))
    (hcore : ∀ dis dis' : Distance W, dis.rows = rows → dis'.rows = rows → dis.numNeighbors = m - 1 → dis'.numNeighbors = m - 1 →
      (∀ i j, i < rows → j < rows → dis.get env.dops.zero i j = .ok (distOf env.dops f i j)) → (∀ i j, i < rows → j < rows → dis'.get env.dops.zero i j = .ok (distOf env.dops f' i j)) →
      ∀ i x x', i < rows → Distance.coreOf env.dops.zero env.ar.dmax dis i = .ok x → Distance.coreOf env.dops.zero env.ar.dmax dis' (σ i) = .ok x' → x' = ψ x) :
    ∃ (obj obj' : Api.Obj W S T) (core : Nat → W),
      (∀ par, Complete rows rows par → Api.fresh env par m data rows cols true = .ok obj ∧ Api.fresh env par m data' rows cols' true = .ok obj') ∧
      (∀ i, i < rows → obj.dis.coreDistances[i]? = some (some (core i)) ∧ obj'.dis.coreDistances[σ i]? = some (some (ψ (core i))) ∧ Distance.coreOf env.dops.zero env.ar.dmax obj.dis i = .ok (core i)) ∧
      obj.dis.rows = rows ∧ obj.dis.numNeighbors = m - 1 ∧ (∀ i j, i < rows → j < rows → obj.dis.get env.dops.zero i j = .ok (distOf env.dops f i j)) ∧
      ∃ M M' f f' res res' hist hist' cur cur' noise noise' last last' s s' V V' τ φ χ, Parts env.ar env.smax rows m M f res hist cur noise last s V obj.results.toOut ∧
        Parts env.ar env.smax rows m M' f' res' hist' cur' noise' last' s' V' obj'.results.toOut ∧ Twin rows M M' f f' σ τ ψ ∧ Ren rows σ ψ φ hist hist' cur cur' res.clusters res'.clusters ∧
        Iso res.clusters res'.clusters φ χ ∧ SameHierarchy rows σ φ ψ obj.results.hierarchy obj'.results.hierarchy ∧ obj'.results.clusters.length = obj.results.clusters.length ∧
        (∀ w ∈ hist.map (·.1), ∃ i, i < rows ∧ core i ≤ w) ∧
        (ψ env.ar.zeroW = env.ar.zeroW → (∀ a b, env.oops.ratio (ψ a) (ψ b) = env.oops.ratio a b) → (obj.results.clusters.length ≠ 2 ∨ ψ env.ar.dmax = env.ar.dmax) →
          ∀ a ∈ obj.results.outliers, ∃ b ∈ obj'.results.outliers, b.id = σ a.id ∧ b.core = ψ a.core ∧ b.score = a.score) := by
  obtain ⟨obj, core, _, _, hf, r1, r2, hget, hc, hmax, _, _, _, _, _, hfull⟩ := Props.stages hq h h5 hm hmr
  obtain ⟨obj', core', _, _, hf', r1', r2', hget', hc', hmax', _, _, _, _, _, hfull'⟩ := Props.stages hq h' h5 hm hmr
  obtain ⟨τ, b⟩ := bij_of hσ
  have hfew := h.few
  have hcc : ∀ i, i < rows → core' (σ i) = ψ (core i) := fun i hi =>
    hcore obj.dis obj'.dis r1 r1' r2 r2' hget hget' i _ _ hi (hc i hi).2 (hc' (σ i) (hσ.lt i hi)).2
  obtain ⟨M, M', f1, f1', res, res', hist, hist', cur, cur', noise, noise', last, last', s, s', V, V', φ, χ, R⟩ :=
    two_runs env.qsort hq env.ar env.smax env.oops hm hmr (by omega)
      (fun i j a b _ => by rw [← h.zero]; exact hget i j a b) (Props.distOf_symm _ _) (fun i hi => (hc i hi).1) hmax
      (fun i j a b _ => by rw [← h'.zero]; exact hget' i j a b) (Props.distOf_symm _ _) (fun i hi => (hc' i hi).1) hmax'
      (τ := τ) ⟨b, hψ, hd, hcc⟩ Props.seqSchedule_complete (.refl _) (hfull _ _ Props.seqSchedule_complete (.refl _)) (hfull' _ _ Props.seqSchedule_complete (.refl _))
  exact ⟨obj, obj', core, fun par hp => ⟨hf par hp, hf' par hp⟩, fun i hi => ⟨(hc i hi).1, by rw [(hc' _ (hσ.lt i hi)).1, hcc i hi], (hc i hi).2⟩, r1, r2, hget,
    M, M', f1, f1', res, res', hist, hist', cur, cur', noise, noise', last, last', s, s', V, V', τ, φ, χ, R⟩

theorem tiesBelow_rearranged [LinearOrder W] {n k : Nat} {d d' : Nat → W} {σ τ : Nat → Nat} (b : Bij n σ τ) (h : TiesBelow n k d) (e : ∀ y, y < n → d' y = d (τ y)) : TiesBelow n k d' := by
  refine h.imp id (Or.imp id fun ht j j' hj hj' hne he => ?_)
  rw [e j hj, e j' hj'] at he
  refine (ht (τ j) (τ j') (b.t j hj) (b.t j' hj') (fun h => hne ?_) he).imp (fun hm l hl => ?_) fun hc => ?_
  · have := congrArg σ h
    rwa [b.st j hj, b.st j' hj'] at this
  · rw [e j hj, e l hl]
    exact hm (τ l) (b.t l hl)
  · have : (List.range n).countP (fun l => decide (d' l ≤ d' j)) = ((List.range n).map τ).countP (fun l => decide (d l ≤ d (τ j))) := by
      rw [List.countP_map]
      refine List.countP_congr fun l hl => ?_
      simp [e l (List.mem_range.1 hl), e j hj]
    rw [this, (bij_perm b.symm).countP_eq]
    exact hc

/-- Core distances of rearranged rows. -/
theorem core_rearranged [LinearOrder W] {env : Api.Env D W S T} {data data' : List D} {rows cols cols' : Nat} {f f' : Nat → Nat → W}
    (h : Supported env data rows cols f) (h' : Supported env data' rows cols' f') {m : Nat} (hm : 2 ≤ m) (hmr : m ≤ rows) {σ : Nat → Nat} (hσ : Rearranges rows σ)
    (hd : ∀ i j, i < rows → j < rows → distOf env.dops f' (σ i) (σ j) = distOf env.dops f i j)
    (htie : Untied rows m (distOf env.dops f))
    (dis dis' : Distance W) (r1 : dis.rows = rows) (r1' : dis'.rows = rows) (r2 : dis.numNeighbors = m - 1) (r2' : dis'.numNeighbors = m - 1)
    (hget : ∀ i j, i < rows → j < rows → dis.get env.dops.zero i j = .ok (distOf env.dops f i j)) (hget' : ∀ i j, i < rows → j < rows → dis'.get env.dops.zero i j = .ok (distOf env.dops f' i j))
    (i : Nat) (x x' : W) (hi : i < rows) (hx : Distance.coreOf env.dops.zero env.ar.dmax dis i = .ok x) (hx' : Distance.coreOf env.dops.zero env.ar.dmax dis' (σ i) = .ok x') : x' = id x := by
  obtain ⟨τ, b⟩ := bij_of hσ
  subst r1
  have k1 := Distance.coreOf_kth (d := distOf env.dops f i) (fun j hj => hget i j hi hj) (fun j hj => (supported_lt h hi hj).le) (by omega) (by rw [r2, Nat.sub_add_cancel (by omega)]; exact htie i hi) hx
  have k2 := Distance.coreOf_kth (d := distOf env.dops f' (σ i)) (fun j hj => hget' (σ i) j (hσ.lt i hi) (by omega)) (fun j hj => (supported_lt h' (hσ.lt i hi) (by omega)).le) (by omega)
    (by
      rw [r1', r2', Nat.sub_add_cancel (by omega)]
      refine tiesBelow_rearranged b (htie i hi) fun y hy => ?_
      have := hd i (τ y) hi (b.t y hy)
      rwa [b.st y hy] at this) hx'
  rw [r2', r1'] at k2
  rw [r2] at k1
  refine kth_unique k2 (kth_perm ?_ k1)
  have : (List.range dis.rows).map (distOf env.dops f i) = ((List.range dis.rows).map σ).map (distOf env.dops f' (σ i)) := by
    rw [List.map_map]
    refine List.map_congr_left fun j hj => ?_
    exact (hd i j hi (List.mem_range.1 hj)).symm
  rw [this]
  exact (bij_perm b).map _

end Verif.Corr
