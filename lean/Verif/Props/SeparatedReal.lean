import Verif.Props.Scattered
import Verif.Props.Outlying
import Verif.Props.Perturb
/-
C124, C125 and C126 for real data and Euclidean distances.
-/
namespace Verif.Props
open Spec Race
variable {T : Type}

private theorem dist_euclid {ops : DistOps ℝ ℝ} (ho : ops = realOps) (data : List ℝ) (cols : Nat) :
    distOf ops (fun i j => ∑ k ∈ Finset.range cols, (data.getD (i * cols + k) 0 - data.getD (j * cols + k) 0) ^ 2) = euclid data cols := by
  funext i j
  rw [ho]
  unfold distOf euclid
  rcases lt_trichotomy i j with hij | rfl | hij
  · rw [if_pos hij]; rfl
  · rw [if_neg (lt_irrefl _), if_pos rfl]; simp [realOps]
  · rw [if_neg (by omega), if_neg (by omega)]
    show Real.sqrt _ = _
    congr 1
    exact Finset.sum_congr rfl fun k _ => by ring

/-- **C124 for real data** with Euclidean distances. Same gap as in `C124_separated_partial`. -/
theorem C124_real_partial [LinearOrder T] (env : Api.Env ℝ ℝ ℝ T) (dmax : ℝ) (har : env.ar = exact ℝ dmax) (hq : SortsAscending env.qsort) (ho : env.dops = realOps) (h0 : 0 < dmax)
    (data : List ℝ) (rows cols : Nat) (hr : rows ≤ 65536) (hl : rows * cols ≤ data.length) (hlt : ∀ i j, i < j → j < rows → euclid data cols i j < dmax) (h5 : 5 ≤ rows) (m : Nat) (hm : 2 ≤ m) (hmr : m ≤ rows)
    (grp : Nat → Nat) (ε δ Δ : ℝ) (hw : WellSeparated rows m (euclid data cols) grp ε δ Δ) (ht : Untied rows m (euclid data cols)) :
    ∃ obj : Api.Obj ℝ ℝ T, (∀ par, Complete rows rows par → Api.fresh env par m data rows cols true = .ok obj) ∧ LabelsGroups rows grp obj.results.labels := by
  obtain ⟨obj, h1, h2⟩ := C124_separated_partial env dmax har hq data rows cols _ (real_supported env ho (by rw [har]; rfl) (by rw [har]; exact h0) data rows cols hr hl (by rw [har]; exact hlt)) h5 m hm hmr
  rw [dist_euclid ho] at h2
  exact ⟨obj, h1, h2 grp ε δ Δ hw (.inl ht)⟩

/-- **C125 for real data** with Euclidean distances. Same gap as in `C125_scattered_partial`. -/
theorem C125_real_partial [LinearOrder T] (env : Api.Env ℝ ℝ ℝ T) (dmax : ℝ) (har : env.ar = exact ℝ dmax) (hq : SortsAscending env.qsort) (ho : env.dops = realOps) (h0 : 0 < dmax)
    (data : List ℝ) (rows cols : Nat) (hr : rows ≤ 65536) (hl : rows * cols ≤ data.length) (hlt : ∀ i j, i < j → j < rows → euclid data cols i j < dmax) (h5 : 5 ≤ rows) (m : Nat) (hm : 2 ≤ m) (hmr : m ≤ rows)
    (N : Nat) (grp : Nat → Option Nat) (ε δ Δ : ℝ) (hw : Scattered rows m N (euclid data cols) grp ε δ Δ) (ht : Untied rows m (euclid data cols)) :
    ∃ obj : Api.Obj ℝ ℝ T, (∀ par, Complete rows rows par → Api.fresh env par m data rows cols true = .ok obj) ∧ LabelsTell rows grp obj.results.labels := by
  obtain ⟨obj, h1, h2⟩ := C125_scattered_partial env dmax har hq data rows cols _ (real_supported env ho (by rw [har]; rfl) (by rw [har]; exact h0) data rows cols hr hl (by rw [har]; exact hlt)) h5 m hm hmr
  rw [dist_euclid ho] at h2
  exact ⟨obj, h1, h2 N grp ε δ Δ hw (.inl ht)⟩

/-- **C126 for real data** with Euclidean distances, for any interleaving of threads: every scattered row scores higher than every row of a group. Same gap as in `C126_above_partial`. -/
theorem C126_real_partial {S : Type} [CCmp S] (env : Api.Env ℝ ℝ S ℝ) (hz : env.ar.zeroW = 0) (hs : env.oops = exactScore ℝ) (hq : SortsAscending env.qsort) (ho : env.dops = realOps) (h0 : 0 < env.ar.dmax)
    (data : List ℝ) (rows cols : Nat) (hr : rows ≤ 65536) (hl : rows * cols ≤ data.length) (hlt : ∀ i j, i < j → j < rows → euclid data cols i j < env.ar.dmax) (h5 : 5 ≤ rows) (m : Nat) (hm : 2 ≤ m) (hmr : m ≤ rows)
    (grp : Nat → Option Nat) (ε δ Δ : ℝ) (hε : 0 < ε) (hw : Outlying rows m (euclid data cols) grp ε δ Δ) (ht : Untied rows m (euclid data cols)) (hsq : δ * δ < ε * Δ)
    (th : Threads) (hth : Interleaves th) :
    ∃ obj : Api.Obj ℝ S ℝ, (∀ par, Complete rows rows par → Race.fresh th env par m data rows cols true = .ok obj) ∧ (obj.results.outliers.map (·.id)).Perm (List.range rows) ∧
      ∀ o ∈ obj.results.outliers, ∀ o' ∈ obj.results.outliers, grp o.id ≠ none → grp o'.id = none → o.score < o'.score :=
  C126_above_partial env hz hs hq data rows cols _ (real_supported env ho hz h0 data rows cols hr hl hlt) h5 m hm hmr grp ε δ Δ hε (by rw [dist_euclid ho]; exact hw) (by rw [dist_euclid ho]; exact ht) hsq th hth

/-- Two groups of three points in the plane, and a scattered point. -/
def realPlane : List ℝ := [0, 0, 10, 0, 1, 0, 10, 1, 0, 1, 11, 0, 30, 40]

private theorem realPlane_dist (i j : Nat) : euclid realPlane 2 i j = Real.sqrt ((realPlane.getD (i * 2) 0 - realPlane.getD (j * 2) 0) ^ 2 + (realPlane.getD (i * 2 + 1) 0 - realPlane.getD (j * 2 + 1) 0) ^ 2) := by
  unfold euclid
  rw [Finset.sum_range_succ, Finset.sum_range_one]
  rfl

theorem realPlane_separated : WellSeparated 6 2 (euclid realPlane 2) (· % 2) 1 1 9 where
  pos := by norm_num
  gap := by norm_num
  even := by norm_num
  two := ⟨0, 1, by omega, by omega, by decide⟩
  link := by
    have s1 : Reachable 6 (euclid realPlane 2) 1 0 2 := .rel _ _ ⟨by omega, by omega, by omega, by rw [realPlane_dist]; exact Real.sqrt_le_iff.2 ⟨by norm_num, by norm_num [realPlane]⟩⟩
    have s2 : Reachable 6 (euclid realPlane 2) 1 0 4 := .rel _ _ ⟨by omega, by omega, by omega, by rw [realPlane_dist]; exact Real.sqrt_le_iff.2 ⟨by norm_num, by norm_num [realPlane]⟩⟩
    have s3 : Reachable 6 (euclid realPlane 2) 1 1 3 := .rel _ _ ⟨by omega, by omega, by omega, by rw [realPlane_dist]; exact Real.sqrt_le_iff.2 ⟨by norm_num, by norm_num [realPlane]⟩⟩
    have s4 : Reachable 6 (euclid realPlane 2) 1 1 5 := .rel _ _ ⟨by omega, by omega, by omega, by rw [realPlane_dist]; exact Real.sqrt_le_iff.2 ⟨by norm_num, by norm_num [realPlane]⟩⟩
    have base : ∀ i, i < 6 → Reachable 6 (euclid realPlane 2) 1 (i % 2) i := by
      intro i hi
      match i, hi with
      | 0, _ => exact .refl _
      | 1, _ => exact .refl _
      | 2, _ => exact s1
      | 3, _ => exact s3
      | 4, _ => exact s2
      | 5, _ => exact s4
    intro i j hi hj he
    have h1 := base i hi
    rw [he] at h1
    exact .trans _ _ _ (.symm _ _ h1) (base j hj)
  far i j hi hj hne := by
    rw [realPlane_dist]
    refine Real.le_sqrt_of_sq_le ?_
    interval_cases i <;> interval_cases j <;> first | exact absurd rfl hne | norm_num [realPlane]
  dense i hi := by
    have key : ∀ a b, a < 6 → b < 6 → a ≠ b → euclid realPlane 2 a b ≤ 1 → AtLeast 2 (fun j => j < 6 ∧ euclid realPlane 2 a j ≤ 1) := by
      intro a b ha hb hab hd
      refine ⟨[a, b], by simp [hab], by simp, fun v hv => ?_⟩
      simp only [List.mem_cons, List.not_mem_nil, or_false] at hv
      rcases hv with rfl | rfl
      · exact ⟨ha, by simp [euclid]⟩
      · exact ⟨hb, hd⟩
    refine key i (if i < 2 then i + 2 else i % 2) hi (by split <;> omega) (by split <;> omega) ?_
    rw [realPlane_dist]
    refine Real.sqrt_le_iff.2 ⟨by norm_num, ?_⟩
    interval_cases i <;> norm_num [realPlane]
  sparse i hi := by
    rintro ⟨l, l1, l2, l3⟩
    have hsub : l ⊆ [i] := by
      intro v hv
      obtain ⟨hv6, hd⟩ := l3 v hv
      rw [List.mem_singleton]
      by_contra hne
      refine absurd hd (not_lt.2 ?_)
      rw [realPlane_dist]
      refine Real.le_sqrt_of_sq_le ?_
      interval_cases i <;> interval_cases v <;> first | exact absurd rfl hne | norm_num [realPlane]
    have := (l1.subperm hsub).length_le
    simp only [List.length_singleton] at this
    omega

theorem realPlane_scattered : Scattered 7 2 1 (euclid realPlane 2) (fun i => if i < 6 then some (i % 2) else none) 1 1 9 where
  pos := by norm_num
  gap := by norm_num
  few l hl h := by
    have hsub : l ⊆ [6] := fun i hi => by
      obtain ⟨h1, h2⟩ := h i hi
      have : ¬ i < 6 := fun h6 => by simp [h6] at h2
      exact List.mem_singleton.2 (by omega)
    exact (hl.subperm hsub).length_le
  light := by norm_num
  even := by norm_num
  two := ⟨0, 1, by omega, by omega, by decide, by decide, by decide⟩
  link i j hi hj hs he := by
    have h6 : i < 6 := by by_contra h; simp [h] at hs
    have h6' : j < 6 := by by_contra h; simp [h, h6] at he
    have he' : i % 2 = j % 2 := by simpa [h6, h6'] using he
    exact (realPlane_separated.link i j h6 h6' he').mono fun a b ⟨h1, h2, h3⟩ => ⟨by omega, by omega, h3⟩
  far i j hi hj hne hg := by
    rw [realPlane_dist]
    refine Real.le_sqrt_of_sq_le ?_
    interval_cases i <;> interval_cases j <;> first | exact absurd rfl hne | exact absurd hg (by decide) | norm_num [realPlane]
  dense i hi hs := by
    have h6 : i < 6 := by by_contra h; simp [h] at hs
    obtain ⟨l, l1, l2, l3⟩ := realPlane_separated.dense i h6
    exact ⟨l, l1, l2, fun v hv => ⟨by have := (l3 v hv).1; omega, (l3 v hv).2⟩⟩
  sparse i hi hs := by
    have h6 : i < 6 := by by_contra h; simp [h] at hs
    rintro ⟨l, l1, l2, l3⟩
    refine realPlane_separated.sparse i h6 ⟨l, l1, l2, fun v hv => ⟨?_, (l3 v hv).2⟩⟩
    obtain ⟨hv7, hd⟩ := l3 v hv
    by_contra h
    obtain rfl : v = 6 := by omega
    refine absurd hd (not_lt.2 ?_)
    rw [realPlane_dist]
    refine Real.le_sqrt_of_sq_le ?_
    interval_cases i <;> norm_num [realPlane]

private theorem realPlane_near (i j : Nat) (hij : i < j) (hj : j < 7) : euclid realPlane 2 i j < 60 := by
  rw [realPlane_dist]
  refine (Real.sqrt_lt' (by norm_num)).2 ?_
  interval_cases j <;> interval_cases i <;> norm_num [realPlane]

/-- A case of C124: the two groups. -/
example [LinearOrder T] (env : Api.Env ℝ ℝ ℝ T) (har : env.ar = exact ℝ 60) (hq : SortsAscending env.qsort) (ho : env.dops = realOps) :=
  C124_real_partial env 60 har hq ho (by norm_num) realPlane 6 2 (by omega) (by simp [realPlane]) (fun i j h1 h2 => realPlane_near i j h1 (by omega)) (by omega) 2 (by omega) (by omega) (· % 2) 1 1 9 realPlane_separated
    (fun _ _ => .inl le_rfl)
/-- A case of C125: with the scattered point. -/
example [LinearOrder T] (env : Api.Env ℝ ℝ ℝ T) (har : env.ar = exact ℝ 60) (hq : SortsAscending env.qsort) (ho : env.dops = realOps) :=
  C125_real_partial env 60 har hq ho (by norm_num) realPlane 7 2 (by omega) (by simp [realPlane]) realPlane_near (by omega) 2 (by omega) (by omega) 1 _ 1 1 9 realPlane_scattered (fun _ _ => .inl le_rfl)
/-- A case of C126, the same points. -/
example {S : Type} [CCmp S] (env : Api.Env ℝ ℝ S ℝ) (hz : env.ar.zeroW = 0) (hs : env.oops = exactScore ℝ) (hq : SortsAscending env.qsort) (ho : env.dops = realOps) (hd : env.ar.dmax = 60) :=
  C126_real_partial env hz hs hq ho (by rw [hd]; norm_num) realPlane 7 2 (by omega) (by simp [realPlane]) (by rw [hd]; exact realPlane_near) (by omega) 2 (by omega) (by omega) _ 1 1 9 (by norm_num)
    ⟨realPlane_scattered.gap, fun ⟨l, l1, l2, l3⟩ => absurd (realPlane_scattered.few l l1 l3) (by omega), realPlane_scattered.two, realPlane_scattered.link, realPlane_scattered.far, realPlane_scattered.dense,
      realPlane_scattered.sparse⟩ (fun _ _ => .inl le_rfl) (by norm_num) hasty hasty_interleaves

end Verif.Props
