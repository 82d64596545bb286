import Verif.Spec.Stats
import Verif.Lemmas.ClusterMap
import Mathlib.Tactic.Ring
import Mathlib.Tactic.FieldSimp
import Mathlib.Tactic.Linarith
/-
C43, C44, C45: the statistics of a clustering.
-/
namespace Verif.Props
open Spec Stat

section
variable {W : Type} [LinearOrder W]

/-- The maximum of the first loop (helper). -/
theorem maxSum_largest (o : Ops W) : ∀ (xs : List W) (m s : W) (P : W → Prop), Largest P m → Largest (fun x => P x ∨ x ∈ xs) (maxSum o xs (m, s)).1 := by
  intro xs
  induction xs with
  | nil => intro m s P h; simpa [maxSum] using h
  | cons x xs ih =>
    intro m s P h
    have h1 := DMap.largest_or (x := x) h
    have := ih (if m < x then x else m) (o.add s x) _ h1
    rw [maxSum]
    simp only [ccmp_lt, decide_eq_true_eq]
    simpa [or_assoc] using this

theorem kind_ok (o : Ops W) (count : Nat) (xs : List W) (hne : xs ≠ []) (old : Vals W) : ∃ v, kind o count xs old = .ok v ∧ Largest (fun y => y ∈ xs) v.max := by
  cases xs with
  | nil => exact absurd rfl hne
  | cons x xs =>
    have h := maxSum_largest o xs x x (fun y => y = x) ⟨rfl, fun y hy => hy.le⟩
    exact ⟨_, rfl, by simpa using h⟩

/-- The confidences for one maximum (helper). -/
theorem confidence_laws {o : Ops W} (lw : ConfLaws o) {m : W} (hm : o.zero < m) {r : W} (h0 : o.zero ≤ r) (hr : r ≤ m) :
    o.zero ≤ confidence o m r ∧ confidence o m r ≤ o.ofNat 100 ∧ (r = m → confidence o m r = o.zero) ∧
      ∀ r', r ≤ r' → r' ≤ m → confidence o m r' ≤ confidence o m r := by
  have s : ∀ r, o.zero ≤ r → r ≤ m → o.zero ≤ o.sub m r ∧ o.sub m r ≤ m := fun r h0 hr => by
    have h1 := lw.sub_anti m r m h0 hr (le_refl _)
    have h2 := lw.sub_anti m o.zero r (le_refl _) h0 hr
    rw [lw.sub_self] at h1; rw [lw.sub_zero] at h2
    exact ⟨h1, h2⟩
  have q : ∀ r, o.zero ≤ r → r ≤ m → o.zero ≤ o.div (o.sub m r) m ∧ o.div (o.sub m r) m ≤ o.ofNat 1 := fun r h0 hr => by
    have h1 := lw.div_mono o.zero _ m hm (le_refl _) (s r h0 hr).1 (s r h0 hr).2
    have h2 := lw.div_mono _ m m hm (s r h0 hr).1 (s r h0 hr).2 (le_refl _)
    rw [lw.zero_div m hm] at h1; rw [lw.div_self m hm] at h2
    exact ⟨h1, h2⟩
  obtain ⟨q1, q2⟩ := q r h0 hr
  refine ⟨?_, ?_, ?_, ?_⟩
  · have := lw.mul_mono _ _ (le_refl _) q1 q2
    rwa [lw.zero_mul] at this
  · have := lw.mul_mono _ _ q1 q2 (le_refl _)
    rwa [lw.one_mul] at this
  · rintro rfl
    rw [confidence, lw.sub_self, lw.zero_div _ hm, lw.zero_mul]
  · intro r' h1 h2
    have h0' := h0.trans h1
    exact lw.mul_mono _ _ (q r' h0' h2).1 (lw.div_mono _ _ m hm (s r' h0' h2).1 (lw.sub_anti m r r' h0 h1 h2) (s r h0 hr).2) q2

/-- **C43.** Given a non-empty distance map with positive ratios, `hdbscan_calculate_stats` keeps the distances and sets confidences which
    * lie between 0 and 100,
    * are 0 for a cluster with the largest ratio,
    * are never smaller for a smaller ratio.
    The arithmetic is any with the stated laws, rounding included. -/
theorem C43_percentages (o : Ops W) (lw : ConfLaws o) (m : KMap (DistVals W)) (hm : Ascending m) (hne : m ≠ [])
    (hr : ∀ x ∈ m, o.zero < o.div x.2.maxCr x.2.minCr ∧ o.zero < o.div x.2.maxDr x.2.minDr) (old : Stats W) :
    ∃ m' s, calculate o m old = .ok (m', s) ∧ m'.keys = m.keys ∧ ∀ c v, m.lookup c = some v → ∃ v', m'.lookup c = some v' ∧
      v'.minCr = v.minCr ∧ v'.maxCr = v.maxCr ∧ v'.minDr = v.minDr ∧ v'.maxDr = v.maxDr ∧
      (o.zero ≤ v'.crConf ∧ v'.crConf ≤ o.ofNat 100) ∧ (o.zero ≤ v'.drConf ∧ v'.drConf ≤ o.ofNat 100) ∧
      ((∀ c2 v2, m.lookup c2 = some v2 → o.div v2.maxCr v2.minCr ≤ o.div v.maxCr v.minCr) → v'.crConf = o.zero) ∧
      ((∀ c2 v2, m.lookup c2 = some v2 → o.div v2.maxDr v2.minDr ≤ o.div v.maxDr v.minDr) → v'.drConf = o.zero) ∧
      (∀ c2 v2 v2', m.lookup c2 = some v2 → m'.lookup c2 = some v2' → o.div v.maxCr v.minCr ≤ o.div v2.maxCr v2.minCr → v2'.crConf ≤ v'.crConf) ∧
      (∀ c2 v2 v2', m.lookup c2 = some v2 → m'.lookup c2 = some v2' → o.div v.maxDr v.minDr ≤ o.div v2.maxDr v2.minDr → v2'.drConf ≤ v'.drConf) := by
  obtain ⟨sc, ec, hc⟩ := kind_ok o m.length (m.map (fun e => crRatio o e.2)) (by simpa using hne) old.core
  obtain ⟨si, ei, hi⟩ := kind_ok o m.length (m.map (fun e => drRatio o e.2)) (by simpa using hne) old.intra
  let f : Nat × DistVals W → Nat × DistVals W := fun e => (e.1, { e.2 with crConf := confidence o sc.max (crRatio o e.2), drConf := confidence o si.max (drRatio o e.2) })
  have hcalc : calculate o m old = .ok (m.map f, { count := m.length, core := sc, intra := si }) := by
    rw [calculate, ec, Outcome.ok_bind, ei, Outcome.ok_bind]
    rfl
  have hkeys : KMap.keys (m.map f) = m.keys := by simp [KMap.keys, f]
  have hm' : Ascending (m.map f) := by rw [Ascending, hkeys]; exact hm
  have hlk : ∀ {c v}, m.lookup c = some v → KMap.lookup (m.map f) c = some (f (c, v)).2 := fun {c v} h =>
    (KMap.lookup_mem hm').2 (List.mem_map.2 ⟨(c, v), (KMap.lookup_mem hm).1 h, rfl⟩)
  have hmem : ∀ {c v}, m.lookup c = some v → (c, v) ∈ m := (KMap.lookup_mem hm).1
  have hmc : ∃ c v, m.lookup c = some v ∧ crRatio o v = sc.max := by
    obtain ⟨x, hx, e⟩ := List.mem_map.1 hc.1
    exact ⟨x.1, x.2, (KMap.lookup_mem hm).2 hx, e⟩
  have hmi : ∃ c v, m.lookup c = some v ∧ drRatio o v = si.max := by
    obtain ⟨x, hx, e⟩ := List.mem_map.1 hi.1
    exact ⟨x.1, x.2, (KMap.lookup_mem hm).2 hx, e⟩
  have hle : ∀ {c v}, m.lookup c = some v → crRatio o v ≤ sc.max ∧ drRatio o v ≤ si.max := fun {c v} h =>
    ⟨hc.2 _ (List.mem_map.2 ⟨(c, v), hmem h, rfl⟩), hi.2 _ (List.mem_map.2 ⟨(c, v), hmem h, rfl⟩)⟩
  refine ⟨m.map f, _, hcalc, hkeys, fun c v hv => ⟨(f (c, v)).2, hlk hv, rfl, rfl, rfl, rfl, ?_⟩⟩
  have r := hr _ (hmem hv)
  have l := hle hv
  obtain ⟨a1, a2, a3, a4⟩ := confidence_laws lw (r.1.trans_le l.1) r.1.le l.1
  obtain ⟨b1, b2, b3, b4⟩ := confidence_laws lw (r.2.trans_le l.2) r.2.le l.2
  refine ⟨⟨a1, a2⟩, ⟨b1, b2⟩, fun h => a3 ?_, fun h => b3 ?_, fun c2 v2 v2' h2 h2' h => ?_, fun c2 v2 v2' h2 h2' h => ?_⟩
  · obtain ⟨c2, v2, h2, e⟩ := hmc
    exact le_antisymm l.1 (e ▸ h c2 v2 h2)
  · obtain ⟨c2, v2, h2, e⟩ := hmi
    exact le_antisymm l.2 (e ▸ h c2 v2 h2)
  · rw [hlk h2] at h2'
    obtain rfl := Option.some.inj h2'
    exact a4 _ h (hle h2).1
  · rw [hlk h2] at h2'
    obtain rfl := Option.some.inj h2'
    exact b4 _ h (hle h2).2

end

section
variable {K : Type} [Field K] [LinearOrder K] [IsStrictOrderedRing K]

/-- Exact arithmetic has the laws. -/
theorem exact_laws (sqrt : K → K) : ConfLaws (exactStat K sqrt) := by
  constructor <;> simp only [exactStat]
  · intro m r r' _ h _; linarith
  · simp
  · simp
  · intro a b m hm _ h _; exact div_le_div_of_nonneg_right h hm.le
  · simp
  · intro m hm; simp [hm.ne']
  · intro a b _ h _; exact mul_le_mul_of_nonneg_right h (by positivity)
  · simp
  · simp

/-- C43 over exact arithmetic: positive minima and maxima suffice. -/
theorem C43_exact (sqrt : K → K) (m : KMap (DistVals K)) (hm : Ascending m) (hne : m ≠ [])
    (hr : ∀ x ∈ m, 0 < x.2.minCr ∧ 0 < x.2.maxCr ∧ 0 < x.2.minDr ∧ 0 < x.2.maxDr) (old : Stats K) :
    ∃ m' s, calculate (exactStat K sqrt) m old = .ok (m', s) ∧ ∀ c v, m.lookup c = some v → ∃ v', m'.lookup c = some v' ∧
      (0 ≤ v'.crConf ∧ v'.crConf ≤ 100) ∧ (0 ≤ v'.drConf ∧ v'.drConf ≤ 100) := by
  obtain ⟨m', s, e, _, h⟩ := C43_percentages (exactStat K sqrt) (exact_laws sqrt) m hm hne (fun x hx => by
    obtain ⟨h1, h2, h3, h4⟩ := hr x hx
    exact ⟨div_pos h2 h1, div_pos h4 h3⟩) old
  refine ⟨m', s, e, fun c v hv => ?_⟩
  obtain ⟨v', h1, _, _, _, _, h2, h3, _⟩ := h c v hv
  refine ⟨v', h1, ?_, ?_⟩
  · simpa [exactStat] using h2
  · simpa [exactStat] using h3

omit [IsStrictOrderedRing K] in
/-- C43, the value: 100 times the relative distance to the largest ratio. -/
theorem C43_formula (sqrt : K → K) (m : KMap (DistVals K)) (hm : Ascending m) (hne : m ≠ []) (old : Stats K) :
    ∃ m' s mc mi, calculate (exactStat K sqrt) m old = .ok (m', s) ∧
      Largest (fun y => ∃ c v, m.lookup c = some v ∧ y = v.maxCr / v.minCr) mc ∧ Largest (fun y => ∃ c v, m.lookup c = some v ∧ y = v.maxDr / v.minDr) mi ∧
      ∀ c v, m.lookup c = some v → ∃ v', m'.lookup c = some v' ∧
        v'.crConf = (mc - v.maxCr / v.minCr) / mc * 100 ∧ v'.drConf = (mi - v.maxDr / v.minDr) / mi * 100 := by
  obtain ⟨sc, ec, hc⟩ := kind_ok (exactStat K sqrt) m.length (m.map (fun e => crRatio (exactStat K sqrt) e.2)) (by simpa using hne) old.core
  obtain ⟨si, ei, hi⟩ := kind_ok (exactStat K sqrt) m.length (m.map (fun e => drRatio (exactStat K sqrt) e.2)) (by simpa using hne) old.intra
  let f : Nat × DistVals K → Nat × DistVals K := fun e =>
    (e.1, { e.2 with crConf := confidence (exactStat K sqrt) sc.max (crRatio (exactStat K sqrt) e.2), drConf := confidence (exactStat K sqrt) si.max (drRatio (exactStat K sqrt) e.2) })
  have hcalc : calculate (exactStat K sqrt) m old = .ok (m.map f, { count := m.length, core := sc, intra := si }) := by
    rw [calculate, ec, Outcome.ok_bind, ei, Outcome.ok_bind]
    rfl
  have hkeys : KMap.keys (m.map f) = m.keys := by simp [KMap.keys, f]
  have hm' : Ascending (m.map f) := by rw [Ascending, hkeys]; exact hm
  refine ⟨m.map f, _, sc.max, si.max, hcalc, ⟨?_, ?_⟩, ⟨?_, ?_⟩, fun c v hv => ⟨(f (c, v)).2, ?_, ?_, ?_⟩⟩
  · obtain ⟨x, hx, e⟩ := List.mem_map.1 hc.1
    exact ⟨x.1, x.2, (KMap.lookup_mem hm).2 hx, e.symm⟩
  · rintro y ⟨c, v, hv, rfl⟩
    exact hc.2 _ (List.mem_map.2 ⟨(c, v), (KMap.lookup_mem hm).1 hv, rfl⟩)
  · obtain ⟨x, hx, e⟩ := List.mem_map.1 hi.1
    exact ⟨x.1, x.2, (KMap.lookup_mem hm).2 hx, e.symm⟩
  · rintro y ⟨c, v, hv, rfl⟩
    exact hi.2 _ (List.mem_map.2 ⟨(c, v), (KMap.lookup_mem hm).1 hv, rfl⟩)
  · exact (KMap.lookup_mem hm').2 (List.mem_map.2 ⟨(c, v), (KMap.lookup_mem hm).1 hv, rfl⟩)
  · simp [f, confidence, crRatio, exactStat]
  · simp [f, confidence, drRatio, exactStat]

/-! ### C44 -/

omit [IsStrictOrderedRing K] in
theorem maxSum_sum (sqrt : K → K) : ∀ (xs : List K) (m s : K), (maxSum (exactStat K sqrt) xs (m, s)).2 = s + xs.sum := by
  intro xs
  induction xs with
  | nil => intro m s; simp [maxSum]
  | cons x xs ih =>
    intro m s
    rw [maxSum, ih]
    simp [exactStat, add_assoc]

omit [LinearOrder K] [IsStrictOrderedRing K] in
theorem moments_sum (sqrt : K → K) (mean : K) : ∀ (xs : List K) (v s3 s4 : K), moments (exactStat K sqrt) mean xs (v, s3, s4) =
    (v + (xs.map (fun x => (x - mean) ^ 2)).sum, s3 + (xs.map (fun x => (x - mean) ^ 3)).sum, s4 + (xs.map (fun x => (x - mean) ^ 4)).sum) := by
  intro xs
  induction xs with
  | nil => intro v s3 s4; simp [moments]
  | cons x xs ih =>
    intro v s3 s4
    rw [moments, ih]
    simp [exactStat, add_assoc, pow_two]

/-- The statistics of one kind of ratios (helper). -/
theorem kind_exact (sqrt : K → K) (xs : List K) (hne : xs ≠ []) (old : Vals K) : ∃ v, kind (exactStat K sqrt) xs.length xs old = .ok v ∧
    v.mean = mean xs ∧ Largest (fun y => y ∈ xs) v.max ∧ v.variance = (old.variance + centred 2 xs) / ((xs.length : K) - 1) ∧ v.standardDev = sqrt v.variance ∧
    v.skewness = centred 3 xs / ((xs.length : K) * v.standardDev ^ 3) ∧ v.kurtosis = centred 4 xs / ((xs.length : K) * v.standardDev ^ 4) - 3 := by
  obtain ⟨v, e, h⟩ := kind_ok (exactStat K sqrt) xs.length xs hne old
  refine ⟨v, e, ?_⟩
  cases xs with
  | nil => exact absurd rfl hne
  | cons x xs =>
    have hl : ((xs.length + 1 - 1 : Nat) : K) = ((x :: xs).length : K) - 1 := by simp
    have hmean : (x + xs.sum) / ((x :: xs).length : K) = mean (x :: xs) := by simp [mean]
    rw [kind, rd_ok (by simp), Outcome.ok_bind] at e
    simp only [List.getElem_cons_zero, List.tail_cons] at e
    have hs := maxSum_sum sqrt xs x x
    generalize maxSum (exactStat K sqrt) xs (x, x) = p at e hs
    obtain ⟨mx, sm⟩ := p
    simp only at hs e
    subst hs
    rw [show (exactStat K sqrt).div (x + xs.sum) ((exactStat K sqrt).ofNat (x :: xs).length) = mean (x :: xs) from hmean, moments_sum] at e
    obtain rfl := Outcome.ok.inj e
    refine ⟨rfl, h, ?_, rfl, ?_, ?_⟩
    · simp only [exactStat, List.length_cons] at hl ⊢
      rw [hl]; rfl
    · simp only [exactStat, centred, zero_add]
    · simp only [exactStat, centred, zero_add]; norm_num

/-- **C44, the part that holds**, over exact arithmetic: for every distance map with at least two clusters and every previous content of the record, the count, the
    means and the maxima are those of the ratios; if the variances in the record were zero before, the variances are the sample variances, and standard
    deviation, skewness and kurtosis follow from the ratios alone. (Exact arithmetic gives 0 for a quotient by 0; what happens with infinite and NaN ratios is the subject of C79.)
    Missing: other contents of the record, for which the variance is wrong (`C44_violated`), and a single cluster, for which it is a division by zero. -/
theorem C44_statistics_partial (sqrt : K → K) (m : KMap (DistVals K)) (h2 : 2 ≤ m.length) (old : Stats K) :
    ∃ m' s, calculate (exactStat K sqrt) m old = .ok (m', s) ∧ s.count = m.length ∧
      (∀ (v ov : Vals K) (xs : List K), (v = s.core ∧ ov = old.core ∧ xs = m.map (fun e => e.2.maxCr / e.2.minCr)) ∨
          (v = s.intra ∧ ov = old.intra ∧ xs = m.map (fun e => e.2.maxDr / e.2.minDr)) →
        v.mean = mean xs ∧ Largest (fun y => y ∈ xs) v.max ∧
        (ov.variance = 0 → v.variance = sampleVariance xs ∧ v.standardDev = sqrt (sampleVariance xs) ∧
          v.skewness = centred 3 xs / ((xs.length : K) * sqrt (sampleVariance xs) ^ 3) ∧
          v.kurtosis = centred 4 xs / ((xs.length : K) * sqrt (sampleVariance xs) ^ 4) - 3)) := by
  have hne : m ≠ [] := by rintro rfl; simp at h2
  obtain ⟨sc, ec, hc⟩ := kind_exact sqrt (m.map (fun e => crRatio (exactStat K sqrt) e.2)) (by simpa using hne) old.core
  obtain ⟨si, ei, hi⟩ := kind_exact sqrt (m.map (fun e => drRatio (exactStat K sqrt) e.2)) (by simpa using hne) old.intra
  rw [List.length_map] at ec ei
  refine ⟨_, { count := m.length, core := sc, intra := si }, by rw [calculate, ec, Outcome.ok_bind, ei, Outcome.ok_bind]; rfl, rfl, ?_⟩
  have key : ∀ (v ov : Vals K) (xs : List K), (v.mean = mean xs ∧ Largest (fun y => y ∈ xs) v.max ∧ v.variance = (ov.variance + centred 2 xs) / ((xs.length : K) - 1) ∧ v.standardDev = sqrt v.variance ∧
      v.skewness = centred 3 xs / ((xs.length : K) * v.standardDev ^ 3) ∧ v.kurtosis = centred 4 xs / ((xs.length : K) * v.standardDev ^ 4) - 3) →
      v.mean = mean xs ∧ Largest (fun y => y ∈ xs) v.max ∧
        (ov.variance = 0 → v.variance = sampleVariance xs ∧ v.standardDev = sqrt (sampleVariance xs) ∧
          v.skewness = centred 3 xs / ((xs.length : K) * sqrt (sampleVariance xs) ^ 3) ∧
          v.kurtosis = centred 4 xs / ((xs.length : K) * sqrt (sampleVariance xs) ^ 4) - 3) := by
    rintro v ov xs ⟨q1, q2, q3, q4, q5, q6⟩
    refine ⟨q1, q2, fun h0 => ?_⟩
    have hv : v.variance = sampleVariance xs := by rw [q3, h0, zero_add, sampleVariance]
    rw [hv] at q4
    rw [q4] at q5 q6
    exact ⟨hv, q4, q5, q6⟩
  rintro v ov xs (⟨rfl, rfl, rfl⟩ | ⟨rfl, rfl, rfl⟩)
  · exact key _ _ _ hc
  · exact key _ _ _ hi

/-- **C44 is violated**: for every distance map with at least two clusters, the variance in the record before the call remains part of the result. The
    variance is right only if it was zero before; in particular a second call with the same record and the same map is wrong unless all ratios are equal. -/
theorem C44_violated (sqrt : K → K) (m : KMap (DistVals K)) (h2 : 2 ≤ m.length) (old : Stats K) :
    ∃ m' s, calculate (exactStat K sqrt) m old = .ok (m', s) ∧
      s.core.variance = sampleVariance (m.map (fun e => e.2.maxCr / e.2.minCr)) + old.core.variance / ((m.length : K) - 1) ∧
      (s.core.variance = sampleVariance (m.map (fun e => e.2.maxCr / e.2.minCr)) ↔ old.core.variance = 0) := by
  have hne : m ≠ [] := by rintro rfl; simp at h2
  obtain ⟨sc, ec, hc⟩ := kind_exact sqrt (m.map (fun e => crRatio (exactStat K sqrt) e.2)) (by simpa using hne) old.core
  obtain ⟨si, ei, hi⟩ := kind_exact sqrt (m.map (fun e => drRatio (exactStat K sqrt) e.2)) (by simpa using hne) old.intra
  rw [List.length_map] at ec ei
  have hpos : (0 : K) < (m.length : K) - 1 := by
    have : (2 : K) ≤ (m.length : K) := by exact_mod_cast h2
    linarith
  have hv : sc.variance = sampleVariance (m.map (fun e => e.2.maxCr / e.2.minCr)) + old.core.variance / ((m.length : K) - 1) := by
    rw [hc.2.2.1, add_div, add_comm, sampleVariance, List.length_map, List.length_map]
    rfl
  refine ⟨_, { count := m.length, core := sc, intra := si }, by rw [calculate, ec, Outcome.ok_bind, ei, Outcome.ok_bind]; rfl, hv, ?_⟩
  simp only [hv]
  rw [add_eq_left, div_eq_zero_iff]
  exact or_iff_left hpos.ne'

end

/-- An empty distance map makes the function read the first element of an array of length zero, in any arithmetic. -/
theorem C44_empty_ub {W : Type} [CCmp W] (o : Ops W) (old : Stats W) : (calculate o [] old).IsUB := ⟨_, rfl⟩

/-- Two clusters with ratios 4 and 2 (core distances) and 3 and 3 (distances). -/
def ratioMap : KMap (DistVals Rat) := [(2, ⟨1, 4, 0, 1, 3, 0⟩), (3, ⟨2, 4, 0, 2, 6, 0⟩)]

def zeroVals : Vals Rat := ⟨0, 0, 0, 0, 0, 0⟩

example := C43_percentages (exactStat Rat id) (exact_laws id) ratioMap (by simp [Ascending, ratioMap, KMap.keys]) (by simp [ratioMap]) (by decide +kernel) ⟨0, zeroVals, zeroVals⟩
example := C43_formula (id : Rat → Rat) ratioMap (by simp [Ascending, ratioMap, KMap.keys]) (by simp [ratioMap])

example := C43_exact (id : Rat → Rat) ratioMap (by simp [Ascending, ratioMap, KMap.keys]) (by simp [ratioMap]) (by decide +kernel) ⟨0, zeroVals, zeroVals⟩
example := C44_statistics_partial (id : Rat → Rat) ratioMap (by decide) ⟨0, zeroVals, zeroVals⟩
example := C44_violated (id : Rat → Rat) ratioMap (by decide) ⟨0, zeroVals, zeroVals⟩

/-- Concretely: the first call yields the variance 2 of the ratios 4 and 2, a second call with the same record yields 4. -/
theorem C44_second_call : (calculate (exactStat Rat id) ratioMap ⟨0, zeroVals, zeroVals⟩ >>= fun p => .ok p.2.core.variance) = .ok 2 ∧
    (calculate (exactStat Rat id) ratioMap ⟨0, zeroVals, zeroVals⟩ >>= fun p => calculate (exactStat Rat id) ratioMap p.2 >>= fun q => .ok q.2.core.variance) = .ok 4 := by
  constructor <;> decide +kernel

/-! ### C45 -/

/-- **C45.** `hdbscan_analyse_stats` returns the sum of two entries of the decision table, for the signs of skewness and kurtosis of either kind of distances, so the
    result lies between -2 and 4. Values may be NaN: all that is used of the comparisons is that no value is both above and below zero. -/
theorem C45_score {W : Type} [CCmp W] (zero : W) (has : ∀ x : W, ¬ (CCmp.lt zero x = true ∧ CCmp.lt x zero = true)) (s : Stats W) :
    (∀ x : W, ∃ g, HasSign zero x g) ∧
    (∀ g1 g2 g3 g4, HasSign zero s.intra.skewness g1 → HasSign zero s.intra.kurtosis g2 → HasSign zero s.core.skewness g3 → HasSign zero s.core.kurtosis g4 →
      analyse zero s = table g1 g2 + table g3 g4) ∧
    -2 ≤ analyse zero s ∧ analyse zero s ≤ 4 := by
  have hex : ∀ x : W, ∃ g, HasSign zero x g := by
    intro x
    cases h1 : CCmp.lt zero x
    · cases h2 : CCmp.lt x zero
      · exact ⟨.neither, h1, h2⟩
      · exact ⟨.negative, h2⟩
    · exact ⟨.positive, h1⟩
  have hs : ∀ (a b : W) g1 g2, HasSign zero a g1 → HasSign zero b g2 → score zero a b = table g1 g2 := by
    intro a b g1 g2 h1 h2
    have ha := has a
    have hb := has b
    unfold score
    cases g1 <;> cases g2 <;> simp only [HasSign] at h1 h2 <;> simp_all [table]
  have ht : ∀ g1 g2, -1 ≤ table g1 g2 ∧ table g1 g2 ≤ 2 := by
    intro g1 g2; cases g1 <;> cases g2 <;> simp [table]
  have hmain : ∀ g1 g2 g3 g4, HasSign zero s.intra.skewness g1 → HasSign zero s.intra.kurtosis g2 → HasSign zero s.core.skewness g3 → HasSign zero s.core.kurtosis g4 →
      analyse zero s = table g1 g2 + table g3 g4 := by
    intro g1 g2 g3 g4 h1 h2 h3 h4
    rw [analyse, hs _ _ _ _ h1 h2, hs _ _ _ _ h3 h4, zero_add]
  refine ⟨hex, hmain, ?_⟩
  obtain ⟨g1, h1⟩ := hex s.intra.skewness
  obtain ⟨g2, h2⟩ := hex s.intra.kurtosis
  obtain ⟨g3, h3⟩ := hex s.core.skewness
  obtain ⟨g4, h4⟩ := hex s.core.kurtosis
  rw [hmain _ _ _ _ h1 h2 h3 h4]
  have := ht g1 g2
  have := ht g3 g4
  omega

/-- Floating point numbers, NaN included, meet the hypothesis. -/
theorem fl_sign (x : Fl) : ¬ (CCmp.lt (Fl.fin 0) x = true ∧ CCmp.lt x (Fl.fin 0) = true) := by
  cases x <;> simp [CCmp.lt]
  omega

example := C45_score (Fl.fin 0) fl_sign ⟨3, ⟨.fin 1, .fin 1, .fin 1, .fin 1, .nan, .nan⟩, ⟨.fin 1, .fin 1, .fin 1, .fin 1, .fin 2, .fin (-1)⟩⟩
example : analyse (Fl.fin 0) ⟨3, ⟨.fin 1, .fin 1, .fin 1, .fin 1, .nan, .nan⟩, ⟨.fin 1, .fin 1, .fin 1, .fin 1, .fin 2, .fin (-1)⟩⟩ = 0 := by decide +kernel

end Verif.Props
