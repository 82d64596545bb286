import Verif.Props.Rearrange
import Verif.Props.Stats
import Verif.Lemmas.Double

/-! Doubles: what rounding changes (C40, C43, C61, C62). -/

namespace Verif.Props
open Verif Verif.Spec Verif.Binary64

/-- The operations of the model are those of IEEE 754: all results are doubles nearest to the exact results. -/
theorem double_rounded (a b : F64) :
    (∃ d, doubleDist.diff a b = .ok d ∧ NearestDouble (a.1 - b.1) d.1) ∧ NearestDouble (a.1 + b.1) (doubleDist.add a b).1 ∧ NearestDouble (a.1 * b.1) (doubleDist.mul a b).1 ∧
      (0 ≤ a.1 → NearestDouble (Real.sqrt a.1) ((doubleDist.sqrt a).1 : ℝ)) := by
  refine ⟨⟨_, rfl, fl_nearest _⟩, fl_nearest _, fl_nearest _, fun h => ?_⟩
  show NearestDouble _ ((flSqrt a.1 : ℚ) : ℝ)
  rw [flSqrt_spec h]
  exact fl_nearest _

/-! ### C61 -/

/-- The sum `distance_compute` forms for two rows of one column. -/
def doubleSq (xs : List F64) (i j : Nat) : F64 :=
  let d := F64.of ((xs.getD i (F64.of 0)).1 - (xs.getD j (F64.of 0)).1)
  doubleDist.add doubleDist.zero (doubleDist.mul d d)

/-- Eight points on a line in two orders. -/
def roundPts : List F64 := [-65 / 4, -858266113398863 / 562949953421312, 0, 5, 9, 13, 1000, 1003].map F64.of
def roundPts' : List F64 := [13, 9, 5, 0, -858266113398863 / 562949953421312, -65 / 4, 1000, 1003].map F64.of

theorem roundPts_supported : Supported (doubleEnv isort) roundPts 8 1 (doubleSq roundPts) where
  few := by omega
  zero := rfl
  zero_lt := by decide +kernel
  sum i j hij hj := sqSum_iff.1 <| (by decide +kernel : ∀ j, j < 8 → ∀ i, i < j → Distance.sumFrom doubleDist roundPts 1 i j 1 0 doubleDist.zero = .ok (doubleSq roundPts i j)) j hj i hij
  lt i j hij hj := (by decide +kernel : ∀ j, j < 8 → ∀ i, i < j → doubleDist.sqrt (doubleSq roundPts i j) < F64.max) j hj i hij

theorem roundPts'_supported : Supported (doubleEnv isort) roundPts' 8 1 (doubleSq roundPts') where
  few := by omega
  zero := rfl
  zero_lt := by decide +kernel
  sum i j hij hj := sqSum_iff.1 <| (by decide +kernel : ∀ j, j < 8 → ∀ i, i < j → Distance.sumFrom doubleDist roundPts' 1 i j 1 0 doubleDist.zero = .ok (doubleSq roundPts' i j)) j hj i hij
  lt i j hij hj := (by decide +kernel : ∀ j, j < 8 → ∀ i, i < j → doubleDist.sqrt (doubleSq roundPts' i j) < F64.max) j hj i hij

/-- Row `i` of the first data set is row `swap6 i` of the second. -/
def swap6 (i : Nat) : Nat := if i < 6 then 5 - i else i

/-- C61 fails for the final clusters because of rounding: with `minPoints` 2, for which ties do not matter, the same eight points are two clusters in one order of the rows and three clusters
    and a noise point in the other. All other results agree, as `C61_rearranged_partial` says. -/
theorem C61_rounding_violated : Rearranges 8 swap6 ∧ (∀ i, i < 8 → SameRow roundPts roundPts' 1 i (swap6 i)) ∧ Untied 8 2 (distOf doubleDist (doubleSq roundPts)) ∧
    ∃ obj obj' : Api.Obj F64 F64 F64,
      (∀ par, Complete 8 8 par → Api.fresh (doubleEnv isort) par 2 roundPts 8 1 true = .ok obj ∧ Api.fresh (doubleEnv isort) par 2 roundPts' 8 1 true = .ok obj') ∧
      obj.results.labels = [2, 2, 2, 2, 2, 2, 3, 3] ∧ obj'.results.labels = [4, 4, 4, 5, 5, 0, 3, 3] := by
  refine ⟨⟨by unfold swap6; intros; split <;> omega, by unfold swap6; intro i j hi hj h; split at h <;> split at h <;> omega⟩, ?_, fun i hi => .inl (by omega), ?_⟩
  · intro i hi k hk
    have : k = 0 := by omega
    subst this
    interval_cases i <;> rfl
  · obtain ⟨obj, _, hf, -⟩ := C55_run_partial (doubleEnv isort) (isort_sorts _) roundPts 8 1 _ roundPts_supported (by omega) 2 (by omega) (by omega)
    obtain ⟨obj', _, hf', -⟩ := C55_run_partial (doubleEnv isort) (isort_sorts _) roundPts' 8 1 _ roundPts'_supported (by omega) 2 (by omega) (by omega)
    refine ⟨obj, obj', fun par hp => ⟨hf par hp, hf' par hp⟩, ?_, ?_⟩
    · have e : (Api.fresh (doubleEnv isort) (backPar 8 8) 2 roundPts 8 1 true >>= fun o => .ok o.results.labels) = .ok [2, 2, 2, 2, 2, 2, 3, 3] := by decide +kernel
      rw [hf _ (backPar_complete 8 8)] at e
      exact Outcome.ok.inj e
    · have e : (Api.fresh (doubleEnv isort) (backPar 8 8) 2 roundPts' 8 1 true >>= fun o => .ok o.results.labels) = .ok [4, 4, 4, 5, 5, 0, 3, 3] := by decide +kernel
      rw [hf' _ (backPar_complete 8 8)] at e
      exact Outcome.ok.inj e

/-! ### C62 -/

/-- The points of `roundPts` in a unit a third as large. -/
def triplePts : List F64 := [-195 / 4, -2574798340196589 / 562949953421312, 0, 15, 27, 39, 3000, 3009].map F64.of

theorem triplePts_supported : Supported (doubleEnv isort) triplePts 8 1 (doubleSq triplePts) where
  few := by omega
  zero := rfl
  zero_lt := by decide +kernel
  sum i j hij hj := sqSum_iff.1 <| (by decide +kernel : ∀ j, j < 8 → ∀ i, i < j → Distance.sumFrom doubleDist triplePts 1 i j 1 0 doubleDist.zero = .ok (doubleSq triplePts i j)) j hj i hij
  lt i j hij hj := (by decide +kernel : ∀ j, j < 8 → ∀ i, i < j → doubleDist.sqrt (doubleSq triplePts i j) < F64.max) j hj i hij

/-- C62 fails for the final clusters because of rounding: all coordinates of the first data set are multiplied by 3, exactly, and its first six points are no longer one cluster. -/
theorem C62_rounding_violated : roundPts.map (fun x => 3 * x.1) = triplePts.map Subtype.val ∧ ∃ obj obj' : Api.Obj F64 F64 F64,
    (∀ par, Complete 8 8 par → Api.fresh (doubleEnv isort) par 2 roundPts 8 1 true = .ok obj ∧ Api.fresh (doubleEnv isort) par 2 triplePts 8 1 true = .ok obj') ∧
    obj.results.labels = [2, 2, 2, 2, 2, 2, 3, 3] ∧ obj'.results.labels = [0, 4, 4, 5, 5, 5, 3, 3] := by
  refine ⟨by decide +kernel, ?_⟩
  obtain ⟨obj, _, hf, -⟩ := C55_run_partial (doubleEnv isort) (isort_sorts _) roundPts 8 1 _ roundPts_supported (by omega) 2 (by omega) (by omega)
  obtain ⟨obj', _, hf', -⟩ := C55_run_partial (doubleEnv isort) (isort_sorts _) triplePts 8 1 _ triplePts_supported (by omega) 2 (by omega) (by omega)
  refine ⟨obj, obj', fun par hp => ⟨hf par hp, hf' par hp⟩, ?_, ?_⟩
  · have e : (Api.fresh (doubleEnv isort) (backPar 8 8) 2 roundPts 8 1 true >>= fun o => .ok o.results.labels) = .ok [2, 2, 2, 2, 2, 2, 3, 3] := by decide +kernel
    rw [hf _ (backPar_complete 8 8)] at e
    exact Outcome.ok.inj e
  · have e : (Api.fresh (doubleEnv isort) (backPar 8 8) 2 triplePts 8 1 true >>= fun o => .ok o.results.labels) = .ok [0, 4, 4, 5, 5, 5, 3, 3] := by decide +kernel
    rw [hf' _ (backPar_complete 8 8)] at e
    exact Outcome.ok.inj e

/-! ### C40 -/

/-- The score of a level that is at least the lowest one lies between 0 and 1. -/
theorem doubleScore_range {a b : F64} (ha : 0 < a.1) (hab : a ≤ b) : F64.of 0 ≤ doubleScore.ratio a b ∧ doubleScore.ratio a b ≤ F64.of 1 := by
  have hb : 0 < b.1 := lt_of_lt_of_le ha hab
  have h1 : (F64.of (a.1 / b.1)).1 ≤ 1 := by
    have := of_le_of_le (x := a.1 / b.1) (a := F64.of 1) (by rw [of_one, div_le_one hb]; exact hab)
    rw [← of_one]; exact this
  have h0 : 0 ≤ (F64.of (a.1 / b.1)).1 := by
    have := le_of_of_le (x := a.1 / b.1) (a := F64.of 0) (by rw [of_zero]; positivity)
    rw [← of_zero]; exact this
  exact ⟨le_of_of_le (by rw [of_zero]; linarith), of_le_of_le (by rw [of_one]; linarith)⟩

/-- **C40 for doubles, the part that holds**: if all core distances are positive and the hierarchy splits, every score lies between 0 and 1.
    Missing: a score can be 1 (`C40_rounding_violated`); hierarchies that never split (`C40_unsplit_negative`). -/
theorem C40_double_partial (qsort : (OScore F64 F64 → OScore F64 F64 → Int) → List (OScore F64 F64) → List (OScore F64 F64)) (hq : SortsAscending qsort) (data : List F64) (rows cols : Nat)
    (f : Nat → Nat → F64) (h : Supported (doubleEnv qsort) data rows cols f) (h5 : 5 ≤ rows) (m : Nat) (hm : 2 ≤ m) (hmr : m ≤ rows) :
    ∃ obj : Api.Obj F64 F64 F64, (∀ par, Complete rows rows par → Api.fresh (doubleEnv qsort) par m data rows cols true = .ok obj) ∧
      ((∀ i c, i < rows → obj.dis.coreDistances[i]? = some (some c) → 0 < c.1) → obj.results.clusters.length ≠ 2 → ∀ o ∈ obj.results.outliers, 0 ≤ o.score.1 ∧ o.score.1 ≤ 1) := by
  have hfew := h.few
  obtain ⟨C, core, O, key⟩ := api_rep h hq (by omega)
  obtain ⟨k1, k2, k3, k4⟩ := key m (by omega) hmr
  have hseq : Complete rows rows ⟨Distance.pairs rows, List.range rows, seqSchedule, List.range rows⟩ := ⟨.refl _, .refl _, seqSchedule_complete, .refl _⟩
  obtain ⟨_, hfull, _⟩ := k4 _ hseq
  obtain ⟨out', p1, p2, p3, p4⟩ := full_rep (doubleEnv qsort).qsort (doubleEnv qsort).ar (doubleEnv qsort).smax (doubleEnv qsort).oops m (C m) rows (distOf (doubleEnv qsort).dops f) (core m) hq (by omega)
    (by omega) (by omega) (fun i j hi hj _ => k1 i j hi hj) (distOf_symm _ _) (fun i hi => (k2 i hi).1) k3
  have := p1 seqSchedule _ seqSchedule_complete (.refl _)
  rw [hfull] at this; cases this
  refine ⟨⟨m, rows, C m, O m⟩, fun par hp => ?_, fun hpos hl o ho => ?_⟩
  · rw [Api.fresh, Api.initObj, if_pos (by omega), Outcome.ok_bind]
    exact (k4 par hp).2.2.2.1 h5
  · have hc : ∀ i, i < rows → 0 < (core m i).1 := fun i hi => hpos i _ hi (k2 i hi).1
    obtain ⟨_, _, eps, l, c, _, _, _, q4, _, q, _, r⟩ := p4 o ho
    obtain ⟨r1, _, r3⟩ := r hl
    have hlow : 0 < c.propLowest.1 := by
      rcases r3 with ⟨i, hi, e⟩ | ⟨i, j, hi, hj, _, e⟩
      · rw [e]; exact hc i hi
      · rw [e]
        have : core m i ≤ mutualReach (distOf (doubleEnv qsort).dops f) (core m) i j := by simp [mutualReach]
        exact lt_of_lt_of_le (hc i hi) this
    have hs := doubleScore_range hlow r1
    rw [q]
    split
    · exact ⟨le_of_eq of_zero.symm, by show fl 0 ≤ (1 : ℚ); rw [fl_zero]; norm_num⟩
    · refine ⟨?_, ?_⟩
      · rw [← of_zero]; exact hs.1
      · rw [← of_one]; exact hs.2

/-- Two pairs of points, and a point very far away. -/
def outlyingPts : List F64 := [0, 1, 10, 11, 2 ^ 60].map F64.of

theorem outlyingPts_supported : Supported (doubleEnv isort) outlyingPts 5 1 (doubleSq outlyingPts) where
  few := by omega
  zero := rfl
  zero_lt := by decide +kernel
  sum i j hij hj := sqSum_iff.1 <| (by decide +kernel : ∀ j, j < 5 → ∀ i, i < j → Distance.sumFrom doubleDist outlyingPts 1 i j 1 0 doubleDist.zero = .ok (doubleSq outlyingPts i j)) j hj i hij
  lt i j hij hj := (by decide +kernel : ∀ j, j < 5 → ∀ i, i < j → doubleDist.sqrt (doubleSq outlyingPts i j) < F64.max) j hj i hij

/-- C40 fails because of rounding: the score of a point that is 2 ^ 60 times as far away as the others are from each other is 1. -/
theorem C40_rounding_violated : ∃ obj : Api.Obj F64 F64 F64, (∀ par, Complete 5 5 par → Api.fresh (doubleEnv isort) par 2 outlyingPts 5 1 true = .ok obj) ∧
    obj.results.clusters.length = 4 ∧ obj.results.outliers.map (fun o => (o.id, o.score.1)) = [(0, 0), (1, 0), (2, 0), (3, 0), (4, 1)] := by
  obtain ⟨obj, _, hf, -⟩ := C55_run_partial (doubleEnv isort) (isort_sorts _) outlyingPts 5 1 _ outlyingPts_supported (by omega) 2 (by omega) (by omega)
  have e : (Api.fresh (doubleEnv isort) (backPar 5 5) 2 outlyingPts 5 1 true >>= fun o => .ok (o.results.clusters.length, o.results.outliers.map (fun o => (o.id, o.score.1)))) =
      .ok (4, [(0, 0), (1, 0), (2, 0), (3, 0), (4, 1)]) := by decide +kernel
  rw [hf _ (backPar_complete 5 5)] at e
  exact ⟨obj, hf, congrArg Prod.fst (Outcome.ok.inj e), congrArg Prod.snd (Outcome.ok.inj e)⟩

/-- The core distances of these points are positive, so that `C40_double_partial` speaks about them. -/
example : (Api.fresh (doubleEnv isort) (backPar 5 5) 2 outlyingPts 5 1 true >>= fun o => .ok (o.dis.coreDistances.map (Option.map Subtype.val), o.results.clusters.length)) =
    .ok ([some 1, some 1, some 1, some 1, some (2 ^ 60)], 4) := by decide +kernel

example := C40_double_partial isort (isort_sorts _) outlyingPts 5 1 _ outlyingPts_supported (by omega) 2 (by omega) (by omega)

/-! ### C43 -/

/-- The laws of the arithmetic that C43 needs hold for doubles. -/
theorem double_laws (pow3 pow4 : F64 → F64) : ConfLaws (doubleStat pow3 pow4) := by
  have h1 : (F64.of ((1 : Nat) : ℚ)).1 = 1 := by rw [of_nat (by norm_num)]; norm_num
  have h100 : (F64.of ((100 : Nat) : ℚ)).1 = 100 := by rw [of_nat (by norm_num)]; norm_num
  refine ⟨fun m r r' _ h _ => of_mono (sub_le_sub_left (show r.1 ≤ r'.1 from h) m.1), fun m => ?_, fun m => ?_, fun a b m hm h0 h _ => ?_, fun m hm => ?_, fun m hm => ?_, fun a b h0 h _ => ?_, ?_, ?_⟩
  · show F64.of (m.1 - m.1) = F64.of 0
    rw [sub_self]
  · show F64.of (m.1 - (F64.of 0).1) = m
    rw [of_zero, sub_zero, of_val]
  · have : (0 : ℚ) < m.1 := by rw [← of_zero]; exact hm
    exact of_mono (div_le_div_of_nonneg_right h this.le)
  · show F64.of ((F64.of 0).1 / m.1) = F64.of 0
    rw [of_zero, zero_div]
  · have : (0 : ℚ) < m.1 := by rw [← of_zero]; exact hm
    show F64.of (m.1 / m.1) = F64.of ((1 : Nat) : ℚ)
    rw [div_self this.ne', Nat.cast_one]
  · show F64.of (a.1 * (F64.of ((100 : Nat) : ℚ)).1) ≤ F64.of (b.1 * (F64.of ((100 : Nat) : ℚ)).1)
    rw [h100]
    exact of_mono (mul_le_mul_of_nonneg_right h (by norm_num))
  · show F64.of ((F64.of 0).1 * (F64.of ((100 : Nat) : ℚ)).1) = F64.of 0
    rw [of_zero, zero_mul]
  · show F64.of ((F64.of ((1 : Nat) : ℚ)).1 * (F64.of ((100 : Nat) : ℚ)).1) = F64.of ((100 : Nat) : ℚ)
    rw [h1, one_mul, of_val]

/-- **C43 for doubles**: confidences are percentages, 0 for the largest ratio and not smaller for a smaller ratio. The ratios are the rounded quotients; they are positive as long as
    they do not fall below 2 ^ -1075. -/
theorem C43_double (pow3 pow4 : F64 → F64) (m : KMap (DistVals F64)) (hm : Ascending m) (hne : m ≠ []) (old : Stat.Stats F64)
    (hr : ∀ x ∈ m, 0 < (F64.of (x.2.maxCr.1 / x.2.minCr.1)).1 ∧ 0 < (F64.of (x.2.maxDr.1 / x.2.minDr.1)).1) :
    ∃ m' s, Stat.calculate (doubleStat pow3 pow4) m old = .ok (m', s) ∧ m'.keys = m.keys ∧ ∀ c v, m.lookup c = some v → ∃ v', m'.lookup c = some v' ∧
      (0 ≤ v'.crConf.1 ∧ v'.crConf.1 ≤ 100) ∧ (0 ≤ v'.drConf.1 ∧ v'.drConf.1 ≤ 100) ∧
      ((∀ c2 v2, m.lookup c2 = some v2 → F64.of (v2.maxCr.1 / v2.minCr.1) ≤ F64.of (v.maxCr.1 / v.minCr.1)) → v'.crConf.1 = 0) ∧
      ((∀ c2 v2, m.lookup c2 = some v2 → F64.of (v2.maxDr.1 / v2.minDr.1) ≤ F64.of (v.maxDr.1 / v.minDr.1)) → v'.drConf.1 = 0) ∧
      (∀ c2 v2 v2', m.lookup c2 = some v2 → m'.lookup c2 = some v2' → F64.of (v.maxCr.1 / v.minCr.1) ≤ F64.of (v2.maxCr.1 / v2.minCr.1) → v2'.crConf ≤ v'.crConf) ∧
      (∀ c2 v2 v2', m.lookup c2 = some v2 → m'.lookup c2 = some v2' → F64.of (v.maxDr.1 / v.minDr.1) ≤ F64.of (v2.maxDr.1 / v2.minDr.1) → v2'.drConf ≤ v'.drConf) := by
  have h100 : (F64.of ((100 : Nat) : ℚ)).1 = 100 := by rw [of_nat (by norm_num)]; norm_num
  obtain ⟨m', s, e, k, key⟩ := C43_percentages (doubleStat pow3 pow4) (double_laws pow3 pow4) m hm hne
    (fun x hx => ⟨show (F64.of 0).1 < _ by rw [of_zero]; exact (hr x hx).1, show (F64.of 0).1 < _ by rw [of_zero]; exact (hr x hx).2⟩) old
  refine ⟨m', s, e, k, fun c v hv => ?_⟩
  obtain ⟨v', a1, _, _, _, _, ⟨a2, a3⟩, ⟨a4, a5⟩, a6, a7, a8, a9⟩ := key c v hv
  refine ⟨v', a1, ⟨?_, ?_⟩, ⟨?_, ?_⟩, fun h => ?_, fun h => ?_, a8, a9⟩
  · rw [← of_zero]; exact a2
  · rw [← h100]; exact a3
  · rw [← of_zero]; exact a4
  · rw [← h100]; exact a5
  · rw [a6 h]; exact of_zero
  · rw [a7 h]; exact of_zero

/-- Ratios that are not doubles: 5 / 3 and 7 / 3. -/
def roundMap : KMap (DistVals F64) := [(2, ⟨F64.of 3, F64.of 5, F64.of 0, F64.of 1, F64.of 3, F64.of 0⟩), (3, ⟨F64.of 3, F64.of 7, F64.of 0, F64.of 2, F64.of 6, F64.of 0⟩)]

example := C43_double id id roundMap (by simp [Ascending, roundMap, KMap.keys]) (by simp [roundMap]) ⟨0, ⟨F64.of 0, F64.of 0, F64.of 0, F64.of 0, F64.of 0, F64.of 0⟩, ⟨F64.of 0, F64.of 0, F64.of 0, F64.of 0, F64.of 0, F64.of 0⟩⟩
  (by decide +kernel)

end Verif.Props
