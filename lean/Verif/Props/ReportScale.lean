import Verif.Lemmas.ReportScale
import Verif.Spec.ReportScale
import Verif.Props.Scale
import Verif.Props.Finite
import Verif.Props.ClusterMap
/-
C115: the report on a clustering does not depend on the unit of length.
-/
namespace Verif.Props
open Verif Spec Param Verif.Binary64

/-- Two distances of type `double`. -/
def DblRel (k : ℤ) (a b : Dbl) : Prop := ∃ x y, a = .num x ∧ b = .num y ∧ WRel k x y

theorem fp_zero_num : (Fp.of 0 : Dbl) = .num (.fin ⟨0, isDouble_zero, zero_lt⟩) := by rw [zero_isNum.1, num_zero]

theorem fp_max_num : Fp.max = .num numArith.dmax := of_num _

theorem fp_min_num : Fp.min = .num Fp.min.toNum := of_num _

theorem lt_num (a b : Num754 binary64) : CCmp.lt (Ieee.num a) (Ieee.num b) = decide (a < b) := rfl

theorem usual_cases {a : Num754 binary64} (h : Usual a) : ∃ x : Fin754 binary64, a = .fin x ∧ (x.1 = 0 ∨ 0 < x.1 ∧ Fp.min.toNum < a) := by
  have hdm : Fp.min.toNum < (.fin ⟨2 ^ (-537 : ℤ), pow_double (by norm_num), by rw [abs_of_pos (two_zpow_pos _)]; exact zpow_lt_zpow_right₀ (by norm_num) (by decide)⟩ : Num754 binary64) := by
    decide +kernel
  obtain ⟨x, rfl, h | h, _⟩ := h
  · exact ⟨x, rfl, .inl h⟩
  · refine ⟨x, rfl, .inr ⟨lt_of_lt_of_le (two_zpow_pos _) h, lt_of_lt_of_le hdm ?_⟩⟩
    rw [← not_lt, num_fin_lt, not_lt]
    exact h

theorem min_zero : ¬ Fp.min.toNum < (.fin ⟨0, isDouble_zero, zero_lt⟩ : Num754 binary64) := by decide +kernel

theorem between_dbl (k : ℤ) : Between fpConsts (DblRel k) where
  zero := ⟨_, _, zero_isNum.1, zero_isNum.1, zero_wrel k⟩
  lt := by
    rintro _ _ _ _ ⟨_, _, rfl, rfl, ⟨x, x', rfl, rfl, ex⟩, _⟩ ⟨_, _, rfl, rfl, ⟨y, y', rfl, rfl, ey⟩, _⟩
    rw [lt_num, lt_num, decide_eq_decide, num_fin_lt, num_fin_lt, ex, ey]
    exact (mul_lt_mul_iff_right₀ (two_zpow_pos k)).symm
  nonneg := by
    rintro _ _ ⟨a, b, rfl, rfl, _, ha, _⟩
    obtain ⟨x, rfl, h⟩ := usual_cases ha
    show CCmp.lt _ (Fp.of 0 : Dbl) = false
    rw [fp_zero_num, lt_num, decide_eq_false_iff_not, num_fin_lt, not_lt]
    rcases h with h | h
    · exact h.ge
    · exact h.1.le
  pos := by
    rintro _ _ ⟨a, b, rfl, rfl, hs, ha, hb⟩ h
    have hma := usual_lt ha
    have hmb := usual_lt hb
    obtain ⟨x, rfl, hx⟩ := usual_cases ha
    obtain ⟨y, rfl, hy⟩ := usual_cases hb
    obtain ⟨x', y', e1, e2, e3⟩ := hs
    cases e1
    cases e2
    change CCmp.lt (Fp.of 0 : Dbl) _ = true at h
    rw [fp_zero_num, lt_num, decide_eq_true_eq, num_fin_lt] at h
    have hx := hx.resolve_left h.ne'
    have hy := hy.resolve_left (by rw [e3]; exact (mul_pos (two_zpow_pos k) h).ne')
    change (CCmp.lt _ Fp.max = true ∧ CCmp.lt Fp.min _ = true) ∧ CCmp.lt _ Fp.max = true ∧ CCmp.lt Fp.min _ = true
    rw [fp_max_num, fp_min_num, lt_num, lt_num, lt_num, lt_num]
    exact ⟨⟨decide_eq_true hma, decide_eq_true hx.2⟩, decide_eq_true hmb, decide_eq_true hy.2⟩
  null := by
    rintro _ _ ⟨a, b, rfl, rfl, hs, ha, hb⟩ h
    obtain ⟨x, rfl, hx⟩ := usual_cases ha
    obtain ⟨x', y, e1, rfl, e3⟩ := hs
    cases e1
    change CCmp.lt (Fp.of 0 : Dbl) _ = false at h
    rw [fp_zero_num, lt_num, decide_eq_false_iff_not, num_fin_lt, not_lt] at h
    have hx : x.1 = 0 := hx.resolve_right fun hx => absurd hx.1 (not_lt.2 h)
    rw [hx, mul_zero] at e3
    have a1 : x = ⟨0, isDouble_zero, zero_lt⟩ := Subtype.ext hx
    have a2 : y = ⟨0, isDouble_zero, zero_lt⟩ := Subtype.ext e3
    change CCmp.lt Fp.min _ = false ∧ CCmp.lt Fp.min _ = false
    rw [fp_min_num, lt_num, lt_num, a1, a2]
    exact ⟨decide_eq_false min_zero, decide_eq_false min_zero⟩

/-- Quotients do not depend on the unit. -/
theorem div_dbl {k : ℤ} {a a' b b' : Dbl} (ha : DblRel k a a') (hb : DblRel k b b') : Fp.div a b = Fp.div a' b' := by
  obtain ⟨_, _, rfl, rfl, ⟨x, x', rfl, rfl, ex⟩, _⟩ := ha
  obtain ⟨_, _, rfl, rfl, ⟨y, y', rfl, rfl, ey⟩, _⟩ := hb
  have hk := two_zpow_pos (K := ℚ) k
  have h1 : y'.1 = 0 ↔ y.1 = 0 := by rw [ey]; simp [hk.ne']
  have h2 : x'.1 = 0 ↔ x.1 = 0 := by rw [ex]; simp [hk.ne']
  have h3 : x'.1 < 0 ↔ x.1 < 0 := by rw [ex]; exact ⟨fun h => by by_contra hn; exact absurd h (not_lt.2 (mul_nonneg hk.le (not_lt.1 hn))), fun h => mul_neg_of_pos_of_neg hk h⟩
  show (if y.1 = 0 then if x.1 = 0 then Ieee.nan else Fp.inf (decide (x.1 < 0)) else Fp.of (x.1 / y.1)) = (if y'.1 = 0 then if x'.1 = 0 then Ieee.nan else Fp.inf (decide (x'.1 < 0)) else Fp.of (x'.1 / y'.1))
  simp only [h1, h2, h3]
  rw [ex, ey, mul_div_mul_left _ _ hk.ne']

theorem dblRel_val {k : ℤ} {a b : Dbl} (h : DblRel k a b) : ScaledDist k a b := by
  obtain ⟨x, y, h1, h2, h3, _⟩ := h
  exact ⟨x, y, h1, h2, h3⟩

theorem sameReport {k : ℤ} {r r' : Report.Report Dbl} (h : RepRel fpConsts (DblRel k) r r') : SameReport k r r' where
  map := h.map.symm
  labels := h.distances.keys.symm
  records c v v' e e' := by
    have hl := h.distances.lookup c
    rw [e, e'] at hl
    have hl : VRel fpConsts (DblRel k) v v' := hl
    refine ⟨dblRel_val hl.minCr, dblRel_val hl.maxCr, hl.crConf.symm, ?_, hl.drConf.symm⟩
    rcases hl.dr with h | ⟨h1, h2⟩
    · exact .inr h
    · exact .inl ⟨dblRel_val h1, dblRel_val h2⟩
  stats := h.stats.symm
  byLength := h.byLength.symm
  bySimilarity := h.bySimilarity.symm

theorem sameOutcome {A B : Type} {P Q : A → B → Prop} {x : Outcome A} {y : Outcome B} (h : ORel P x y) (hq : ∀ {a b}, P a b → Q a b) : SameOutcome Q x y := by
  cases h with
  | ok h => exact .inl ⟨_, _, rfl, rfl, hq h⟩
  | ub s => exact .inr ⟨fun _ => by simp, fun _ => by simp⟩
  | abort s => exact .inr ⟨fun _ => by simp, fun _ => by simp⟩
  | diverge => exact .inr ⟨fun _ => by simp, fun _ => by simp⟩

/-- **C115**. All values of a data set of `double`s are multiplied by the same power of 2, and neither the old values nor the new ones are huge or extremely close to each other. Then the reports on the
    clusterings, made with the C or the C++ functions, are the same but for the unit: the cluster map, all confidences and statistics, bit by bit, and both orders of the clusters are the same, the smallest
    and largest distances are multiplied by that power. If the one report cannot be made (C79), neither can the other.
    This holds for the labels of the runs, which are the same, and for all others (the labels that several threads may lead to, C63, included). -/
theorem C115_unit (qsort : Sorter) (hq : SortsAscending qsort) (k : ℤ) (data data' : List (Fin754 binary64)) (rows cols : Nat) (h : Moderate data rows cols) (h' : Moderate data' rows cols)
    (hk : ScaledData k data data') (h5 : 5 ≤ rows) (m : Nat) (hm : 2 ≤ m) (hmr : m ≤ rows) :
    ∃ obj obj' : Api.Obj Dbl Dbl (Num754 binary64),
      (∀ par, Complete rows rows par → Api.fresh (fpEnv doubleOps qsort) par m (data.map Fp.fin) rows cols true = .ok obj ∧ Api.fresh (fpEnv doubleOps qsort) par m (data'.map Fp.fin) rows cols true = .ok obj') ∧
      obj'.results.labels = obj.results.labels ∧ obj.results.labels.length = rows ∧
      ∀ labels : List Nat, labels.length = rows → ∀ (pow3 pow4 : Dbl → Dbl) (old : Stat.Stats Dbl) (coreType : Bool),
        SameOutcome (SameReport k) (Report.make fpConsts (fpStat pow3 pow4) labels rows obj.dis old coreType) (Report.make fpConsts (fpStat pow3 pow4) labels rows obj'.dis old coreType) ∧
        SameOutcome (SameReport k) (Report.cppMake fpConsts (fpStat pow3 pow4) labels rows obj.dis old coreType)
          (Report.cppMake fpConsts (fpStat pow3 pow4) labels rows obj'.dis old coreType) := by
  have hfew := h.few
  have hS := moderate_supported h isort
  have hS' := moderate_supported h' isort
  obtain ⟨o, o', hf, hlab, -⟩ := C107_scale_partial isort (isort_sorts _) k data data' rows cols h h' hk h5 m hm hmr
  obtain ⟨o1, o1', hf1, -, -, hcore⟩ := fresh_order (env := numEnv isort) (env' := numEnv isort) (isort_sorts _) (isort_sorts _) hS hS' h5 hm hmr (R := WRel k) (fits_scaled h h' hk)
  obtain ⟨o2, _, hf2, _, _, hget, _, _, ⟨_, _, _, _, hlen, _⟩, _⟩ := C55_run_partial (numEnv isort) (isort_sorts _) data rows cols _ hS h5 m hm hmr
  obtain ⟨o3, _, hf3, _, _, hget', _⟩ := C55_run_partial (numEnv isort) (isort_sorts _) data' rows cols _ hS' h5 m hm hmr
  have hp := backPar_complete rows rows
  obtain rfl : o1 = o := Outcome.ok.inj ((hf1 _ hp).1.symm.trans (hf _ hp).1)
  obtain rfl : o1' = o' := Outcome.ok.inj ((hf1 _ hp).2.symm.trans (hf _ hp).2)
  obtain rfl : o2 = o1 := Outcome.ok.inj ((hf2 _ hp).symm.trans (hf _ hp).1)
  obtain rfl : o3 = o1' := Outcome.ok.inj ((hf3 _ hp).symm.trans (hf _ hp).2)
  obtain ⟨obj, e, hr⟩ := (fresh_num (isort_sorts _) hq (backPar rows rows) m data rows cols (by omega)).ok_left (hf _ hp).1
  obtain ⟨obj', e', hr'⟩ := (fresh_num (isort_sorts _) hq (backPar rows rows) m data' rows cols (by omega)).ok_left (hf _ hp).2
  have hl : obj.results.labels = o2.results.labels := hr.results.out.labels.symm
  have hl' : obj'.results.labels = o2.results.labels := hr'.results.out.labels.symm.trans hlab
  refine ⟨obj, obj', fun par hpar => ⟨?_, ?_⟩, hl'.trans hl.symm, by rw [hl, hlen], ?_⟩
  · obtain ⟨x, ex, hx⟩ := (fresh_num (isort_sorts _) hq par m data rows cols (by omega)).ok_left (hf _ hpar).1
    obtain ⟨y, hy, -⟩ := C108_finite qsort hq data rows cols hfew h5 h.cells.ge m hm
    rw [hy par hpar, ← e, hy _ hp]
  · obtain ⟨y, hy, -⟩ := C108_finite qsort hq data' rows cols hfew h5 h'.cells.ge m hm
    rw [hy par hpar, ← e', hy _ hp]
  intro labels hlen pow3 pow4 old ct
  have hz : numOps.zero = numArith.zeroW := rfl
  have g : ∀ i j, i < rows → j < rows → ORel (DblRel k) (obj.dis.get fpConsts.zero i j) (obj'.dis.get fpConsts.zero i j) := by
    intro i j hi hj
    obtain ⟨a, e1, e2, _⟩ := (get_rel zero_isNum hr.dis i j).ok_left (hget i j hi hj)
    obtain ⟨b, e3, e4, _⟩ := (get_rel zero_isNum hr'.dis i j).ok_left (hget' i j hi hj)
    change ORel _ (obj.dis.get (Fp.of 0) i j) (obj'.dis.get (Fp.of 0) i j)
    rw [e1, e3]
    exact .ok ⟨_, _, e2, e4, (fits_scaled h h' hk).dist i j hi hj⟩
  have c : ∀ i, i < rows → ORel (DblRel k) (rdInit obj.dis.coreDistances i) (rdInit obj'.dis.coreDistances i) := by
    intro i hi
    obtain ⟨a, a', h1, h2, h3⟩ := hcore i hi
    have i1 : rdInit o2.dis.coreDistances i = .ok a := by simp [rdInit, rd, h1]
    have i2 : rdInit o3.dis.coreDistances i = .ok a' := by simp [rdInit, rd, h2]
    obtain ⟨b, e1, e2, _⟩ := (rdInit_rel hr.dis.cores i).ok_left i1
    obtain ⟨b', e3, e4, _⟩ := (rdInit_rel hr'.dis.cores i).ok_left i2
    rw [e1, e3]
    exact .ok ⟨_, _, e2, e4, h3⟩
  have small : ∀ map, IsClusterMap labels 0 rows map → ∀ x ∈ map, ∀ i ∈ x.2, i < rows := by
    intro map hmap x hx i hi
    have := (hmap.lists x.1 x.2).1 ((KMap.lookup_mem hmap.ascending).2 hx)
    rw [this.1, carriers, List.mem_filter, List.mem_range] at hi
    exact hi.1
  constructor
  · refine sameOutcome (make_rel (o := fpStat pow3 pow4) (between_dbl k) g c div_dbl old ct fun map emap => ?_) sameReport
    obtain ⟨map', e1, e2⟩ := C41_map_partial labels 0 rows (by omega) (.inl (by omega))
    rw [emap] at e1
    cases e1
    exact small _ e2.2
  · refine sameOutcome (cppMake_rel (o := fpStat pow3 pow4) (between_dbl k) g c div_dbl old ct fun map emap => ?_) sameReport
    obtain ⟨map', e1, e2⟩ := C58_cpp_map labels 0 rows (by omega)
    rw [emap] at e1
    cases e1
    rw [show max 0 rows = rows by omega] at e2
    exact small _ e2

example := C115_unit isort (isort_sorts _) 1 spread spread2 7 1 spread_moderate spread2_moderate spread_scaled (by decide) 2 (by decide) (by decide)

/-- A report on the clustering of a data set, in short: the orders, and for each cluster the core distances, the confidence and the largest distance between members. -/
def shortReport (data : List (Fin754 binary64)) : Outcome (List Nat × List Nat × List (Nat × List (String × Rat))) :=
  Api.fresh (fpEnv doubleOps isort) (backPar 7 7) 2 (data.map Fp.fin) 7 1 true >>= fun o =>
    Report.make fpConsts (fpStat (fun x => Fp.mul x (Fp.mul x x)) fun x => Fp.mul (Fp.mul x x) (Fp.mul x x)) o.results.labels 7 o.dis
      ⟨0, ⟨Fp.of 0, Fp.of 0, Fp.of 0, Fp.of 0, Fp.of 0, Fp.of 0⟩, ⟨Fp.of 0, Fp.of 0, Fp.of 0, Fp.of 0, Fp.of 0, Fp.of 0⟩⟩ true >>= fun r =>
    .ok (r.byLength, r.bySimilarity, r.distances.map fun (x : Nat × DistVals Dbl) => (x.1, [x.2.minCr, x.2.maxCr, x.2.crConf, x.2.maxDr].map stabOf))

set_option synthInstance.maxSize 1000 in
/-- Two reports. The point of its own, with label 0, has no distance to another member: D_MIN is reported in both units. -/
theorem C115_cases :
    shortReport spread = .ok ([0, 3, 2], [2, 3, 0], [(0, [("number", 96), ("number", 96), ("number", 2345624805922133 / 35184372088832), ("number", 1 / 2 ^ 1022)]), (2, [("number", 1), ("number", 2), ("number", 2345624805922133 / 70368744177664), ("number", 3)]), (3, [("number", 1), ("number", 3), ("number", 0), ("number", 4)])]) ∧
    shortReport spread2 = .ok ([0, 3, 2], [2, 3, 0], [(0, [("number", 192), ("number", 192), ("number", 2345624805922133 / 35184372088832), ("number", 1 / 2 ^ 1022)]), (2, [("number", 2), ("number", 4), ("number", 2345624805922133 / 70368744177664), ("number", 6)]), (3, [("number", 2), ("number", 6), ("number", 0), ("number", 8)])]) := by
  decide +kernel

end Verif.Props
