import Verif.Lemmas.NumFp
import Verif.Spec.Finite
import Verif.Props.Fp
import Verif.Props.Types
import Verif.Props.Scale
/-
C108: finite data lead to no NaN.
-/
namespace Verif.Props
open Verif Spec Param Verif.Binary64

theorem isNum_notNegative {v : Num754 binary64} {d : Dbl} (h : IsNum v d) : NotNegative d := by
  obtain ⟨rfl, h⟩ := h
  unfold NotNegative
  rw [of_num 0]
  exact decide_eq_true h

theorem opt_num {a : Option (Num754 binary64)} {b : Option Dbl} (h : OptRel IsNum a b) : b = a.map .num := by
  cases a <;> cases b
  · rfl
  · exact False.elim h
  · exact False.elim h
  · exact congrArg some h.1

theorem of_whole {x : ℤ} (h1 : |x| ≤ 2 ^ 53) : ∃ y : Fin754 binary64, (Fp.of (x : ℚ) : Dbl) = Fp.fin y := by
  have h2 : IsDouble (x : ℚ) := by
    rcases lt_or_eq_of_le h1 with h | h
    · exact ⟨x, 0, h, by norm_num, by simp⟩
    · rcases abs_eq (by norm_num : (0 : ℤ) ≤ 2 ^ 53) |>.1 h with h | h
      · exact ⟨1, 53, by norm_num, by norm_num, by rw [h]; norm_num⟩
      · exact ⟨-1, 53, by norm_num, by norm_num, by rw [h]; norm_num⟩
  have h3 : |(x : ℚ)| < 2 ^ (1024 : ℤ) := by
    have : |(x : ℚ)| ≤ 2 ^ 53 := by exact_mod_cast h1
    refine lt_of_le_of_lt this ?_
    rw [← zpow_natCast]
    exact zpow_lt_zpow_right₀ (by norm_num) (by norm_num)
  exact ⟨_, fp_of_binary (f := binary64) h2 h3⟩

theorem mem_some {W W' : Type} {R : W → W' → Prop} {a : List (Option W)} {b : List (Option W')} (h : LRel (OptRel R) a b) {d : W'} (hd : some d ∈ b) : ∃ v, some v ∈ a ∧ R v d := by
  induction h with
  | nil => cases hd
  | @cons x y _ _ h _ ih =>
    rcases List.mem_cons.1 hd with rfl | hd
    · cases x with
      | none => exact False.elim h
      | some v => exact ⟨v, List.mem_cons_self, h⟩
    · obtain ⟨v, hv, hr⟩ := ih hd
      exact ⟨v, List.mem_cons_of_mem _ hv, hr⟩

theorem mem_right {α β : Type} {R : α → β → Prop} {a : List α} {b : List β} (h : LRel R a b) {d : β} (hd : d ∈ b) : ∃ v ∈ a, R v d := by
  induction h with
  | nil => cases hd
  | cons h _ ih =>
    rcases List.mem_cons.1 hd with rfl | hd
    · exact ⟨_, List.mem_cons_self, h⟩
    · obtain ⟨v, hv, hr⟩ := ih hd
      exact ⟨v, List.mem_cons_of_mem _ hv, hr⟩

theorem numbersOnly {o : Api.Obj (Num754 binary64) Dbl (Num754 binary64)} {o' : Api.Obj Dbl Dbl (Num754 binary64)} (h : ObjRel IsNum IsNum Eq o o') : NumbersOnly o' where
  distances _ hd := isNum_notNegative (mem_some h.dis.distances hd).choose_spec.2
  cores _ hd := isNum_notNegative (mem_some h.dis.cores hd).choose_spec.2
  levels _ hx := isNum_notNegative (mem_right h.results.out.hierarchy hx).choose_spec.2.2.1
  noise _ hd := isNum_notNegative (mem_some h.results.out.noise hd).choose_spec.2
  births c hc b hb := by
    obtain ⟨v, _, hr⟩ := mem_some h.results.out.clusters hc
    have h1 := hr.birth
    rw [hb] at h1
    cases e : v.birth with
    | none => rw [e] at h1; exact False.elim h1
    | some x => rw [e] at h1; exact isNum_notNegative h1
  deaths _ hc := isNum_notNegative (mem_some h.results.out.clusters hc).choose_spec.2.death
  lowest _ hc := isNum_notNegative (mem_some h.results.out.clusters hc).choose_spec.2.propLowest
  scores _ ho := isNum_notNegative (mem_right h.results.outliers ho).choose_spec.2.core

/-- **C108.** Every data set of finite `double`s can be clustered, and no distance, core distance, level or score in the results is NaN or negative, not even if differences, squares or sums
    overflow. -/
theorem C108_finite (qsort : Sorter) (hq : SortsAscending qsort) (data : List (Fin754 binary64)) (rows cols : Nat) (hr : rows ≤ 65536) (h5 : 5 ≤ rows) (hdata : rows * cols ≤ data.length)
    (m : Nat) (hm : 2 ≤ m) :
    ∃ obj : Api.Obj Dbl Dbl (Num754 binary64), (∀ par, Complete rows rows par → Api.fresh (fpEnv doubleOps qsort) par m (data.map Fp.fin) rows cols true = .ok obj) ∧ NumbersOnly obj := by
  obtain ⟨obj, _, h, -⟩ := C71_double qsort hq (data.map Fp.fin) rows cols hr h5 (by rw [List.length_map]; exact hdata) m hm
  refine ⟨obj, h, ?_⟩
  have h1 := fresh_num (isort_sorts _) hq (backPar rows rows) m data rows cols (by omega)
  rw [h _ (backPar_complete rows rows)] at h1
  generalize Api.fresh (numEnv isort) (backPar rows rows) m data rows cols true = x at h1
  cases h1 with
  | ok h => exact numbersOnly h

/-- The same in every execution, the parallel loops being carried out in any manner: whenever there are results, they are numbers. -/
theorem C108_always (qsort : Sorter) (hq : SortsAscending qsort) (data : List (Fin754 binary64)) (rows cols m : Nat) (hr : rows ≤ 2 ^ 31) (par : Api.Par) (obj : Api.Obj Dbl Dbl (Num754 binary64))
    (h : Api.fresh (fpEnv doubleOps qsort) par m (data.map Fp.fin) rows cols true = .ok obj) : NumbersOnly obj := by
  have h1 := fresh_num (isort_sorts _) hq par m data rows cols hr
  rw [h] at h1
  generalize Api.fresh (numEnv isort) par m data rows cols true = x at h1
  cases h1 with
  | ok h => exact numbersOnly h

/-- The same for whole numbers up to `2 ^ 53` in size that are given as `char`, `short`, `int` or `long` and none of whose differences overflows. -/
theorem C108_integers (qsort : Sorter) (hq : SortsAscending qsort) (bits : Nat) (data : List ℤ) (hx : ∀ x ∈ data, |x| ≤ 2 ^ 53) (hd : ∀ x ∈ data, ∀ y ∈ data, -2 ^ (bits - 1) ≤ x - y ∧ x - y < 2 ^ (bits - 1))
    (rows cols : Nat) (hr : rows ≤ 65536) (h5 : 5 ≤ rows) (hdata : rows * cols ≤ data.length) (m : Nat) (hm : 2 ≤ m) :
    ∃ obj : Api.Obj Dbl Dbl (Num754 binary64), (∀ par, Complete rows rows par → Api.fresh (fpEnv (integerOps bits) qsort) par m data rows cols true = .ok obj) ∧ NumbersOnly obj := by
  have hfin : ∀ l : List ℤ, (∀ x ∈ l, |x| ≤ 2 ^ 53) → ∃ ys : List (Fin754 binary64), l.map (fun x : ℤ => (Fp.of (x : ℚ) : Dbl)) = ys.map Fp.fin := by
    intro l
    induction l with
    | nil => intro _; exact ⟨[], rfl⟩
    | cons x r ih =>
      intro h
      obtain ⟨ys, e⟩ := ih fun y hy => h y (List.mem_cons_of_mem _ hy)
      obtain ⟨y, ey⟩ := of_whole (h x List.mem_cons_self)
      exact ⟨y :: ys, by rw [List.map_cons, List.map_cons, e, ey]⟩
  obtain ⟨ys, e⟩ := hfin data hx
  have hl : data.length = ys.length := by rw [← List.length_map (fun x : ℤ => (Fp.of (x : ℚ) : Dbl)), e, List.length_map]
  obtain ⟨obj, h, ho⟩ := C108_finite qsort hq ys rows cols hr h5 (hl ▸ hdata) m hm
  refine ⟨obj, fun par hp => ?_, ho⟩
  rw [(C106_integers_partial qsort bits data hx hd m rows cols true par).1, e]
  exact h par hp

/-- The two models of runs on finite `double`s agree: the model without NaN that C104, C105 and C107 are about has the same outcomes as the model with NaN, and the same labels, stabilities and
    scores. -/
theorem C108_models (qsort : (OScore (Num754 binary64) (Num754 binary64) → OScore (Num754 binary64) (Num754 binary64) → Int) →
      List (OScore (Num754 binary64) (Num754 binary64)) → List (OScore (Num754 binary64) (Num754 binary64))) (hq : SortsAscending qsort) (qsort' : Sorter) (hq' : SortsAscending qsort')
    (data : List (Fin754 binary64)) (rows cols m : Nat) (hr : rows ≤ 2 ^ 31) (par : Api.Par) (obj : Api.Obj (Num754 binary64) Dbl (Num754 binary64))
    (h : Api.fresh (numEnv qsort) par m data rows cols true = .ok obj) :
    ∃ obj' : Api.Obj Dbl Dbl (Num754 binary64), Api.fresh (fpEnv doubleOps qsort') par m (data.map Fp.fin) rows cols true = .ok obj' ∧
      obj'.results.labels = obj.results.labels ∧
      obj'.dis.coreDistances = obj.dis.coreDistances.map (fun c => c.map .num) ∧
      obj'.results.hierarchy = obj.results.hierarchy.map (fun x => (x.1, .num x.2.1, x.2.2)) ∧
      obj'.results.clusters.map (fun c => c.map fun c => (c.label, c.birth, c.death, c.stability, c.propStability, c.parent)) =
        obj.results.clusters.map (fun c => c.map fun c => (c.label, c.birth.map .num, .num c.death, c.stability, c.propStability, c.parent)) ∧
      obj'.results.outliers = obj.results.outliers.map (fun o => ⟨o.score, .num o.core, o.id⟩) := by
  obtain ⟨obj', e, hr⟩ := (fresh_num hq hq' par m data rows cols hr).ok_left h
  refine ⟨obj', e, hr.results.out.labels.symm, ?_, ?_, ?_, (rel_up hr.results.outliers).1⟩
  · have h1 := hr.dis.cores
    generalize obj.dis.coreDistances = a at h1
    generalize obj'.dis.coreDistances = b at h1
    induction h1 with
    | nil => rfl
    | cons h _ ih => rw [List.map_cons, ih]; congr 1; exact opt_num h
  · have h1 := hr.results.out.hierarchy
    generalize obj.results.toOut.hierarchy = a at h1
    generalize obj'.results.toOut.hierarchy = b at h1
    induction h1 with
    | nil => rfl
    | @cons x y _ _ h _ ih =>
      rw [List.map_cons, ← ih]
      congr 1
      obtain ⟨k, w, l⟩ := y
      obtain ⟨h1, ⟨h2, _⟩, h3⟩ := h
      dsimp only at h1 h2 h3
      rw [h1, h2, h3]
  · have h1 := hr.results.out.clusters
    generalize obj.results.toOut.clusters = a at h1
    generalize obj'.results.toOut.clusters = b at h1
    induction h1 with
    | nil => rfl
    | @cons x y _ _ h _ ih =>
      rw [List.map_cons, List.map_cons, ih]
      congr 1
      cases x <;> cases y
      · rfl
      · exact False.elim h
      · exact False.elim h
      · have h : ClRel IsNum IsNum Eq _ _ := h
        simp only [Option.map_some, h.label, opt_num h.birth, h.death.1, h.stability, h.propStability, h.parent]

/-! ### Concrete cases -/

/-- The number `m * 2 ^ e`. -/
def bigNum (m : ℤ) (e : ℕ) (h : |m| < 2 ^ 53) (he : e ≤ 971) : Fin754 binary64 := ⟨m * 2 ^ (e : ℤ), ⟨m, e, h, le_trans (by decide) (Int.natCast_nonneg e), rfl⟩, by
  have h1 : |(m : ℚ)| < 2 ^ (53 : ℤ) := by exact_mod_cast h
  rw [abs_mul, abs_of_pos (by positivity : (0 : ℚ) < 2 ^ (e : ℤ))]
  calc |(m : ℚ)| * 2 ^ (e : ℤ) < 2 ^ (53 : ℤ) * 2 ^ (e : ℤ) := by gcongr
    _ = 2 ^ ((53 : ℤ) + e) := by rw [zpow_add₀ (by norm_num)]
    _ ≤ 2 ^ binary64.top := zpow_le_zpow_right₀ (by norm_num) (by show (53 : ℤ) + e ≤ 1024; omega)⟩

/-- Finite numbers: `0`, `1`, `100`, `102`, `2 ^ 600`, whose square overflows, and the largest `double` and its negative, whose difference overflows. -/
def hugeData : List (Fin754 binary64) := [bigNum 0 0 (by decide) (by decide), bigNum 1 0 (by decide) (by decide), bigNum 100 0 (by decide) (by decide), bigNum 102 0 (by decide) (by decide),
  bigNum 1 600 (by decide) (by decide), bigNum (2 ^ 53 - 1) 971 (by decide) (by decide), bigNum (-(2 ^ 53 - 1)) 971 (by decide) (by decide)]

example := C108_finite isort (isort_sorts _) hugeData 7 1 (by decide) (by decide) (by decide) 2 (by decide)

/-- Infinite distances occur in the run, but no NaN. -/
theorem C108_cases :
    (Api.fresh (fpEnv doubleOps isort) (backPar 7 7) 2 (hugeData.map Fp.fin) 7 1 true >>= fun o => .ok (o.dis.distances.map fun d => (stabOf (d.getD .nan)).1, o.results.labels)) =
    .ok (["number", "number", "number", "+inf", "+inf", "+inf", "number", "number", "+inf", "+inf", "+inf", "number", "+inf", "+inf", "+inf", "+inf", "+inf", "+inf", "+inf", "+inf", "+inf"], [2, 2, 3, 3, 0, 0, 0]) := by decide +kernel

/-- The claim does not extend to data that are not finite: the difference of two equal infinities is NaN. -/
theorem C108_infinite : (Api.fresh (fpEnv doubleOps isort) (backPar 5 5) 2 [Fp.of 0, Fp.of 1, Fp.of 3, .num .pinf, .num .pinf] 5 1 true >>= fun o => .ok (decide (some Ieee.nan ∈ o.dis.distances))) = .ok true := by
  decide +kernel

example := C108_integers isort (isort_sorts _) 32 [1, 2, 4, 100, 101, 104, 200] (by decide) (by decide) 7 1 (by decide) (by decide) (by decide) 2 (by decide)

end Verif.Props
