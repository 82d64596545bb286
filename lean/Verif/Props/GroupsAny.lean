import Verif.Props.ScoreRun
/-
C103: rows that are repeated at least `minPoints` times form clusters.
-/
namespace Verif.Props
open Verif Verif.Spec Verif.Binary64

/-- What the distances of a run show of the data: none is infinite. -/
theorem finite_dist {qsort : (OScore (Num754 binary64) (Num754 binary64) → OScore (Num754 binary64) (Num754 binary64) → Int) → List (OScore (Num754 binary64) (Num754 binary64)) → List (OScore (Num754 binary64) (Num754 binary64))}
    {data : List (Fin754 binary64)} {rows cols : Nat} (hr : rows ≤ 65536) (hdata : rows * cols ≤ data.length) {dis : Distance (Num754 binary64)}
    (hget : ∀ i j, i < rows → j < rows → dis.get numArith.zeroW i j = .ok (distOf numOps (numSq data cols) i j)) (hfin : ∀ i j, i < rows → j < rows → dis.get numArith.zeroW i j ≠ .ok .pinf)
    (hsep : ∀ i j, i < rows → j < rows → dis.get numArith.zeroW i j = .ok numArith.zeroW → SameRow data data cols i j) :
    Supported (numEnv qsort) data rows cols (numSq data cols) ∧
      ∀ i j, i < rows → j < rows → distOf numOps (numSq data cols) i j = numArith.zeroW → SameRow data data cols i j := by
  refine ⟨finite_supported qsort data rows cols hr hdata fun i j hij hj e => hfin i j (by omega) hj ?_, fun i j hi hj e => hsep i j hi hj (by rw [hget i j hi hj, e])⟩
  rw [hget i j (by omega) hj, distOf, if_pos hij]
  exact congrArg Outcome.ok e

/-- **C103**. In a data set of finite `double`s such that no distance overflows and different rows have distances other than 0, consider the rows that occur at least `minPoints` times. If anything is clustered,
    they are; two of them that differ always are, and have different labels. Equal rows have the same label. -/
theorem C103_groups_partial (qsort : (OScore (Num754 binary64) (Num754 binary64) → OScore (Num754 binary64) (Num754 binary64) → Int) →
      List (OScore (Num754 binary64) (Num754 binary64)) → List (OScore (Num754 binary64) (Num754 binary64))) (hq : SortsAscending qsort)
    (data : List (Fin754 binary64)) (rows cols : Nat) (hr : rows ≤ 65536) (hdata : rows * cols ≤ data.length) (h5 : 5 ≤ rows) (m : Nat) (hm : 2 ≤ m) (hmr : m ≤ rows) :
    ∃ obj : Api.Obj (Num754 binary64) Dbl (Num754 binary64), (∀ par, Complete rows rows par → Api.fresh (numEnv qsort) par m data rows cols true = .ok obj) ∧
      ((∀ i j, i < rows → j < rows → obj.dis.get numArith.zeroW i j ≠ .ok .pinf) → (∀ i j, i < rows → j < rows → obj.dis.get numArith.zeroW i j = .ok numArith.zeroW → SameRow data data cols i j) →
        obj.results.labels.length = rows ∧
        (∀ p q, p < rows → q < rows → SameRow data data cols p q → obj.results.labels[p]? = obj.results.labels[q]?) ∧
        (∀ p, p < rows → Repeated data rows cols m p → (∃ l, l ≠ 0 ∧ l ∈ obj.results.labels) → ∃ l, l ≠ 0 ∧ obj.results.labels[p]? = some l) ∧
        (∀ p q, p < rows → q < rows → Repeated data rows cols m p → Repeated data rows cols m q → ¬ SameRow data data cols p q →
          ∃ l l', l ≠ 0 ∧ l' ≠ 0 ∧ l ≠ l' ∧ obj.results.labels[p]? = some l ∧ obj.results.labels[q]? = some l')) := by
  obtain ⟨obj, core, hf, _, hget, _⟩ := run_any (numEnv qsort) hq (num_readable qsort data rows cols hr hdata) h5 m hm
  refine ⟨obj, hf, fun hfin hsep => ?_⟩
  obtain ⟨hsup, hdpos⟩ := finite_dist (qsort := qsort) hr hdata hget hfin hsep
  obtain ⟨o2, b1, b2⟩ := groups_of qsort hq data rows cols hsup hdpos h5 m hm hmr
  obtain rfl : o2 = obj := fresh_same b1 hf
  exact b2

/-- C103 with threads: whatever the interleaving of the loop with the data race, equal rows have the same label, and repeated rows that differ do not share a label other than 0. -/
theorem C103_threads (qsort : (OScore (Num754 binary64) (Num754 binary64) → OScore (Num754 binary64) (Num754 binary64) → Int) →
      List (OScore (Num754 binary64) (Num754 binary64)) → List (OScore (Num754 binary64) (Num754 binary64))) (hq : SortsAscending qsort)
    (data : List (Fin754 binary64)) (rows cols : Nat) (hr : rows ≤ 65536) (hdata : rows * cols ≤ data.length) (h5 : 5 ≤ rows) (m : Nat) (hm : 2 ≤ m) (hmr : m ≤ rows) (th : Race.Threads) (hth : Interleaves th) :
    ∃ obj : Api.Obj (Num754 binary64) Dbl (Num754 binary64), (∀ par, Complete rows rows par → Race.fresh th (numEnv qsort) par m data rows cols true = .ok obj) ∧
      ((∀ i j, i < rows → j < rows → obj.dis.get numArith.zeroW i j ≠ .ok .pinf) → (∀ i j, i < rows → j < rows → obj.dis.get numArith.zeroW i j = .ok numArith.zeroW → SameRow data data cols i j) →
        obj.results.labels.length = rows ∧
        (∀ p q, p < rows → q < rows → SameRow data data cols p q → obj.results.labels[p]? = obj.results.labels[q]?) ∧
        (∀ p q l, p < rows → q < rows → Repeated data rows cols m p → Repeated data rows cols m q → ¬ SameRow data data cols p q →
          obj.results.labels[p]? = some l → obj.results.labels[q]? = some l → l = 0)) := by
  obtain ⟨o1, core, hf, _, hget, _⟩ := run_any (numEnv qsort) hq (num_readable qsort data rows cols hr hdata) h5 m hm
  obtain ⟨o2, b1, b2⟩ := race_run (numEnv qsort) hq (num_readable qsort data rows cols hr hdata) h5 m hm
  obtain rfl : o2 = o1 := fresh_same b1 hf
  obtain ⟨obj, lost, s1, s2, s3⟩ := b2 th hth
  refine ⟨obj, s3, fun hfin hsep => ?_⟩
  rw [s2.dis] at hfin hsep
  obtain ⟨hsup, hdpos⟩ := finite_dist (qsort := qsort) hr hdata hget hfin hsep
  obtain ⟨o3, c1, c2⟩ := threads_of qsort hq data rows cols hsup hdpos h5 m hm hmr th hth
  have hseq : Complete rows rows ⟨Distance.pairs rows, List.range rows, seqSchedule, List.range rows⟩ := ⟨.refl _, .refl _, seqSchedule_complete, .refl _⟩
  obtain rfl : o3 = obj := Outcome.ok.inj ((c1 _ hseq).symm.trans (s3 _ hseq))
  exact c2

/-- The conditions hold for data that are neither huge nor extremely close to each other. -/
theorem C103_moderate (qsort : (OScore (Num754 binary64) (Num754 binary64) → OScore (Num754 binary64) (Num754 binary64) → Int) →
      List (OScore (Num754 binary64) (Num754 binary64)) → List (OScore (Num754 binary64) (Num754 binary64))) (hq : SortsAscending qsort)
    (data : List (Fin754 binary64)) (rows cols : Nat) (h : Moderate data rows cols) (h5 : 5 ≤ rows) (m : Nat) (hm : 2 ≤ m) (par : Api.Par) (hp : Complete rows rows par) :
    ∃ obj : Api.Obj (Num754 binary64) Dbl (Num754 binary64), Api.fresh (numEnv qsort) par m data rows cols true = .ok obj ∧ (∀ i j, i < rows → j < rows → obj.dis.get numArith.zeroW i j ≠ .ok .pinf) ∧
      ∀ i j, i < rows → j < rows → obj.dis.get numArith.zeroW i j = .ok numArith.zeroW → SameRow data data cols i j := by
  obtain ⟨obj, e, hfin⟩ := C105_sized qsort hq data rows cols h.toSized h5 m hm par hp
  obtain ⟨o1, core, hf, _, hget, _⟩ := run_any (numEnv qsort) hq (num_readable qsort data rows cols h.few h.cells.ge) h5 m hm
  obtain rfl : o1 = obj := Outcome.ok.inj ((hf par hp).symm.trans e)
  refine ⟨o1, e, hfin, fun i j hi hj he => ?_⟩
  have he := Outcome.ok.inj ((hget i j hi hj).symm.trans he)
  have key : ∀ i j, i < rows → j < rows → numOps.sqrt (numSq data cols i j) = numArith.zeroW → SameRow data data cols i j := by
    intro i j hi hj he
    obtain ⟨_, s, e, s0, s1, s2⟩ := numSq_spec h.toSized hi hj
    by_contra hne
    rw [e] at he
    exact (sqrt_spec s0 s1).2 (s2 h hne) he
  unfold distOf at he
  split at he
  · exact key i j hi hj he
  · split at he
    · subst j; exact fun k _ => rfl
    · exact fun k hk => (key j i hj hi he k hk).symm

/-! ### Concrete cases -/

/-- The hypotheses hold for them, both for the data set and for the rows 0 and 1. -/
example := C103_groups_partial isort (isort_sorts _) grpPts 7 1 (by decide) (by decide) (by decide) 3 (by decide) (by decide)
example := C103_threads isort (isort_sorts _) grpPts 7 1 (by decide) (by decide) (by decide) 3 (by decide) (by decide) hasty hasty_interleaves
example := C103_moderate isort (isort_sorts _) grpPts 7 1 grpPts_moderate (by decide) 3 (by decide) (backPar 7 7) (backPar_complete 7 7)
example : Repeated grpPts 7 1 3 0 ∧ Repeated grpPts 7 1 3 1 ∧ ¬ SameRow grpPts grpPts 1 0 1 := by
  refine ⟨⟨[0, 2, 5], by decide, by decide, ?_⟩, ⟨[1, 4, 6], by decide, by decide, ?_⟩, fun h => absurd (h 0 (by decide)) (by decide +kernel)⟩
  · exact (by decide +kernel : ∀ v ∈ [0, 2, 5], v < 7 ∧ ∀ k, k < 1 → grpPts[0 * 1 + k]? = grpPts[v * 1 + k]?)
  · exact (by decide +kernel : ∀ v ∈ [1, 4, 6], v < 7 ∧ ∀ k, k < 1 → grpPts[1 * 1 + k]? = grpPts[v * 1 + k]?)

/-- **C103 is violated** with several threads: one thread finds both groups, hasty threads lose one. -/
theorem C103_violated : (Api.fresh (numEnv isort) (backPar 7 7) 3 grpPts 7 1 true >>= fun o => .ok o.results.labels) = .ok [2, 3, 2, 0, 3, 2, 3] ∧
    (Race.fresh hasty (numEnv isort) (backPar 7 7) 3 grpPts 7 1 true >>= fun o => .ok o.results.labels) = .ok [0, 3, 0, 0, 3, 0, 3] := by decide +kernel

/-- A single group may be left as noise: nothing is clustered here, although one value occurs three times. -/
theorem C103_lone : (Api.fresh (numEnv isort) (backPar 5 5) 3 (grpPts.eraseIdx 4 |>.take 5) 5 1 true >>= fun o => .ok o.results.labels) = .ok [0, 0, 0, 0, 0] := by decide +kernel

/-- The number `m * 2 ^ -e`. -/
def tinyNum (m : ℤ) (e : ℕ) (h : |m| < 2 ^ 53) (he : e ≤ 1074) : Fin754 binary64 := ⟨m * 2 ^ (-(e : ℤ)), ⟨m, -(e : ℤ), h, by show (-1074 : ℤ) ≤ -(e : ℤ); omega, rfl⟩, by
  have h1 : |(m : ℚ)| < 2 ^ (53 : ℤ) := by exact_mod_cast h
  rw [abs_mul, abs_of_pos (by positivity : (0 : ℚ) < 2 ^ (-(e : ℤ)))]
  calc |(m : ℚ)| * 2 ^ (-(e : ℤ)) < 2 ^ (53 : ℤ) * 2 ^ (-(e : ℤ)) := by gcongr
    _ = 2 ^ ((53 : ℤ) + (-(e : ℤ))) := by rw [zpow_add₀ (by norm_num)]
    _ ≤ 2 ^ binary64.top := zpow_le_zpow_right₀ (by norm_num) (by show (53 : ℤ) + (-(e : ℤ)) ≤ 1024; omega)⟩

/-- Both conditions are needed. Three rows with the value 0, three with the value `x` and one with 20: if the square of `x` underflows (`2 ^ -600`) or overflows (`2 ^ 600`), nothing is clustered. With `x = 8` both groups
    are found. -/
theorem C103_conditions :
    (let z := bigNum 0 0 (by decide) (by decide); let x := tinyNum 1 600 (by decide) (by decide); let y := bigNum 20 0 (by decide) (by decide)
      Api.fresh (numEnv isort) (backPar 7 7) 3 [z, x, z, y, x, z, x] 7 1 true >>= fun o => .ok o.results.labels) = .ok [0, 0, 0, 0, 0, 0, 0] ∧
    (let z := bigNum 0 0 (by decide) (by decide); let x := bigNum 1 600 (by decide) (by decide); let y := bigNum 20 0 (by decide) (by decide)
      Api.fresh (numEnv isort) (backPar 7 7) 3 [z, x, z, y, x, z, x] 7 1 true >>= fun o => .ok o.results.labels) = .ok [0, 0, 0, 0, 0, 0, 0] ∧
    (let z := bigNum 0 0 (by decide) (by decide); let x := bigNum 8 0 (by decide) (by decide); let y := bigNum 20 0 (by decide) (by decide)
      Api.fresh (numEnv isort) (backPar 7 7) 3 [z, x, z, y, x, z, x] 7 1 true >>= fun o => .ok o.results.labels) = .ok [2, 3, 2, 0, 3, 2, 3] := by decide +kernel

end Verif.Props
