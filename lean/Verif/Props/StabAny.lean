import Verif.Lemmas.NumAny
import Verif.Props.Finite
/-
C104: the stabilities that a run on `double` data stores; C38 for such runs.
-/
namespace Verif.Props
open Verif Verif.Spec Verif.Binary64

/-- **C104**. After a run on any finite `double` data with any schedules and any interleaving of the loop with the data race, the stabilities of all clusters are those of their members up to rounding: `+inf` if
    a member leaves at level 0, otherwise a number with a small error; cluster 1 has stability 0 or NaN. This holds even if distances overflow. -/
theorem C104_stabilities (qsort : (OScore (Num754 binary64) (Num754 binary64) → OScore (Num754 binary64) (Num754 binary64) → Int) →
      List (OScore (Num754 binary64) (Num754 binary64)) → List (OScore (Num754 binary64) (Num754 binary64))) (hq : SortsAscending qsort)
    (data : List (Fin754 binary64)) (rows cols : Nat) (hr : rows ≤ 65536) (hdata : rows * cols ≤ data.length) (h5 : 5 ≤ rows) (m : Nat) (hm : 2 ≤ m) :
    (∃ obj : Api.Obj (Num754 binary64) Dbl (Num754 binary64), (∀ par, Complete rows rows par → Api.fresh (numEnv qsort) par m data rows cols true = .ok obj) ∧
      Stabilities obj.results.hierarchy obj.results.clusters) ∧
    (∀ th : Race.Threads, Interleaves th → ∃ obj : Api.Obj (Num754 binary64) Dbl (Num754 binary64), (∀ par, Complete rows rows par → Race.fresh th (numEnv qsort) par m data rows cols true = .ok obj) ∧
      Stabilities obj.results.hierarchy obj.results.clusters) := by
  obtain ⟨o1, a1, a2, _⟩ := stabilities_any qsort hq data rows cols hr hdata h5 m hm
  refine ⟨⟨o1, a1, a2⟩, fun th hth => ?_⟩
  obtain ⟨o2, b1, b2⟩ := race_run (numEnv qsort) hq (num_readable qsort data rows cols hr hdata) h5 m hm
  have e : o2 = o1 := fresh_same b1 a1
  subst e
  obtain ⟨obj, lost, s1, s2, s3⟩ := b2 th hth
  have hc : ∀ (l : Nat) (c : Cl (Num754 binary64) Dbl), obj.results.clusters[l]? = some (some c) → ∃ c' : Cl (Num754 binary64) Dbl, o2.results.clusters[l]? = some (some c') ∧ c.birth = c'.birth ∧ c.stability = c'.stability := by
    intro l c hc
    rw [s2.clusters] at hc
    cases hx : o2.results.clusters[l]? with
    | none => rw [hx] at hc; cases hc
    | some x =>
      rw [hx] at hc
      cases x with
      | none => cases hc
      | some c' =>
        refine ⟨c', rfl, ?_⟩
        simp only [Option.map_some, Option.some.injEq] at hc
        rw [← hc]
        split <;> exact ⟨rfl, rfl⟩
  refine ⟨obj, s3, ⟨fun c h1 => ?_, fun l c h1 hl => ?_⟩⟩
  · obtain ⟨c', g1, g2, g3⟩ := hc 1 c h1
    rw [g2, g3]
    exact a2.first c' g1
  · obtain ⟨c', g1, g2, g3⟩ := hc l c h1
    rw [g2, g3, s2.hierarchy]
    exact a2.others l c' g1 hl

/-- **C38 is violated by every run** on finite `double` data: whatever the stabilities are, no infinite one is reported. -/
theorem C38_never (qsort : (OScore (Num754 binary64) (Num754 binary64) → OScore (Num754 binary64) (Num754 binary64) → Int) →
      List (OScore (Num754 binary64) (Num754 binary64)) → List (OScore (Num754 binary64) (Num754 binary64))) (hq : SortsAscending qsort)
    (data : List (Fin754 binary64)) (rows cols : Nat) (hr : rows ≤ 65536) (hdata : rows * cols ≤ data.length) (h5 : 5 ≤ rows) (m : Nat) (hm : 2 ≤ m) (par : Api.Par) (hp : Complete rows rows par) :
    ∃ obj : Api.Obj (Num754 binary64) Dbl (Num754 binary64), Api.fresh (numEnv qsort) par m data rows cols true = .ok obj ∧ obj.results.infinite = false := by
  obtain ⟨o1, a1, _, a3⟩ := stabilities_any qsort hq data rows cols hr hdata h5 m hm
  exact ⟨o1, a1 par hp, a3⟩

/-! ### Concrete cases -/

example := C104_stabilities isort (isort_sorts _) grpPts 7 1 (by decide) (by decide) (by decide) 3 (by decide)
example := C38_never isort (isort_sorts _) grpPts 7 1 (by decide) (by decide) (by decide) 3 (by decide) (backPar 7 7) (backPar_complete 7 7)
/-- The stabilities of two groups of equal rows, of rows without repetition, and of rows whose distances overflow. -/
theorem C104_cases : (Api.fresh (numEnv isort) (backPar 7 7) 3 grpPts 7 1 true >>= fun o => .ok (o.results.clusters.map fun (c : Option (Cl (Num754 binary64) Dbl)) => c.map fun c => stabOf c.stability)) =
      .ok [none, some ("nan", 0), some ("+inf", 0), some ("+inf", 0)] ∧
    (Api.fresh (numEnv isort) (backPar 7 7) 2 spread 7 1 true >>= fun o => .ok (o.results.clusters.map fun (c : Option (Cl (Num754 binary64) Dbl)) => c.map fun c => stabOf c.stability)) =
      .ok [none, some ("nan", 0), some ("number", 79 / 32), some ("number", 5183830821087915 / 2251799813685248)] ∧
    (Api.fresh (numEnv isort) (backPar 7 7) 2 hugeData 7 1 true >>= fun o => .ok (o.results.clusters.map fun (c : Option (Cl (Num754 binary64) Dbl)) => c.map fun c => stabOf c.stability)) =
      .ok [none, some ("nan", 0), some ("number", 8916217444087043 / 4503599627370496), some ("number", 8825235633433093 / 9007199254740992)] := by decide +kernel

example := C104_stabilities isort (isort_sorts _) hugeData 7 1 (by decide) (by decide) (by decide) 2 (by decide)
example := C104_stabilities isort (isort_sorts _) spread 7 1 (by decide) (by decide) (by decide) 2 (by decide)

end Verif.Props
