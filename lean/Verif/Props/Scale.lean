import Verif.Lemmas.ScaleRun
import Verif.Props.Order
/-
C107: multiplying the data by a power of 2.
-/
namespace Verif.Props
open Verif Spec Param Verif.Binary64

theorem lines_mono {W W' : Type} {P Q : W → W' → Prop} (hPQ : ∀ {a b}, P a b → Q a b) {H : Lines W} {H' : Lines W'} (h : LinesAlike P H H') : LinesAlike Q H H' :=
  ⟨h.1, fun k x x' e e' => ⟨(h.2 k x x' e e').1, hPQ (h.2 k x x' e e').2.1, (h.2 k x x' e e').2.2⟩⟩

theorem clusters_mono {W W' S S' : Type} {P Q : W → W' → Prop} (hPQ : ∀ {a b}, P a b → Q a b) {cs : List (Option (Cl W S))} {cs' : List (Option (Cl W' S'))} (h : ClustersAlike P cs cs') : ClustersAlike Q cs cs' := by
  refine ⟨h.1, fun l => ⟨fun c e => ?_, (h.2 l).2⟩⟩
  obtain ⟨c', e', s⟩ := (h.2 l).1 c e
  refine ⟨c', e', s.label, s.parent, s.hasChildren, s.offset, ?_, hPQ s.death⟩
  rcases s.birth with h1 | ⟨b, b', h1, h2, h3⟩
  · exact .inl h1
  · exact .inr ⟨b, b', h1, h2, hPQ h3⟩

/-- **C107**. All values of a data set of `double`s are multiplied by the same power of 2, and neither the old values nor the new ones are huge or extremely close to each other. Then the labels are the
    same, the hierarchies are the same line by line with the levels multiplied by that power, and so are core distances, birth and death levels; all stabilities are divided by it, exactly. If the
    hierarchy contains more than the root, the scores are the same bit by bit and in the same order. -/
theorem C107_scale_partial (qsort : (OScore (Num754 binary64) (Num754 binary64) → OScore (Num754 binary64) (Num754 binary64) → Int) →
      List (OScore (Num754 binary64) (Num754 binary64)) → List (OScore (Num754 binary64) (Num754 binary64))) (hq : SortsAscending qsort)
    (k : ℤ) (data data' : List (Fin754 binary64)) (rows cols : Nat) (h : Moderate data rows cols) (h' : Moderate data' rows cols) (hk : ScaledData k data data') (h5 : 5 ≤ rows) (m : Nat) (hm : 2 ≤ m)
    (hmr : m ≤ rows) :
    ∃ obj obj' : Api.Obj (Num754 binary64) Dbl (Num754 binary64),
      (∀ par, Complete rows rows par → Api.fresh (numEnv qsort) par m data rows cols true = .ok obj ∧ Api.fresh (numEnv qsort) par m data' rows cols true = .ok obj') ∧
      obj'.results.labels = obj.results.labels ∧
      (∀ i, i < rows → ∃ c c', obj.dis.coreDistances[i]? = some (some c) ∧ obj'.dis.coreDistances[i]? = some (some c') ∧ ScaledNum k c c') ∧
      LinesAlike (ScaledNum k) obj.results.hierarchy obj'.results.hierarchy ∧
      ClustersAlike (ScaledNum k) obj.results.clusters obj'.results.clusters ∧
      (∀ (l : Nat) (c c' : Cl (Num754 binary64) Dbl), obj.results.clusters[l]? = some (some c) → obj'.results.clusters[l]? = some (some c') →
        ScaledVal (-k) c.stability c'.stability ∧ ScaledVal (-k) c.propStability c'.propStability) ∧
      (obj.results.clusters.length ≠ 2 → ScoresScaled k obj.results.outliers obj'.results.outliers) := by
  have hfew := h.few
  obtain ⟨obj, obj', hf, hout, hcore, hsc⟩ := fresh_counted (env := numEnv qsort) (env' := numEnv qsort) hq hq (moderate_supported h qsort) (moderate_supported h' qsort) h5 hm hmr
    (R := WRel k) (fits_scaled h h' hk) (stab_counted k) (Qt := ScaledVal (-k)) (fun h => h.val)
    (fun es es' he hes hsum => by
      have := total_scaled he hes (p := 0) (s := numArith.zeroS) (s' := numArith.zeroS) (by omega) (stab_counted k).zero
      rw [Nat.zero_add] at this
      exact this)
    (fun es es' he hes => root_scaled he hes) (le_refl _) rfl (fun ha hb h0 => ratio_scaled ha hb h0)
  refine ⟨obj, obj', hf, hout.labels.symm, fun i hi => ?_, lines_mono (fun h => h.1) (lines_alike hout.hierarchy), clusters_mono (fun h => h.1) (clusters_alike hout.clusters), fun l c c' e e' => ?_,
    fun hne => ⟨(hsc hne).length, fun i a b e e' => ?_⟩⟩
  · obtain ⟨c, c', e, e', s⟩ := hcore i hi
    exact ⟨c, c', e, e', s.1⟩
  · have h1 := hout.clusters.get l
    change OptRel _ (obj.results.clusters[l]?) (obj'.results.clusters[l]?) at h1
    rw [e, e'] at h1
    exact ⟨h1.stability, h1.propStability⟩
  · have h1 := (hsc hne).get i
    rw [e, e'] at h1
    exact ⟨h1.id, h1.score, h1.core.1⟩

/-! ### Concrete cases -/

/-- `spread` with all values doubled. -/
def spread2 : List (Fin754 binary64) := [2, 4, 8, 200, 202, 208, 400].attach.map fun k => whole k.1 ((by decide : ∀ k ∈ [2, 4, 8, 200, 202, 208, 400], k < 2 ^ 33) k.1 k.2)

theorem spread2_moderate : Moderate spread2 7 1 := whole_moderate [2, 4, 8, 200, 202, 208, 400] (by decide) (by decide)

theorem spread_scaled : ScaledData 1 spread spread2 := by unfold ScaledData; decide +kernel

example := C107_scale_partial isort (isort_sorts _) 1 spread spread2 7 1 spread_moderate spread2_moderate spread_scaled (by decide) 2 (by decide) (by decide)

/-- Both runs: the labels, and the stabilities of which the latter are half of the former. -/
theorem C107_cases :
    (Api.fresh (numEnv isort) (backPar 7 7) 2 spread 7 1 true >>= fun o => .ok (o.results.labels, o.results.clusters.map fun (c : Option (Cl (Num754 binary64) Dbl)) => c.map fun c => stabOf c.stability)) =
      .ok ([2, 2, 2, 3, 3, 3, 0], [none, some ("nan", 0), some ("number", 79 / 32), some ("number", 5183830821087915 / 2251799813685248)]) ∧
    (Api.fresh (numEnv isort) (backPar 7 7) 2 spread2 7 1 true >>= fun o => .ok (o.results.labels, o.results.clusters.map fun (c : Option (Cl (Num754 binary64) Dbl)) => c.map fun c => stabOf c.stability)) =
      .ok ([2, 2, 2, 3, 3, 3, 0], [none, some ("nan", 0), some ("number", 79 / 64), some ("number", 5183830821087915 / 4503599627370496)]) := by decide +kernel

/-- The part of C107 about scores fails if the hierarchy never splits: with `minPoints` 7, the scores depend on the unit of length. -/
theorem C107_unsplit_violated : ∃ obj obj' : Api.Obj (Num754 binary64) Dbl (Num754 binary64),
    (∀ par, Complete 7 7 par → Api.fresh (numEnv isort) par 7 spread 7 1 true = .ok obj ∧ Api.fresh (numEnv isort) par 7 spread2 7 1 true = .ok obj') ∧
    obj.results.outliers.map (fun o => o.id) = obj'.results.outliers.map (fun o => o.id) ∧ obj.results.outliers.map (fun o => o.score) ≠ obj'.results.outliers.map (fun o => o.score) := by
  obtain ⟨obj, obj', hf, -⟩ := C107_scale_partial isort (isort_sorts _) 1 spread spread2 7 1 spread_moderate spread2_moderate spread_scaled (by decide) 7 (by decide) (by decide)
  refine ⟨obj, obj', hf, ?_⟩
  have e : (Api.fresh (numEnv isort) (backPar 7 7) 7 spread 7 1 true >>= fun o => Api.fresh (numEnv isort) (backPar 7 7) 7 spread2 7 1 true >>= fun o' =>
      .ok (decide (o.results.outliers.map (fun o => o.id) = o'.results.outliers.map (fun o => o.id)), decide (o.results.outliers.map (fun o => o.score) = o'.results.outliers.map (fun o => o.score)))) =
      .ok (true, false) := by decide +kernel
  rw [(hf _ (backPar_complete 7 7)).1, Outcome.ok_bind, (hf _ (backPar_complete 7 7)).2, Outcome.ok_bind] at e
  have e1 := Outcome.ok.inj e
  exact ⟨of_decide_eq_true (congrArg Prod.fst e1), of_decide_eq_false (congrArg Prod.snd e1)⟩

end Verif.Props
