import Verif.Props.RunThreads
import Verif.Props.Scale
/-
C72 and C107 for every interleaving of threads.
-/
namespace Verif.Props
open Spec Race
variable {D V W S T : Type}

/-- Two runs without the race that give the same labels: with the race, a row carries the same label in both unless it carries none in one of them. -/
theorem lost_agree {a b : Api.Obj W S T} {a' b' : Api.Obj W S T} {lost lost' : Nat → Bool} (h : SameButLost lost a b) (h' : SameButLost lost' a' b') (he : a.results.labels = a'.results.labels)
    (p l l' : Nat) (hp : b.results.labels[p]? = some l) (hp' : b'.results.labels[p]? = some l') (hl : l ≠ 0) (hl' : l' ≠ 0) : l = l' := by
  have e := ((lost_label h p l hl).1 hp).1
  have e' := ((lost_label h' p l' hl').1 hp').1
  rw [he, e'] at e
  exact (Option.some.inj e).symm

/-- A cluster after the race is one before the race, up to its offset. -/
theorem lost_back {a b : Api.Obj W S T} {lost : Nat → Bool} (h : SameButLost lost a b) {l : Nat} {c : Cl W S} (hc : b.results.clusters[l]? = some (some c)) :
    ∃ c0 : Cl W S, a.results.clusters[l]? = some (some c0) ∧ c.stability = c0.stability ∧ c.propStability = c0.propStability ∧ { c with offset := 0 } = { c0 with offset := 0 } := by
  rw [h.clusters l] at hc
  rcases e : a.results.clusters[l]? with _ | _ | c0
  · rw [e] at hc; simp at hc
  · rw [e] at hc; simp at hc
  · rw [e] at hc
    simp only [Option.map_some, Option.some.injEq] at hc
    refine ⟨c0, rfl, ?_, ?_, ?_⟩ <;> rw [← hc] <;> split <;> rfl

/-- **C72 for every interleaving of threads** in each of the two runs: core distances, hierarchy and outlier scores are equal, the clusters are equal up to their offsets, and a row that carries a label in both runs carries the same one. -/
theorem C72_threads [LinearOrder V] [CCmp S] [LinearOrder T] (env : Api.Env D (Ieee V) S T) (hd : ∃ v, env.ar.dmax = .num v) (hq : SortsAscending env.qsort)
    (data data' : List D) (rows cols cols' : Nat) (f f' : Nat → Nat → Ieee V) (h : Readable env data rows cols f) (h' : Readable env data' rows cols' f') (h5 : 5 ≤ rows)
    (hs : ∀ i j, i < j → j < rows → env.dops.sqrt (f i j) = env.dops.sqrt (f' i j) ∨
      (NotBelow env.ar.dmax (env.dops.sqrt (f i j)) ∧ NotBelow env.ar.dmax (env.dops.sqrt (f' i j))))
    (m : Nat) (hm : 2 ≤ m) (th th' : Threads) (hth : Interleaves th) (hth' : Interleaves th') :
    ∃ obj obj' : Api.Obj (Ieee V) S T,
      (∀ par, Complete rows rows par → Race.fresh th env par m data rows cols true = .ok obj ∧ Race.fresh th' env par m data' rows cols' true = .ok obj') ∧
      obj.results.hierarchy = obj'.results.hierarchy ∧ obj.results.outliers = obj'.results.outliers ∧ obj.results.clusters.length = obj'.results.clusters.length ∧
      (∀ (l : Nat) (c c' : Cl (Ieee V) S), obj.results.clusters[l]? = some (some c) → obj'.results.clusters[l]? = some (some c') → { c with offset := 0 } = { c' with offset := 0 }) ∧
      (∀ i, i < rows → obj.dis.coreDistances[i]? = obj'.dis.coreDistances[i]?) ∧
      ∀ p l l' : Nat, obj.results.labels[p]? = some l → obj'.results.labels[p]? = some l' → l ≠ 0 → l' ≠ 0 → l = l' := by
  obtain ⟨a, b1, b2, -⟩ := C63_any_partial env hd hq data rows cols f h h5 m hm
  obtain ⟨a', b1', b2', -⟩ := C63_any_partial env hd hq data' rows cols' f' h' h5 m hm
  obtain ⟨o, o', e, e', er, ec⟩ := C72_not_below env hd hq data data' rows cols cols' f f' h h' h5 hs m hm (backPar rows rows) (backPar rows rows) (backPar_complete _ _) (backPar_complete _ _)
  rw [b1 _ (backPar_complete _ _)] at e
  rw [b1' _ (backPar_complete _ _)] at e'
  cases e
  cases e'
  obtain ⟨obj, lost, -, s2, s3⟩ := b2 th hth
  obtain ⟨obj', lost', -, s2', s3'⟩ := b2' th' hth'
  refine ⟨obj, obj', fun par hp => ⟨s3 par hp, s3' par hp⟩, by rw [s2.hierarchy, s2'.hierarchy, er], by rw [s2.outliers, s2'.outliers, er], by rw [lost_length s2, lost_length s2', er],
    fun l c c' e e' => ?_, by rw [s2.dis, s2'.dis]; exact ec, lost_agree s2 s2' (by rw [er])⟩
  obtain ⟨c0, x, -, -, x3⟩ := lost_back s2 e
  obtain ⟨c0', y, -, -, y3⟩ := lost_back s2' e'
  rw [er, y] at x
  cases x
  rw [x3, y3]

/-- **C107 for every interleaving of threads** in each of the two runs: core distances and levels are multiplied by the power of two, stabilities are divided by it, and a row that carries a label in both runs
    carries the same one; if the hierarchy contains more than the root, the scores are the same bit by bit and in the same order.
    Missing: scores of hierarchies that never split (`C107_unsplit_violated`), and labels that the race loses in one of the runs (C63). -/
theorem C107_threads_partial (qsort : (OScore (Num754 binary64) (Num754 binary64) → OScore (Num754 binary64) (Num754 binary64) → Int) →
      List (OScore (Num754 binary64) (Num754 binary64)) → List (OScore (Num754 binary64) (Num754 binary64))) (hq : SortsAscending qsort)
    (k : ℤ) (data data' : List (Fin754 binary64)) (rows cols : Nat) (h : Moderate data rows cols) (h' : Moderate data' rows cols) (hk : ScaledData k data data') (h5 : 5 ≤ rows) (m : Nat) (hm : 2 ≤ m)
    (hmr : m ≤ rows) (th th' : Threads) (hth : Interleaves th) (hth' : Interleaves th') :
    ∃ obj obj' : Api.Obj (Num754 binary64) Dbl (Num754 binary64),
      (∀ par, Complete rows rows par → Race.fresh th (numEnv qsort) par m data rows cols true = .ok obj ∧ Race.fresh th' (numEnv qsort) par m data' rows cols true = .ok obj') ∧
      (∀ p l l' : Nat, obj.results.labels[p]? = some l → obj'.results.labels[p]? = some l' → l ≠ 0 → l' ≠ 0 → l = l') ∧
      (∀ i, i < rows → ∃ c c', obj.dis.coreDistances[i]? = some (some c) ∧ obj'.dis.coreDistances[i]? = some (some c') ∧ ScaledNum k c c') ∧
      LinesAlike (ScaledNum k) obj.results.hierarchy obj'.results.hierarchy ∧
      obj.results.clusters.length = obj'.results.clusters.length ∧
      (∀ (l : Nat) (c c' : Cl (Num754 binary64) Dbl), obj.results.clusters[l]? = some (some c) → obj'.results.clusters[l]? = some (some c') →
        ScaledVal (-k) c.stability c'.stability ∧ ScaledVal (-k) c.propStability c'.propStability) ∧
      (obj.results.clusters.length ≠ 2 → ScoresScaled k obj.results.outliers obj'.results.outliers) := by
  obtain ⟨a, a', hf, h1, h2, h3, h4, h6, h7⟩ := C107_scale_partial qsort hq k data data' rows cols h h' hk h5 m hm hmr
  obtain ⟨o, lost, p1, p2⟩ := run_lost (env := numEnv qsort) hq (moderate_supported h qsort) h5 hm hmr (fun par hp => (hf par hp).1) hth
  obtain ⟨o', lost', q1, q2⟩ := run_lost (env := numEnv qsort) hq (moderate_supported h' qsort) h5 hm hmr (fun par hp => (hf par hp).2) hth'
  refine ⟨o, o', fun par hp => ⟨p1 par hp, q1 par hp⟩, lost_agree p2 q2 h1.symm, by rw [p2.dis, q2.dis]; exact h2, by rw [p2.hierarchy, q2.hierarchy]; exact h3,
    by rw [lost_length p2, lost_length q2, h4.1], fun l c c' e e' => ?_, by rw [lost_length p2, p2.outliers, q2.outliers]; exact h7⟩
  obtain ⟨c0, x, x1, x2, -⟩ := lost_back p2 e
  obtain ⟨c0', y, y1, y2, -⟩ := lost_back q2 e'
  rw [x1, x2, y1, y2]
  exact h6 l c0 c0' x y

/-- Cases: those of the theorems with one thread, with threads that read an old value in both runs. -/
example := C72_threads nanEnv ⟨1000, rfl⟩ (isort_sorts _) nanPts (nanPts.set 5 .nan) 8 1 1 (nanSq nanPts) (nanSq (nanPts.set 5 .nan)) (nan_readable nanPts (by decide))
  (nan_readable (nanPts.set 5 .nan) (by decide)) (by omega)
  (fun i j hij hj => (by decide +kernel : ∀ j, j < 8 → ∀ i, i < j → nanEnv.dops.sqrt (nanSq nanPts i j) = nanEnv.dops.sqrt (nanSq (nanPts.set 5 .nan) i j) ∨
    (NotBelow nanEnv.ar.dmax (nanEnv.dops.sqrt (nanSq nanPts i j)) ∧ NotBelow nanEnv.ar.dmax (nanEnv.dops.sqrt (nanSq (nanPts.set 5 .nan) i j)))) j hj i hij)
  2 (by omega) hasty hasty hasty_interleaves hasty_interleaves
example := C107_threads_partial isort (isort_sorts _) 1 spread spread2 7 1 spread_moderate spread2_moderate spread_scaled (by decide) 2 (by decide) (by decide) hasty hasty hasty_interleaves hasty_interleaves

end Verif.Props
