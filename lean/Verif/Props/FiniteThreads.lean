import Verif.Props.Finite
import Verif.Props.RerunThreads
/-
C108 for every interleaving of threads, and C49 for data of type double.
-/
namespace Verif.Props
open Spec Race

private theorem mem_lost {W S T : Type} {lost : Nat → Bool} {a b : Api.Obj W S T} (h : SameButLost lost a b) {c : Cl W S} (hc : some c ∈ b.results.clusters) :
    ∃ c0 : Cl W S, some c0 ∈ a.results.clusters ∧ c0.birth = c.birth ∧ c0.death = c.death ∧ c0.propLowest = c.propLowest := by
  obtain ⟨l, hl⟩ := List.mem_iff_getElem?.1 hc
  rw [h.clusters l] at hl
  cases hx : a.results.clusters[l]? with
  | none => rw [hx] at hl; simp at hl
  | some x =>
    rw [hx] at hl
    cases x with
    | none => simp at hl
    | some x =>
      simp only [Option.map_some, Option.some.injEq] at hl
      refine ⟨x, List.mem_iff_getElem?.2 ⟨l, hx⟩, ?_⟩
      rw [← hl]
      split <;> exact ⟨rfl, rfl, rfl⟩

/-- **C108 for every interleaving of threads**: a run on finite doubles completes, and no distance, core distance, level or score is NaN or negative. -/
theorem C108_threads (qsort : Sorter) (hq : SortsAscending qsort) (data : List (Fin754 binary64)) (rows cols : Nat) (hr : rows ≤ 65536) (h5 : 5 ≤ rows) (hdata : rows * cols ≤ data.length)
    (m : Nat) (hm : 2 ≤ m) (th : Threads) (hth : Interleaves th) :
    ∃ obj : Api.Obj Dbl Dbl (Num754 binary64), (∀ par, Complete rows rows par → Race.fresh th (fpEnv doubleOps qsort) par m (data.map Fp.fin) rows cols true = .ok obj) ∧ NumbersOnly obj := by
  obtain ⟨v, hv, -⟩ := fp_max
  obtain ⟨o1, a1, n⟩ := C108_finite qsort hq data rows cols hr h5 hdata m hm
  obtain ⟨o2, b1, b2, -⟩ := C63_any_partial (fpEnv doubleOps qsort) ⟨_, hv⟩ hq (data.map Fp.fin) rows cols _ (double_readable qsort _ rows cols hr (by rw [List.length_map]; exact hdata)) h5 m hm
  obtain rfl : o2 = o1 := Outcome.ok.inj ((b1 _ (backPar_complete rows rows)).symm.trans (a1 _ (backPar_complete rows rows)))
  obtain ⟨obj, lost, -, s2, s3⟩ := b2 th hth
  refine ⟨obj, s3, by rw [s2.dis]; exact n.distances, by rw [s2.dis]; exact n.cores, by rw [s2.hierarchy]; exact n.levels, by rw [s2.noise]; exact n.noise, fun c hc b hb => ?_, fun c hc => ?_, fun c hc => ?_,
    by rw [s2.outliers]; exact n.scores⟩ <;> obtain ⟨c0, h0, e1, e2, e3⟩ := mem_lost s2 hc
  · exact n.births c0 h0 b (by rw [e1, hb])
  · rw [← e2]; exact n.deaths c0 h0
  · rw [← e3]; exact n.lowest c0 h0

/-- The same for whole numbers of the integer types. -/
theorem C108_integer_threads (qsort : Sorter) (hq : SortsAscending qsort) (bits : Nat) (data : List ℤ) (hx : ∀ x ∈ data, |x| ≤ 2 ^ 53)
    (hd : ∀ x ∈ data, ∀ y ∈ data, -2 ^ (bits - 1) ≤ x - y ∧ x - y < 2 ^ (bits - 1)) (rows cols : Nat) (hr : rows ≤ 65536) (h5 : 5 ≤ rows) (hdata : rows * cols ≤ data.length) (m : Nat) (hm : 2 ≤ m)
    (th : Threads) (hth : Interleaves th) :
    ∃ obj : Api.Obj Dbl Dbl (Num754 binary64), (∀ par, Complete rows rows par → Race.fresh th (fpEnv (integerOps bits) qsort) par m data rows cols true = .ok obj) ∧ NumbersOnly obj := by
  have hfin : ∀ l : List ℤ, (∀ x ∈ l, |x| ≤ 2 ^ 53) → ∃ ys : List (Fin754 binary64), l.map (fun x : ℤ => (Fp.of (x : ℚ) : Dbl)) = ys.map Fp.fin := by
    intro l
    induction l with
    | nil => intro _; exact ⟨[], rfl⟩
    | cons x r ih =>
      intro h
      obtain ⟨ys, e⟩ := ih fun y hy => h y (List.mem_cons_of_mem _ hy)
      obtain ⟨y, ey⟩ := of_whole (h x List.mem_cons_self)
      exact ⟨y :: ys, by rw [List.map_cons, List.map_cons, e, ey]⟩
  obtain ⟨ys, e⟩ := hfin data hx
  have hlen : ys.length = data.length := by have := congrArg List.length e; simpa using this.symm
  obtain ⟨obj, h1, h2⟩ := C108_threads qsort hq ys rows cols hr h5 (by rw [hlen]; exact hdata) m hm th hth
  refine ⟨obj, fun par hp => ?_, h2⟩
  rw [(C106_integers_partial qsort bits data hx hd m rows cols true par).2 th, e]
  exact h1 par hp

/-- **C49 for data of type `double`**, any values, with any interleaving of threads in each call. Same gap as in `C49_threads_partial`. -/
theorem C49_double_partial (qsort : Sorter) (hq : SortsAscending qsort) (data : List Dbl) (rows cols : Nat) (hr : rows ≤ 65536) (h5 : 5 ≤ rows) (hdata : rows * cols ≤ data.length) (m0 : Nat) (hm0 : 2 ≤ m0)
    (par0 : Api.Par) (hp0 : Complete rows rows par0) (th0 : Threads) (ht0 : Interleaves th0) (hist : List (Nat × Api.Par × Threads))
    (hhist : ∀ c ∈ hist, 2 ≤ c.1 ∧ Complete rows rows c.2.1 ∧ Interleaves c.2.2) (m : Nat) (hm : 2 ≤ m) :
    ∃ obj0, Race.fresh th0 (fpEnv doubleOps qsort) par0 m0 data rows cols true = .ok obj0 ∧
      ∀ th, Interleaves th → ∃ obj, ∀ par par', Complete rows rows par → Complete rows rows par' →
        Race.reruns (fpEnv doubleOps qsort) (hist ++ [(m, par, th)]) obj0 = .ok obj ∧ Race.fresh th (fpEnv doubleOps qsort) par' m data rows cols true = .ok obj := by
  obtain ⟨v, hv, -⟩ := fp_max
  exact C49_threads_partial (fpEnv doubleOps qsort) ⟨_, hv⟩ hq data rows cols _ (double_readable qsort data rows cols hr hdata) h5 m0 hm0 par0 hp0 th0 ht0 hist hhist m hm

/-- Cases: the data of C108, some of whose distances overflow; the same data with NaN in the first row. -/
example := C108_threads isort (isort_sorts _) hugeData 7 1 (by decide) (by decide) (by decide) 2 (by decide) hasty hasty_interleaves
example := C108_integer_threads isort (isort_sorts _) 32 [1, 2, 4, 100, 101, 104, 200] (by decide) (by decide) 7 1 (by decide) (by decide) (by decide) 2 (by decide) hasty hasty_interleaves
example := C49_double_partial isort (isort_sorts _) (.nan :: hugeData.map Fp.fin) 8 1 (by decide) (by decide) (by decide) 12 (by decide) (backPar 8 8) (backPar_complete 8 8) hasty hasty_interleaves
  [(3, backPar 8 8, hasty)] (by simpa using ⟨backPar_complete 8 8, hasty_interleaves⟩) 2 (by decide)

end Verif.Props
