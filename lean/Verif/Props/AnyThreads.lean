import Verif.Props.RaceAny
import Verif.Props.Flat
/-
C73, C74 and C75 with several threads: arbitrary data, any interleaving of the loop with the data race of C37.
-/
namespace Verif.Props
open Spec Race
variable {D V S T : Type}

/-- A point that is noise stays noise. -/
theorem lost_noise {W : Type} {lost : Nat → Bool} {a b : Api.Obj W S T} (h : SameButLost lost a b) {p : Nat} (hp : a.results.labels[p]? = some 0) : b.results.labels[p]? = some 0 := by
  rw [h.labels, List.getElem?_map, hp]
  simp

/-- **C73 with several threads**: rows without a distance below `D_MAX` are noise in every interleaving, and so are all rows if there are fewer than `m`. -/
theorem C73_threads [LinearOrder V] [CCmp S] [LinearOrder T] (env : Api.Env D (Ieee V) S T) (hd : ∃ v, env.ar.dmax = .num v) (hq : SortsAscending env.qsort)
    (data : List D) (rows cols : Nat) (f : Nat → Nat → Ieee V) (h : Readable env data rows cols f) (h5 : 5 ≤ rows) (m : Nat) (hm : 2 ≤ m) (th : Threads) (hth : Interleaves th)
    (par : Api.Par) (hp : Complete rows rows par) :
    ∃ obj, Race.fresh th env par m data rows cols true = .ok obj ∧ obj.results.labels.length = rows ∧
      (∀ p, p < rows → (∀ j, j < rows → j ≠ p → NotBelow env.ar.dmax (distOf env.dops f p j)) → obj.results.labels[p]? = some 0) ∧
      (rows < m → obj.results.labels = List.replicate rows 0) := by
  obtain ⟨o1, a1, a2, a3, a4⟩ := C73_noise env hd hq data rows cols f h h5 m hm par hp
  obtain ⟨o2, b1, b2, _⟩ := C63_any_partial env hd hq data rows cols f h h5 m hm
  have e : o2 = o1 := by have := b1 par hp; rw [a1] at this; simpa using this.symm
  subst e
  obtain ⟨obj, lost, _, s2, s3⟩ := b2 th hth
  refine ⟨obj, s3 par hp, by rw [s2.labels, List.length_map, a2], fun p hp hj => lost_noise s2 (a3 p hp hj), fun hlt => ?_⟩
  rw [s2.labels, (a4 hlt).1, List.map_replicate]
  simp

/-- **C74 with several threads**: in every interleaving incomplete rows are noise, core distances and hierarchy are those of the complete rows, and the labels are those of a run with one thread
    except that whole clusters may be lost (C63). -/
theorem C74_threads [LinearOrder V] [CCmp S] [LinearOrder T] (env : Api.Env D (Ieee V) S T) (hd : ∃ v, env.ar.dmax = .num v) (hq : SortsAscending env.qsort)
    (hz : CCmp.lt env.ar.zeroW env.ar.dmax = true) (data : List D) (rows cols : Nat) (f : Nat → Nat → Ieee V) (h : Readable env data rows cols f) (h5 : 5 ≤ rows) (m : Nat) (hm : 2 ≤ m)
    (complete : Nat → Prop) (hmany : AtLeast m (fun i => i < rows ∧ complete i))
    (hin : ∀ i j, i < rows → j < rows → i ≠ j → complete i → complete j → CCmp.lt (distOf env.dops f i j) env.ar.dmax = true)
    (hout : ∀ i j, i < rows → j < rows → i ≠ j → ¬ complete i → NotBelow env.ar.dmax (distOf env.dops f i j)) (th : Threads) (hth : Interleaves th)
    (par : Api.Par) (hp : Complete rows rows par) :
    ∃ (obj : Api.Obj (Ieee V) S T) (core : Nat → Ieee V), Race.fresh th env par m data rows cols true = .ok obj ∧
      (∀ i, i < rows → obj.dis.coreDistances[i]? = some (some (core i)) ∧ (CCmp.lt (core i) env.ar.dmax = true ↔ complete i)) ∧
      (∀ i, i < rows → ¬ complete i → obj.results.labels[i]? = some 0) ∧
      ∀ k w A, (k, w, A) ∈ obj.results.hierarchy → k ≠ 0 → CCmp.lt w env.ar.dmax = true →
        (∀ u v, u < rows → v < rows → ((A[u]? = A[v]? ∧ A[u]? ≠ some 0) ↔
          (Linked rows (distOf env.dops f) core w u v ∧ AtLeast m (Linked rows (distOf env.dops f) core w u)))) ∧
        ∀ u, u < rows → ¬ complete u → A[u]? = some 0 := by
  obtain ⟨o1, core, a1, a2, a3, a4⟩ := C74_incomplete_rows env hd hq hz data rows cols f h h5 m hm complete hmany hin hout par hp
  obtain ⟨o2, b1, b2, _⟩ := C63_any_partial env hd hq data rows cols f h h5 m hm
  have e : o2 = o1 := by have := b1 par hp; rw [a1] at this; simpa using this.symm
  subst e
  obtain ⟨obj, lost, _, s2, s3⟩ := b2 th hth
  exact ⟨obj, core, s3 par hp, by rw [s2.dis]; exact a2, fun i hi hc => lost_noise s2 (a3 i hi hc), by rw [s2.hierarchy]; exact a4⟩

/-- **C75, the part that holds, with several threads**: in every interleaving the points of a cluster that is reported are exactly those of a component of at least `m` points at a level below `D_MAX`. -/
theorem C75_threads_partial [LinearOrder V] [CCmp S] [LinearOrder T] (env : Api.Env D (Ieee V) S T) (hd : ∃ v, env.ar.dmax = .num v) (hq : SortsAscending env.qsort)
    (data : List D) (rows cols : Nat) (f : Nat → Nat → Ieee V) (h : Readable env data rows cols f) (h5 : 5 ≤ rows) (m : Nat) (hm : 2 ≤ m) (th : Threads) (hth : Interleaves th)
    (par : Api.Par) (hp : Complete rows rows par) :
    ∃ (obj : Api.Obj (Ieee V) S T) (core : Nat → Ieee V), Race.fresh th env par m data rows cols true = .ok obj ∧
      (∀ i, i < rows → obj.dis.coreDistances[i]? = some (some (core i))) ∧
      ∀ p l, l ≠ 0 → obj.results.labels[p]? = some l → ∃ w, CCmp.lt w env.ar.dmax = true ∧ AtLeast m (Linked rows (distOf env.dops f) core w p) ∧
        ∀ q, q < rows → (obj.results.labels[q]? = some l ↔ Linked rows (distOf env.dops f) core w p q) := by
  obtain ⟨o1, core, a1, a2, a3⟩ := C75_far_groups_partial env hd hq data rows cols f h h5 m hm par hp
  obtain ⟨o2, b1, b2, _⟩ := C63_any_partial env hd hq data rows cols f h h5 m hm
  have e : o2 = o1 := by have := b1 par hp; rw [a1] at this; simpa using this.symm
  subst e
  obtain ⟨obj, lost, _, s2, s3⟩ := b2 th hth
  refine ⟨obj, core, s3 par hp, by rw [s2.dis]; exact a2, fun p l hl hpl => ?_⟩
  obtain ⟨hp0, hlost⟩ := (lost_label s2 p l hl).1 hpl
  obtain ⟨w, w1, w2, w3⟩ := a3 p l hl hp0
  refine ⟨w, w1, w2, fun q hq => ?_⟩
  rw [← w3 q hq, lost_label s2 q l hl]
  simp [hlost]

/-- The row with NaN and the row that is too far away are noise, however hasty the threads are. -/
example := (C73_threads nanEnv ⟨1000, rfl⟩ (isort_sorts _) nanPts 8 1 (nanSq nanPts) (nan_readable nanPts (by decide)) (by omega) 2 (by omega) hasty hasty_interleaves (backPar 8 8)
  (backPar_complete 8 8)).imp fun _ h => And.intro (h.2.2.1 2 (by omega) (by decide +kernel)) (h.2.2.1 5 (by omega) (by decide +kernel))
example := C74_threads nanEnv ⟨1000, rfl⟩ (isort_sorts _) (by decide +kernel) nanPts 8 1 (nanSq nanPts) (nan_readable nanPts (by decide)) (by omega) 3 (by omega)
  (fun i => i ≠ 2 ∧ i ≠ 5) ⟨[0, 1, 3], by decide, by decide, by decide⟩
  (fun i j hi hj h1 h2 h3 => (by decide +kernel : ∀ i, i < 8 → ∀ j, j < 8 → (i ≠ j ∧ (i ≠ 2 ∧ i ≠ 5) ∧ j ≠ 2 ∧ j ≠ 5) →
    ¬ NotBelow nanEnv.ar.dmax (distOf nanEnv.dops (nanSq nanPts) i j)) i hi j hj ⟨h1, h2, h3⟩ |> fun h => by simpa [NotBelow] using h)
  (fun i j hi hj h1 h2 => (by decide +kernel : ∀ i, i < 8 → ∀ j, j < 8 → (i ≠ j ∧ ¬ (i ≠ 2 ∧ i ≠ 5)) →
    NotBelow nanEnv.ar.dmax (distOf nanEnv.dops (nanSq nanPts) i j)) i hi j hj ⟨h1, h2⟩)
  hasty hasty_interleaves (backPar 8 8) (backPar_complete 8 8)
example := C75_threads_partial nanEnv ⟨1000, rfl⟩ (isort_sorts _) farPts 6 1 (nanSq farPts) (nan_readable farPts (by decide)) (by omega) 2 (by omega) hasty hasty_interleaves (backPar 6 6)
  (backPar_complete 6 6)

end Verif.Props
