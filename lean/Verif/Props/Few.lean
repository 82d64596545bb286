import Verif.Props.FlatAny
import Verif.Props.RaceMore
/-
C120: fewer rows than twice minPoints are all noise.
-/
namespace Verif.Props
open Spec Race
variable {D W S T V : Type}

/-- Two labels with `m` points each need `2 * m` points. -/
private theorem two_labels {labels : List Nat} {m l l' : Nat} (hne : l ≠ l') (h : AtLeast m (fun p => labels[p]? = some l)) (h' : AtLeast m (fun p => labels[p]? = some l')) : 2 * m ≤ labels.length := by
  obtain ⟨a, a1, a2, a3⟩ := h
  obtain ⟨b, b1, b2, b3⟩ := h'
  have hs : (a ++ b).Subperm (List.range labels.length) := by
    refine List.Nodup.subperm (List.nodup_append.2 ⟨a1, b1, fun x hx y hy e => ?_⟩) fun x hx => ?_
    · subst e
      have e1 : labels[x]? = some l := a3 x hx
      have e2 : labels[x]? = some l' := b3 x hy
      exact hne (Option.some.inj (e1.symm.trans e2))
    · rw [List.mem_range]
      rcases List.mem_append.1 hx with hx | hx
      · exact (List.getElem?_eq_some_iff.1 (a3 x hx)).1
      · exact (List.getElem?_eq_some_iff.1 (b3 x hx)).1
  have := hs.length_le
  rw [List.length_append, List.length_range] at this
  omega

/-- If every label other than 0 has `m` points and is not the only one, `n < 2 * m` points are all noise. -/
private theorem all_noise {labels : List Nat} {m n : Nat} (hlen : labels.length = n) (hn : n < 2 * m) (h1 : ∀ l, l ≠ 0 → l ∈ labels → AtLeast m (fun p => labels[p]? = some l))
    (h2 : ∀ l, l ≠ 0 → l ∈ labels → ∃ l', l' ≠ 0 ∧ l' ≠ l ∧ l' ∈ labels) : labels = List.replicate n 0 := by
  refine List.eq_replicate_iff.2 ⟨hlen, fun l hl => ?_⟩
  by_contra h0
  obtain ⟨l', k1, k2, k3⟩ := h2 l h0 hl
  have := two_labels (Ne.symm k2) (h1 l h0 hl) (h1 l' k1 k3)
  omega

/-- **C120.** A run on fewer than `2 * m` rows labels every row 0, whatever the threads do. -/
theorem C120_few_rows [LinearOrder W] [CCmp S] [LinearOrder T] (env : Api.Env D W S T) (hq : SortsAscending env.qsort) (data : List D) (rows cols : Nat) (f : Nat → Nat → W)
    (h : Supported env data rows cols f) (h5 : 5 ≤ rows) (m : Nat) (hm : 2 ≤ m) (hmr : m ≤ rows) (hfew : rows < 2 * m) (th : Threads) (hth : Interleaves th) :
    ∃ obj : Api.Obj W S T, (∀ par, Complete rows rows par → Race.fresh th env par m data rows cols true = .ok obj) ∧ obj.results.labels = List.replicate rows 0 := by
  obtain ⟨o1, core, a1, -, a3, a4, a5⟩ := C97_flat_partial env hq data rows cols f h h5 m hm hmr
  obtain ⟨o2, b1, b2, -⟩ := C63_threads_partial env hq data rows cols f h h5 m hm hmr
  have e : o2 = o1 := fresh_same b1 a1
  subst e
  obtain ⟨obj, lost, -, s2, s3⟩ := b2 th hth
  refine ⟨obj, s3, ?_⟩
  rw [s2.labels, all_noise a3 hfew (fun l h0 hl => (a4 l h0 hl).1) a5]
  simp

/-- **C120 for arbitrary data**: NaN, infinities, overflowing distances and `m` larger than the number of rows. -/
theorem C120_any [LinearOrder V] [CCmp S] [LinearOrder T] (env : Api.Env D (Ieee V) S T) (hd : ∃ v, env.ar.dmax = .num v) (hq : SortsAscending env.qsort)
    (data : List D) (rows cols : Nat) (f : Nat → Nat → Ieee V) (h : Readable env data rows cols f) (h5 : 5 ≤ rows) (m : Nat) (hm : 2 ≤ m) (hfew : rows < 2 * m) (th : Threads) (hth : Interleaves th) :
    ∃ obj : Api.Obj (Ieee V) S T, (∀ par, Complete rows rows par → Race.fresh th env par m data rows cols true = .ok obj) ∧ obj.results.labels = List.replicate rows 0 := by
  obtain ⟨o1, core, a1, -, a3, a4, a5⟩ := C97_any_partial env hd hq data rows cols f h h5 m hm
  obtain ⟨o2, b1, b2, -⟩ := C63_any_partial env hd hq data rows cols f h h5 m hm
  have e : o2 = o1 := fresh_same b1 a1
  subst e
  obtain ⟨obj, lost, -, s2, s3⟩ := b2 th hth
  refine ⟨obj, s3, ?_⟩
  rw [s2.labels, all_noise a3 hfew (fun l h0 hl => (a4 l h0 hl).1) a5]
  simp

/-- Cases of C120. -/
example := C120_few_rows lineEnv (isort_sorts _) linePts 5 1 (lineSq linePts) linePts_supported (by omega) 3 (by omega) (by omega) (by omega) hasty hasty_interleaves
example := C120_any nanEnv ⟨1000, rfl⟩ (isort_sorts _) nanPts 8 1 (nanSq nanPts) (nan_readable nanPts (by decide)) (by omega) 5 (by omega) (by omega) hasty hasty_interleaves
example := C120_any nanEnv ⟨1000, rfl⟩ (isort_sorts _) nanPts 8 1 (nanSq nanPts) (nan_readable nanPts (by decide)) (by omega) 12 (by omega) (by omega) hasty hasty_interleaves

/-- The bound is sharp: six rows with `minPoints` 3 can be two clusters. -/
theorem C120_sharp : (Api.fresh lineEnv (backPar 6 6) 3 [0, 1, 3, 20, 21, 23] 6 1 true >>= fun o => .ok o.results.labels) = .ok [2, 2, 2, 3, 3, 3] := by decide +kernel

end Verif.Props
