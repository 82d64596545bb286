import Verif.Props.Rearrange
/-
C87: a larger minPoints never joins points.
-/
namespace Verif.Props
open Spec
variable {D W S T : Type}

private theorem kth_mono [LinearOrder W] {ts : List W} {k k' : Nat} {x x' : W} (h : IsKth ts k x) (h' : IsKth ts k' x') (hk : k ≤ k') : x ≤ x' := by
  by_contra hlt
  rw [not_le] at hlt
  have : ts.countP (fun t => decide (t ≤ x')) ≤ ts.countP (fun t => decide (t < x)) := by
    refine List.countP_mono_left fun t _ ht => ?_
    simp only [decide_eq_true_eq] at ht ⊢
    exact lt_of_le_of_lt ht hlt
  have h1 := h.1
  have h2 := h'.2
  omega

private theorem reach_mono [LinearOrder W] {n : Nat} {a b : Nat → Nat → W} {v w : W} (hab : ∀ i j, i < n → j < n → a i j ≤ b i j) (hvw : v ≤ w) {i j : Nat} (h : Reachable n b v i j) :
    Reachable n a w i j :=
  Relation.EqvGen.mono (fun x y hxy => ⟨hxy.1, hxy.2.1, hxy.2.2.1, ((hab x y hxy.1 hxy.2.1).trans hxy.2.2.2).trans hvw⟩) i j h

/-- **C87, the part that holds.** Let `m ≤ m'`. A run with `minPoints = m'`, or a rerun with `m'` after a run with `m`, has core distances that are at least those of the run with `m`, and
    points that have a common cluster in a line of its hierarchy have a common cluster in every line of the other hierarchy that belongs to the same or a larger weight. In particular, what is
    noise in the line of the smaller `minPoints` is noise in the other one, too.
    Missing: repeated distances as in C19, with which the claim is false (`C87_violated`). -/
theorem C87_never_joins_partial [LinearOrder W] [CCmp S] [LinearOrder T] (env : Api.Env D W S T) (hq : SortsAscending env.qsort) (data : List D) (rows cols : Nat) (f : Nat → Nat → W)
    (h : Supported env data rows cols f) (h5 : 5 ≤ rows) (m m' : Nat) (hm : 2 ≤ m) (hmm : m ≤ m') (hmr : m' ≤ rows)
    (ht : Untied rows m (distOf env.dops f)) (ht' : Untied rows m' (distOf env.dops f)) :
    ∃ obj obj' : Api.Obj W S T, (∀ par, Complete rows rows par → Api.fresh env par m data rows cols true = .ok obj ∧ Api.fresh env par m' data rows cols true = .ok obj' ∧
        Api.rerun env par m' obj = .ok obj') ∧
      (∀ i, i < rows → ∃ c c', obj.dis.coreDistances[i]? = some (some c) ∧ obj'.dis.coreDistances[i]? = some (some c') ∧ c ≤ c') ∧
      ∀ i w A i' w' A', (i, w, A) ∈ obj.results.hierarchy → i ≠ 0 → (i', w', A') ∈ obj'.results.hierarchy → i' ≠ 0 → w' ≤ w →
        ∀ (u v l' : Nat), A'[u]? = some l' → A'[v]? = some l' → l' ≠ 0 → ∃ l, l ≠ 0 ∧ A[u]? = some l ∧ A[v]? = some l := by
  obtain ⟨obj, core, hf, -, -, hget, hcore, hline, -⟩ := C55_run_partial env hq data rows cols f h h5 m hm (by omega)
  obtain ⟨obj', core', hf', -, -, hget', hcore', hline', -⟩ := C55_run_partial env hq data rows cols f h h5 m' (by omega) hmr
  obtain ⟨objS, coreS, gS, resS, hfS, r1, r2, gS', hcS, -⟩ := stages hq h h5 hm (show m ≤ rows by omega)
  obtain ⟨objS', coreS', gS2, resS2, hfS', r1', r2', gS2', hcS', -⟩ := stages hq h h5 (show 2 ≤ m' by omega) hmr
  have hpar := backPar_complete rows rows
  have e1 : objS = obj := by have a := hfS _ hpar; rw [hf _ hpar] at a; exact (Outcome.ok.inj a).symm
  have e2 : objS' = obj' := by have a := hfS' _ hpar; rw [hf' _ hpar] at a; exact (Outcome.ok.inj a).symm
  subst e1 e2
  have hle : ∀ i, i < rows → core i ≤ core' i := by
    intro i hi
    have a1 : core i = coreS i := by have a := (hcS i hi).1; rw [(hcore i hi).1] at a; exact Option.some.inj (Option.some.inj a)
    have a2 : core' i = coreS' i := by have a := (hcS' i hi).1; rw [(hcore' i hi).1] at a; exact Option.some.inj (Option.some.inj a)
    have k1 := Distance.coreOf_kth (d := distOf env.dops f i) (fun j hj => gS' i j hi (by omega)) (fun j hj => (Corr.supported_lt h hi (by omega)).le) (by omega)
      (by rw [r2, Nat.sub_add_cancel (by omega), r1]; exact ht i hi) (hcS i hi).2
    have k2 := Distance.coreOf_kth (d := distOf env.dops f i) (fun j hj => gS2' i j hi (by omega)) (fun j hj => (Corr.supported_lt h hi (by omega)).le) (by omega)
      (by rw [r2', Nat.sub_add_cancel (by omega), r1']; exact ht' i hi) (hcS' i hi).2
    rw [r1, r2] at k1
    rw [r1', r2'] at k2
    rw [a1, a2]
    exact kth_mono k1 k2 (by omega)
  refine ⟨objS, objS', fun par hp => ⟨hf par hp, hf' par hp, ?_⟩, fun i hi => ⟨core i, core' i, (hcore i hi).1, (hcore' i hi).1, hle i hi⟩, ?_⟩
  · obtain ⟨o0, o, b1, b2, b3⟩ := C49_rerun_partial env hq data rows cols f h h5 m ⟨hm, by omega⟩ par hp [] (by simp) m' ⟨by omega, hmr⟩ par par hp hp
    rw [hf par hp] at b1
    rw [hf' par hp] at b3
    cases Outcome.ok.inj b1
    cases Outcome.ok.inj b3
    simp only [List.nil_append, Api.reruns] at b2
    obtain ⟨o2, c1, c2⟩ := Outcome.bind_eq_ok.mp b2
    rw [c1, show o2 = objS' from Outcome.ok.inj c2]
  · intro i w A i' w' A' hA hi hA' hi' hww u v l' hu hv hl'
    obtain ⟨len, same, noise⟩ := hline i w A hA hi
    obtain ⟨len', same', noise'⟩ := hline' i' w' A' hA' hi'
    have hmono : ∀ x y, Reachable rows (mutualReach (distOf env.dops f) core') w' x y → Reachable rows (mutualReach (distOf env.dops f) core) w x y := fun x y hr => by
      refine reach_mono (fun a b ha hb => ?_) hww hr
      exact max_le_max (max_le_max (le_refl _) (hle a ha)) (hle b hb)
    have hul : u < A.length := by rw [len, ← len']; exact (List.getElem?_eq_some_iff.1 hu).1
    have hvl : v < A.length := by rw [len, ← len']; exact (List.getElem?_eq_some_iff.1 hv).1
    have hnz : ∀ x lx : Nat, A'[x]? = some l' → A[x]? = some lx → lx ≠ 0 := by
      intro x lx h1 h2 h0
      have := mt (noise' x l' h1).2 hl'
      rw [not_not] at this
      obtain ⟨L, n1, n2, n3⟩ := this
      exact (noise x lx h2).1 h0 ⟨L, n1, by omega, fun y hy => hmono x y (n3 y hy)⟩
    obtain ⟨lu, hlu⟩ : ∃ l, A[u]? = some l := ⟨_, List.getElem?_eq_getElem hul⟩
    obtain ⟨lv, hlv⟩ : ∃ l, A[v]? = some l := ⟨_, List.getElem?_eq_getElem hvl⟩
    have hu0 := hnz u lu hu hlu
    have hv0 := hnz v lv hv hlv
    have e := (same u v lu lv hlu hlv hu0 hv0).2 (hmono u v ((same' u v l' l' hu hv hl' hl').1 rfl))
    exact ⟨lu, hu0, hlu, by rw [hlv, e]⟩

/-- Five points on a line without repeated distances. -/
def apartPts : List Rat := [0, 1, 3, 7, 15]

theorem apartPts_supported : Supported lineEnv apartPts 5 1 (lineSq apartPts) where
  few := by omega
  zero := rfl
  zero_lt := by decide
  sum i j hij hj := sqSum_iff.1 <| (by decide +kernel : ∀ j, j < 5 → ∀ i, i < j → Distance.sumFrom lineEnv.dops apartPts 1 i j 1 0 lineEnv.dops.zero = .ok (lineSq apartPts i j)) j hj i hij
  lt i j hij hj := (by decide +kernel : ∀ j, j < 5 → ∀ i, i < j → lineEnv.dops.sqrt (lineSq apartPts i j) < lineEnv.ar.dmax) j hj i hij

/-- The premises of C87 can be met, with `minPoints` 3 and 4. -/
theorem C87_premises : Untied 5 3 (distOf lineEnv.dops (lineSq apartPts)) ∧ Untied 5 4 (distOf lineEnv.dops (lineSq apartPts)) := by
  refine ⟨fun i hi => .inr (.inr fun j j' hj hj' hne he => ?_), fun i hi => .inr (.inr fun j j' hj hj' hne he => ?_)⟩ <;>
  exact absurd he ((by decide +kernel : ∀ i, i < 5 → ∀ j, j < 5 → ∀ j', j' < 5 → j ≠ j' → ¬ distOf lineEnv.dops (lineSq apartPts) i j = distOf lineEnv.dops (lineSq apartPts) i j') i hi j hj j' hj' hne)

/-- **C87 is violated** when distances are repeated: of the points 1, 0, 0, 3, 2 on a line, with `minPoints` 4 all belong to one cluster in the line of weight 2; with `minPoints` 3 the point 3 is
    noise in the line of weight 2. -/
theorem C87_violated :
    (Api.fresh lineEnv (backPar 5 5) 4 [1, 0, 0, 3, 2] 5 1 true >>= fun o => .ok o.results.hierarchy) = .ok [(1, 2, [1, 1, 1, 1, 1]), (0, 0, [0, 0, 0, 0, 0])] ∧
    (Api.fresh lineEnv (backPar 5 5) 3 [1, 0, 0, 3, 2] 5 1 true >>= fun o => .ok o.results.hierarchy) =
      .ok [(1, 3, [1, 1, 1, 1, 1]), (2, 2, [1, 1, 1, 0, 1]), (3, 1, [1, 1, 1, 0, 0]), (0, 0, [0, 0, 0, 0, 0])] := by
  constructor <;> decide +kernel

end Verif.Props
