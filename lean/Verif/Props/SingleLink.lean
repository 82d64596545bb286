import Verif.Props.Perturb
import Verif.Props.Levels
import Verif.Props.Double
/-
C119: with minPoints 2 the hierarchy is that of single linkage.
-/
namespace Verif.Props
open Spec
variable {D W S T : Type}

private theorem dist_nonneg [LinearOrder W] {ops : DistOps D W} {f : Nat → Nat → W} {rows : Nat} (hpos : ∀ i j, i < j → j < rows → ops.zero ≤ ops.sqrt (f i j)) {i j : Nat} (hi : i < rows) (hj : j < rows) :
    ops.zero ≤ distOf ops f i j := by
  unfold distOf
  rcases Nat.lt_trichotomy i j with a | a | a
  · rw [if_pos a]; exact hpos i j a hj
  · rw [if_neg (by omega), if_pos a]
  · rw [if_neg (by omega), if_neg (by omega)]; exact hpos j i a hi

/-- Two different positions that satisfy a test are counted twice. -/
private theorem two_le_count {n : Nat} {p : Nat → Bool} {i j : Nat} (hi : i < n) (hj : j < n) (hij : i ≠ j) (h1 : p i = true) (h2 : p j = true) : 2 ≤ (List.range n).countP p := by
  rw [List.countP_eq_length_filter]
  have : [i, j].Subperm ((List.range n).filter p) := by
    refine List.Nodup.subperm (by simp [hij]) fun x hx => ?_
    rw [List.mem_filter, List.mem_range]
    rcases List.mem_cons.1 hx with rfl | hx
    · exact ⟨hi, h1⟩
    · rw [List.mem_singleton.1 hx]; exact ⟨hj, h2⟩
  exact this.length_le

/-- The second smallest distance is that of the nearest other row. -/
private theorem nearest [LinearOrder W] {n i : Nat} {d : Nat → W} (hi : i < n) (h0 : ∀ j, j < n → d i ≤ d j) {x : W} (h : IsKth ((List.range n).map d) 2 x) :
    (∀ j, j < n → j ≠ i → x ≤ d j) ∧ ∃ j, j < n ∧ j ≠ i ∧ d j = x := by
  obtain ⟨h1, h2⟩ := h
  rw [List.countP_map] at h1 h2
  have hle : ∀ j, j < n → j ≠ i → x ≤ d j := by
    intro j hj hji
    by_contra hlt
    rw [not_le] at hlt
    have := two_le_count (p := (fun t => decide (t < x)) ∘ d) hi hj (Ne.symm hji) (by simpa using lt_of_le_of_lt (h0 j hj) hlt) (by simpa using hlt)
    omega
  refine ⟨hle, ?_⟩
  by_contra hno
  push Not at hno
  have : (List.range n).countP ((fun t => decide (t ≤ x)) ∘ d) ≤ 1 := by
    rw [List.countP_eq_length_filter]
    have : ((List.range n).filter ((fun t => decide (t ≤ x)) ∘ d)).Subperm [i] := by
      refine List.Nodup.subperm (List.nodup_range.filter _) fun j hj => ?_
      simp only [List.mem_filter, List.mem_range, Function.comp, decide_eq_true_eq] at hj
      by_contra hji
      rw [List.mem_singleton] at hji
      exact hno j hj.1 hji (le_antisymm hj.2 (hle j hj.1 hji))
    exact this.length_le
  omega

private theorem reach_congr [LinearOrder W] {n : Nat} {a b : Nat → Nat → W} (h : ∀ i j, i < n → j < n → i ≠ j → a i j = b i j) {w : W} {u v : Nat} : Reachable n a w u v ↔ Reachable n b w u v := by
  have key : ∀ {a b : Nat → Nat → W}, (∀ i j, i < n → j < n → i ≠ j → a i j = b i j) → Reachable n a w u v → Reachable n b w u v := fun h hr =>
    Relation.EqvGen.mono (fun x y hxy => ⟨hxy.1, hxy.2.1, hxy.2.2.1, by rw [← h x y hxy.1 hxy.2.1 hxy.2.2.1]; exact hxy.2.2.2⟩) u v hr
  exact ⟨key h, key fun i j hi hj hij => (h i j hi hj hij).symm⟩

/-- Who reaches another row has a row within that distance. -/
private theorem reach_step [LinearOrder W] {n : Nat} {d : Nat → Nat → W} (hsym : ∀ i j, d i j = d j i) {w : W} {u v : Nat} (h : Reachable n d w u v) :
    u = v ∨ (∃ x, x < n ∧ x ≠ u ∧ d u x ≤ w) ∧ ∃ y, y < n ∧ y ≠ v ∧ d v y ≤ w := by
  induction h with
  | rel x y h => exact Or.inr ⟨⟨y, h.2.1, Ne.symm h.2.2.1, h.2.2.2⟩, ⟨x, h.1, h.2.2.1, by rw [hsym]; exact h.2.2.2⟩⟩
  | refl x => exact Or.inl rfl
  | symm x y _ ih =>
    rcases ih with rfl | ⟨a, b⟩
    · exact Or.inl rfl
    · exact Or.inr ⟨b, a⟩
  | trans x y z _ _ ih1 ih2 =>
    rcases ih1 with rfl | ⟨a, b⟩
    · exact ih2
    · rcases ih2 with rfl | ⟨a', b'⟩
      · exact Or.inr ⟨a, b⟩
      · exact Or.inr ⟨a, b'⟩

private theorem distOf_symm' {ops : DistOps D W} {f : Nat → Nat → W} (i j : Nat) : distOf ops f i j = distOf ops f j i := distOf_symm ops f i j

theorem sqrt_nonneg' (x : F64) : 0 ≤ (F64.sqrt x).1 := by
  show 0 ≤ Binary64.flSqrt x.1
  unfold Binary64.flSqrt Binary64.root
  refine mul_nonneg (Int.cast_nonneg ?_) (zpow_nonneg (by norm_num) _)
  unfold Binary64.roundSqrt
  dsimp only
  split_ifs <;> positivity

/-- **C119.** On every supported data set of `5 ≤ rows ≤ 65536` points whose distances are not negative, a run with `minPoints = 2` gives single linkage:
    the core distance of a row is the distance of its nearest other row; the levels of the hierarchy (but for line 0) are exactly the levels at which two rows get connected by steps of that
    length; in the line of a level two rows carry the same label other than 0 exactly when they are connected by steps of at most that length, and a row is noise exactly when all other rows are
    farther away. -/
theorem C119_single_linkage [LinearOrder W] [CCmp S] [LinearOrder T] (env : Api.Env D W S T) (hq : SortsAscending env.qsort) (data : List D) (rows cols : Nat) (f : Nat → Nat → W)
    (h : Supported env data rows cols f) (h5 : 5 ≤ rows) (hpos : ∀ i j, i < j → j < rows → env.dops.zero ≤ env.dops.sqrt (f i j)) :
    ∃ obj : Api.Obj W S T, (∀ par, Complete rows rows par → Api.fresh env par 2 data rows cols true = .ok obj) ∧
      (∀ i, i < rows → ∃ j, j < rows ∧ j ≠ i ∧ obj.dis.coreDistances[i]? = some (some (distOf env.dops f i j)) ∧ ∀ j', j' < rows → j' ≠ i → distOf env.dops f i j ≤ distOf env.dops f i j') ∧
      (∀ w, (∃ i, i ≠ 0 ∧ HasWeight obj.results.hierarchy i w) ↔ ∃ u v, MeetAt rows (distOf env.dops f) w u v) ∧
      ∀ i w A, (i, w, A) ∈ obj.results.hierarchy → i ≠ 0 → A.length = rows ∧
        (∀ u v : Nat, u < rows → v < rows → u ≠ v → ((∃ l, l ≠ 0 ∧ A[u]? = some l ∧ A[v]? = some l) ↔ Reachable rows (distOf env.dops f) w u v)) ∧
        (∀ u : Nat, u < rows → (A[u]? = some 0 ↔ ∀ v, v < rows → v ≠ u → w < distOf env.dops f u v)) := by
  obtain ⟨obj, core, hf, hcore, hline⟩ := run_kth env hq data rows cols f h h5 2 (by omega) (by omega) (fun i _ => Or.inl (le_refl 2))
  obtain ⟨objS, coreS, gS, resS, hfS, r1, r2, gS', hcS, hmax, -, -, -, -, -, hfull⟩ := stages hq h h5 (show 2 ≤ 2 by omega) (show 2 ≤ rows by omega)
  have hpar := backPar_complete rows rows
  have e1 : objS = obj := by have a := hfS _ hpar; rw [hf _ hpar] at a; exact (Outcome.ok.inj a).symm
  subst e1
  have hnear := fun i (hi : i < rows) => nearest hi (fun j hj => by
    have : distOf env.dops f i i = env.dops.zero := by unfold distOf; rw [if_neg (by omega), if_pos rfl]
    rw [this]; exact dist_nonneg hpos hi hj) (hcore i hi).2
  have hmr : ∀ i j, i < rows → j < rows → i ≠ j → mutualReach (distOf env.dops f) core i j = distOf env.dops f i j := by
    intro i j hi hj hij
    unfold mutualReach
    rw [max_eq_left ((hnear i hi).1 j hj (Ne.symm hij)), max_eq_left]
    rw [distOf_symm']
    exact (hnear j hj).1 i hi hij
  have hR : ∀ {w u v}, Reachable rows (mutualReach (distOf env.dops f) core) w u v ↔ Reachable rows (distOf env.dops f) w u v := fun {w u v} => reach_congr hmr
  have htwo : ∀ {w : W} {u v : Nat}, u ≠ v → Reachable rows (distOf env.dops f) w u v → AtLeast 2 (fun x => Reachable rows (mutualReach (distOf env.dops f) core) w u x) := by
    intro w u v huv hr
    refine ⟨[u, v], by simp [huv], le_refl _, fun x hx => hR.2 ?_⟩
    rcases List.mem_cons.1 hx with rfl | hx
    · exact .refl _
    · rw [List.mem_singleton.1 hx]; exact hr
  refine ⟨objS, hf, fun i hi => ?_, fun w => ?_, fun i w A hA hi => ?_⟩
  · obtain ⟨j, hj, hji, e⟩ := (hnear i hi).2
    exact ⟨j, hj, hji, by rw [e]; exact (hcore i hi).1, fun j' hj' hji' => by rw [e]; exact (hnear i hi).1 j' hj' hji'⟩
  · obtain ⟨-, res, e2, e3⟩ := full_hierarchy (hfull seqSchedule (List.range rows) seqSchedule_complete (.refl _))
    have hfew := h.few
    have hcc : ∀ i, i < rows → core i = coreS i := fun i hi => by have a := (hcS i hi).1; rw [(hcore i hi).1] at a; exact Option.some.inj (Option.some.inj a)
    obtain ⟨res', b1, b2⟩ := C27_levels env.ar 2 (by omega) objS.dis rows (by omega) (by omega) (distOf env.dops f) core
      (fun i j hi hj _ => by rw [← h.zero]; exact gS' i j hi hj) (fun i j => distOf_symm' i j) (fun i hi => (hcore i hi).1)
      (fun i j hi hj hij => by have := hmax i j hi hj hij; unfold mutualReach at this ⊢; rw [hcc i hi, hcc j hj]; exact this)
    rw [e2] at b1; cases b1
    rw [show objS.results.hierarchy = res.hierarchy from e3.symm, b2]
    constructor
    · rintro ⟨u, v, ⟨huv, m1, m2⟩, -⟩
      exact ⟨u, v, huv, hR.1 m1, fun w' hw' hr => m2 w' hw' (hR.2 hr)⟩
    · rintro ⟨u, v, huv, m1, m2⟩
      exact ⟨u, v, ⟨huv, hR.2 m1, fun w' hw' hr => m2 w' hw' (hR.1 hr)⟩, htwo huv m1⟩
  · obtain ⟨len, same, noise⟩ := hline i w A hA hi
    have hget : ∀ x, x < rows → ∃ l, A[x]? = some l := fun x hx => ⟨_, List.getElem?_eq_getElem (by omega)⟩
    refine ⟨len, fun u v hu hv huv => ?_, fun u hu => ?_⟩
    · constructor
      · rintro ⟨l, hl, a1, a2⟩
        exact hR.1 ((same u v l l a1 a2 hl hl).1 rfl)
      · intro hr
        obtain ⟨lu, a1⟩ := hget u hu
        obtain ⟨lv, a2⟩ := hget v hv
        have n1 : lu ≠ 0 := fun e => (noise u lu a1).1 e (htwo huv hr)
        have n2 : lv ≠ 0 := fun e => (noise v lv a2).1 e (htwo (Ne.symm huv) (.symm _ _ hr))
        have e := (same u v lu lv a1 a2 n1 n2).2 (hR.2 hr)
        exact ⟨lu, n1, a1, by rw [a2, e]⟩
    · obtain ⟨lu, a1⟩ := hget u hu
      rw [a1]
      constructor
      · intro e v hv hvu
        by_contra hle
        rw [not_lt] at hle
        exact (noise u lu a1).1 (Option.some.inj e) (htwo (Ne.symm hvu) (.rel _ _ ⟨hu, hv, Ne.symm hvu, hle⟩))
      · intro hfar
        congr 1
        rw [noise u lu a1]
        rintro ⟨L, q1, q2, q3⟩
        have : ∀ x ∈ L, x = u := by
          intro x hx
          rcases reach_step distOf_symm' (hR.1 (q3 x hx)) with e | ⟨⟨y, y1, y2, y3⟩, -⟩
          · exact e.symm
          · exact absurd y3 (not_le.2 (hfar y y1 y2))
        have h4 : L = List.replicate L.length u := List.eq_replicate_iff.2 ⟨rfl, this⟩
        have h6 := List.nodup_iff_count_le_one.1 q1 u
        rw [h4, List.count_replicate_self] at h6
        omega

/-- C119 for doubles, rounding included: square roots are not negative. -/
theorem C119_doubles (qsort : (OScore F64 F64 → OScore F64 F64 → Int) → List (OScore F64 F64) → List (OScore F64 F64)) (hq : SortsAscending qsort) (data : List F64) (rows cols : Nat)
    (f : Nat → Nat → F64) (h : Supported (doubleEnv qsort) data rows cols f) (h5 : 5 ≤ rows) :
    ∃ obj : Api.Obj F64 F64 F64, (∀ par, Complete rows rows par → Api.fresh (doubleEnv qsort) par 2 data rows cols true = .ok obj) ∧
      (∀ w, (∃ i, i ≠ 0 ∧ HasWeight obj.results.hierarchy i w) ↔ ∃ u v, MeetAt rows (distOf doubleDist f) w u v) ∧
      ∀ i w A, (i, w, A) ∈ obj.results.hierarchy → i ≠ 0 → A.length = rows ∧
        (∀ u v : Nat, u < rows → v < rows → u ≠ v → ((∃ l, l ≠ 0 ∧ A[u]? = some l ∧ A[v]? = some l) ↔ Reachable rows (distOf doubleDist f) w u v)) ∧
        (∀ u : Nat, u < rows → (A[u]? = some 0 ↔ ∀ v, v < rows → v ≠ u → w < distOf doubleDist f u v)) := by
  obtain ⟨obj, a, -, b, c⟩ := C119_single_linkage (doubleEnv qsort) hq data rows cols f h h5 (fun i j _ _ => by
    show (F64.of 0).1 ≤ (F64.sqrt (f i j)).1
    rw [show (F64.of 0).1 = 0 by decide +kernel]
    exact sqrt_nonneg' _)
  exact ⟨obj, a, b, c⟩

/-- A case: eight doubles. -/
example := C119_doubles isort (isort_sorts _) roundPts 8 1 (doubleSq roundPts) roundPts_supported (by omega)

/-- A case of C119: the points 0, 1, 3, 7, 15. -/
example := C119_single_linkage lineEnv (isort_sorts _) apartPts 5 1 (lineSq apartPts) apartPts_supported (by omega)
  (fun i j hij hj => (by decide +kernel : ∀ j, j < 5 → ∀ i, i < j → lineEnv.dops.zero ≤ lineEnv.dops.sqrt (lineSq apartPts i j)) j hj i hij)

/-- Its hierarchy. -/
example : (Api.fresh lineEnv (backPar 5 5) 2 apartPts 5 1 true >>= fun o => .ok o.results.hierarchy) =
    .ok [(1, 8, [1, 1, 1, 1, 1]), (2, 4, [1, 1, 1, 1, 0]), (3, 2, [1, 1, 1, 0, 0]), (4, 1, [1, 1, 0, 0, 0]), (0, 0, [0, 0, 0, 0, 0])] := by decide +kernel

end Verif.Props
