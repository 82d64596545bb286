import Verif.Props.SingleLink
import Verif.Props.Flat
import Verif.Props.RaceMore
/-
C122: a row in a cluster is in the cluster of its nearest row.
-/
namespace Verif.Props
open Spec Race
variable {D W S T : Type}

private theorem mr_symm [LinearOrder W] {d : Nat → Nat → W} (hd : ∀ i j, d i j = d j i) (core : Nat → W) (i j : Nat) : mutualReach d core i j = mutualReach d core j i := by
  unfold mutualReach
  rw [hd i j, max_assoc, max_assoc, max_comm (core i)]

/-- Who reaches another row in steps of `w` has a row within `w`. -/
private theorem first_step [LinearOrder W] {n : Nat} {d : Nat → Nat → W} (hsym : ∀ i j, d i j = d j i) {w : W} {u v : Nat} (h : Reachable n d w u v) :
    u = v ∨ (∃ x, x < n ∧ x ≠ u ∧ d u x ≤ w) ∧ ∃ y, y < n ∧ y ≠ v ∧ d v y ≤ w := by
  induction h with
  | rel x y h => exact Or.inr ⟨⟨y, h.2.1, Ne.symm h.2.2.1, h.2.2.2⟩, ⟨x, h.1, h.2.2.1, by rw [hsym]; exact h.2.2.2⟩⟩
  | refl x => exact Or.inl rfl
  | symm x y _ ih =>
    rcases ih with rfl | ⟨a, b⟩
    · exact Or.inl rfl
    · exact Or.inr ⟨b, a⟩
  | trans x y z _ _ ih1 ih2 =>
    rcases ih1 with rfl | ⟨a, b⟩
    · exact ih2
    · rcases ih2 with rfl | ⟨a', b'⟩
      · exact Or.inr ⟨a, b⟩
      · exact Or.inr ⟨a, b'⟩

/-- In a set of two or more points that is a density cluster, the nearest point of a member is a member. -/
private theorem nearest_member [LinearOrder W] {n m : Nat} (hm : 2 ≤ m) {d : Nat → Nat → W} (hsym : ∀ i j, d i j = d j i) {b : W} {P : Nat → Prop} (hP : ∀ p, P p → p < n)
    (hmany : AtLeast m P) (h : DensityCluster n d b P) {p q : Nat} (hp : P p) (hq : q < n) (hqp : q ≠ p) (hnear : ∀ r, r < n → r ≠ p → d p q ≤ d p r) : P q := by
  obtain ⟨L, l1, l2, l3⟩ := hmany
  obtain ⟨x, hx, hxp⟩ : ∃ x ∈ L, x ≠ p := by
    by_contra hno
    push Not at hno
    have h4 : L = List.replicate L.length p := List.eq_replicate_iff.2 ⟨rfl, hno⟩
    have h6 := List.nodup_iff_count_le_one.1 l1 p
    rw [h4, List.count_replicate_self] at h6
    omega
  obtain ⟨w, hw, hr⟩ := ((h p hp).1 x (hP x (l3 x hx))).1 (l3 x hx)
  rcases first_step hsym hr with e | ⟨⟨y, y1, y2, y3⟩, -⟩
  · exact absurd e.symm hxp
  · exact ((h p hp).1 q hq).2 ⟨w, hw, .rel p q ⟨hP p hp, hq, Ne.symm hqp, le_trans (hnear y y1 y2) y3⟩⟩

/-- **C122.** On every supported data set of `5 ≤ rows ≤ 65536` points, for every `2 ≤ m ≤ rows` and whatever the threads do: a row with a label other than 0 shares it with every row
    that is nearest to it in mutual reachability distance. -/
theorem C122_nearest [LinearOrder W] [CCmp S] [LinearOrder T] (env : Api.Env D W S T) (hq : SortsAscending env.qsort) (data : List D) (rows cols : Nat) (f : Nat → Nat → W)
    (h : Supported env data rows cols f) (h5 : 5 ≤ rows) (m : Nat) (hm : 2 ≤ m) (hmr : m ≤ rows) (th : Threads) (hth : Interleaves th) :
    ∃ (obj : Api.Obj W S T) (core : Nat → W), (∀ par, Complete rows rows par → Race.fresh th env par m data rows cols true = .ok obj) ∧
      (∀ i, i < rows → obj.dis.coreDistances[i]? = some (some (core i))) ∧
      ∀ (p q l : Nat), l ≠ 0 → obj.results.labels[p]? = some l → q < rows → q ≠ p →
        (∀ r, r < rows → r ≠ p → mutualReach (distOf env.dops f) core p q ≤ mutualReach (distOf env.dops f) core p r) → obj.results.labels[q]? = some l := by
  obtain ⟨obj, core, a1, a2, a3, a4⟩ := C97_threads env hq data rows cols f h h5 m hm hmr th hth
  refine ⟨obj, core, a1, a2, fun p q l hl hp hqr hqp hnear => ?_⟩
  obtain ⟨b1, c, b, -, -, b2⟩ := a4 l hl (List.mem_iff_getElem?.2 ⟨p, hp⟩)
  exact nearest_member hm (mr_symm (distOf_symm env.dops f) core) (fun x hx => by have := (List.getElem?_eq_some_iff.1 hx).1; omega) b1 b2 hp hqr hqp hnear

/-- **C122 for `minPoints = 2`**: a row with a label other than 0 shares it with every row that is nearest to it. -/
theorem C122_two [LinearOrder W] [CCmp S] [LinearOrder T] (env : Api.Env D W S T) (hq : SortsAscending env.qsort) (data : List D) (rows cols : Nat) (f : Nat → Nat → W)
    (h : Supported env data rows cols f) (h5 : 5 ≤ rows) (hpos : ∀ i j, i < j → j < rows → env.dops.zero ≤ env.dops.sqrt (f i j)) (th : Threads) (hth : Interleaves th) :
    ∃ obj : Api.Obj W S T, (∀ par, Complete rows rows par → Race.fresh th env par 2 data rows cols true = .ok obj) ∧
      ∀ (p q l : Nat), l ≠ 0 → obj.results.labels[p]? = some l → q < rows → q ≠ p →
        (∀ r, r < rows → r ≠ p → distOf env.dops f p q ≤ distOf env.dops f p r) → obj.results.labels[q]? = some l := by
  obtain ⟨obj, core, a1, a2, a3⟩ := C122_nearest env hq data rows cols f h h5 2 (le_refl _) (by omega) th hth
  obtain ⟨o1, b1, b2, -⟩ := C119_single_linkage env hq data rows cols f h h5 hpos
  obtain ⟨o2, c1, c2, -⟩ := C63_threads_partial env hq data rows cols f h h5 2 (le_refl _) (by omega)
  have e : o2 = o1 := fresh_same c1 b1
  subst e
  obtain ⟨o3, lost, -, s2, s3⟩ := c2 th hth
  have e : o3 = obj := Outcome.ok.inj ((s3 _ (backPar_complete rows rows)).symm.trans (a1 _ (backPar_complete rows rows)))
  subst e
  have hcore : ∀ i, i < rows → ∃ j, j < rows ∧ j ≠ i ∧ core i = distOf env.dops f i j ∧ ∀ j', j' < rows → j' ≠ i → core i ≤ distOf env.dops f i j' := by
    intro i hi
    obtain ⟨j, j1, j2, j3, j4⟩ := b2 i hi
    have := a2 i hi
    rw [s2.dis, j3] at this
    have e := Option.some.inj (Option.some.inj this)
    exact ⟨j, j1, j2, e.symm, fun j' k1 k2 => e ▸ j4 j' k1 k2⟩
  have hmr : ∀ i j, i < rows → j < rows → i ≠ j → mutualReach (distOf env.dops f) core i j = distOf env.dops f i j := by
    intro i j hi hj hij
    obtain ⟨-, -, -, -, k1⟩ := hcore i hi
    obtain ⟨-, -, -, -, k2⟩ := hcore j hj
    unfold mutualReach
    rw [max_eq_left (k1 j hj (Ne.symm hij)), max_eq_left]
    rw [distOf_symm]
    exact k2 i hi hij
  refine ⟨o3, a1, fun p q l hl hp hqr hqp hnear => a3 p q l hl hp hqr hqp fun r hr hrp => ?_⟩
  have hpr : p < rows := by
    have e1 := (List.getElem?_eq_some_iff.1 hp).1
    obtain ⟨o4, k4, d1, -, d3, -⟩ := C97_threads env hq data rows cols f h h5 2 (le_refl _) (by omega) th hth
    have e : o4 = o3 := Outcome.ok.inj ((d1 _ (backPar_complete rows rows)).symm.trans (a1 _ (backPar_complete rows rows)))
    subst e
    omega
  rw [hmr p q hpr hqr (Ne.symm hqp), hmr p r hpr hr (Ne.symm hrp)]
  exact hnear r hr hrp

/-- Cases of C122: two clusters, of which hasty threads leave one. -/
example := C122_nearest lineEnv (isort_sorts _) linePts 5 1 (lineSq linePts) linePts_supported (by omega) 2 (by omega) (by omega) hasty hasty_interleaves
example := C122_two lineEnv (isort_sorts _) apartPts 5 1 (lineSq apartPts) apartPts_supported (by omega)
  (fun i j hij hj => (by decide +kernel : ∀ j, j < 5 → ∀ i, i < j → lineEnv.dops.zero ≤ lineEnv.dops.sqrt (lineSq apartPts i j)) j hj i hij) hasty hasty_interleaves

end Verif.Props
