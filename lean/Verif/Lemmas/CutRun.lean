import Verif.Lemmas.Cut
import Mathlib.Data.List.Sort
/-
Helper lemmas: a whole run with comparisons that are those of a linear order up to `dmax`.
-/
namespace Verif.Cut
open Spec Relation Hier
variable {D W S T : Type}

theorem compare_eq [LinearOrder W] [CCmp T] {dmax : W} (c : Cmp dmax) {a b : OScore W T} (ha : a.core ≤ dmax) (hb : b.core ≤ dmax) :
    @outlierCompare W T c.i _ a b = outlierCompare a b := by
  unfold outlierCompare
  rw [c.lt _ _ ha, c.lt _ _ hb, ccmp_lt, ccmp_lt]

/-- A conforming `qsort` does not see the difference either. -/
theorem qsort_eq [LinearOrder W] [LinearOrder T] {dmax : W} (c : Cmp dmax) {qsort : (OScore W T → OScore W T → Int) → List (OScore W T) → List (OScore W T)}
    (hq : SortsAscending qsort) {xs : List (OScore W T)} (hid : ∀ o ∈ xs, o.id < 2 ^ 31) (hle : ∀ o ∈ xs, o.core ≤ dmax)
    (hnd : (xs.map (·.id)).Nodup) : qsort (@outlierCompare W T c.i _) xs = qsort outlierCompare xs := by
  have he : ∀ a ∈ xs, ∀ b ∈ xs, @outlierCompare W T c.i _ a b = outlierCompare a b := fun a ha b hb => compare_eq c (hle a ha) (hle b hb)
  obtain ⟨hord, hbef⟩ := Props.C39_compare xs hid
  have hord' : OrderOn (@outlierCompare W T c.i _) xs :=
    ⟨fun a ha b hb => by rw [he a ha b hb, he b hb a ha]; exact hord.swap a ha b hb,
     fun a ha b hb d hd => by rw [he a ha b hb, he b hb d hd, he a ha d hd]; exact hord.trans a ha b hb d hd⟩
  obtain ⟨p1, s1⟩ := hq _ _ hord
  obtain ⟨p2, s2⟩ := hq _ _ hord'
  have s2' : (qsort (@outlierCompare W T c.i _) xs).Pairwise (fun a b => outlierCompare a b ≤ 0) := by
    refine s2.imp_of_mem (fun {a b} ha hb h => ?_)
    rw [← he a (p2.mem_iff.1 ha) b (p2.mem_iff.1 hb)]; exact h
  refine List.Perm.eq_of_pairwise (fun a b ha hb h1 h2 => ?_) s2' s1 (p2.trans p1.symm)
  have ha' := p2.mem_iff.1 ha
  have hb' := p1.mem_iff.1 hb
  by_contra hne
  have hids : a.id ≠ b.id := fun h => hne (List.inj_on_of_nodup_map hnd ha' hb' h)
  rcases Outlier.before_total a b hids with h | h
  · have := (hord.swap a ha' b hb').1 ((hbef a ha' b hb').2 h); omega
  · have := (hord.swap b hb' a ha').1 ((hbef b hb' a ha').2 h); omega

/-- The run with the comparisons `c` on one distance object is the run with the linear order on the other. -/
theorem full_eq [LinearOrder W] [CCmp S] [LinearOrder T] (qsort : (OScore W T → OScore W T → Int) → List (OScore W T) → List (OScore W T))
    (ar : Arith W S) (c : Cmp ar.dmax) (smax : S) (ops : Outlier.Ops W T) (m : Nat) (dis dis' : Distance W) (n : Nat) (d d' : Nat → Nat → W) (core : Nat → W)
    (hq : SortsAscending qsort) (hm : 2 ≤ m) (hn1 : 1 ≤ n) (hn : n < 2 ^ 31) (h : Pair ar.zeroW ar.dmax dis dis' n d d' core) (hsym : ∀ i j, d' i j = d' j i)
    (hcore : ∀ i, i < n → dis.coreDistances[i]? = some (some (core i))) (hcore' : ∀ i, i < n → dis'.coreDistances[i]? = some (some (core i)))
    (sch : Run.Schedule) (order : List Nat) (hsch : sch.Complete) (ho : order.Perm (List.range n)) :
    @Run.full W S T c.i _ _ qsort ar smax ops sch order m dis n = Run.full qsort ar smax ops sch order m dis' n := by
  obtain ⟨g, g', e1, gle, e2, hnv, hM, hwle, ⟨f, hf, ec, hd, hself, hconn, _⟩, _⟩ := Run.sorted_any ar.zeroW ar.dmax dis' n hn1 d' core h.get' hsym hcore' h.le
  obtain ⟨res, hist, cur, noise, last, ec', hb, hline, htwin⟩ := Hier.any_rep (m := m) ar hf hM ec hnv (by omega) hm hd hself
  obtain ⟨s, V, hall, hx, hsel, labels, hlen, hprom, hiff⟩ := Sel.labels_rep hb smax
  obtain ⟨htree, hfresh, _⟩ := Sel.obs_tree hb
  have hhist : ∀ (k : Nat) (w : W) (F : Nat → Nat), hist[k]? = some (w, F) → w ≤ ar.dmax := by
    intro k w F hk
    obtain ⟨k', hl⟩ := hline _ (List.mem_of_getElem? hk)
    obtain ⟨i, hi, hw⟩ := hl.at'
    have hw' : w = (f i).2.2 := by simpa using hw.symm
    rw [hw']
    refine hwle _ ?_
    rw [hf.wt]
    exact List.mem_map.2 ⟨i, List.mem_range.2 hi, rfl⟩
  have hlow : LowCl ar.dmax res.clusters := by
    intro x hx
    obtain ⟨l, hl⟩ := List.getElem?_of_mem hx
    obtain ⟨k, F, hk, _⟩ := Sel.death_at hb hl
    exact ⟨hhist _ _ _ hk, le_of_eq (hfresh l x hl).2.1⟩
  have hsc : ∀ p, ∃ t : T, p < n → Outlier.scoreOf ar.zeroW ops s.clusters res.noise res.last p = .ok t ∧
      @Outlier.scoreOf W S T c.i ar.zeroW ops s.clusters res.noise res.last p = .ok t := by
    intro p
    by_cases hp : p < n
    · obtain ⟨w, l, cl, n1, n2, n3, _, k, F, hk⟩ := Sel.noise_ge hb hp
      obtain ⟨l1, l2, _⟩ := hb.bk.get n3
      have q1 : res.noise[p]? = some (some w) := by rw [hb.noise]; simp [hp, n1]
      have q2 : res.last[p]? = some (some l) := by rw [hb.last]; simp [hp, n2]
      refine ⟨if CCmp.eq w ar.zeroW then ops.zero else ops.ratio (V l).propLowest w, fun _ => ?_⟩
      have := hhist _ _ _ hk
      simp [Outlier.scoreOf, Outlier.rdInit_ok q1, Outlier.rdInit_ok q2, Hier.getCl_ok (hx.rep.at' l l1 l2), c.eq _ _ this]
    · exact ⟨ops.zero, fun hc => absurd hc hp⟩
  choose sc hsc using hsc
  have hs := Outlier.scores_rep qsort (zeroW := ar.zeroW) (ops := ops) (cs := s.clusters) (noise := res.noise) (last := res.last) (fun i hi => (hsc i hi).1) hcore' ho
  have hs' := @Outlier.scores_rep W S T c.i _ qsort ar.zeroW ops s.clusters res.noise res.last _ n sc core (fun i hi => (hsc i hi).2) hcore order ho
  rw [qsort_eq c hq (by
    intro o ho
    obtain ⟨i, hi, rfl⟩ := List.mem_map.1 ho
    exact Nat.lt_trans (List.mem_range.1 hi) hn) (by
    intro o ho
    obtain ⟨i, hi, rfl⟩ := List.mem_map.1 ho
    exact h.le i (List.mem_range.1 hi)) (by
    rw [List.map_map]
    have : ((fun o : OScore W T => o.id) ∘ fun i => (⟨sc i, core i, i⟩ : OScore W T)) = id := rfl
    rw [this, List.map_id]
    exact List.nodup_range)] at hs'
  have k1 : @Mst.construct W c.i ar.zeroW ar.dmax true dis n = .ok g := by rw [construct_eq c h hn1, e1]
  have k2 : @Graph.sortByWeight W c.i g = .ok g' := by rw [sort_eq c gle, e2]
  have k3 : @Hier.compute W S c.i ar m false g' = .ok res := by rw [compute_eq c hwle, ec']
  have k4 : ∀ N, @Sel.propagateTree W S c.i _ ar smax (sch.leaf N) res.clusters = Sel.propagateTree ar smax (sch.leaf N) res.clusters := fun N => tree_eq c ar smax _ hlow
  simp only [Run.full, Run.doRun, Run.fromTree, k1, k2, k3, k4, e1, e2, ec', Outcome.ok_bind, hall _ (hsch.leaf _), hnv, hprom sch.group sch.steps hsch.group hsch.steps, Outcome.pure_eq, hs, hs']

end Verif.Cut
