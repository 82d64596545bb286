import Verif.Lemmas.AnyMain
import Verif.Lemmas.MstAny
import Verif.Props.Outlier
/-
Helper lemmas: the stages of a run without any bound on the distances.
-/
namespace Verif.Run
open Spec Relation Hier
variable {W S T : Type}

/-- The sorted spanning tree (a forest with extra edges of weight `dmax`, in general). -/
theorem sorted_any [LinearOrder W] (zero dmax : W) (dis : Distance W) (n : Nat) (hn : 1 ≤ n) (d : Nat → Nat → W) (core : Nat → W)
    (hget : ∀ i j, i < n → j < n → i ≠ j → dis.get zero i j = .ok (d i j)) (hsym : ∀ i j, d i j = d j i)
    (hcore : ∀ i, i < n → dis.coreDistances[i]? = some (some (core i))) (hle : ∀ i, i < n → core i ≤ dmax) :
    ∃ g g' : Graph W, Mst.construct zero dmax true dis n = .ok g ∧ (∀ w ∈ g.wt, w ≤ dmax) ∧ Graph.sortByWeight g = .ok g' ∧ g'.numVertices = n ∧
      1 ≤ g'.wt.length ∧ (∀ w ∈ g'.wt, w ≤ dmax) ∧
      (∃ f, Graph.ERep g' g'.wt.length f ∧ EW n g'.wt.length f ∧ DescW n g'.edges (prs f g'.wt.length) ∧ (∀ u, u < n → ∃ x, Jn f g'.wt.length u x) ∧
        (∀ M, M < dmax → ∀ u v, ConnectedBy ((List.range g'.wt.length).map f) M u v ↔ Reachable n (mutualReach d core) M u v) ∧
        ∀ i, i < g'.wt.length → (f i).1 = (f i).2.1 → core (f i).1 ≤ (f i).2.2) ∧
      (∀ M, M < dmax → ∀ u v, ConnectedBy (triples g'.va g'.vb g'.wt) M u v ↔ Reachable n (mutualReach d core) M u v) ∧
      (∀ w ∈ g'.wt, w = dmax ∨ (∃ i j, i < n ∧ j < n ∧ w = mutualReach d core i j) ∨ ∃ i, i < n ∧ w = core i) := by
  have hr : Mst.Ready zero dis n d core := ⟨hget, fun i hi => by simp [rdInit, rd, hcore i hi], hsym⟩
  obtain ⟨g, a, pi, N, D, e, a0, hrun, hN, hD, hva, hvb, hwt, hnv, hdes⟩ := Mst.construct_any hn hr
  have hl1 : g.va.length = g.wt.length := by rw [hva, hwt]; simp
  have hl2 : g.vb.length = g.wt.length := by rw [hvb, hwt]; simp
  have htr : triples g.va g.vb g.wt = (List.range (n - 1)).map (fun i => (N i, i, D i)) ++ (List.range n).map (fun v => (v, v, core v)) := by
    rw [triples, hva, hvb, hwt, List.zip_append (by simp), List.zip_append (by simp)]
    congr 1
    · apply List.ext_getElem
      · simp
      · intro i h1 h2; simp
    · apply List.ext_getElem
      · simp
      · intro i h1 h2; simp
  obtain ⟨g', e', hsort, hperm, hed, hnv', hl1', hl2'⟩ := Props.C23_edge_sort g hl1 hl2
  have hwle : ∀ w ∈ g.wt, w ≤ dmax := by
    intro w hw
    rw [hwt] at hw
    rcases List.mem_append.1 hw with h | h
    · obtain ⟨i, hi, rfl⟩ := List.mem_map.1 h
      exact (hN i (List.mem_range.1 hi)).2.1
    · obtain ⟨i, hi, rfl⟩ := List.mem_map.1 h
      exact hle i (List.mem_range.1 hi)
  have hwt' : ∀ x, x ∈ g'.wt → x ∈ g.wt := by
    intro x hx
    have h1 : ∀ (h : Graph W), h.va.length = h.wt.length → h.vb.length = h.wt.length → h.wt = (triples h.va h.vb h.wt).map (fun t => t.2.2) := by
      intro h q1 q2
      rw [triples]
      apply List.ext_getElem
      · simp [q1, q2]
      · intro i h1 h2; simp
    rw [h1 g' hl1' hl2'] at hx
    rw [h1 g hl1 hl2]
    exact (hperm.map _).mem_iff.1 hx
  have hlen : g'.wt.length = n - 1 + n := by
    have h1 := hperm.length_eq
    rw [htr] at h1
    simp [triples, hl1', hl2'] at h1
    exact h1
  have : Nonempty W := ⟨zero⟩
  obtain ⟨f, hf⟩ := Graph.exists_erep g' hl1' hl2'
  have hmem : ∀ i, i < g'.wt.length → f i ∈ triples g.va g.vb g.wt := by
    intro i hi
    refine hperm.mem_iff.1 ?_
    rw [Graph.triples_erep hf]
    exact List.mem_map.2 ⟨i, List.mem_range.2 hi, rfl⟩
  have hends : ∀ t ∈ triples g.va g.vb g.wt, t.1 < n ∧ t.2.1 < n := by
    intro t ht
    rw [htr] at ht
    rcases List.mem_append.1 ht with h | h
    · obtain ⟨i, hi, rfl⟩ := List.mem_map.1 h
      rw [List.mem_range] at hi
      exact ⟨(hN i hi).1, by simp only; omega⟩
    · obtain ⟨i, hi, rfl⟩ := List.mem_map.1 h
      exact ⟨List.mem_range.1 hi, List.mem_range.1 hi⟩
  have hz : ∀ h : Graph W, h.va.length = h.wt.length → h.vb.length = h.wt.length → h.va.zip h.vb = (triples h.va h.vb h.wt).map (fun t => (t.1, t.2.1)) := by
    intro h q1 q2
    rw [triples]
    apply List.ext_getElem
    · simp [q1, q2]
    · intro i h1 h2; simp
  have hzp : (g'.va.zip g'.vb).Perm (g.va.zip g.vb) := by
    rw [hz g' hl1' hl2', hz g hl1 hl2]; exact hperm.map _
  have hprs : prs f g'.wt.length = g'.va.zip g'.vb := by
    rw [hz g' hl1' hl2', Graph.triples_erep hf, List.map_map]; rfl
  have hconn : ∀ M, M < dmax → ∀ u v, ConnectedBy (triples g'.va g'.vb g'.wt) M u v ↔ Reachable n (mutualReach d core) M u v := by
    intro M hM u v
    have hms := Mst.mutualReach_symm (core := core) hsym
    have hreach : Reachable n (mutualReach d core) M u v ↔ Reachable n (Mst.cap dmax (mutualReach d core)) M u v := by
      have : (fun a b => a < n ∧ b < n ∧ a ≠ b ∧ mutualReach d core a b ≤ M) = (fun a b => a < n ∧ b < n ∧ a ≠ b ∧ Mst.cap dmax (mutualReach d core) a b ≤ M) := by
        funext a b; rw [Mst.cap_le hM]
      rw [Reachable, Reachable, this]
    rw [hreach, ← Prim.conn_iff_reachable hrun (Mst.cap_symm hms) M u v]
    have hiff : (fun a b => ∃ w, (a, b, w) ∈ triples g'.va g'.vb g'.wt ∧ w ≤ M) = (fun a b => ∃ w, (a, b, w) ∈ triples g.va g.vb g.wt ∧ w ≤ M) := by
      funext a b
      simp only [hperm.mem_iff]
    rw [ConnectedBy, hiff, htr]
    clear hreach
    constructor
    · intro h
      induction h with
      | rel x y hxy =>
        obtain ⟨w, hw, hle⟩ := hxy
        rcases List.mem_append.mp hw with hw | hw
        · obtain ⟨i, hi, he⟩ := List.mem_map.mp hw
          rw [List.mem_range] at hi
          simp only [Prod.mk.injEq] at he
          obtain ⟨rfl, rfl, rfl⟩ := he
          obtain ⟨t, ht, rfl⟩ := hrun.surj i (by omega)
          have ht0 : 0 < t := by
            rcases Nat.eq_zero_or_pos t with h0 | h0
            · subst h0; omega
            · exact h0
          obtain ⟨e1, e2⟩ := hD t ht0 ht
          have hlt := lt_of_le_of_lt hle hM
          rw [e2 hlt]
          exact .rel _ _ ⟨t, ht0, ht, rfl, rfl, by rw [← e1]; exact hle⟩
        · obtain ⟨i, hi, he⟩ := List.mem_map.mp hw
          simp only [Prod.mk.injEq] at he
          obtain ⟨rfl, rfl, rfl⟩ := he
          exact .refl _
      | refl => exact .refl _
      | symm _ _ _ ih => exact .symm _ _ ih
      | trans _ _ _ _ _ i1 i2 => exact .trans _ _ _ i1 i2
    · intro h
      refine Prim.eqv_mono ?_ h
      rintro x y ⟨t, h0, ht, rfl, rfl, hm⟩
      obtain ⟨e1, e2⟩ := hD t h0 ht
      rw [← e1] at hm
      have hne : a t ≠ n - 1 := by
        intro he
        have := hrun.inj t 0 ht (by omega) (by rw [he, a0])
        omega
      have := hrun.lt t ht
      refine ⟨D (a t), List.mem_append_left _ (List.mem_map.2 ⟨a t, List.mem_range.2 (by omega), ?_⟩), hm⟩
      rw [e2 (lt_of_le_of_lt hm hM)]
  refine ⟨g, g', e, hwle, e', by rw [hnv', hnv], by omega, fun w hw => hwle w (hwt' w hw), ⟨f, hf, ⟨?_, ?_⟩, ?_, ?_, ?_, ?_⟩, hconn, fun w hw => ?_⟩
  · exact fun i hi => hends _ (hmem i hi)
  · intro i j hij hj
    rcases Nat.lt_or_eq_of_le hij with h | h
    · rw [List.pairwise_iff_getElem] at hsort
      have := hsort i j (by omega) hj h
      have e : ∀ k (hk : k < g'.wt.length), g'.wt[k] = (f k).2.2 := by
        intro k hk
        have e1 : g'.wt[k]? = ((List.range g'.wt.length).map (fun i => (f i).2.2))[k]? := congrArg (·[k]?) hf.wt
        rw [List.getElem?_eq_getElem hk] at e1
        simpa [hk] using e1
      rw [e, e] at this
      exact this
    · subst h; exact le_refl _
  · rw [hprs, hed]
    exact .of ⟨hdes.1, fun v w hv => by rw [hdes.2 v w hv, hzp.countP_eq]⟩
  · intro u hu
    have : (u, u, core u) ∈ triples g'.va g'.vb g'.wt := by
      refine hperm.mem_iff.2 ?_
      rw [htr]
      exact List.mem_append_right _ (List.mem_map.2 ⟨u, List.mem_range.2 hu, rfl⟩)
    rw [Graph.triples_erep hf] at this
    obtain ⟨i, hi, he⟩ := List.mem_map.1 this
    exact ⟨u, i, List.mem_range.1 hi, .inl (by rw [he]; exact ⟨rfl, rfl⟩)⟩
  · intro M hM u v
    rw [← Graph.triples_erep hf]
    exact hconn M hM u v
  · intro i hi he
    have hmi := hmem i hi
    have hlt := (hends _ hmi).1
    rw [htr] at hmi
    rcases List.mem_append.1 hmi with h | h
    · obtain ⟨j, hj, ej⟩ := List.mem_map.1 h
      obtain ⟨j1, j2, j3⟩ := hN j (List.mem_range.1 hj)
      rw [← ej] at he hlt ⊢
      rcases lt_or_eq_of_le j2 with h' | h'
      · exact absurd he (j3 h').1
      · simp only at hlt ⊢
        rw [h']
        exact hle _ hlt
    · obtain ⟨j, hj, ej⟩ := List.mem_map.1 h
      rw [← ej]
  · have hw' := hwt' w hw
    rw [hwt] at hw'
    rcases List.mem_append.1 hw' with h | h
    · obtain ⟨i, hi, rfl⟩ := List.mem_map.1 h
      rw [List.mem_range] at hi
      obtain ⟨j1, j2, j3⟩ := hN i hi
      rcases lt_or_eq_of_le j2 with h' | h'
      · exact .inr (.inl ⟨N i, i, j1, by omega, (j3 h').2⟩)
      · exact .inl h'
    · obtain ⟨i, hi, rfl⟩ := List.mem_map.1 h
      exact .inr (.inr ⟨i, List.mem_range.1 hi, rfl⟩)

/-- The whole run, as far as it can be described without a bound on the distances. -/
theorem full_any [LinearOrder W] [CCmp S] [LinearOrder T] (qsort : (OScore W T → OScore W T → Int) → List (OScore W T) → List (OScore W T))
    (ar : Arith W S) (smax : S) (ops : Outlier.Ops W T) (m : Nat) (dis : Distance W) (n : Nat) (d : Nat → Nat → W) (core : Nat → W)
    (hq : SortsAscending qsort) (hm : 2 ≤ m) (hn1 : 1 ≤ n) (hn : n < 2 ^ 31)
    (hget : ∀ i j, i < n → j < n → i ≠ j → dis.get ar.zeroW i j = .ok (d i j)) (hsym : ∀ i j, d i j = d j i)
    (hcore : ∀ i, i < n → dis.coreDistances[i]? = some (some (core i))) (hle : ∀ i, i < n → core i ≤ ar.dmax) :
    ∃ (out : Run.Full W S T) (g g' : Graph W) (f : Nat → Nat × Nat × W) (res : Hier.Result W S) (hist : List (W × (Nat → Nat))) (cur : Nat → Nat)
        (noise : Nat → Option W) (last : Nat → Option Nat) (V : Nat → Cl W S) (sc : Nat → T),
      (∀ (sch : Run.Schedule) (order : List Nat), sch.Complete → order.Perm (List.range n) → Run.full qsort ar smax ops sch order m dis n = .ok out) ∧
      Mst.construct ar.zeroW ar.dmax true dis n = .ok g ∧ (∀ w ∈ g.wt, w ≤ ar.dmax) ∧ Graph.sortByWeight g = .ok g' ∧ g'.numVertices = n ∧
      (∀ w ∈ g'.wt, w ≤ ar.dmax) ∧ Graph.ERep g' g'.wt.length f ∧
      (∀ M, M < ar.dmax → ∀ u v, ConnectedBy ((List.range g'.wt.length).map f) M u v ↔ Reachable n (mutualReach d core) M u v) ∧
      (∀ i, i < g'.wt.length → (f i).1 = (f i).2.1 → core (f i).1 ≤ (f i).2.2) ∧
      Hier.compute ar m false g' = .ok res ∧ Base ar n m res hist cur noise last ∧ (∀ h ∈ hist, ∃ k', LineW n m g'.wt.length f h k') ∧
      out.hierarchy = res.hierarchy ∧ out.noise = res.noise ∧ out.last = res.last ∧ out.clusters.length = res.clusters.length ∧
      (∀ l, 1 ≤ l → l < res.clusters.length → out.clusters[l]? = some (some (V l)) ∧ ∃ c, res.clusters[l]? = some (some c) ∧ (V l).parent = c.parent ∧ (V l).birth = c.birth ∧
        (V l).death = c.death ∧ (V l).offset = c.offset) ∧
      (out.clusters[1]? = some (some (V 1)) ∧ ClusterTree out.clusters ∧ Selection out.clusters (V 1).desc ∧ out.labels.length = n ∧
        (∀ p l, l ≠ 0 → (out.labels[p]? = some l ↔ l ∈ (V 1).desc ∧ MemberAtBirth out.hierarchy l p)) ∧
        ∀ l ∈ (V 1).desc, AtLeast m (fun p => out.labels[p]? = some l)) ∧
      (∀ p l, l ≠ 0 → (out.labels[p]? = some l ↔ l ∈ (V 1).desc ∧ p < n ∧ lab hist cur (Sel.kOf ar res.clusters l).offset p = l)) ∧
      out.outliers = qsort outlierCompare ((List.range n).map (fun i => ⟨sc i, core i, i⟩)) ∧
      (out.outliers.map (·.id)).Perm (List.range n) ∧ out.outliers.Pairwise Before ∧ (∀ o ∈ out.outliers, o.id < n ∧ o.core = core o.id ∧ o.score = sc o.id) ∧
      NoOnlyChild out.clusters := by
  obtain ⟨g, g', e1, gle, e2, hnv, hM, hwle, ⟨f, hf, ec, hd, hself, hconn, hcs⟩, _⟩ := sorted_any ar.zeroW ar.dmax dis n hn1 d core hget hsym hcore hle
  obtain ⟨res, hist, cur, noise, last, ec', h, hline, htwin⟩ := Hier.any_rep (m := m) ar hf hM ec hnv (by omega) hm hd hself
  obtain ⟨s, V, hall, hx, hsel, labels, hlen, hprom, hiff⟩ := Sel.labels_rep h smax
  obtain ⟨htree, _, _⟩ := Sel.obs_tree h
  obtain ⟨hrr, ht, hout⟩ := Sel.tree_of (ar := ar) htree
  have hscore : ∀ p, ∃ t : T, p < n → Outlier.scoreOf ar.zeroW ops s.clusters res.noise res.last p = .ok t := by
    intro p
    by_cases hp : p < n
    · obtain ⟨w, l, c, n1, n2, n3, _⟩ := Sel.noise_ge h hp
      obtain ⟨l1, l2, _⟩ := h.bk.get n3
      have q1 : res.noise[p]? = some (some w) := by rw [h.noise]; simp [hp, n1]
      have q2 : res.last[p]? = some (some l) := by rw [h.last]; simp [hp, n2]
      refine ⟨if CCmp.eq w ar.zeroW then ops.zero else ops.ratio (V l).propLowest w, fun _ => ?_⟩
      simp [Outlier.scoreOf, Outlier.rdInit_ok q1, Outlier.rdInit_ok q2, Hier.getCl_ok (hx.rep.at' l l1 l2)]
    · exact ⟨ops.zero, fun hc => absurd hc hp⟩
  choose sc hsc using hscore
  have hcmp := Props.C39_compare ((List.range n).map (fun i => (⟨sc i, core i, i⟩ : OScore W T))) (by
    intro o ho
    obtain ⟨i, hi, rfl⟩ := List.mem_map.1 ho
    exact Nat.lt_trans (List.mem_range.1 hi) hn)
  obtain ⟨hord, hbef⟩ := hcmp
  obtain ⟨hperm, hsorted⟩ := hq _ _ hord
  have hids : ((qsort outlierCompare ((List.range n).map (fun i => (⟨sc i, core i, i⟩ : OScore W T)))).map (·.id)).Perm (List.range n) := by
    refine (hperm.map _).trans ?_
    rw [List.map_map]
    have : ((fun o : OScore W T => o.id) ∘ fun i => (⟨sc i, core i, i⟩ : OScore W T)) = id := rfl
    rw [this, List.map_id]
  refine ⟨{ clusters := s.clusters, hierarchy := res.hierarchy, noise := res.noise, last := res.last, infinite := s.infinite, labels := labels,
            outliers := qsort outlierCompare ((List.range n).map (fun i => ⟨sc i, core i, i⟩)) }, g, g', f, res, hist, cur, noise, last, V, sc, ?_, e1, gle, e2, hnv, hwle, hf, hconn, hcs, ec', h, hline, rfl, rfl, rfl,
            hx.rep.len, ?_, Sel.labels_spec h hx hsel hlen hiff, hiff, rfl, hids, ?_, ?_, ?_⟩
  · intro sch order hsch ho
    have hs := Outlier.scores_rep qsort (zeroW := ar.zeroW) (ops := ops) (cs := s.clusters) (noise := res.noise) (last := res.last) (fun i hi => hsc i hi) hcore ho
    simp only [Run.full, Run.doRun, Run.fromTree, e1, e2, ec', Outcome.ok_bind, hall _ (hsch.leaf _), hnv, hprom sch.group sch.steps hsch.group hsch.steps, Outcome.pure_eq, hs]
  · intro l l1 l2
    refine ⟨hx.rep.at' l l1 l2, Sel.kOf ar res.clusters l, hrr.at' l l1 l2, ?_⟩
    rw [hx.inv.stat]
    exact ⟨rfl, rfl, rfl, rfl⟩
  · have hnd := hids.nodup_iff.2 List.nodup_range
    rw [List.Nodup, List.pairwise_map] at hnd
    refine (hsorted.and hnd).imp_of_mem ?_
    intro a b ha hb hab
    have ha' := hperm.mem_iff.1 ha
    have hb' := hperm.mem_iff.1 hb
    rcases Outlier.before_total a b hab.2 with h | h
    · exact h
    · have := (hord.swap b hb' a ha').1 ((hbef b hb' a ha').2 h)
      have h0 := hab.1
      omega
  · intro o ho
    obtain ⟨i, hi, rfl⟩ := List.mem_map.1 (hperm.mem_iff.1 ho)
    exact ⟨List.mem_range.1 hi, rfl, rfl⟩
  · have hch := Sel.isChild_after htree hx
    intro l q hq
    obtain ⟨c, hc, hp⟩ := (hch l q).1 hq
    obtain ⟨l', c', s4, s5, s6⟩ := htwin l c q hc hp
    exact ⟨l', s4, (hch l' q).2 ⟨c', s5, s6⟩⟩

end Verif.Run
