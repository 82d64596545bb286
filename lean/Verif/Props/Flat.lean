import Verif.Spec.Flat
import Verif.Props.RaceMore
import Mathlib.Data.Finset.Max
/-
C97: every flat cluster is a density cluster of its own, and there is never just one.
-/
namespace Verif.Props
open Spec Race
variable {D W S T : Type}

theorem reach_le [LinearOrder W] {n : Nat} {m : Nat → Nat → W} {v w : W} (hvw : v ≤ w) {i j : Nat} (h : Reachable n m v i j) : Reachable n m w i j := by
  induction h with
  | rel a b hab => exact .rel a b ⟨hab.1, hab.2.1, hab.2.2.1, hab.2.2.2.trans hvw⟩
  | refl => exact .refl _
  | symm _ _ _ ih => exact .symm _ _ ih
  | trans _ _ _ _ _ i1 i2 => exact .trans _ _ _ i1 i2

/-- Two connected points are connected at one of the mutual reachability distances. -/
theorem reach_value [LinearOrder W] {n : Nat} {m : Nat → Nat → W} {w : W} {i j : Nat} (h : Reachable n m w i j) :
    i = j ∨ ∃ a b, a < n ∧ b < n ∧ m a b ≤ w ∧ Reachable n m (m a b) i j := by
  induction h with
  | rel a b hab => exact .inr ⟨a, b, hab.1, hab.2.1, hab.2.2.2, .rel a b ⟨hab.1, hab.2.1, hab.2.2.1, le_refl _⟩⟩
  | refl => exact .inl rfl
  | symm _ _ _ ih =>
    rcases ih with h | ⟨a, b, h1, h2, h3, h4⟩
    · exact .inl h.symm
    · exact .inr ⟨a, b, h1, h2, h3, .symm _ _ h4⟩
  | trans x y z _ _ i1 i2 =>
    rcases i1 with rfl | ⟨a, b, h1, h2, h3, h4⟩
    · exact i2
    · rcases i2 with rfl | ⟨a', b', g1, g2, g3, g4⟩
      · exact .inr ⟨a, b, h1, h2, h3, h4⟩
      · rcases le_total (m a b) (m a' b') with hle | hle
        · exact .inr ⟨a', b', g1, g2, g3, .trans _ _ _ (reach_le hle h4) g4⟩
        · exact .inr ⟨a, b, h1, h2, h3, .trans _ _ _ h4 (reach_le hle g4)⟩

/-- Two connected points have a level at which they meet. -/
theorem meet_exists [LinearOrder W] {n : Nat} {m : Nat → Nat → W} {w : W} {i j : Nat} (hij : i ≠ j) (h : Reachable n m w i j) : ∃ w0, w0 ≤ w ∧ MeetAt n m w0 i j := by
  classical
  let F : Finset (Nat × Nat) := ((Finset.range n) ×ˢ (Finset.range n)).filter (fun x => Reachable n m (m x.1 x.2) i j)
  have hF : ∀ a b, (a, b) ∈ F ↔ (a < n ∧ b < n) ∧ Reachable n m (m a b) i j := by
    intro a b
    simp only [F, Finset.mem_filter, Finset.mem_product, Finset.mem_range]
  rcases reach_value h with e | ⟨a, b, h1, h2, h3, h4⟩
  · exact absurd e hij
  obtain ⟨x, hx, hmin⟩ := Finset.exists_min_image F (fun x => m x.1 x.2) ⟨(a, b), (hF a b).2 ⟨⟨h1, h2⟩, h4⟩⟩
  refine ⟨m x.1 x.2, (hmin (a, b) ((hF a b).2 ⟨⟨h1, h2⟩, h4⟩)).trans h3, hij, ((hF x.1 x.2).1 hx).2, fun w' hw' hr => ?_⟩
  rcases reach_value hr with e | ⟨a', b', g1, g2, g3, g4⟩
  · exact hij e
  · exact absurd (lt_of_le_of_lt ((hmin (a', b') ((hF a' b').2 ⟨⟨g1, g2⟩, g4⟩)).trans g3) hw') (lt_irrefl _)

/-- A tree in which no cluster is an only child has no selection of a single cluster. -/
theorem selection_two {cs : List (Option (Cl W S))} (h : ClusterTree cs) (htwo : ∀ l q, IsChild cs l q → ∃ l', l' ≠ l ∧ IsChild cs l' q) {T : List Nat} (hT : Selection cs T)
    {l : Nat} (hl : l ∈ T) : ∃ l' ∈ T, l' ≠ l := by
  obtain ⟨q, hq⟩ := hT.notRoot l hl
  obtain ⟨l', hne, hq'⟩ := htwo l q hq
  have huniq : Relator.RightUnique (IsChild cs) := by
    rintro a b c ⟨x, h1, h2⟩ ⟨y, h3, h4⟩
    rw [h1] at h3; cases h3
    rw [h2] at h4; cases h4; rfl
  have hdown : ∀ k x, cs.length - x ≤ k → (∃ q, IsChild cs x q) → ∃ y, Leaf cs y ∧ AtOrAbove cs x y := by
    intro k
    induction k with
    | zero =>
      rintro x hx ⟨q, c, hc, _⟩
      have := (List.getElem?_eq_some_iff.1 hc).1
      omega
    | succ k ih =>
      intro x hx hp
      by_cases hk : ∃ y, IsChild cs y x
      · obtain ⟨y, hy⟩ := hk
        have := (h.up y x hy).2
        obtain ⟨z, hz, hyz⟩ := ih y (by omega) ⟨x, hy⟩
        exact ⟨z, hz, hyz.trans (.single hy)⟩
      · exact ⟨x, ⟨hp, fun y hy => hk ⟨y, hy⟩⟩, .refl⟩
  have hmono : ∀ a b, AtOrAbove cs a b → a ≤ b := by
    intro a b hab
    induction hab with
    | refl => exact le_refl _
    | tail _ h2 ih => exact ((h.up _ _ h2).2.le).trans ih
  obtain ⟨y, hy, hly⟩ := hdown _ l' (le_refl _) ⟨q, hq'⟩
  obtain ⟨t, ht, hty⟩ := hT.covers y hy
  refine ⟨t, ht, ?_⟩
  rintro rfl
  have aux : ∀ a b, a ≠ b → IsChild cs a q → IsChild cs b q → ¬ AtOrAbove cs a b := by
    intro a b hab ha hb hc
    rcases Relation.ReflTransGen.cases_head hc with e | ⟨z, hz, hza⟩
    · exact hab e.symm
    · have := huniq hz hb
      subst this
      have h1 := hmono _ _ hza
      have h2 := (h.up _ _ ha).2
      omega
  rcases Relation.ReflTransGen.total_of_right_unique huniq hty hly with h1 | h1
  · exact aux l' t hne hq' hq h1
  · exact aux t l' hne.symm hq hq' h1

/-- The labels of a run over distances `d` and core distances `core`. -/
theorem out_flat [LinearOrder W] [CCmp S] (ar : Arith W S) (smax : S) (sch : Run.Schedule) (hsch : sch.Complete) (minPoints : Nat) (hm : 2 ≤ minPoints) (dis : Distance W)
    (n : Nat) (hsize : minPoints ≤ n) (hn : n < 2 ^ 32) (d : Nat → Nat → W) (core : Nat → W)
    (hget : ∀ i j, i < n → j < n → i ≠ j → dis.get ar.zeroW i j = .ok (d i j)) (hsym : ∀ i j, d i j = d j i)
    (hcore : ∀ i, i < n → dis.coreDistances[i]? = some (some (core i)))
    (hmax : ∀ i j, i < n → j < n → i ≠ j → mutualReach d core i j < ar.dmax) {out : Run.Out W S} (hout : Run.doRun ar smax sch minPoints dis n = .ok out) :
    (∀ l, l ≠ 0 → l ∈ out.labels → ∃ (c : Cl W S) (b : W), out.clusters[l]? = some (some c) ∧ c.birth = some b ∧
      ∀ p : Nat, out.labels[p]? = some l →
        (∀ q, q < n → (out.labels[q]? = some l ↔ ∃ w, w < b ∧ Reachable n (mutualReach d core) w p q)) ∧
        ∃ q, q < n ∧ Reachable n (mutualReach d core) b p q ∧ out.labels[q]? ≠ some l) ∧
    (∀ l, l ≠ 0 → l ∈ out.labels → ∃ l', l' ≠ 0 ∧ l' ≠ l ∧ l' ∈ out.labels) := by
  obtain ⟨g, g', e1, e2, e3, hin, hconn, _⟩ := Run.sorted_mst ar.zeroW ar.dmax dis n (by omega) d core hget hsym hcore hmax
  obtain ⟨res, hres, hlev⟩ := C27_levels ar minPoints hm dis n hsize hn d core hget hsym hcore hmax
  obtain ⟨res1, hres1, hden⟩ := C26_data ar minPoints hm dis n hsize hn d core hget hsym hcore hmax
  rw [hres] at hres1; cases hres1
  subst e3
  obtain ⟨res2, hres2, hbirth, _⟩ := C29_birth ar g' minPoints (by omega) hn hin
  obtain ⟨f, hr, ec, hd, hs, htr⟩ := Hier.input_rep hin
  obtain ⟨res', hist, cur, noise, last, e, h⟩ := Hier.obs ar hr hin.nonempty ec rfl hn (show 1 ≤ minPoints by omega) hd hs
  rw [Run.hierarchy, e1] at hres
  simp only [Outcome.ok_bind, e2] at hres
  rw [e] at hres; cases hres
  rw [e] at hres2; cases hres2
  obtain ⟨s, V, hall, hx, hsel, labels, hlen, hprom, hiff⟩ := Sel.labels_rep h.toBase smax
  simp only [Run.doRun, e1, e2, Outcome.ok_bind, Run.fromTree, e, hall _ (hsch.leaf _), hprom sch.group sch.steps hsch.group hsch.steps, Outcome.pure_eq] at hout
  cases hout
  obtain ⟨t1, t2, t3, t4, t5, t6⟩ := Sel.labels_spec h.toBase hx hsel hlen hiff
  obtain ⟨htree, _, _⟩ := Sel.obs_tree h.toBase
  obtain ⟨hrr, ht, _⟩ := Sel.tree_of (ar := ar) htree
  have hch := Sel.isChild_after htree hx
  have hN := htree.two
  simp only
  constructor
  · intro l hl0 hl
    obtain ⟨p0, hp0⟩ := List.mem_iff_getElem?.1 hl
    have hdesc := ((t5 p0 l hl0).1 hp0).1
    obtain ⟨q, hq⟩ := t3.notRoot l hdesc
    have hq1 := t2.up l q hq
    have hq' := (hch l q).1 hq
    obtain ⟨c0, hc0, hpar0⟩ := hq'
    have hlt := (List.getElem?_eq_some_iff.1 hc0).1
    obtain ⟨q0, b, i, b1, b2, b3, b4, b5, b6, b7, b8⟩ := hbirth l c0 hc0 (by omega)
    rw [hpar0] at b1; cases b1
    have hk : Sel.kOf ar res.clusters l = c0 := by
      have := hrr.at' l (by omega) hlt
      rw [hc0] at this; cases this; rfl
    refine ⟨V l, b, hx.rep.at' l (by omega) hlt, by rw [hx.inv.stat, hk]; exact b2, ?_⟩
    -- the line of birth
    obtain ⟨ps, _, hps, hpc⟩ := b7
    obtain ⟨x0, hx0⟩ : ∃ x, x ∈ ps := by
      match ps, hps with
      | [], hps => simp at hps; omega
      | x :: _, _ => exact ⟨x, by simp⟩
    obtain ⟨w, A, hA, hAx⟩ := hpc x0 hx0
    obtain ⟨hlenA, hsame, hzero⟩ := hden (i + 1) w A hA (by omega)
    have hmem : ∀ p : Nat, labels[p]? = some l ↔ A[p]? = some l := by
      intro p
      rw [t5 p l hl0]
      constructor
      · rintro ⟨_, j, _, hj, _⟩
        obtain ⟨w', A', hA', hp'⟩ := (b8 j p hj).1
        obtain ⟨f1, hf1⟩ := h.toBase.weight_of (by omega) ⟨_, hA'⟩
        obtain ⟨f2, hf2⟩ := h.toBase.weight_of (by omega) ⟨_, hA⟩
        rcases h.toBase.mem_lines.1 hA' with ⟨z, _⟩ | ⟨s1, g1, u1, u2, u3⟩
        · omega
        rcases h.toBase.mem_lines.1 hA with ⟨z, _⟩ | ⟨s2, g2, v1, v2, v3⟩
        · omega
        have : s1 = s2 := by omega
        subst this
        rw [u1] at v1; cases v1
        rw [v3, ← u3]; exact hp'
      · intro hp
        exact ⟨hdesc, i + 1, by omega, ⟨w, A, hA, hp⟩, fun j p' j1 j2 => b6 j p' j1 (by omega)⟩
    -- its weight is less than the birth level
    obtain ⟨fb, hfb⟩ := h.toBase.weight_of b3 b5
    obtain ⟨fw, hfw⟩ := h.toBase.weight_of (i := i + 1) (by omega) ⟨_, hA⟩
    have hord : ∀ (s1 s2 : Nat) (w1 w2 : W) (f1 f2 : Nat → Nat), hist[s1]? = some (w1, f1) → hist[s2]? = some (w2, f2) → s1 < s2 → w2 < w1 := by
      intro s1 s2 w1 w2 f1 f2 h1 h2 hlt
      obtain ⟨l1, h1⟩ := List.getElem?_eq_some_iff.1 h1
      obtain ⟨l2, h2⟩ := List.getElem?_eq_some_iff.1 h2
      have := List.pairwise_iff_getElem.1 h.ord s1 s2 (by simpa using l1) (by simpa using l2) hlt
      simpa [h1, h2] using this
    have hwb : w < b := hord _ _ _ _ _ _ hfb hfw (by omega)
    intro p hp
    have hpA := (hmem p).1 hp
    have hbig : AtLeast minPoints (fun v => Reachable g'.numVertices (mutualReach d core) w p v) := by
      by_contra hc
      exact hl0 ((hzero p l hpA).2 hc)
    have hclass : ∀ q, q < g'.numVertices → (labels[q]? = some l ↔ Reachable g'.numVertices (mutualReach d core) w p q) := by
      intro q hq
      rw [hmem q]
      obtain ⟨lq, hlq⟩ : ∃ lq, A[q]? = some lq := ⟨_, List.getElem?_eq_getElem (by omega)⟩
      constructor
      · intro hA'
        exact (hsame p q l l hpA hA' hl0 hl0).1 rfl
      · intro hreach
        have hlq0 : lq ≠ 0 := by
          intro hz
          refine (hzero q lq hlq).1 hz ?_
          obtain ⟨ps, p1, p2, p3⟩ := hbig
          exact ⟨ps, p1, p2, fun v hv => .trans _ _ _ (.symm _ _ hreach) (p3 v hv)⟩
        rw [hlq, (hsame p q l lq hpA hlq hl0 hlq0).2 hreach]
    refine ⟨fun q hq => ⟨fun hql => ⟨w, hwb, (hclass q hq).1 hql⟩, ?_⟩, ?_⟩
    · rintro ⟨w', hw', hreach⟩
      rw [hclass q hq]
      by_cases hpq : p = q
      · subst hpq; exact .refl _
      obtain ⟨w0, hw0, hmeet⟩ := meet_exists hpq hreach
      by_cases hle : w0 ≤ w
      · exact reach_le hle hmeet.2.1
      exfalso
      have hlt0 : w < w0 := lt_of_not_ge hle
      obtain ⟨j, hj, hjw⟩ := (hlev w0).2 ⟨p, q, hmeet, by
        obtain ⟨ps, p1, p2, p3⟩ := hbig
        exact ⟨ps, p1, p2, fun v hv => reach_le hlt0.le (p3 v hv)⟩⟩
      obtain ⟨fj, hfj⟩ := h.toBase.weight_of (by omega) hjw
      have hb0 : w0 < b := lt_of_le_of_lt hw0 hw'
      rcases Nat.lt_trichotomy (j - 1) (i - 1) with hc | hc | hc
      · exact absurd (hord _ _ _ _ _ _ hfj hfb hc) (not_lt.2 hb0.le)
      · rw [hc, hfb] at hfj
        simp only [Option.some.injEq, Prod.mk.injEq] at hfj
        exact absurd hfj.1 hb0.ne'
      · rcases Nat.lt_or_ge (i + 1 - 1) (j - 1) with hc' | hc'
        · exact absurd (hord _ _ _ _ _ _ hfw hfj hc') (not_lt.2 hlt0.le)
        · have : j - 1 = i + 1 - 1 := by omega
          rw [this, hfw] at hfj
          simp only [Option.some.injEq, Prod.mk.injEq] at hfj
          exact absurd hfj.1 hlt0.ne
    · obtain ⟨cq, s1, _, s3, l2, c2, s4, s5, s6⟩ := h.spl l c0 q hc0 hpar0
      have hl2 : l2 ≠ 1 := by
        intro hz
        have := (htree.root l2 c2 s5).2 hz
        rw [this] at s6; cases s6
      obtain ⟨q2, bb, i2, k1, k2, k3, k4, k5, k6, k7, k8⟩ := hbirth l2 c2 s5 hl2
      rw [s6] at k1; cases k1
      obtain ⟨cq', s1', _, s3', _⟩ := h.spl l2 c2 q s5 s6
      rw [s1] at s1'; cases s1'
      have hbb : bb = b := by
        rw [k2] at s3'; rw [b2] at s3
        simp only [Option.some.injEq] at s3 s3'
        rw [s3, s3']
      subst hbb
      obtain ⟨f2, hf2⟩ := h.toBase.weight_of k3 k5
      have hi2 : i2 = i := by
        rcases Nat.lt_trichotomy (i2 - 1) (i - 1) with hc | hc | hc
        · exact absurd (hord _ _ _ _ _ _ hf2 hfb hc) (lt_irrefl _)
        · omega
        · exact absurd (hord _ _ _ _ _ _ hfb hf2 hc) (lt_irrefl _)
      subst hi2
      obtain ⟨ps2, _, hps2, hpc2⟩ := k7
      obtain ⟨y, hy⟩ : ∃ x, x ∈ ps2 := by
        match ps2, hps2 with
        | [], hps => simp at hps; omega
        | x :: _, _ => exact ⟨x, by simp⟩
      have hyl := hpc2 y hy
      obtain ⟨_, hyn, hylab⟩ := (h.toBase.carries (by omega)).1 hyl
      have hpl : Carries res.hierarchy (i2 + 1) p l := ⟨w, A, hA, hpA⟩
      obtain ⟨_, hpn, hplab⟩ := (h.toBase.carries (by omega)).1 hpl
      refine ⟨y, hyn, ?_, ?_⟩
      · obtain ⟨wb, B, hB, hBp⟩ := (b8 _ p hpl).2
        obtain ⟨wb', B', hB', hBy⟩ := (k8 _ y hyl).2
        rcases h.toBase.mem_lines.1 hB with ⟨z, _⟩ | ⟨s1, g1, u1, u2, u3⟩
        · omega
        rcases h.toBase.mem_lines.1 hB' with ⟨z, _⟩ | ⟨s2, g2, v1, v2, v3⟩
        · omega
        have : s1 = s2 := by omega
        subst this
        rw [u1] at v1; cases v1
        rw [← u3] at v3; subst v3
        have hwb' : wb = bb := by
          have : s1 = i2 - 1 := by omega
          subst this
          rw [hfb] at u1; cases u1; rfl
        subst hwb'
        obtain ⟨_, hsameB, _⟩ := hden i2 wb B' hB (by omega)
        exact (hsameB p y q q hBp hBy (by omega) (by omega)).1 rfl
      · rw [ne_eq, hmem y]
        intro hc
        have : Carries res.hierarchy (i2 + 1) y l := ⟨w, A, hA, hc⟩
        obtain ⟨_, _, hc'⟩ := (h.toBase.carries (by omega)).1 this
        rw [hylab] at hc'
        exact s4 hc'
  · intro l hl0 hl
    obtain ⟨p0, hp0⟩ := List.mem_iff_getElem?.1 hl
    have hdesc := ((t5 p0 l hl0).1 hp0).1
    have htwo : ∀ l q, IsChild s.clusters l q → ∃ l', l' ≠ l ∧ IsChild s.clusters l' q := by
      intro l q hq
      obtain ⟨c, hc, hp⟩ := (hch l q).1 hq
      obtain ⟨_, _, _, _, l', c', s4, s5, s6⟩ := h.spl l c q hc hp
      exact ⟨l', s4, (hch l' q).2 ⟨c', s5, s6⟩⟩
    obtain ⟨l', h1, h2⟩ := selection_two t2 htwo t3 hdesc
    obtain ⟨q, hq⟩ := t3.notRoot l' h1
    have := t2.up l' q hq
    obtain ⟨ps, _, hps, hpc⟩ := t6 l' h1
    obtain ⟨y, hy⟩ : ∃ x, x ∈ ps := by
      match ps, hps with
      | [], hps => simp at hps; omega
      | x :: _, _ => exact ⟨x, by simp⟩
    exact ⟨l', by omega, h2, List.mem_iff_getElem?.2 ⟨y, hpc y hy⟩⟩

/-- **C97**, but for the data race of C37. On every supported data set of `5 ≤ rows ≤ 65536` points and for every `2 ≤ m ≤ rows`: the points that carry a label other than 0 are at least `m`
    points that form a density cluster at the birth level recorded for that label; a point outside of it has a mutual reachability distance of at least the birth level to
    all of them; and there is never exactly one label other than 0.
    Missing: with several threads labels can get lost, so that one remains (`C97_single_violated`); the rest holds with threads as well (`C97_threads`). -/
theorem C97_flat_partial [LinearOrder W] [CCmp S] [LinearOrder T] (env : Api.Env D W S T) (hq : SortsAscending env.qsort) (data : List D) (rows cols : Nat) (f : Nat → Nat → W)
    (h : Supported env data rows cols f) (h5 : 5 ≤ rows) (m : Nat) (hm : 2 ≤ m) (hmr : m ≤ rows) :
    ∃ (obj : Api.Obj W S T) (core : Nat → W), (∀ par, Complete rows rows par → Api.fresh env par m data rows cols true = .ok obj) ∧
      (∀ i, i < rows → obj.dis.coreDistances[i]? = some (some (core i))) ∧ obj.results.labels.length = rows ∧
      (∀ l, l ≠ 0 → l ∈ obj.results.labels → AtLeast m (fun p => obj.results.labels[p]? = some l) ∧
        ∃ (c : Cl W S) (b : W), obj.results.clusters[l]? = some (some c) ∧ c.birth = some b ∧
          DensityCluster rows (mutualReach (distOf env.dops f) core) b (fun p => obj.results.labels[p]? = some l) ∧
          ∀ p q : Nat, obj.results.labels[p]? = some l → q < rows → obj.results.labels[q]? ≠ some l → b ≤ mutualReach (distOf env.dops f) core p q) ∧
      ∀ l, l ≠ 0 → l ∈ obj.results.labels → ∃ l', l' ≠ 0 ∧ l' ≠ l ∧ l' ∈ obj.results.labels := by
  have hfew := h.few
  obtain ⟨C, core, O, key⟩ := api_rep h hq (by omega)
  obtain ⟨k1, k2, k3, k4⟩ := key m (by omega) hmr
  have hseq : Complete rows rows ⟨Distance.pairs rows, List.range rows, seqSchedule, List.range rows⟩ := ⟨.refl _, .refl _, seqSchedule_complete, .refl _⟩
  obtain ⟨_, hfull, _⟩ := k4 _ hseq
  have hget : ∀ i j, i < rows → j < rows → i ≠ j → (C m).get env.ar.zeroW i j = .ok (distOf env.dops f i j) := fun i j hi hj _ => k1 i j hi hj
  have hcore := fun i hi => (k2 i hi).1
  obtain ⟨e1, _⟩ := full_hierarchy hfull
  obtain ⟨b1, b2⟩ := out_flat env.ar env.smax seqSchedule seqSchedule_complete m hm (C m) rows hmr (by omega) (distOf env.dops f) (core m) hget (distOf_symm _ _) hcore k3 e1
  obtain ⟨out, o1, root, o2, o3, o4, o5, o6, o7⟩ := C35_data env.ar env.smax m (by omega) (C m) rows (by omega) (by omega) (distOf env.dops f) (core m) hget (distOf_symm _ _) hcore k3
  have := o1 seqSchedule seqSchedule_complete
  rw [e1] at this; cases this
  refine ⟨⟨m, rows, C m, O m⟩, core m, fun par hp => ?_, hcore, o5, fun l hl0 hl => ?_, b2⟩
  · rw [Api.fresh, Api.initObj, if_pos (by omega), Outcome.ok_bind]
    exact (k4 par hp).2.2.2.1 h5
  · obtain ⟨c, b, c1, c2, c3⟩ := b1 l hl0 hl
    obtain ⟨p0, hp0⟩ := List.mem_iff_getElem?.1 hl
    refine ⟨o7 l ((o6 p0 l hl0).1 hp0).1, c, b, c1, c2, c3, fun p q hp hqr hne => ?_⟩
    by_contra hlt
    have hlt := lt_of_not_ge hlt
    have hpr : p < rows := by
      have := (List.getElem?_eq_some_iff.1 hp).1
      have h5' : (O m).labels.length = rows := o5
      simp only at this
      omega
    refine hne (((c3 p hp).1 q hqr).2 ⟨_, hlt, .rel p q ⟨hpr, hqr, ?_, le_refl _⟩⟩)
    rintro rfl
    exact hne hp

/-- C97 with threads: whatever the interleaving of the loop with the data race, every label that is left is that of a density cluster of at least `m` points. -/
theorem C97_threads [LinearOrder W] [CCmp S] [LinearOrder T] (env : Api.Env D W S T) (hq : SortsAscending env.qsort) (data : List D) (rows cols : Nat) (f : Nat → Nat → W)
    (h : Supported env data rows cols f) (h5 : 5 ≤ rows) (m : Nat) (hm : 2 ≤ m) (hmr : m ≤ rows) (th : Threads) (hth : Interleaves th) :
    ∃ (obj : Api.Obj W S T) (core : Nat → W), (∀ par, Complete rows rows par → Race.fresh th env par m data rows cols true = .ok obj) ∧
      (∀ i, i < rows → obj.dis.coreDistances[i]? = some (some (core i))) ∧ obj.results.labels.length = rows ∧
      (∀ l, l ≠ 0 → l ∈ obj.results.labels → AtLeast m (fun p => obj.results.labels[p]? = some l) ∧
        ∃ (c : Cl W S) (b : W), obj.results.clusters[l]? = some (some c) ∧ c.birth = some b ∧
          DensityCluster rows (mutualReach (distOf env.dops f) core) b (fun p => obj.results.labels[p]? = some l)) := by
  obtain ⟨o1, core, a1, a2, a3, a4, _⟩ := C97_flat_partial env hq data rows cols f h h5 m hm hmr
  obtain ⟨o2, b1, b2, _⟩ := C63_threads_partial env hq data rows cols f h h5 m hm hmr
  have e : o2 = o1 := fresh_same b1 a1
  subst e
  obtain ⟨obj, lost, s1, s2, s3⟩ := b2 th hth
  refine ⟨obj, core, s3, by rw [s2.dis]; exact a2, by rw [s2.labels, List.length_map, a3], fun l hl0 hl => ?_⟩
  obtain ⟨p0, hp0⟩ := List.mem_iff_getElem?.1 hl
  obtain ⟨hp0', hlost⟩ := (lost_label s2 p0 l hl0).1 hp0
  obtain ⟨c0, c, b, c1, c2, c3, _⟩ := a4 l hl0 (List.mem_iff_getElem?.2 ⟨p0, hp0'⟩)
  have hsame : (fun p => obj.results.labels[p]? = some l) = (fun p : Nat => o2.results.labels[p]? = some l) := by
    funext p
    rw [eq_iff_iff, lost_label s2 p l hl0]
    simp [hlost]
  refine ⟨by rw [hsame]; exact c0, c, b, ?_, c2, by rw [hsame]; exact c3⟩
  rw [s2.clusters l, c1]
  simp [hlost]

/-- **C97 is violated** with several threads: on five points for which one thread finds two clusters, hasty threads leave exactly one label. -/
theorem C97_single_violated : (Api.fresh lineEnv (backPar 5 5) 2 linePts 5 1 true >>= fun o => .ok o.results.labels) = .ok [3, 2, 3, 2, 3] ∧
    (Race.fresh hasty lineEnv (backPar 5 5) 2 linePts 5 1 true >>= fun o => .ok o.results.labels) = .ok [3, 0, 3, 0, 3] := by decide +kernel

/-- The hypotheses hold for the five points on a line. -/
example := C97_flat_partial lineEnv (isort_sorts _) linePts 5 1 (lineSq linePts) linePts_supported (by omega) 2 (by omega) (by omega)
example := C97_threads lineEnv (isort_sorts _) linePts 5 1 _ linePts_supported (by decide) 2 (by decide) (by decide) hasty hasty_interleaves

end Verif.Props
