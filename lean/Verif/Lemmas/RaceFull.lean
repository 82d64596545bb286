import Verif.Lemmas.RaceLabels
import Verif.Lemmas.TwoRuns
import Verif.Spec.RaceRun
/-
Helper lemmas: whole runs in which offsets are lost.
-/
namespace Verif.Race
open Hier Spec
variable {D W S T : Type}

/-- The result of a run with the clusters in `lost` lost. -/
def lose (lost : Nat → Bool) (out : Run.Full W S T) : Run.Full W S T :=
  { out with clusters := forget lost out.clusters, labels := out.labels.map fun l => if lost l then 0 else l }

theorem lose_same (lost : Nat → Bool) (m n : Nat) (dis : Distance W) (out : Run.Full W S T) : SameButLost lost ⟨m, n, dis, out⟩ ⟨m, n, dis, lose lost out⟩ where
  minPoints := rfl
  numPoints := rfl
  dis := rfl
  hierarchy := rfl
  noise := rfl
  last := rfl
  infinite := rfl
  outliers := rfl
  labels := rfl
  clusters l := by
    show (forget lost out.clusters)[l]? = _
    rw [forget_get]
    congr 1
    funext x
    congr 1
    funext c
    cases h : lost l <;> simp [drop]

theorem rinv_iff {cs cs' : List (Option (Cl W S))} (h : offs cs' = offs cs) {lost : Nat → Bool} : RInv lost cs' ↔ Spares cs lost := by
  have hg : ∀ l k : Nat, (offs cs)[l]? = some (some k) ↔ ∃ c : Cl W S, cs[l]? = some (some c) ∧ c.offset = k := by
    intro l k
    simp only [offs, List.getElem?_map]
    cases cs[l]? with
    | none => simp
    | some o => cases o <;> simp
  constructor
  · intro hr l hl
    obtain ⟨k, l', a, b, c, d⟩ := hr.kept l hl
    rw [h, hg] at b c
    obtain ⟨x, b1, b2⟩ := b
    obtain ⟨y, c1, c2⟩ := c
    exact ⟨x, l', y, b1, c1, by rw [b2]; exact a, by rw [b2, c2], d⟩
  · intro hs
    refine ⟨fun l hl => ?_⟩
    obtain ⟨c, l', c', h1, h2, h3, h4, h5⟩ := hs l hl
    exact ⟨c.offset, l', h3, by rw [h, hg]; exact ⟨c, h1, rfl⟩, by rw [h, hg]; exact ⟨c', h2, h4⟩, h5⟩

/-- All stages of `hdbscan_do_run` in the presence of the race. -/
theorem full_lost [LinearOrder W] [CCmp S] [LinearOrder T] (qsort : (OScore W T → OScore W T → Int) → List (OScore W T) → List (OScore W T))
    (ar : Arith W S) (smax : S) (ops : Outlier.Ops W T) {n m : Nat} (hm : 1 ≤ m) (hn : 1 ≤ n) (n31 : n < 2 ^ 31) {dis : Distance W} {d : Nat → Nat → W} {core : Nat → W}
    (hget : ∀ i j, i < n → j < n → i ≠ j → dis.get ar.zeroW i j = .ok (d i j)) (hsym : ∀ i j, d i j = d j i) (hcore : ∀ i, i < n → dis.coreDistances[i]? = some (some (core i)))
    (hmax : ∀ i j, i < n → j < n → i ≠ j → mutualReach d core i j < ar.dmax) {out : Run.Full W S T}
    (hf : ∀ (sch : Run.Schedule) (order : List Nat), sch.Complete → order.Perm (List.range n) → Run.full qsort ar smax ops sch order m dis n = .ok out) :
    (∀ th, Interleaves th → ∃ lost, Spares out.clusters lost ∧ ∀ (sch : Run.Schedule) (order : List Nat), sch.Complete → order.Perm (List.range n) →
      full th qsort ar smax ops sch order m dis n = .ok (lose lost out)) ∧
    (∀ lost, Spares out.clusters lost → ∀ (sch : Run.Schedule) (order : List Nat), sch.Complete → order.Perm (List.range n) → full (losing lost) qsort ar smax ops sch order m dis n = .ok (lose lost out)) ∧
    (∀ l q, IsChild out.clusters l q → ∃ (c : Cl W S) (l' : Nat) (c' : Cl W S), out.clusters[l]? = some (some c) ∧ out.clusters[l']? = some (some c') ∧ c.offset ≠ 0 ∧ c'.offset = c.offset ∧ l' ≠ l) := by
  obtain ⟨g0, g, e0, e1, G⟩ := Corr.good_of ar.zeroW ar.dmax dis n hn d core hget hsym hcore hmax
  obtain ⟨f, hr, ec, hd, hs, htr⟩ := Hier.input_rep G.inp
  obtain ⟨res, hist, cur, noise, last, e, ob⟩ := Hier.obs ar hr G.inp.nonempty ec G.num (by omega) hm hd hs
  have hparts : ∀ (sch : Run.Schedule) (order : List Nat), sch.Complete → order.Perm (List.range n) → ∃ s labels, Sel.propagateTree ar smax (sch.leaf res.clusters.length) res.clusters = .ok s ∧
      Sel.prominent s.clusters res.hierarchy n sch.group sch.steps = .ok labels ∧
      Outlier.scores qsort ar.zeroW ops order s.clusters res.noise res.last dis.coreDistances n = .ok out.outliers ∧
      out = { clusters := s.clusters, hierarchy := res.hierarchy, noise := res.noise, last := res.last, infinite := s.infinite, labels := labels, outliers := out.outliers } := by
    intro sch order hsch ho
    have h := hf sch order hsch ho
    unfold Run.full at h
    obtain ⟨o, a1, h⟩ := Outcome.bind_eq_ok.mp h
    obtain ⟨sc, a2, h⟩ := Outcome.bind_eq_ok.mp h
    cases h
    simp only [Run.doRun, e0, e1, Outcome.ok_bind, Run.fromTree, e] at a1
    obtain ⟨s, b1, a1⟩ := Outcome.bind_eq_ok.mp a1
    obtain ⟨labels, b2, a1⟩ := Outcome.bind_eq_ok.mp a1
    cases a1
    rw [G.num] at b2
    exact ⟨s, labels, b1, b2, a2, rfl⟩
  -- the stages after the hierarchy
  have hrest : ∀ th lost, compute th ar m false g = .ok { res with clusters := forget lost res.clusters } → ∀ (sch : Run.Schedule) (order : List Nat), sch.Complete → order.Perm (List.range n) →
      full th qsort ar smax ops sch order m dis n = .ok (lose lost out) := by
    intro th lost hth sch order hsch ho
    obtain ⟨s, labels, b1, b2, b3, b4⟩ := hparts sch order hsch ho
    have c2 := labels_lost ob.toBase smax (hsch.leaf _) b1 lost hsch.group hsch.steps b2
    unfold full
    rw [e0, Outcome.ok_bind, e1, Outcome.ok_bind, hth, Outcome.ok_bind]
    simp only [forget_length]
    rw [(propagateTree_forget b1).1, Outcome.ok_bind, G.num]
    have c2' : Sel.prominent (forgetT lost s).clusters res.hierarchy n sch.group sch.steps = .ok (labels.map fun l => if lost l then 0 else l) := c2
    have c3' : Outlier.scores qsort ar.zeroW ops order (forgetT lost s).clusters res.noise res.last dis.coreDistances n = .ok out.outliers := scores_forget b3
    rw [c2', Outcome.ok_bind, c3', Outcome.ok_bind]
    rw [b4]
    rfl
  obtain ⟨s, labels, b1, b2, b3, b4⟩ := hparts Props.seqSchedule (List.range n) Props.seqSchedule_complete (.refl _)
  have hoffs : offs res.clusters = offs out.clusters := by
    rw [b4]
    exact (propagateTree_forget (lost := fun _ => false) b1).2.symm
  refine ⟨fun th hth => ?_, fun lost hl sch order hsch ho => ?_, fun l q hlq => ?_⟩
  · obtain ⟨lost, h1, h2⟩ := compute_forget (th := th) hth e
    exact ⟨lost, (rinv_iff hoffs).1 h2, hrest th lost h1⟩
  · exact hrest _ lost (compute_losing e ((rinv_iff hoffs).2 hl)) sch order hsch ho
  · obtain ⟨s', V, hall, hx, _⟩ := Sel.labels_rep ob.toBase smax
    have : s' = s := by rw [hall _ (Props.seqSchedule_complete.leaf _)] at b1; exact Outcome.ok.inj b1
    subst this
    obtain ⟨htree, _, _⟩ := Sel.obs_tree ob.toBase
    rw [b4] at hlq
    have hlq' := (Sel.isChild_after htree hx l q).1 hlq
    obtain ⟨c, hc, hq⟩ := hlq'
    have hup := htree.up l q ⟨c, hc, hq⟩
    obtain ⟨cq, k1, k2, k3, l', c', k4, k5, k6⟩ := ob.spl l c q hc hq
    obtain ⟨cq', k1', k2', k3', _⟩ := ob.spl l' c' q k5 k6
    rw [k1] at k1'; cases k1'
    have h1 := htree.up l q ⟨c, hc, hq⟩
    have h2 := htree.up l' q ⟨c', k5, k6⟩
    obtain ⟨_, s1, w1, g1, x1, _, x3, _, x5, x6, _⟩ := ob.birth (by omega) hc
    obtain ⟨_, s2, w2, g2, y1, _, y3, _, y5, y6, _⟩ := ob.birth (by omega) k5
    have hw : w1 = w2 := by rw [k3] at x5; rw [k3'] at y5; rw [x5] at y5; exact Option.some.inj y5
    have hss : s1 = s2 := by
      have ho := List.pairwise_iff_getElem.1 ob.ord
      obtain ⟨x1l, x1e⟩ := List.getElem?_eq_some_iff.1 x1
      obtain ⟨y1l, y1e⟩ := List.getElem?_eq_some_iff.1 y1
      rcases Nat.lt_trichotomy s1 s2 with hlt | heq | hgt
      · have := ho s1 s2 (by simpa using x1l) (by simpa using y1l) hlt
        simp only [List.getElem_map, x1e, y1e, hw] at this
        exact absurd this (lt_irrefl _)
      · exact heq
      · have := ho s2 s1 (by simpa using y1l) (by simpa using x1l) hgt
        simp only [List.getElem_map, x1e, y1e, hw] at this
        exact absurd this (lt_irrefl _)
    have hg : ∀ (l : Nat) (c : Cl W S), res.clusters[l]? = some (some c) → ∃ c2 : Cl W S, out.clusters[l]? = some (some c2) ∧ c2.offset = c.offset := by
      intro l c hc
      have := congrArg (·[l]?) hoffs
      simp only [offs, List.getElem?_map, hc, Option.map_some] at this
      cases ho : out.clusters[l]? with
      | none => rw [ho] at this; cases this
      | some o =>
        rw [ho] at this
        cases o with
        | none => cases this
        | some c2 => exact ⟨c2, rfl, by simpa using this.symm⟩
    obtain ⟨d1, z1, z2⟩ := hg l c hc
    obtain ⟨d2, z3, z4⟩ := hg l' c' k5
    exact ⟨d1, l', d2, z1, z3, by omega, by omega, k4⟩

end Verif.Race
