import Verif.Lemmas.RaceRun
import Verif.Lemmas.Labels
/-
Helper lemmas: the labels when offsets were lost.
-/
namespace Verif.Race
open Hier Spec Sel Relation
variable {W S : Type}

/-- The labelling stage after some clusters lost their offsets: their members stay noise, all other points get the label they would get anyway. -/
theorem labels_lost [LinearOrder W] [CCmp S] {ar : Arith W S} {n m : Nat} {res : Result W S} {hist : List (W × (Nat → Nat))}
    {cur : Nat → Nat} {noise : Nat → Option W} {last : Nat → Option Nat} (h : Base ar n m res hist cur noise last) (smax : S) {order : List Nat}
    (ho : order.Perm (List.range res.clusters.length)) {s : Sel.St W S} (hs : propagateTree ar smax order res.clusters = .ok s) (lost : Nat → Bool)
    {ord : Nat → List Nat} {sched : List (Nat × Nat) → List (Nat × Nat)} (hord : ∀ N, (ord N).Perm (List.range N)) (hsched : ∀ l, (sched l).Perm l) {labels : List Nat}
    (hl : prominent s.clusters res.hierarchy n ord sched = .ok labels) :
    prominent (forget lost s.clusters) res.hierarchy n ord sched = .ok (labels.map fun l => if lost l then 0 else l) := by
  obtain ⟨s', V, hall, hx, hsel, labels', hlen', hprom, hiff⟩ := labels_rep h smax
  have : s' = s := by rw [hall order ho] at hs; exact Outcome.ok.inj hs
  subst this
  have : labels' = labels := by rw [hprom ord sched hord hsched] at hl; exact Outcome.ok.inj hl
  subst this
  obtain ⟨htree, hfresh, _⟩ := obs_tree h
  obtain ⟨hr, ht, hout⟩ := tree_of (ar := ar) htree
  have hN := htree.two
  have hsol : ∀ l ∈ (V 1).desc, l ≠ 1 ∧ 1 ≤ l ∧ l < res.clusters.length ∧ res.clusters[l]? = some (some (kOf ar res.clusters l)) := by
    intro l hl
    obtain ⟨q, hq⟩ := hsel.notRoot l hl
    have hup := htree.up l q hq
    have hlt : l < res.clusters.length := by
      obtain ⟨c, hc, _⟩ := hq
      exact (List.getElem?_eq_some_iff.1 hc).1
    exact ⟨by omega, by omega, hlt, hr.at' l (by omega) hlt⟩
  let off : Nat → Nat := fun l => if lost l then 0 else (kOf ar res.clusters l).offset
  have hsol' : ∀ l ∈ (V 1).desc, ∃ c : Cl W S, (forget lost s'.clusters)[l]? = some (some c) ∧ c.label = l ∧ c.offset = off l := by
    intro l hl
    obtain ⟨h1, h2, h3, h4⟩ := hsol l hl
    refine ⟨drop (lost l) (V l), by rw [forget_get, hx.rep.at' l h2 h3]; rfl, ?_, ?_⟩
    · show (V l).label = l
      rw [hx.inv.stat]
      exact ht.label l h2 h3
    · show (if lost l = true then 0 else (V l).offset) = _
      rw [hx.inv.stat]
  have hroot : (forget lost s'.clusters)[1]? = some (some (drop (lost 1) (V 1))) := by
    rw [forget_get, hx.rep.at' 1 (by omega) (by omega)]; rfl
  have hone : ∀ l, l ∈ (V 1).desc → ∀ p, p < n → lab hist cur 0 p ≠ l := by
    intro l hl p hp he
    have := h.bk.one p hp
    exact (hsol l hl).1 (by rw [← he, this])
  have hordm : ∀ i, i ∈ ord (V 1).desc.length ↔ i < (V 1).desc.length := fun i => by rw [(hord _).mem_iff, List.mem_range]
  obtain ⟨mp, em, m1, m2⟩ := group_rep hsol' (ord (V 1).desc.length) (fun i hi => (hordm i).1 hi) []
  have m1' : ∀ k l, (∃ ls, mp.find? (fun e => e.1 = k) = some (k, ls) ∧ l ∈ ls) ↔ l ∈ (V 1).desc ∧ off l = k := by
    intro k l
    rw [m1]
    simp only [List.find?_nil, reduceCtorEq, false_and, exists_const, false_or]
    constructor
    · rintro ⟨i, _, h1, h2⟩; exact ⟨List.mem_of_getElem? h1, h2⟩
    · rintro ⟨h1, h2⟩
      obtain ⟨i, hi⟩ := List.mem_iff_getElem?.1 h1
      exact ⟨i, (hordm i).2 (List.getElem?_eq_some_iff.1 hi).1, hi, h2⟩
  have m2' : ∀ k, k ∈ mp.map (·.1) ↔ ∃ l ∈ (V 1).desc, off l = k := by
    intro k
    rw [m2]
    simp only [List.map_nil, List.not_mem_nil, false_or]
    constructor
    · rintro ⟨i, _, l, h1, h2⟩; exact ⟨l, List.mem_of_getElem? h1, h2⟩
    · rintro ⟨l, h1, h2⟩
      obtain ⟨i, hi⟩ := List.mem_iff_getElem?.1 h1
      exact ⟨i, (hordm i).2 (List.getElem?_eq_some_iff.1 hi).1, l, hi, h2⟩
  have hsteps : ∀ x, x ∈ sched (labelSteps mp n) ↔ x.1 ∈ mp.map (·.1) ∧ x.2 < n := by
    rintro ⟨k, j⟩
    rw [(hsched _).mem_iff, labelSteps, List.mem_flatMap]
    simp only [List.mem_map, List.mem_range, Prod.mk.injEq]
    constructor
    · rintro ⟨k', hk', j', hj', rfl, rfl⟩; exact ⟨hk', hj'⟩
    · rintro ⟨hk, hj⟩; exact ⟨k, hk, j, hj, rfl, rfl⟩
  obtain ⟨out, el, hlen, hlab⟩ := labelAll_rep (lines := res.hierarchy) (m := mp) (n := n) (fun k j => lab hist cur k j)
    (by
      intro k hk
      obtain ⟨l, hl, hof⟩ := (m2' k).1 hk
      obtain ⟨h1, h2, h3, h4⟩ := hsol l hl
      rw [← hof]
      by_cases hlo : lost l = true
      · have : off l = 0 := if_pos hlo
        rw [this]
        exact find_line h (List.length_pos_iff.2 h.ne)
      · have hoff : off l = (kOf ar res.clusters l).offset := if_neg hlo
        rw [hoff]
        obtain ⟨q, s', w, g, b1, b2, b3, b4, b5, b6, b7, _⟩ := h.birth h1 h4
        rw [b6]
        exact find_line h b7)
    (sched (labelSteps mp n)) (fun x hxm => (hsteps x).1 hxm) (List.replicate n 0) (by simp)
  have key : out = labels'.map fun l => if lost l then 0 else l := by
    refine List.ext_getElem? fun p => ?_
    by_cases hp : p < n
    · obtain ⟨x, hx1⟩ : ∃ x, labels'[p]? = some x := ⟨_, List.getElem?_eq_getElem (by omega)⟩
      rw [List.getElem?_map, hx1, Option.map_some]
      rcases hlab p hp with ⟨k, ls, a1, a2, a3, a4⟩ | ⟨a1, a2⟩
      · -- the point was labelled
        obtain ⟨q1, q2⟩ := (m1' k _).1 ⟨ls, a2, a3⟩
        have hnl : lost (lab hist cur k p) = false := by
          by_contra hc
          have hc' : lost (lab hist cur k p) = true := by simpa using hc
          have : off (lab hist cur k p) = 0 := if_pos hc'
          rw [this] at q2
          subst q2
          exact hone _ q1 p hp rfl
        have hk : (kOf ar res.clusters (lab hist cur k p)).offset = k := by
          rw [← q2]
          show _ = if lost (lab hist cur k p) = true then 0 else _
          rw [if_neg (by simp [hnl]), q2]
        have h0 := (hsol _ q1).2.1
        have := (hiff p (lab hist cur k p) (by omega)).2 ⟨q1, hp, by rw [hk]⟩
        rw [hx1] at this
        have hxe : x = lab hist cur k p := Option.some.inj this
        subst hxe
        rw [a4, hnl]
        rfl
      · rw [a2]
        simp only [List.getElem?_replicate, hp, if_true, Option.some.injEq]
        by_cases hx0 : x = 0
        · simp [hx0]
        · obtain ⟨c1, c2, c3⟩ := (hiff p x hx0).1 hx1
          by_cases hlo : lost x = true
          · rw [if_pos hlo]
          · exfalso
            have hoff : off x = (kOf ar res.clusters x).offset := if_neg hlo
            obtain ⟨ls, q1, q2⟩ := (m1' _ x).2 ⟨c1, hoff⟩
            refine a1 (kOf ar res.clusters x).offset ls ((hsteps _).2 ⟨(m2' _).2 ⟨x, c1, hoff⟩, hp⟩) q1 ?_
            rw [c3]
            exact q2
    · rw [List.getElem?_eq_none (by omega), List.getElem?_eq_none (by simp; omega)]
  rw [← key]
  simp only [prominent, getCl_ok hroot, Outcome.ok_bind]
  have hd : (drop (lost 1) (V 1)).desc = (V 1).desc := rfl
  rw [hd, em, Outcome.ok_bind, el]

end Verif.Race
