import Verif.Lemmas.Prominent
import Verif.Props.Selection
/-
Helper lemmas: the labels computed from a hierarchy.
-/
namespace Verif.Sel
open Spec Relation Hier
variable {W S : Type}

section
variable [LinearOrder W] {ar : Arith W S} {n m : Nat} {res : Result W S} {hist : List (W × (Nat → Nat))}
    {cur : Nat → Nat} {noise : Nat → Option W} {last : Nat → Option Nat}

theorem find_line (h : Base ar n m res hist cur noise last) {s : Nat} (hs : s < hist.length) :
    ∃ w A, res.hierarchy.find? (fun h => h.1 = s + 1) = some (s + 1, w, A) ∧ A.length = n ∧ ∀ j, j < n → A[j]? = some (lab hist cur s j) := by
  cases hf : res.hierarchy.find? (fun h => decide (h.1 = s + 1)) with
  | none =>
    have hm : (s + 1, hist[s].1, (List.range n).map hist[s].2) ∈ res.hierarchy :=
      h.mem_lines.2 (.inr ⟨s, hist[s].2, by rw [List.getElem?_eq_getElem hs], rfl, rfl⟩)
    have := List.find?_eq_none.1 hf _ hm
    simp at this
  | some x =>
    obtain ⟨i, w, A⟩ := x
    have hi : i = s + 1 := by simpa using List.find?_some hf
    subst hi
    have hmem := List.mem_of_find?_eq_some hf
    rcases h.mem_lines.1 hmem with ⟨h0, _⟩ | ⟨s', g, h1, h2, h3⟩
    · omega
    · have : s' = s := by omega
      subst this h3
      refine ⟨w, _, rfl, by simp, fun j hj => ?_⟩
      rw [lab_get h1]
      simp [hj]

/-- The time of birth of a cluster, as recorded in its offset. -/
theorem birth_member (h : Base ar n m res hist cur noise last) {l : Nat} {c : Cl W S} (hl : l ≠ 1) (hc : res.clusters[l]? = some (some c)) (p : Nat) :
    (p < n ∧ lab hist cur c.offset p = l) ↔ ∃ i, 1 ≤ i ∧ Carries res.hierarchy i p l ∧ ∀ j p', 1 ≤ j → j < i → ¬ Carries res.hierarchy j p' l := by
  obtain ⟨q, s, w, g, b1, b2, b3, b4, b5, b6, b7, b8, b9, ⟨p', b10, b11⟩, b12⟩ := h.birth hl hc
  rw [b6]
  constructor
  · rintro ⟨hp, hlab⟩
    refine ⟨s + 2, by omega, (h.carries (by omega)).2 ⟨by omega, hp, hlab⟩, fun j p'' h1 h2 hcar => ?_⟩
    obtain ⟨_, c2, c3⟩ := (h.carries h1).1 hcar
    exact b12 (j - 1) (by omega) p'' c2 c3
  · rintro ⟨i, h1, hcar, hfirst⟩
    obtain ⟨c1, c2, c3⟩ := (h.carries h1).1 hcar
    refine ⟨c2, ?_⟩
    have hi : i = s + 2 := by
      rcases Nat.lt_trichotomy i (s + 2) with hlt | heq | hgt
      · exact absurd c3 (b12 (i - 1) (by omega) p c2)
      · exact heq
      · exact absurd ((h.carries (i := s + 2) (by omega)).2 ⟨by omega, b10, b11⟩) (hfirst (s + 2) p' (by omega) hgt)
    subst hi
    exact c3

end

/-- A cluster tree after propagation has the same shape. -/
theorem isChild_after [CCmp W] [CCmp S] {ar : Arith W S} {smax : S} {cs : List (Option (Cl W S))} (h : ClusterTree cs) {s : St W S} {V} {x : Nat}
    (hx : XInv ar smax cs.length (kOf ar cs) x s V) (l q : Nat) : IsChild s.clusters l q ↔ IsChild cs l q := by
  obtain ⟨hr, ht, hout⟩ := tree_of (ar := ar) h
  have key : ∀ l, 1 ≤ l → l < cs.length → (IsChild s.clusters l q ↔ IsChild cs l q) := by
    intro l h1 h2
    unfold IsChild
    rw [hx.rep.at' l h1 h2, hr.at' l h1 h2]
    simp only [Option.some.injEq, exists_eq_left']
    rw [hx.inv.stat]
  have hlt : ∀ (cs' : List (Option (Cl W S))), cs'.length = cs.length → cs'[0]? = some none → IsChild cs' l q → 1 ≤ l ∧ l < cs.length := by
    rintro cs' h1 h2 ⟨c, hc, _⟩
    refine ⟨?_, by rw [← h1]; exact (List.getElem?_eq_some_iff.1 hc).1⟩
    by_contra hn
    have : l = 0 := by omega
    subst this
    rw [h2] at hc; simp at hc
  constructor
  · intro hc
    obtain ⟨h1, h2⟩ := hlt _ hx.rep.len hx.rep.zero hc
    exact (key l h1 h2).1 hc
  · intro hc
    obtain ⟨h1, h2⟩ := hlt _ rfl h.zero hc
    exact (key l h1 h2).2 hc

theorem selection_congr {cs cs' : List (Option (Cl W S))} (h : ∀ l q, IsChild cs' l q ↔ IsChild cs l q) {T : List Nat} (hT : Selection cs T) : Selection cs' T := by
  have he : IsChild cs' = IsChild cs := by funext a b; exact propext (h a b)
  have hT1 := hT.notRoot
  have hT2 := hT.apart
  have hT3 := hT.covers
  unfold Leaf at hT3
  unfold Above at hT2
  unfold AtOrAbove at hT3
  refine ⟨hT.nodup, ?_, ?_, ?_⟩
  · rw [he]; exact hT1
  · unfold Above; rw [he]; exact hT2
  · unfold Leaf AtOrAbove; rw [he]; exact hT3

/-- From the hierarchy to the labels. -/
theorem labels_rep [LinearOrder W] [CCmp S] {ar : Arith W S} {n m : Nat} {res : Result W S} {hist : List (W × (Nat → Nat))}
    {cur : Nat → Nat} {noise : Nat → Option W} {last : Nat → Option Nat} (h : Base ar n m res hist cur noise last) (smax : S) :
    ∃ (s : St W S) (V : Nat → Cl W S), (∀ order : List Nat, order.Perm (List.range res.clusters.length) → propagateTree ar smax order res.clusters = .ok s) ∧
      XInv ar smax res.clusters.length (kOf ar res.clusters) 0 s V ∧ Selection res.clusters (V 1).desc ∧
      ∃ labels : List Nat, labels.length = n ∧
        (∀ (order : Nat → List Nat) (sched : List (Nat × Nat) → List (Nat × Nat)), (∀ N, (order N).Perm (List.range N)) → (∀ l, (sched l).Perm l) →
          prominent s.clusters res.hierarchy n order sched = .ok labels) ∧
        ∀ p l, l ≠ 0 → (labels[p]? = some l ↔ l ∈ (V 1).desc ∧ p < n ∧ lab hist cur (kOf ar res.clusters l).offset p = l) := by
  obtain ⟨htree, hfresh, _⟩ := obs_tree h
  obtain ⟨hr, ht, hout⟩ := tree_of (ar := ar) htree
  obtain ⟨s0, root, e0, hroot, hsel, _⟩ := Props.C33_selection ar smax (List.range res.clusters.length) res.clusters htree hfresh (List.Perm.refl _)
  obtain ⟨s, V, e, hx⟩ := propagateTree_rep ht hr (fresh_of hfresh) hout smax (List.Perm.refl _)
  have : s = s0 := by rw [e0] at e; exact (Outcome.ok.inj e).symm
  subst this
  have hN := htree.two
  have hV : V 1 = root := by
    have := hx.rep.at' 1 (by omega) (by omega)
    rw [hroot] at this
    simpa using this.symm
  rw [← hV] at hsel
  have hall : ∀ order : List Nat, order.Perm (List.range res.clusters.length) → propagateTree ar smax order res.clusters = .ok s := by
    intro order ho
    obtain ⟨s2, hs2, _⟩ := Props.C32_propagation ar smax res.clusters htree hfresh
    have h1 := hs2 _ (List.Perm.refl _)
    rw [e] at h1
    rw [Outcome.ok.inj h1]
    exact hs2 order ho
  -- the selected clusters
  have hsol : ∀ l ∈ (V 1).desc, l ≠ 1 ∧ 1 ≤ l ∧ l < res.clusters.length ∧ res.clusters[l]? = some (some (kOf ar res.clusters l)) := by
    intro l hl
    obtain ⟨q, hq⟩ := hsel.notRoot l hl
    have hup := htree.up l q hq
    have hlt : l < res.clusters.length := by
      obtain ⟨c, hc, _⟩ := hq
      exact (List.getElem?_eq_some_iff.1 hc).1
    exact ⟨by omega, by omega, hlt, hr.at' l (by omega) hlt⟩
  have hsol' : ∀ l ∈ (V 1).desc, ∃ c : Cl W S, s.clusters[l]? = some (some c) ∧ c.label = l ∧ c.offset = (kOf ar res.clusters l).offset := by
    intro l hl
    obtain ⟨h1, h2, h3, h4⟩ := hsol l hl
    refine ⟨V l, hx.rep.at' l h2 h3, ?_, by rw [hx.inv.stat]⟩
    rw [hx.inv.stat]
    exact ht.label l h2 h3
  -- one run of the two loops
  have hrun : ∀ (order : Nat → List Nat) (sched : List (Nat × Nat) → List (Nat × Nat)), (∀ N, (order N).Perm (List.range N)) → (∀ l, (sched l).Perm l) →
      ∃ labels : List Nat, prominent s.clusters res.hierarchy n order sched = .ok labels ∧ labels.length = n ∧
        ∀ p l, l ≠ 0 → (labels[p]? = some l ↔ l ∈ (V 1).desc ∧ p < n ∧ lab hist cur (kOf ar res.clusters l).offset p = l) := by
    intro order sched ho hsch
    have hord : ∀ i, i ∈ order (V 1).desc.length ↔ i < (V 1).desc.length := fun i => by rw [(ho _).mem_iff, List.mem_range]
    obtain ⟨mp, em, m1, m2⟩ := group_rep hsol' (order (V 1).desc.length) (fun i hi => (hord i).1 hi) []
    have m1' : ∀ k l, (∃ ls, mp.find? (fun e => e.1 = k) = some (k, ls) ∧ l ∈ ls) ↔ l ∈ (V 1).desc ∧ (kOf ar res.clusters l).offset = k := by
      intro k l
      rw [m1]
      simp only [List.find?_nil, reduceCtorEq, false_and, exists_const, false_or]
      constructor
      · rintro ⟨i, _, h1, h2⟩; exact ⟨List.mem_of_getElem? h1, h2⟩
      · rintro ⟨h1, h2⟩
        obtain ⟨i, hi⟩ := List.mem_iff_getElem?.1 h1
        exact ⟨i, (hord i).2 (List.getElem?_eq_some_iff.1 hi).1, hi, h2⟩
    have m2' : ∀ k, k ∈ mp.map (·.1) ↔ ∃ l ∈ (V 1).desc, (kOf ar res.clusters l).offset = k := by
      intro k
      rw [m2]
      simp only [List.map_nil, List.not_mem_nil, false_or]
      constructor
      · rintro ⟨i, _, l, h1, h2⟩; exact ⟨l, List.mem_of_getElem? h1, h2⟩
      · rintro ⟨l, h1, h2⟩
        obtain ⟨i, hi⟩ := List.mem_iff_getElem?.1 h1
        exact ⟨i, (hord i).2 (List.getElem?_eq_some_iff.1 hi).1, l, hi, h2⟩
    have hsteps : ∀ x, x ∈ sched (labelSteps mp n) ↔ x.1 ∈ mp.map (·.1) ∧ x.2 < n := by
      rintro ⟨k, j⟩
      rw [(hsch _).mem_iff, labelSteps, List.mem_flatMap]
      simp only [List.mem_map, List.mem_range, Prod.mk.injEq]
      constructor
      · rintro ⟨k', hk', j', hj', rfl, rfl⟩; exact ⟨hk', hj'⟩
      · rintro ⟨hk, hj⟩; exact ⟨k, hk, j, hj, rfl, rfl⟩
    obtain ⟨labels, el, hlen, hlab⟩ := labelAll_rep (lines := res.hierarchy) (m := mp) (n := n) (fun k j => lab hist cur k j)
      (by
        intro k hk
        obtain ⟨l, hl, hof⟩ := (m2' k).1 hk
        obtain ⟨h1, h2, h3, h4⟩ := hsol l hl
        obtain ⟨q, s', w, g, b1, b2, b3, b4, b5, b6, b7, _⟩ := h.birth h1 h4
        rw [← hof, b6]
        exact find_line h b7)
      (sched (labelSteps mp n)) (fun x hxm => (hsteps x).1 hxm) (List.replicate n 0) (by simp)
    refine ⟨labels, ?_, hlen, ?_⟩
    · simp only [prominent, getCl_ok (hx.rep.at' 1 (by omega) (by omega)), Outcome.ok_bind, em, el]
    · -- a member at birth of two selected clusters makes them equal
      have huniq : ∀ l l' p, l ∈ (V 1).desc → l' ∈ (V 1).desc → p < n → lab hist cur (kOf ar res.clusters l).offset p = l →
          lab hist cur (kOf ar res.clusters l').offset p = l' → l = l' := by
        intro l l' p hl hl' hp h1 h2
        have n1 := (hsol l hl).2.1
        have n2 := (hsol l' hl').2.1
        have := common_point h hp (s := (kOf ar res.clusters l).offset) (t := (kOf ar res.clusters l').offset) (by rw [h1]; omega) (by rw [h2]; omega)
        rw [h1, h2] at this
        rcases this with hc | hc
        · rcases reflTransGen_iff_eq_or_transGen.1 hc with h | h
          · exact h
          · exact absurd h (hsel.apart l hl l' hl')
        · rcases reflTransGen_iff_eq_or_transGen.1 hc with h | h
          · exact h.symm
          · exact absurd h (hsel.apart l' hl' l hl)
      intro p l hl0
      constructor
      · intro hp
        have hpn : p < n := by rw [← hlen]; exact (List.getElem?_eq_some_iff.1 hp).1
        rcases hlab p hpn with ⟨k, ls, a1, a2, a3, a4⟩ | ⟨_, a2⟩
        · rw [hp] at a4
          simp only [Option.some.injEq] at a4
          obtain ⟨q1, q2⟩ := (m1' k _).1 ⟨ls, a2, a3⟩
          rw [← a4] at q1 q2
          exact ⟨q1, hpn, by rw [q2]; exact a4.symm⟩
        · rw [hp] at a2
          simp only [List.getElem?_replicate, hpn, if_true, Option.some.injEq] at a2
          exact absurd a2 hl0
      · rintro ⟨hl, hpn, hbl⟩
        obtain ⟨ls, q1, q2⟩ := (m1' _ l).2 ⟨hl, rfl⟩
        rcases hlab p hpn with ⟨k, ls', a1, a2, a3, a4⟩ | ⟨a1, _⟩
        · obtain ⟨r1, r2⟩ := (m1' k _).1 ⟨ls', a2, a3⟩
          have := huniq l _ p hl r1 hpn hbl (by rw [r2])
          rw [a4, ← this]
        · refine absurd ?_ (a1 (kOf ar res.clusters l).offset ls ((hsteps _).2 ⟨(m2' _).2 ⟨l, hl, rfl⟩, hpn⟩) q1)
          rw [hbl]; exact q2
  obtain ⟨labels, _, hlen, hiff⟩ := hrun (fun N => List.range N) id (fun _ => List.Perm.refl _) (fun _ => List.Perm.refl _)
  refine ⟨s, V, hall, hx, hsel, labels, hlen, fun order sched ho hsch => ?_, hiff⟩
  obtain ⟨labels', e', hlen', hiff'⟩ := hrun order sched ho hsch
  have : labels' = labels := by
    apply List.ext_getElem?
    intro p
    by_cases hp : p < n
    · obtain ⟨x, hx1⟩ : ∃ x, labels[p]? = some x := ⟨_, List.getElem?_eq_getElem (by omega)⟩
      obtain ⟨y, hy1⟩ : ∃ y, labels'[p]? = some y := ⟨_, List.getElem?_eq_getElem (by omega)⟩
      by_cases hx0 : x = 0
      · by_cases hy0 : y = 0
        · rw [hx1, hy1, hx0, hy0]
        · have := (hiff p y hy0).2 ((hiff' p y hy0).1 hy1)
          rw [this, hy1]
      · rw [hx1, (hiff' p x hx0).2 ((hiff p x hx0).1 hx1)]
    · rw [List.getElem?_eq_none (by omega), List.getElem?_eq_none (by omega)]
  rw [e', this]

/-- What the selection and the labels have to do with the tree and the hierarchy. -/
theorem labels_spec [LinearOrder W] [CCmp S] {ar : Arith W S} {smax : S} {n m : Nat} {res : Result W S} {hist : List (W × (Nat → Nat))}
    {cur : Nat → Nat} {noise : Nat → Option W} {last : Nat → Option Nat} (h : Base ar n m res hist cur noise last) {s : St W S} {V : Nat → Cl W S}
    (hx : XInv ar smax res.clusters.length (kOf ar res.clusters) 0 s V) (hsel : Selection res.clusters (V 1).desc) {labels : List Nat} (hlen : labels.length = n)
    (hiff : ∀ p l, l ≠ 0 → (labels[p]? = some l ↔ l ∈ (V 1).desc ∧ p < n ∧ lab hist cur (kOf ar res.clusters l).offset p = l)) :
    s.clusters[1]? = some (some (V 1)) ∧ ClusterTree s.clusters ∧ Selection s.clusters (V 1).desc ∧ labels.length = n ∧
      (∀ p l, l ≠ 0 → (labels[p]? = some l ↔ l ∈ (V 1).desc ∧ MemberAtBirth res.hierarchy l p)) ∧
      (∀ l ∈ (V 1).desc, AtLeast m (fun p => labels[p]? = some l)) := by
  obtain ⟨htree, _, _⟩ := obs_tree h
  obtain ⟨hrr, ht, hout⟩ := tree_of (ar := ar) htree
  have hN := htree.two
  have hch := isChild_after htree hx
  have hcl : ∀ (l : Nat) (c : Cl W S), s.clusters[l]? = some (some c) → 1 ≤ l ∧ l < res.clusters.length ∧ c = V l := by
    intro l c hc
    have hlt : l < res.clusters.length := by
      rw [← hx.rep.len]; exact (List.getElem?_eq_some_iff.1 hc).1
    have h1 : 1 ≤ l := by
      by_contra hne
      have : l = 0 := by omega
      subst this
      rw [hx.rep.zero] at hc; simp at hc
    rw [hx.rep.at' l h1 hlt] at hc
    exact ⟨h1, hlt, by simpa using hc.symm⟩
  have htree' : ClusterTree s.clusters := by
    refine ⟨hx.rep.zero, by rw [hx.rep.len]; exact hN, ?_, ?_, ?_, ?_⟩
    · intro l h1 h2
      rw [hx.rep.len] at h2
      refine ⟨V l, hx.rep.at' l h1 h2, ?_⟩
      rw [hx.inv.stat]
      exact ht.label l h1 h2
    · intro l c hc
      obtain ⟨h1, h2, rfl⟩ := hcl l c hc
      rw [hx.inv.stat]
      exact ht.root l h1 h2
    · intro l q hq
      exact htree.up l q ((hch l q).1 hq)
    · intro l c hc
      obtain ⟨h1, h2, rfl⟩ := hcl l c hc
      simp only [hch]
      rw [hx.inv.stat]
      exact htree.kids l (kOf ar res.clusters l) (hrr.at' l h1 h2)
  have hsol : ∀ l ∈ (V 1).desc, l ≠ 1 ∧ 1 ≤ l ∧ l < res.clusters.length ∧ res.clusters[l]? = some (some (kOf ar res.clusters l)) := by
    intro l hl
    obtain ⟨q, hq⟩ := hsel.notRoot l hl
    have hup := htree.up l q hq
    have hlt : l < res.clusters.length := by
      obtain ⟨c, hc, _⟩ := hq
      exact (List.getElem?_eq_some_iff.1 hc).1
    exact ⟨by omega, by omega, hlt, hrr.at' l (by omega) hlt⟩
  refine ⟨hx.rep.at' 1 (by omega) (by omega), htree', selection_congr hch hsel, hlen, ?_, ?_⟩
  · intro p l hl
    rw [hiff p l hl]
    constructor
    · rintro ⟨h1, h2, h3⟩
      obtain ⟨q1, q2, q3, q4⟩ := hsol l h1
      exact ⟨h1, (birth_member h q1 q4 p).1 ⟨h2, h3⟩⟩
    · rintro ⟨h1, h2⟩
      obtain ⟨q1, q2, q3, q4⟩ := hsol l h1
      obtain ⟨h3, h4⟩ := (birth_member h q1 q4 p).2 h2
      exact ⟨h1, h3, h4⟩
  · intro l hl
    obtain ⟨q1, q2, q3, q4⟩ := hsol l hl
    obtain ⟨q, s', w, g', b1, b2, b3, b4, b5, b6, b7, b8, b9, _⟩ := h.birth q1 q4
    refine ⟨(List.range n).filter (fun p => decide (lab hist cur (s' + 1) p = l)), List.nodup_range.filter _, ?_, ?_⟩
    · rw [← List.countP_eq_length_filter]; exact b9
    · intro p hp
      simp only [List.mem_filter, List.mem_range, decide_eq_true_eq] at hp
      exact (hiff p l (by omega)).2 ⟨hl, hp.1, by rw [b6]; exact hp.2⟩

end Verif.Sel
