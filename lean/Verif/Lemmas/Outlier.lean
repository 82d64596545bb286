import Verif.Lemmas.Lowest
import Verif.Lemmas.Pipeline
import Verif.Spec.Outlier
/-
Helper lemmas: the outlier scores of a run.
-/
namespace Verif.Outlier
open Spec Relation Hier
set_option linter.unusedSectionVars false
variable {W S T : Type}

theorem initialised_map {α : Type} (f : Nat → α) : ∀ l : List Nat, initialised (l.map (fun i => some (f i))) = .ok (l.map f)
  | [] => rfl
  | a :: l => by simp [initialised, initialised_map f l]

theorem rdInit_ok {α : Type} {a : List (Option α)} {i : Nat} {x : α} (h : a[i]? = some (some x)) : rdInit a i = .ok x := by
  simp [rdInit, rd, h]

/-- The loop filling the array, in any order. -/
theorem fill_rep [CCmp W] {zeroW : W} {ops : Ops W T} {cs : List (Option (Cl W S))} {noise : List (Option W)} {last : List (Option Nat)} {core : List (Option W)}
    {n : Nat} {sc : Nat → T} {co : Nat → W} (hs : ∀ i, i < n → scoreOf zeroW ops cs noise last i = .ok (sc i)) (hc : ∀ i, i < n → core[i]? = some (some (co i))) :
    ∀ (order : List Nat), (∀ i ∈ order, i < n) → ∀ a : List (Option (OScore W T)), a.length = n →
      ∃ a', fill zeroW ops cs noise last core order a = .ok a' ∧ a'.length = n ∧
        ∀ i, i < n → a'[i]? = if i ∈ order then some (some { score := sc i, core := co i, id := i }) else a[i]?
  | [], _, a, ha => ⟨a, rfl, ha, by simp⟩
  | i :: r, ho, a, ha => by
    have hi := ho i (by simp)
    obtain ⟨a', e, hl, hget⟩ := fill_rep hs hc r (fun j hj => ho j (by simp [hj])) (a.set i (some { score := sc i, core := co i, id := i })) (by simpa using ha)
    refine ⟨a', ?_, hl, fun j hj => ?_⟩
    · simp only [fill, hs i hi, rdInit_ok (hc i hi), Outcome.ok_bind, wr_ok (show i < a.length by omega)]
      exact e
    · rw [hget j hj]
      by_cases hjr : j ∈ r
      · simp [hjr]
      · by_cases hji : j = i
        · subst hji; simp [hjr, ha, hj]
        · simp [hjr, hji, List.getElem?_set_ne (Ne.symm hji)]

/-- Scores of all points. -/
theorem scores_rep [CCmp W] [CCmp T] (qsort : (OScore W T → OScore W T → Int) → List (OScore W T) → List (OScore W T)) {zeroW : W} {ops : Ops W T}
    {cs : List (Option (Cl W S))} {noise : List (Option W)} {last : List (Option Nat)} {core : List (Option W)}
    {n : Nat} {sc : Nat → T} {co : Nat → W} (hs : ∀ i, i < n → scoreOf zeroW ops cs noise last i = .ok (sc i)) (hc : ∀ i, i < n → core[i]? = some (some (co i)))
    {order : List Nat} (ho : order.Perm (List.range n)) :
    scores qsort zeroW ops order cs noise last core n =
      .ok (qsort outlierCompare ((List.range n).map (fun i => { score := sc i, core := co i, id := i }))) := by
  have hm : ∀ i, i ∈ order ↔ i < n := fun i => by rw [ho.mem_iff, List.mem_range]
  obtain ⟨a, e, hl, hget⟩ := fill_rep hs hc order (fun i hi => (hm i).1 hi) (List.replicate n none) (by simp)
  have ha : a = (List.range n).map (fun i => some { score := sc i, core := co i, id := i }) := by
    apply List.ext_getElem?
    intro i
    by_cases hi : i < n
    · rw [hget i hi, if_pos ((hm i).2 hi)]; simp [hi]
    · rw [List.getElem?_eq_none (by omega), List.getElem?_eq_none (by simp; omega)]
  simp only [scores, e, Outcome.ok_bind, ha, initialised_map, Outcome.pure_eq]

/-! ### The comparison function -/

theorem asInt_sub_le {a b : Nat} (ha : a < 2 ^ 31) (hb : b < 2 ^ 31) : (asInt32 (subIndex a b) < 0 ↔ a < b) ∧ (0 < asInt32 (subIndex a b) ↔ b < a) := by
  unfold asInt32 subIndex
  simp only
  refine ⟨?_, ?_⟩ <;> split_ifs <;> omega

theorem compare_neg [LinearOrder W] [LinearOrder T] {a b : OScore W T} (ha : a.id < 2 ^ 31) (hb : b.id < 2 ^ 31) :
    (outlierCompare a b < 0 ↔ Before a b) ∧ (0 < outlierCompare a b ↔ Before b a) := by
  obtain ⟨h1, h2⟩ := asInt_sub_le ha hb
  unfold outlierCompare Before
  simp only [ccmp_lt, decide_eq_true_eq]
  rcases lt_trichotomy a.score b.score with hs | hs | hs
  · have := hs.ne; have := hs.ne'; have := hs.not_gt
    simp [*]
  · rcases lt_trichotomy a.core b.core with hc | hc | hc
    · have := hc.ne; have := hc.ne'; have := hc.not_gt
      simp [*]
    · simp [hs, hc, h1, h2]
    · have := hc.ne; have := hc.ne'; have := hc.not_gt
      simp [*]
  · have := hs.ne; have := hs.ne'; have := hs.not_gt
    simp [*]

theorem before_trans [LinearOrder W] [LinearOrder T] {a b c : OScore W T} (h1 : Before a b) (h2 : Before b c) : Before a c := by
  unfold Before at *
  rcases h1 with h1 | ⟨h1, h1' | ⟨h1', h1''⟩⟩ <;> rcases h2 with h2 | ⟨h2, h2' | ⟨h2', h2''⟩⟩
  · exact .inl (h1.trans h2)
  · exact .inl (h2 ▸ h1)
  · exact .inl (h2 ▸ h1)
  · exact .inl (h1 ▸ h2)
  · exact .inr ⟨h1.trans h2, .inl (h1'.trans h2')⟩
  · exact .inr ⟨h1.trans h2, .inl (h2' ▸ h1')⟩
  · exact .inl (h1 ▸ h2)
  · exact .inr ⟨h1.trans h2, .inl (h1' ▸ h2')⟩
  · exact .inr ⟨h1.trans h2, .inr ⟨h1'.trans h2', by omega⟩⟩

theorem before_total [LinearOrder W] [LinearOrder T] (a b : OScore W T) (h : a.id ≠ b.id) : Before a b ∨ Before b a := by
  unfold Before
  rcases lt_trichotomy a.score b.score with hs | hs | hs
  · exact .inl (.inl hs)
  · rcases lt_trichotomy a.core b.core with hc | hc | hc
    · exact .inl (.inr ⟨hs, .inl hc⟩)
    · rcases Nat.lt_or_gt_of_ne h with h | h
      · exact .inl (.inr ⟨hs, .inr ⟨hc, h⟩⟩)
      · exact .inr (.inr ⟨hs.symm, .inr ⟨hc.symm, h⟩⟩)
    · exact .inr (.inr ⟨hs.symm, .inl hc⟩)
  · exact .inr (.inl hs)

/-! ### What the scores are computed from -/

/-- The result of the stages before the outlier scores, as far as they are concerned. -/
theorem source_rep [LinearOrder W] [CCmp S] (ar : Arith W S) (smax : S) (g : Graph W) (minPoints : Nat) (hm : 1 ≤ minPoints) (hn : g.numVertices < 2 ^ 32)
    (hg : TreeInput g.numVertices g.va g.vb g.wt g.edges) (hmax : ∀ w ∈ g.wt, w < ar.dmax) :
    ∃ out : Run.Out W S, (∀ sch : Run.Schedule, sch.Complete → Run.fromTree ar smax sch minPoints g = .ok out) ∧
      ∀ p, p < g.numVertices → ∃ (w : W) (l : Nat) (c : Cl W S), out.noise[p]? = some (some w) ∧ out.last[p]? = some (some l) ∧ out.clusters[l]? = some (some c) ∧
        w ∈ g.wt ∧ (∃ i, 1 ≤ i ∧ l ≠ 0 ∧ Carries out.hierarchy i p l ∧ HasWeight out.hierarchy i w ∧ ∀ j x, i < j → Carries out.hierarchy j p x → x = 0) ∧
        (out.clusters.length = 2 → c.propLowest = ar.dmax) ∧
        (out.clusters.length ≠ 2 → c.propLowest ≤ w ∧ c.propLowest ∈ g.wt ∧ LowestBelow out.clusters l c.propLowest) := by
  obtain ⟨f, hr, ec, hd, hs, htr⟩ := Hier.input_rep hg
  obtain ⟨res, hist, cur, noise, last, e, h⟩ := Hier.obs ar hr hg.nonempty ec rfl hn hm hd hs
  obtain ⟨s, V, hall, hx, hsel, labels, hlen, hprom, hiff⟩ := Sel.labels_rep h.toBase smax
  obtain ⟨htree, _, _⟩ := Sel.obs_tree h.toBase
  obtain ⟨hrr, ht, hout⟩ := Sel.tree_of (ar := ar) htree
  have hN := htree.two
  have hch := Sel.isChild_after htree hx
  have hwt : ∀ w, (∃ i, i < g.wt.length ∧ (f i).2.2 = w) → w ∈ g.wt := by
    rintro w ⟨i, hi, rfl⟩
    rw [hr.wt]
    exact List.mem_map.2 ⟨i, List.mem_range.2 hi, rfl⟩
  have hmaxf : ∀ i, i < g.wt.length → (f i).2.2 < ar.dmax := fun i hi => hmax _ (hwt _ ⟨i, hi, rfl⟩)
  refine ⟨{ clusters := s.clusters, hierarchy := res.hierarchy, noise := res.noise, last := res.last, infinite := s.infinite, labels := labels }, ?_, ?_⟩
  · intro sch hsch
    simp only [Run.fromTree, e, Outcome.ok_bind, hall _ (hsch.leaf _), hprom sch.group sch.steps hsch.group hsch.steps, Outcome.pure_eq]
  · intro p hp
    obtain ⟨s', w, g', n1, n2, n3, n4, n5⟩ := h.bk.noise p hp (h.zero p hp)
    have hlab : lab hist cur s' p = g' p := by rw [lab_get n1]
    have hlt := h.bk.lt s' p hp
    rw [hlab] at hlt
    have hl1 : 1 ≤ g' p := by omega
    refine ⟨w, g' p, V (g' p), by rw [h.noise]; simp [hp, n4], by rw [h.last]; simp [hp, n5], hx.rep.at' _ hl1 hlt, hwt _ (Sel.weight_mem h n1), ?_, ?_, ?_⟩
    · refine ⟨s' + 1, by omega, n2, (h.carries (by omega)).2 ⟨lt_of_get n1, hp, by rw [← hlab]; rfl⟩, h.hasWeight n1, fun j x hj hc => ?_⟩
      obtain ⟨_, _, q3⟩ := (h.carries (by omega)).1 hc
      rw [← q3]
      exact h.bk.noise_stays hp (s := s' + 1) (by omega) n3
    · intro h2
      simp only [hx.rep.len] at h2
      have h1 : g' p = 1 := by omega
      have hroot := (ht.root 1 (by omega) (by omega)).2 rfl
      have := hx.inv.low 1
      rw [h1, this]
      have hk : Sel.kidsAbove res.clusters.length (Sel.kOf ar res.clusters) 0 1 = [] := by
        apply List.eq_nil_iff_forall_not_mem.2
        intro k hk
        obtain ⟨k1, k2, k3⟩ := Sel.mem_kidsAbove.1 hk
        have : k = 1 := by omega
        subst this
        rw [hroot] at k3; simp at k3
      simp [hk, hroot]
    · intro h2
      simp only [hx.rep.len] at h2
      obtain ⟨w', l', m1, m2, m3, m4, m5, m6, m7⟩ := Sel.low_le_noise h hx.inv hmaxf h2 hp
      rw [n4] at m1
      rw [n5] at m2
      simp only [Option.some.injEq] at m1 m2
      subst m1 m2
      refine ⟨m5, hwt _ m7, ?_⟩
      have hdeath : ∀ l, 1 ≤ l → l < res.clusters.length → (Sel.kOf ar res.clusters l).death < ar.dmax := by
        intro l h1 h2
        obtain ⟨t, g'', d1, _⟩ := Sel.death_at h.toBase (hrr.at' l h1 h2)
        obtain ⟨i, hi, he⟩ := Sel.weight_mem h d1
        rw [← he]; exact hmaxf i hi
      have hkid : g' p ≠ 1 ∨ ∃ k, (Sel.kOf ar res.clusters k).parent = some (g' p) := by
        by_cases hl : g' p = 1
        · right
          rw [hl]
          obtain ⟨c2, hc2, _⟩ := htree.cl 2 (by omega) (by omega)
          cases hp2 : c2.parent with
          | none => exact absurd ((htree.root 2 c2 hc2).1 hp2) (by omega)
          | some q =>
            have := htree.up 2 q ⟨c2, hc2, hp2⟩
            have : q = 1 := by omega
            subst this
            exact ⟨2, by rw [Sel.kOf_eq hc2]; exact hp2⟩
        · exact .inl hl
      obtain ⟨⟨t, t1, t2, t3, t4, t5⟩, hmin⟩ := Sel.low_spec ht (Props.kOf_zero htree) hx.inv hdeath _ (g' p) (le_refl _) hl1 hlt hkid
      have hchild : ∀ a b, IsChild s.clusters a b ↔ (Sel.kOf ar res.clusters a).parent = some b := fun a b => (hch a b).trans Sel.child_iff
      have hrel : (fun a b => (Sel.kOf ar res.clusters a).parent = some b) = IsChild s.clusters := by
        funext a b; exact propext (hchild a b).symm
      rw [hrel] at t4
      have hpos : ∀ t, AtOrAbove s.clusters (g' p) t → 1 ≤ t := by
        intro t ht
        rcases reflTransGen_iff_eq_or_transGen.1 ht with h | h
        · omega
        · obtain ⟨b, hb, _⟩ := TransGen.head'_iff.1 h
          by_contra hn
          have := Props.kOf_zero (ar := ar) htree t (by omega)
          rw [(hchild t b).1 hb] at this; simp at this
      have hVd : ∀ t, (V t).death = (Sel.kOf ar res.clusters t).death := fun t => by rw [hx.inv.stat]
      refine ⟨⟨t, V t, hx.rep.at' t (hpos t t4) t2, fun k hk => t3 k ((hchild k t).1 hk), t4, by rw [hVd]; exact t5.symm⟩, ?_⟩
      intro t' c' hc' hleaf hab
      have hlt' : t' < res.clusters.length := by rw [← hx.rep.len]; exact lt_of_get hc'
      rw [hx.rep.at' t' (hpos t' hab) hlt'] at hc'
      simp only [Option.some.injEq] at hc'
      subst hc'
      rw [hVd]
      refine hmin t' (fun k hk => hleaf k ((hchild k t').2 hk)) ?_
      rw [hrel]; exact hab

end Verif.Outlier
