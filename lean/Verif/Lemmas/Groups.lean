import Verif.Lemmas.InfSel
import Verif.Lemmas.StabDouble
import Verif.Props.Flat
import Verif.Props.Stability
/-
Helper lemmas: groups of points at the least distance of each other.
-/
namespace Verif.Props
open Spec Relation
variable {W S : Type}

/-- Which stabilities are infinite: those with a point that leaves at the level 0. -/
structure InfiniteAtZero (ar : Arith W S) [LinearOrder W] [CCmp S] (Wt : W → Prop) (n : Nat) (Inf Fin : S → Prop) : Prop extends Sel.Infinities ar Inf Fin where
  least : ∀ w, Wt w → ar.zeroW ≤ w
  total : ∀ (b : W) (es : List (Hier.Event W)), Wt b → (∀ e ∈ es, e.1 ≠ 0 ∧ e.2.2 = some b ∧ Wt e.2.1 ∧ e.2.1 < b) → (es.map (·.1)).sum ≤ n →
    ((∃ e ∈ es, e.2.1 = ar.zeroW) → Inf (Hier.total ar es)) ∧ ((∀ e ∈ es, e.2.1 ≠ ar.zeroW) → Fin (Hier.total ar es))

theorem sum_counts {z d : W} (es : List (Hier.Event W)) : (es.map (·.1)).sum = (Hier.total (Hier.tallyArith z d) es).card := by
  induction es using List.reverseRecOn with
  | nil => simp [Hier.total, Hier.tallyArith]
  | append_singleton es e ih =>
    obtain ⟨k, w, b⟩ := e
    rw [Hier.total_snoc, List.map_append, List.sum_append, ih]
    show _ = (_ + Multiset.replicate k (w, b)).card
    rw [Multiset.card_add, Multiset.card_replicate]
    simp

theorem mem_tally_conv {z d : W} (es : List (Hier.Event W)) : ∀ x ∈ Hier.total (Hier.tallyArith z d) es, ∃ e ∈ es, e.2 = x := by
  induction es using List.reverseRecOn with
  | nil => simp [Hier.total, Hier.tallyArith]
  | append_singleton es e ih =>
    obtain ⟨k, w, b⟩ := e
    intro x hx
    rw [Hier.total_snoc] at hx
    change x ∈ _ + Multiset.replicate k (w, b) at hx
    rcases Multiset.mem_add.1 hx with h | h
    · obtain ⟨e, h1, h2⟩ := ih x h
      exact ⟨e, List.mem_append_left _ h1, h2⟩
    · exact ⟨(k, w, b), List.mem_append_right _ List.mem_cons_self, (Multiset.eq_of_mem_replicate h).symm⟩

theorem trans_root {N : Nat} {K : Nat → Cl W S} (ht : Sel.Tree N K) : ∀ l, 1 < l → l < N → TransGen (fun a b => (K a).parent = some b) l 1 := by
  intro l
  induction l using Nat.strongRecOn with
  | _ l ih =>
    intro h1 h2
    obtain ⟨q, hq⟩ : ∃ q, (K l).parent = some q := by
      cases hp : (K l).parent with
      | none => exact absurd ((ht.root l (by omega) h2).1 hp) (by omega)
      | some q => exact ⟨q, rfl⟩
    obtain ⟨q1, q2⟩ := ht.up l q (by omega) h2 hq
    rcases Nat.eq_or_lt_of_le q1 with h | h
    · rw [h]; exact .single hq
    · exact .head hq (ih q q2 h (by omega))

/-- The labels of dense groups at the level 0. -/
theorem out_groups [LinearOrder W] [CCmp S] (ar : Arith W S) (smax : S) (sch : Run.Schedule) (hsch : sch.Complete) (minPoints : Nat) (hm : 2 ≤ minPoints) (dis : Distance W)
    (n : Nat) (hsize : minPoints ≤ n) (hn : n < 2 ^ 32) (d : Nat → Nat → W) (core : Nat → W)
    (hget : ∀ i j, i < n → j < n → i ≠ j → dis.get ar.zeroW i j = .ok (d i j)) (hsym : ∀ i j, d i j = d j i)
    (hcore : ∀ i, i < n → dis.coreDistances[i]? = some (some (core i)))
    (hmax : ∀ i j, i < n → j < n → i ≠ j → mutualReach d core i j < ar.dmax)
    {Wt : W → Prop} {Inf Fin : S → Prop} (hI : InfiniteAtZero ar Wt n Inf Fin) (hwt : ∀ i j, i < n → j < n → Wt (mutualReach d core i j))
    {out : Run.Out W S} (hout : Run.doRun ar smax sch minPoints dis n = .ok out) :
    (∀ p, p < n → AtLeast minPoints (fun v => Reachable n (mutualReach d core) ar.zeroW p v) → (∃ l, l ≠ 0 ∧ l ∈ out.labels) → ∃ l, l ≠ 0 ∧ out.labels[p]? = some l) ∧
    (∀ p q, p < n → q < n → AtLeast minPoints (fun v => Reachable n (mutualReach d core) ar.zeroW p v) → AtLeast minPoints (fun v => Reachable n (mutualReach d core) ar.zeroW q v) →
      ¬ Reachable n (mutualReach d core) ar.zeroW p q → ∃ l l', l ≠ 0 ∧ l' ≠ 0 ∧ l ≠ l' ∧ out.labels[p]? = some l ∧ out.labels[q]? = some l') := by
  obtain ⟨g, g', e1, e2, e3, hin, hconn, _⟩ := Run.sorted_mst ar.zeroW ar.dmax dis n (by omega) d core hget hsym hcore hmax
  obtain ⟨res, hres, hlev⟩ := C27_levels ar minPoints hm dis n hsize hn d core hget hsym hcore hmax
  obtain ⟨res1, hres1, hden⟩ := C26_data ar minPoints hm dis n hsize hn d core hget hsym hcore hmax
  rw [hres] at hres1; cases hres1
  subst e3
  obtain ⟨res2, hres2, hbirth, _⟩ := C29_birth ar g' minPoints (by omega) hn hin
  obtain ⟨res3, hres3, hdeath⟩ := C30_final ar g' minPoints (by omega) hn hin
  obtain ⟨res4, hres4, hterms⟩ := Hier.terms ar g' minPoints (by omega) hn hin
  obtain ⟨f, hr, ec, hd, hs, htr⟩ := Hier.input_rep hin
  obtain ⟨res', hist, cur, noise, last, e, h⟩ := Hier.obs ar hr hin.nonempty ec rfl hn (show 1 ≤ minPoints by omega) hd hs
  rw [Run.hierarchy, e1] at hres
  simp only [Outcome.ok_bind, e2] at hres
  rw [e] at hres; cases hres
  rw [e] at hres2; cases hres2
  rw [e] at hres3; cases hres3
  rw [e] at hres4; cases hres4
  obtain ⟨s, V, hall, hx, hsel, labels, hlen, hprom, hiff⟩ := Sel.labels_rep h.toBase smax
  simp only [Run.doRun, e1, e2, Outcome.ok_bind, Run.fromTree, e, hall _ (hsch.leaf _), hprom sch.group sch.steps hsch.group hsch.steps, Outcome.pure_eq] at hout
  cases hout
  obtain ⟨t1, t2, t3, t4, t5, t6⟩ := Sel.labels_spec h.toBase hx hsel hlen hiff
  obtain ⟨htree, _, hncs⟩ := Sel.obs_tree h.toBase
  obtain ⟨hrr, ht, hout⟩ := Sel.tree_of (ar := ar) htree
  have hN := htree.two
  have hout' : ∀ l, res.clusters.length ≤ l ∨ l = 0 → (Sel.kOf ar res.clusters l).parent = none := kOf_zero htree
  have hK : ∀ (l : Nat) (q : Nat), (Sel.kOf ar res.clusters l).parent = some q → 1 < l ∧ l < res.clusters.length ∧ res.clusters[l]? = some (some (Sel.kOf ar res.clusters l)) := by
    intro l q hq
    have hlt : l < res.clusters.length := by
      by_contra hne
      rw [hout l (by omega)] at hq; cases hq
    have h0 : l ≠ 0 := by
      rintro rfl
      rw [hout' 0 (.inr rfl)] at hq; cases hq
    have h1 : l ≠ 1 := by
      rintro rfl
      rw [(ht.root 1 (by omega) hlt).2 rfl] at hq; cases hq
    exact ⟨by omega, hlt, hrr.at' l (by omega) hlt⟩
  have hncs' : ∀ l, (Sel.kOf ar res.clusters l).ncs = 0 ∧ (Sel.kOf ar res.clusters l).pncs = 0 := by
    intro l
    unfold Sel.kOf
    split
    · rename_i c hc; exact hncs l c hc
    · exact ⟨rfl, rfl⟩
  -- weights of the lines
  have hord : ∀ (s1 s2 : Nat) (w1 w2 : W) (f1 f2 : Nat → Nat), hist[s1]? = some (w1, f1) → hist[s2]? = some (w2, f2) → s1 ≤ s2 → w2 ≤ w1 := by
    intro s1 s2 w1 w2 f1 f2 h1 h2 hle
    rcases Nat.lt_or_eq_of_le hle with hlt | rfl
    · obtain ⟨l1, h1⟩ := List.getElem?_eq_some_iff.1 h1
      obtain ⟨l2, h2⟩ := List.getElem?_eq_some_iff.1 h2
      have := List.pairwise_iff_getElem.1 h.ord s1 s2 (by simpa using l1) (by simpa using l2) hlt
      exact le_of_lt (by simpa [h1, h2] using this)
    · rw [h1] at h2; cases h2; exact le_refl _
  have hord' : ∀ (s1 s2 : Nat) (w1 w2 : W) (f1 f2 : Nat → Nat), hist[s1]? = some (w1, f1) → hist[s2]? = some (w2, f2) → s1 < s2 → w2 < w1 := by
    intro s1 s2 w1 w2 f1 f2 h1 h2 hlt
    obtain ⟨l1, h1⟩ := List.getElem?_eq_some_iff.1 h1
    obtain ⟨l2, h2⟩ := List.getElem?_eq_some_iff.1 h2
    have := List.pairwise_iff_getElem.1 h.ord s1 s2 (by simpa using l1) (by simpa using l2) hlt
    simpa [h1, h2] using this
  have hW : ∀ i w, i ≠ 0 → HasWeight res.hierarchy i w → Wt w := by
    intro i w hi hw
    obtain ⟨u, v, hmeet, _⟩ := (hlev w).1 ⟨i, hi, hw⟩
    rcases reach_value hmeet.2.1 with he | ⟨a, b, ha, hb, hab, hreach⟩
    · exact absurd he hmeet.1
    · rcases lt_or_eq_of_le hab with hlt | heq
      · exact absurd hreach (hmeet.2.2 _ hlt)
      · rw [← heq]; exact hwt a b ha hb
  -- a cluster that lives at the level 0 has no children
  have hnokid : ∀ i p l, i ≠ 0 → HasWeight res.hierarchy i ar.zeroW → Carries res.hierarchy i p l → ∀ l', (Sel.kOf ar res.clusters l').parent ≠ some l := by
    intro i p l hi hw hc l' hl'
    obtain ⟨k1, k2, k3⟩ := hK l' l hl'
    obtain ⟨q0, b, i0, b1, b2, b3, b4, b5, b6, b7, b8⟩ := hbirth l' _ k3 (by omega)
    obtain ⟨cq, s1, s2, s3, _⟩ := h.spl l' _ l k3 hl'
    obtain ⟨_, i1, d1, d2, _, d4⟩ := hdeath l cq s1
    have hle : i ≤ i1 := by
      by_contra hne
      exact d4 i p (by omega) hc
    obtain ⟨f1, hf1⟩ := h.toBase.weight_of (by omega) hw
    obtain ⟨f2, hf2⟩ := h.toBase.weight_of d1 d2
    have hb0 : b ≤ ar.zeroW := by
      rw [b2] at s3
      simp only [Option.some.injEq] at s3
      rw [s3]
      exact hord _ _ _ _ _ _ hf1 hf2 (by omega)
    obtain ⟨ps, _, hps, hpc⟩ := b7
    obtain ⟨x, hx0⟩ : ∃ x, x ∈ ps := by
      match ps, hps with
      | [], hps => simp at hps; omega
      | x :: _, _ => exact ⟨x, by simp⟩
    obtain ⟨w', A', hA', _⟩ := hpc x hx0
    obtain ⟨f3, hf3⟩ := h.toBase.weight_of b3 b5
    obtain ⟨f4, hf4⟩ := h.toBase.weight_of (i := i0 + 1) (by omega) ⟨_, hA'⟩
    have := hord' _ _ _ _ _ _ hf3 hf4 (by omega)
    have := hI.least w' (hW (i0 + 1) w' (by omega) ⟨_, hA'⟩)
    exact absurd (lt_of_lt_of_le (lt_of_le_of_lt this ‹w' < b›) hb0) (lt_irrefl _)
  -- stabilities
  have hstab : ∀ l q, (Sel.kOf ar res.clusters l).parent = some q →
      ((∃ i p, i ≠ 0 ∧ HasWeight res.hierarchy i ar.zeroW ∧ Carries res.hierarchy i p l) → Inf (Sel.kOf ar res.clusters l).stability) ∧
      ((∀ i p, i ≠ 0 → HasWeight res.hierarchy i ar.zeroW → ¬ Carries res.hierarchy i p l) → Fin (Sel.kOf ar res.clusters l).stability) := by
    intro l q hq
    obtain ⟨k1, k2, k3⟩ := hK l q hq
    obtain ⟨b, members, leave, es, h1, h2, h3, h4, h5, h6, h7, h8, h9⟩ := hterms l _ k3 (by omega)
    have hlv : ∀ p ∈ members, Wt (leave p) := by
      intro p hp
      obtain ⟨⟨i, i1, _, i3, _⟩, _⟩ := h6 p hp
      exact hW i _ (by omega) i3
    have hb : Wt b := by
      obtain ⟨q0, b', i0, b1, b2, b3, b4, b5, _⟩ := hbirth l _ k3 (by omega)
      rw [h1] at b2; cases b2
      exact hW i0 b (by omega) b5
    have hes : ∀ e ∈ es, e.1 ≠ 0 ∧ ∃ p ∈ members, e.2 = (leave p, some b) := by
      intro e he
      have := Hier.mem_tally (z := ar.zeroW) (d := ar.dmax) e he (h8 e he)
      rw [h9, Multiset.mem_coe, List.mem_map] at this
      obtain ⟨p, hp, hpe⟩ := this
      exact ⟨h8 e he, p, hp, hpe.symm⟩
    have hlen' : members.length ≤ g'.numVertices := by
      have := List.Subperm.length_le (h4.subperm (l₂ := List.range g'.numVertices) fun p hp => List.mem_range.2 (h6 p hp).2.2.2)
      simpa using this
    obtain ⟨c1, c2⟩ := hI.total b es hb (fun e he => by
      obtain ⟨x0, p, hp, hpe⟩ := hes e he
      rw [hpe]
      exact ⟨x0, rfl, hlv p hp, (h6 p hp).2.1⟩) (by
      rw [sum_counts (z := ar.zeroW) (d := ar.dmax), h9]
      simpa using hlen')
    rw [h7]
    constructor
    · rintro ⟨i, p, hi, hw, hc⟩
      refine c1 ?_
      have hp := (h5 p).2 ⟨i, hc⟩
      obtain ⟨⟨i', i1, i2, i3, i4⟩, _⟩ := h6 p hp
      have hii : i ≤ i' := by
        by_contra hne
        exact i4 i (by omega) hc
      obtain ⟨f1, hf1⟩ := h.toBase.weight_of (by omega) hw
      obtain ⟨f2, hf2⟩ := h.toBase.weight_of i1 i3
      have hz : leave p = ar.zeroW := le_antisymm (hord _ _ _ _ _ _ hf1 hf2 (by omega)) (hI.least _ (hlv p hp))
      obtain ⟨e, he1, he2⟩ := mem_tally_conv (z := ar.zeroW) (d := ar.dmax) es (leave p, some b) (by
        rw [h9, Multiset.mem_coe]
        exact List.mem_map.2 ⟨p, hp, rfl⟩)
      exact ⟨e, he1, by rw [he2]; exact hz⟩
    · intro hno
      refine c2 fun e he hz => ?_
      obtain ⟨_, p, hp, hpe⟩ := hes e he
      rw [hpe] at hz
      dsimp only at hz
      obtain ⟨⟨i', i1, i2, i3, i4⟩, _⟩ := h6 p hp
      rw [hz] at i3
      exact hno i' p (by omega) i3 i2
  have hboth : ∀ l q, (Sel.kOf ar res.clusters l).parent = some q → Fin (Sel.kOf ar res.clusters l).stability ∨ Inf (Sel.kOf ar res.clusters l).stability := by
    intro l q hq
    by_cases hc : ∃ i p, i ≠ 0 ∧ HasWeight res.hierarchy i ar.zeroW ∧ Carries res.hierarchy i p l
    · exact .inr ((hstab l q hq).1 hc)
    · exact .inl ((hstab l q hq).2 fun i p h1 h2 h3 => hc ⟨i, p, h1, h2, h3⟩)
  have hinner : ∀ l q l', (Sel.kOf ar res.clusters l).parent = some q → (Sel.kOf ar res.clusters l').parent = some l → Fin (Sel.kOf ar res.clusters l).stability :=
    fun l q l' hq hl' => (hstab l q hq).2 fun i p h1 h2 h3 => hnokid i p l h1 h2 h3 l' hl'
  -- the label of a dense group at the level 0
  have hline : ∀ p, p < g'.numVertices → AtLeast minPoints (fun v => Reachable g'.numVertices (mutualReach d core) ar.zeroW p v) →
      ∃ i A l, i ≠ 0 ∧ (i, ar.zeroW, A) ∈ res.hierarchy ∧ A[p]? = some l ∧ l ≠ 0 ∧ (l ≠ 1 → labels[p]? = some l) ∧ (l = 1 → ∀ l', l' ≠ 0 → l' ∉ labels) := by
    intro p hp hdense
    obtain ⟨p', hne, hreach⟩ : ∃ p', p ≠ p' ∧ Reachable g'.numVertices (mutualReach d core) ar.zeroW p p' := by
      obtain ⟨ps, hnd, hlen, hall⟩ := hdense
      match ps, hlen with
      | [], hlen => simp at hlen; omega
      | [x], hlen => simp at hlen; omega
      | x :: y :: _, _ =>
        by_cases hpx : p = x
        · exact ⟨y, fun hpy => by simp [← hpx, ← hpy] at hnd, hall y (by simp)⟩
        · exact ⟨x, hpx, hall x (by simp)⟩
    have hmeet : MeetAt g'.numVertices (mutualReach d core) ar.zeroW p p' := by
      refine ⟨hne, hreach, fun w' hw' hr' => ?_⟩
      rcases reach_value hr' with he | ⟨a, b, ha, hb, hab, _⟩
      · exact hne he
      · exact absurd (lt_of_le_of_lt ((hI.least _ (hwt a b ha hb)).trans hab) hw') (lt_irrefl _)
    obtain ⟨i, hi, A, hA⟩ := (hlev ar.zeroW).2 ⟨p, p', hmeet, hdense⟩
    obtain ⟨hlenA, hsame, hzero⟩ := hden i _ A hA hi
    obtain ⟨l, hl⟩ : ∃ l, A[p]? = some l := ⟨_, List.getElem?_eq_getElem (by omega)⟩
    have hl0 : l ≠ 0 := fun hz => (hzero p l hl).1 hz hdense
    have hcar : Carries res.hierarchy i p l := ⟨_, A, hA, hl⟩
    have hleaf := hnokid i p l hi ⟨A, hA⟩ hcar
    refine ⟨i, A, l, hi, hA, hl, hl0, fun hl1 => ?_, fun hl1 l' hl' hmem => ?_⟩
    · have hlt : l < res.clusters.length := by
        obtain ⟨_, hpn, hlab⟩ := (h.toBase.carries (by omega)).1 hcar
        by_contra hne
        have := h.toBase.bk.lt (i - 1) p hpn
        omega
      have htr := trans_root ht l (by omega) hlt
      obtain ⟨q, hq⟩ : ∃ q, (Sel.kOf ar res.clusters l).parent = some q := by
        rcases TransGen.head'_iff.1 htr with ⟨q, hq, _⟩
        exact ⟨q, hq⟩
      have hsel' := (Sel.inf_selected ht hout' hx.inv hncs' hI.toInfinities hboth hinner hleaf ((hstab l q hq).1 ⟨i, p, hi, ⟨A, hA⟩, hcar⟩) 1 htr).1
      refine (t5 p l hl0).2 ⟨hsel', ?_⟩
      obtain ⟨k1, k2, k3⟩ := hK l q hq
      obtain ⟨q0, b, i0, b1, b2, b3, b4, b5, b6, b7, b8⟩ := hbirth l _ k3 hl1
      exact ⟨i0 + 1, by omega, (b8 i p hcar).1, fun j p' j1 j2 => b6 j p' j1 (by omega)⟩
    · subst hl1
      obtain ⟨p0, hp0⟩ := List.mem_iff_getElem?.1 hmem
      have hdesc := ((t5 p0 l' hl').1 hp0).1
      obtain ⟨q, hq⟩ := hsel.notRoot l' hdesc
      obtain ⟨k1, k2, k3⟩ := hK l' q (Sel.child_iff.1 hq)
      obtain ⟨l2, h1, _⟩ := Sel.below_child (trans_root ht l' k1 k2)
      exact hleaf l2 h1
  constructor
  · rintro p hp hdense ⟨l', hl', hmem⟩
    obtain ⟨i, A, l, _, _, _, h3, h4, h5⟩ := hline p hp hdense
    by_cases h1 : l = 1
    · exact absurd hmem (h5 h1 l' hl')
    · exact ⟨l, h3, h4 h1⟩
  · intro p q hp hq hdp hdq hne
    obtain ⟨i, A, l, a1, a2, a3, a4, a5, a6⟩ := hline p hp hdp
    obtain ⟨i', A', l', b1, b2, b3, b4, b5, b6⟩ := hline q hq hdq
    have hAA : A = A' := by
      rcases h.toBase.mem_lines.1 a2 with ⟨z, _⟩ | ⟨s1, g1, u1, u2, u3⟩
      · omega
      rcases h.toBase.mem_lines.1 b2 with ⟨z, _⟩ | ⟨s2, g2, v1, v2, v3⟩
      · omega
      rcases Nat.lt_trichotomy s1 s2 with hc | hc | hc
      · exact absurd (hord' _ _ _ _ _ _ u1 v1 hc) (lt_irrefl _)
      · subst hc
        rw [u1] at v1; cases v1
        rw [u3, v3]
      · exact absurd (hord' _ _ _ _ _ _ v1 u1 hc) (lt_irrefl _)
    subst hAA
    have hll : l ≠ l' := fun hc => hne (((hden i _ A a2 a1).2.1 p q l l' a3 b3 a4 b4).1 hc)
    by_cases h1 : l = 1
    · exact absurd (List.mem_iff_getElem?.2 ⟨q, b5 (by omega)⟩) (a6 h1 l' b4)
    · by_cases h1' : l' = 1
      · exact absurd (List.mem_iff_getElem?.2 ⟨p, a5 h1⟩) (b6 h1' l a4)
      · exact ⟨l, l', a4, b4, hll, a5 h1, b5 h1'⟩

end Verif.Props
