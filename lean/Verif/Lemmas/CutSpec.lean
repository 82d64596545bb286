import Verif.Lemmas.CutApi
/-
Helper lemmas: what the result of a run on arbitrary data says.
-/
namespace Verif.Cut
open Spec Relation Hier
variable {D W S T : Type}

theorem linked_iff [LinearOrder W] {dmax : W} (c : Cmp dmax) {n : Nat} {d : Nat → Nat → W} {core : Nat → W} {w : W} (hw : w ≤ dmax) (u v : Nat) :
    @Linked W c.i n d core w u v ↔ Reachable n (mutualReach d core) w u v := by
  have : (fun a b => a < n ∧ b < n ∧ a ≠ b ∧ c.i.le (d a b) w = true ∧ c.i.le (core a) w = true ∧ c.i.le (core b) w = true) =
      (fun a b => a < n ∧ b < n ∧ a ≠ b ∧ mutualReach d core a b ≤ w) := by
    funext a b
    rw [c.le _ _ hw, c.le _ _ hw, c.le _ _ hw]
    simp only [decide_eq_true_eq, mutualReach, max_le_iff, and_assoc]
  unfold Linked Reachable
  exact iff_of_eq (congrArg (fun r => EqvGen r u v) this)

/-- A component of two or more points has an edge. -/
theorem vk_iff {f : Nat → Nat × Nat × W} {k m u : Nat} (hm : 2 ≤ m) : VK f k m u ↔ AtLeast m (RK f k u) := by
  constructor
  · rintro ⟨⟨l, h1, h2, h3⟩, _⟩
    exact ⟨l, h1, h2, h3⟩
  · rintro ⟨l, h1, h2, h3⟩
    refine ⟨⟨l, h1, h2, h3⟩, ?_⟩
    obtain ⟨v, hv, hne⟩ : ∃ v ∈ l, v ≠ u := by
      by_contra hn'
      push Not at hn'
      have h5 := List.nodup_iff_count_le_one.1 h1 u
      have h4 : l = List.replicate l.length u := List.eq_replicate_iff.2 ⟨rfl, hn'⟩
      rw [h4, List.count_replicate_self] at h5
      omega
    rcases ReflTransGen.cases_head (h3 v hv) with h | ⟨x, hx, _⟩
    · exact absurd h.symm hne
    · exact ⟨u, x, .refl, hx⟩

theorem rk_of [LinearOrder W] {f : Nat → Nat × Nat × W} {M u v : Nat} {w : W} (h : ConnectedBy ((List.range M).map f) w u v) : RK f M u v := by
  induction h with
  | rel x y hxy =>
    obtain ⟨w', hw, _⟩ := hxy
    obtain ⟨i, hi, he⟩ := List.mem_map.1 hw
    exact .single ⟨i, List.mem_range.1 hi, .inl (by rw [he]; exact ⟨rfl, rfl⟩)⟩
  | refl => exact .refl
  | symm _ _ _ ih => exact rk_symm ih
  | trans _ _ _ _ _ i1 i2 => exact i1.trans i2

theorem reach_core [LinearOrder W] {n : Nat} {d : Nat → Nat → W} {core : Nat → W} {w : W} {u v : Nat} (h : Reachable n (mutualReach d core) w u v) (hne : u ≠ v) :
    core u ≤ w ∧ core v ≤ w := by
  have : u = v ∨ (core u ≤ w ∧ core v ≤ w) := by
    clear hne
    induction h with
    | rel x y hxy =>
      obtain ⟨_, _, _, h⟩ := hxy
      simp only [mutualReach, max_le_iff] at h
      exact .inr ⟨h.1.2, h.2⟩
    | refl => exact .inl rfl
    | symm _ _ _ ih => exact ih.imp Eq.symm And.symm
    | trans _ _ _ _ _ i1 i2 =>
      rcases i1 with rfl | i1
      · exact i2
      · rcases i2 with rfl | i2
        · exact .inr i1
        · exact .inr ⟨i1.1, i2.2⟩
  exact this.resolve_left hne

theorem full_sound [LinearOrder W] [CCmp S] [LinearOrder T] (qsort : (OScore W T → OScore W T → Int) → List (OScore W T) → List (OScore W T))
    (ar : Arith W S) (c : Cmp ar.dmax) (smax : S) (ops : Outlier.Ops W T) (m : Nat) (dis : Distance W) (n : Nat) (d : Nat → Nat → W) (core : Nat → W)
    (hq : SortsAscending qsort) (hm : 2 ≤ m) (hn1 : 1 ≤ n) (hn : n < 2 ^ 31)
    (hget : ∀ i j, i < n → j < n → i ≠ j → dis.get ar.zeroW i j = .ok (d i j)) (hsym : ∀ i j, d i j = d j i)
    (hcore : ∀ i, i < n → dis.coreDistances[i]? = some (some (core i))) (hle : ∀ i, i < n → core i ≤ ar.dmax) (sch : Run.Schedule) (order : List Nat)
    (hsch : sch.Complete) (ho : order.Perm (List.range n)) {out : Run.Full W S T} (hout : Run.full qsort ar smax ops sch order m dis n = .ok out) :
    @Sound W S T c.i _ ar n m d core out := by
  obtain ⟨out', g, g', f, res, hist, cur, noise, last, V, sc, e, e1, gle, e2, hnv, hwle, hf, hconn, hcs, e3, hb, hline, o1, o2, o3, o4, hcl, ⟨r1, r2, r3, r4, r5, r6⟩, hiff, ho1, ho2, ho3, ho4, htw⟩ :=
    Run.full_any qsort ar smax ops m dis n d core hq hm hn1 hn hget hsym hcore hle
  rw [e sch order hsch ho] at hout
  cases hout
  have hhist : ∀ (k : Nat) (w : W) (F : Nat → Nat), hist[k]? = some (w, F) → w ≤ ar.dmax := by
    intro k w F hk
    obtain ⟨k', hl⟩ := hline _ (List.mem_of_getElem? hk)
    obtain ⟨i, hi, hw⟩ := hl.at'
    have hw' : w = (f i).2.2 := by simpa using hw.symm
    rw [hw']
    refine hwle _ ?_
    rw [hf.wt]
    exact List.mem_map.2 ⟨i, List.mem_range.2 hi, rfl⟩
  have hwt : ∀ i w A, (i, w, A) ∈ out.hierarchy → i ≠ 0 → w ≤ ar.dmax := by
    intro i w A hA hi
    rw [o1] at hA
    rcases hb.mem_lines.1 hA with ⟨h0, _⟩ | ⟨s, F, hs, _, _⟩
    · exact absurd h0 hi
    · exact hhist _ _ _ hs
  refine @Sound.mk W S T c.i _ ar n m d core out (@Nested.mk W c.i n ar.zeroW _ ?_ ?_) ?_ ?_ r2 htw ⟨V 1, r1, r3, r4, r5, r6⟩ ho2 ?_ (fun o ho => (ho4 o ho).2.1)
  · refine ⟨hist.zipIdx.map (fun h => (h.2 + 1, h.1.1, (List.range n).map h.1.2)), by rw [o1, hb.lines], ?_, ?_, ?_, ?_⟩
    · rw [List.map_map]
      apply List.ext_getElem
      · simp
      · intro i h1 h2; simp
    · rw [List.pairwise_map, List.pairwise_iff_getElem]
      intro i j hi hj hij
      simp only [List.getElem_zipIdx]
      simp only [List.length_zipIdx] at hi hj
      have k1 : hist[i]? = some ((hist[i]).1, (hist[i]).2) := by rw [List.getElem?_eq_getElem hi]
      have k2 : hist[j]? = some ((hist[j]).1, (hist[j]).2) := by rw [List.getElem?_eq_getElem hj]
      rw [c.lt _ _ (hhist i _ _ k1)]
      simpa using Sel.hist_lt hb k1 k2 hij
    · intro x hx
      obtain ⟨y, _, rfl⟩ := List.mem_map.1 hx
      simp
    · have h0 : 0 < hist.length := List.length_pos_of_ne_nil hb.ne
      refine ⟨(hist[0]).1, List.mem_map.2 ⟨(hist[0], 0), ?_, ?_⟩⟩
      · rw [List.mem_iff_getElem]
        exact ⟨0, by simpa using h0, by simp⟩
      · simp only [Prod.mk.injEq, Nat.zero_add, true_and]
        apply List.ext_getElem
        · simp
        · intro i h1 h2
          have := hb.bk.one i (by simpa using h1)
          rw [lab, List.getElem?_eq_getElem h0] at this
          simpa using this
  · intro i p l l' hi hc hc'
    rw [o1] at hc hc' ⊢
    obtain ⟨a1, a2, a3⟩ := (hb.carries hi).1 hc
    obtain ⟨b1, b2, b3⟩ := (hb.carries (by omega)).1 hc'
    have hs := hb.bk.mono (i - 1) p a2 (by omega)
    rw [show i - 1 + 1 = i by omega] at hs
    rw [show i + 1 - 1 = i by omega] at b3
    rw [b3, a3] at hs
    rcases hs with h | ⟨h1, h2⟩
    · exact .inl h
    · refine .inr ⟨h1, h2.imp id (fun h j q hj hji hcj => ?_)⟩
      obtain ⟨d1, d2, d3⟩ := (hb.carries hj).1 hcj
      exact h (j - 1) (by omega) q d2 d3
  · intro i w A hA hi
    have := hwt i w A hA hi
    rw [c.le _ _ (le_refl _)]
    simpa using this
  · intro i w A hA hi hlt
    have hw := hwt i w A hA hi
    rw [c.lt _ _ (le_refl _), decide_eq_true_eq] at hlt
    rw [o1] at hA
    rcases hb.mem_lines.1 hA with ⟨h0, _⟩ | ⟨s, F, hs, _, hA'⟩
    · exact absurd h0 hi
    obtain ⟨k, hl⟩ := hline _ (List.mem_of_getElem? hs)
    have hrk : ∀ u v, RK f k u v ↔ @Linked W c.i n d core w u v := by
      intro u v
      rw [rk_iff hl.le hl.wt, hconn w hlt, linked_iff c hw]
    have hvk : ∀ u, VK f k m u ↔ AtLeast m (@Linked W c.i n d core w u) := by
      intro u
      rw [vk_iff hm]
      have : RK f k u = @Linked W c.i n d core w u := funext fun v => propext (hrk u v)
      rw [this]
    have hA2 : ∀ u l, A[u]? = some l ↔ u < n ∧ F u = l := by
      intro u l
      rw [hA', List.getElem?_map]
      by_cases hu : u < n
      · simp [hu]
      · rw [List.getElem?_eq_none (by simpa using hu)]
        simp [hu]
    have hall : ∀ w' u v, c.i.lt w' ar.dmax = true → @Linked W c.i n d core w' u v → RK f g'.wt.length u v := by
      intro w' u v h1 h2
      rw [c.lt _ _ (le_refl _), decide_eq_true_eq] at h1
      rw [linked_iff c h1.le, ← hconn w' h1] at h2
      exact rk_of h2
    have hcore' : ∀ u v, @Linked W c.i n d core w u v → u ≠ v → core u ≤ w := by
      intro u v h1 h2
      rw [linked_iff c hw] at h1
      exact (reach_core h1 h2).1
    refine @Shows.mk W c.i n m d core ar.dmax w A ?_ ?_ ?_ ?_ ?_
    · intro u v hu hv hlk
      have := hl.uni u v ((hrk u v).2 hlk)
      simp only at this
      rw [(hA2 u (F u)).2 ⟨hu, rfl⟩, (hA2 v (F v)).2 ⟨hv, rfl⟩, this]
    · intro u v l h0 hu hv hor
      obtain ⟨u1, u2⟩ := (hA2 u l).1 hu
      obtain ⟨v1, v2⟩ := (hA2 v l).1 hv
      refine (hrk u v).1 ?_
      rcases hor with h1 | ⟨w', h1, h2⟩
      · exact hl.conn u v u1 v1 (by simp only; omega) (by simp only; omega)
      · exact hl.conn1 u v u1 v1 (by simp only; omega) (by simp only; omega) (hall w' u v h1 h2)
    · intro u l h0 hu
      obtain ⟨u1, u2⟩ := (hA2 u l).1 hu
      by_cases h2 : 2 ≤ l
      · exact .inl ((hvk u).1 (hl.valid u u1 (by simp only; omega)))
      · refine (hl.valid1 u u1 (by simp only; omega)).imp (hvk u).1 (fun h => ⟨by omega, fun v w' h1 h2 => (hrk u v).1 (h v (hall w' u v h1 h2))⟩)
    · intro u hu hat
      obtain ⟨u1, u2⟩ := (hA2 u 0).1 hu
      exact hl.zero u u1 u2 ((hvk u).2 hat)
    · intro u l h0 hu
      obtain ⟨u1, u2⟩ := (hA2 u l).1 hu
      obtain ⟨v, x, r1, r2⟩ := hl.edge u u1 (by simp only; omega)
      rw [c.le _ _ hw, decide_eq_true_eq]
      by_cases huv : u = v
      · subst huv
        by_cases hux : u = x
        · subst hux
          obtain ⟨i, hi, hj⟩ := r2
          have h1 : (f i).1 = u ∧ (f i).2.1 = u := by rcases hj with h | h <;> exact ⟨by omega, by omega⟩
          have h2 := hcs i (lt_of_lt_of_le hi hl.le) (by omega)
          rw [h1.1] at h2
          exact le_trans h2 ((hl.wt i (lt_of_lt_of_le hi hl.le)).1 hi)
        · exact hcore' u x ((hrk u x).1 (.single r2)) hux
      · exact hcore' u v ((hrk u v).1 r1) huv
  · refine ho3.imp_of_mem (fun {a b} ha hb' hab => ?_)
    have hb2 := ho4 b hb'
    have : b.core ≤ ar.dmax := by rw [hb2.2.1]; exact hle _ hb2.1
    unfold InOrder
    rw [c.lt _ _ this, decide_eq_true_eq]
    exact hab

end Verif.Cut
