import Verif.Model.Mst
import Verif.Lemmas.Graph
import Verif.Lemmas.Prim
import Mathlib.Logic.Function.Basic
import Mathlib.Order.MinMax
/-
`hdbscan_construct_mst` is a run of Prim's algorithm.
-/
namespace Verif.Mst
open Graph (rd_map wr_map)
variable {W : Type}

/-- Distances and core distances are available for the points below `n`. -/
structure Ready (zero : W) (dis : Distance W) (n : Nat) (d : Nat → Nat → W) (core : Nat → W) : Prop where
  get : ∀ i j, i < n → j < n → i ≠ j → dis.get zero i j = .ok (d i j)
  core : ∀ i, i < n → rdInit dis.coreDistances i = .ok (core i)
  symm : ∀ i j, d i j = d j i

section Linear
variable [LinearOrder W] {zero dmax : W} {dis : Distance W} {n : Nat} {d : Nat → Nat → W} {core : Nat → W}

theorem mutualReach_symm (hs : ∀ i j, d i j = d j i) (i j : Nat) : Spec.mutualReach d core i j = Spec.mutualReach d core j i := by
  unfold Spec.mutualReach
  rw [hs i j, max_assoc, max_assoc, max_comm (core i)]

theorem mrd_eq (h : Ready zero dis n d core) {v cur : Nat} (hv : v < n) (hc : cur < n) (hne : v ≠ cur) :
    mrd zero dis v cur = .ok (Spec.mutualReach d core cur v) := by
  simp only [mrd, h.get v cur hv hc hne, h.core cur hc, h.core v hv, Outcome.ok_bind, Outcome.pure_eq, ccmp_lt, decide_eq_true_eq,
    Spec.mutualReach, h.symm cur v, Outcome.ok.injEq]
  simp only [max_def_lt]

/-- What the inner loop does to the state, seen as functions. -/
structure ScanRep (s : Scan W) (L : Nat) (D : Nat → W) (N : Nat → Nat) : Prop where
  dist : s.dist = (List.range L).map D
  nb : s.nb = (List.range L).map N

theorem visit_rep (h : Ready zero dis n d core) {L : Nat} {s : Scan W} {D : Nat → W} {N : Nat → Nat} (hs : ScanRep s L D N)
    {v cur : Nat} (hv : v < n) (hc : cur < n) (hne : v ≠ cur) (hvL : v < L) :
    let mr := Spec.mutualReach d core cur v
    let D' := fun k => if k = v ∧ mr < D v then mr else D k
    let N' := fun k => if k = v ∧ mr < D v then cur else N k
    ∃ s', visit zero dis cur v s = .ok s' ∧ ScanRep s' L D' N' ∧
      ((D' v ≤ s.nd ∧ s'.nd = D' v ∧ s'.np = some v) ∨ (¬ D' v ≤ s.nd ∧ s'.nd = s.nd ∧ s'.np = s.np)) := by
  intro mr D' N'
  have hrel : ∃ s1, relax mr v cur s = .ok s1 ∧ ScanRep s1 L D' N' ∧ s1.nd = s.nd ∧ s1.np = s.np := by
    simp only [relax]
    rw [hs.dist, rd_map _ hvL]
    simp only [Outcome.ok_bind, ccmp_lt, decide_eq_true_eq]
    by_cases c : mr < D v
    · rw [if_pos c, wr_map _ _ hvL, hs.nb, wr_map _ _ hvL]
      refine ⟨_, rfl, ⟨?_, ?_⟩, rfl, rfl⟩
      · apply List.map_congr_left; intro k _; simp [D', c]
      · apply List.map_congr_left; intro k _; simp [N', c]
    · rw [if_neg c]
      refine ⟨s, rfl, ⟨?_, ?_⟩, rfl, rfl⟩
      · rw [hs.dist]; apply List.map_congr_left; intro k _; simp [D', c]
      · rw [hs.nb]; apply List.map_congr_left; intro k _; simp [N', c]
  obtain ⟨s1, e1, r1, nd1, np1⟩ := hrel
  simp only [visit, mrd_eq h hv hc hne, Outcome.ok_bind]
  rw [e1]
  simp only [Outcome.ok_bind]
  rw [r1.dist, rd_map _ hvL]
  simp only [Outcome.ok_bind, ccmp_le, decide_eq_true_eq]
  by_cases c : D' v ≤ s1.nd
  · rw [if_pos c]
    exact ⟨_, rfl, ⟨rfl, r1.nb⟩, .inl ⟨by rw [← nd1]; exact c, rfl, rfl⟩⟩
  · rw [if_neg c]
    exact ⟨_, rfl, r1, .inr ⟨by rw [← nd1]; exact c, nd1, np1⟩⟩

/-- The inner loop. `A` says which points are attached. -/
theorem scan_rep (h : Ready zero dis n d core) {L : Nat} (hL : n ≤ L + 1) {A : Nat → Bool} {cur : Nat} (hcur : cur < n) (hA : A cur = true)
    (hlast : A (n - 1) = true) : ∀ (todo : List Nat) (s : Scan W) (D : Nat → W) (N : Nat → Nat), todo.Nodup → (∀ v ∈ todo, v < n) →
    ScanRep s L D N →
    ∃ s' D' N', scan zero dis ((List.range n).map A) cur todo s = .ok s' ∧ ScanRep s' L D' N' ∧
      (∀ k, D' k = if k ∈ todo ∧ A k = false ∧ Spec.mutualReach d core cur k < D k then Spec.mutualReach d core cur k else D k) ∧
      (∀ k, N' k = if k ∈ todo ∧ A k = false ∧ Spec.mutualReach d core cur k < D k then cur else N k) ∧
      s'.nd ≤ s.nd ∧ (∀ v ∈ todo, A v = false → s'.nd ≤ D' v) ∧
      ((s'.np = s.np ∧ s'.nd = s.nd ∧ ∀ v ∈ todo, A v = false → ¬ D' v ≤ s.nd) ∨
        ∃ p ∈ todo, A p = false ∧ s'.np = some p ∧ s'.nd = D' p) := by
  intro todo
  induction todo with
  | nil =>
    intro s D N _ _ hs
    exact ⟨s, D, N, rfl, hs, by simp, by simp, le_refl _, by simp, .inl ⟨rfl, rfl, by simp⟩⟩
  | cons v r ih =>
    intro s D N hnd hlt hs
    rw [List.nodup_cons] at hnd
    have hv : v < n := hlt v (by simp)
    have skip : A v = true → ∃ s' D' N', scan zero dis ((List.range n).map A) cur (v :: r) s = .ok s' ∧ ScanRep s' L D' N' ∧
      (∀ k, D' k = if k ∈ v :: r ∧ A k = false ∧ Spec.mutualReach d core cur k < D k then Spec.mutualReach d core cur k else D k) ∧
      (∀ k, N' k = if k ∈ v :: r ∧ A k = false ∧ Spec.mutualReach d core cur k < D k then cur else N k) ∧
      s'.nd ≤ s.nd ∧ (∀ x ∈ v :: r, A x = false → s'.nd ≤ D' x) ∧
      ((s'.np = s.np ∧ s'.nd = s.nd ∧ ∀ x ∈ v :: r, A x = false → ¬ D' x ≤ s.nd) ∨
        ∃ p ∈ v :: r, A p = false ∧ s'.np = some p ∧ s'.nd = D' p) := by
      intro hAv
      obtain ⟨s', D', N', e, r', f1, f2, f3, f4, f5⟩ := ih s D N hnd.2 (fun x hx => hlt x (by simp [hx])) hs
      refine ⟨s', D', N', ?_, r', ?_, ?_, f3, ?_, ?_⟩
      · simp only [scan]
        by_cases c : cur = v
        · rw [if_pos c]; exact e
        · rw [if_neg c, rd_map _ hv]
          simp only [Outcome.ok_bind, hAv, if_true]
          exact e
      · intro k
        rw [f1 k]
        by_cases hk : k = v
        · subst hk; simp [hAv]
        · simp [hk]
      · intro k
        rw [f2 k]
        by_cases hk : k = v
        · subst hk; simp [hAv]
        · simp [hk]
      · intro x hx hAx
        rcases List.mem_cons.mp hx with rfl | hx
        · rw [hAv] at hAx; exact absurd hAx (by simp)
        · exact f4 x hx hAx
      · rcases f5 with ⟨g1, g2, g3⟩ | ⟨p, hp, g⟩
        · refine .inl ⟨g1, g2, ?_⟩
          intro x hx hAx
          rcases List.mem_cons.mp hx with rfl | hx
          · rw [hAv] at hAx; exact absurd hAx (by simp)
          · exact g3 x hx hAx
        · exact .inr ⟨p, by simp [hp], g⟩
    by_cases hAv : A v = true
    · exact skip hAv
    · have hAv' : A v = false := by simpa using hAv
      have hne : cur ≠ v := by rintro rfl; exact hAv hA
      have hvL : v < L := by
        have : v ≠ n - 1 := by rintro rfl; exact hAv hlast
        omega
      obtain ⟨s1, e1, r1, hcase⟩ := visit_rep h hs hv hcur (Ne.symm hne) hvL
      obtain ⟨s', D', N', e, r', f1, f2, f3, f4, f5⟩ := ih s1 _ _ hnd.2 (fun x hx => hlt x (by simp [hx])) r1
      have hDv : D' v = if Spec.mutualReach d core cur v < D v then Spec.mutualReach d core cur v else D v := by
        rw [f1 v]; simp [hnd.1]
      refine ⟨s', D', N', ?_, r', ?_, ?_, ?_, ?_, ?_⟩
      · simp only [scan]
        rw [if_neg hne, rd_map _ hv]
        simp only [Outcome.ok_bind, hAv', Bool.false_eq_true, if_false, e1]
        exact e
      · intro k
        by_cases hk : k = v
        · subst hk; rw [hDv]; simp [hAv']
        · rw [f1 k]; simp [hk]
      · intro k
        by_cases hk : k = v
        · subst hk; rw [f2 k]; simp [hAv', hnd.1]
        · rw [f2 k]; simp [hk]
      · rcases hcase with ⟨c1, c2, c3⟩ | ⟨c1, c2, c3⟩
        · rw [c2] at f3; exact f3.trans c1
        · rw [c2] at f3; exact f3
      · intro x hx hAx
        rcases List.mem_cons.mp hx with rfl | hx
        · rw [hDv]
          rcases hcase with ⟨c1, c2, c3⟩ | ⟨c1, c2, c3⟩
          · rw [c2] at f3; simpa using f3
          · rw [c2] at f3
            simp only [true_and, not_le] at c1
            exact f3.trans c1.le
        · exact f4 x hx hAx
      · rcases f5 with ⟨g1, g2, g3⟩ | ⟨p, hp, g⟩
        · rcases hcase with ⟨c1, c2, c3⟩ | ⟨c1, c2, c3⟩
          · refine .inr ⟨v, by simp, hAv', g1.trans c3, ?_⟩
            rw [g2, c2, hDv]; simp
          · refine .inl ⟨g1.trans c3, g2.trans c2, ?_⟩
            intro x hx hAx
            rcases List.mem_cons.mp hx with rfl | hx
            · rw [hDv]; simpa using c1
            · rw [← c2]; exact g3 x hx hAx
        · exact .inr ⟨p, by simp [hp], g⟩

/-- State of the outer loop when the `t` points `a 0, ..., a (t-1)` are attached. -/
structure Inv (n : Nat) (m : Nat → Nat → W) (dmax : W) (t : Nat) (a : Nat → Nat) (A : Nat → Bool) (D : Nat → W) (N : Nat → Nat) : Prop where
  zero : a 0 = n - 1
  lt : ∀ s, s < t → a s < n
  inj : ∀ s s', s < t → s' < t → a s = a s' → s = s'
  att : ∀ v, v < n → (A v = true ↔ ∃ s, s < t ∧ a s = v)
  fixed : ∀ s, 0 < s → s < t → ∃ p, p < s ∧ N (a s) = a p ∧ D (a s) = m (a p) (a s) ∧
    ∀ q x, q < s → x < n → (∀ s', s' < s → a s' ≠ x) → D (a s) ≤ m (a q) x
  pend : ∀ v, v < n → A v = false → D v ≤ dmax ∧ (∀ p, p + 1 < t → D v ≤ m (a p) v) ∧
    (D v = dmax ∨ ∃ p, p + 1 < t ∧ N v = a p ∧ D v = m (a p) v)

theorem grow_rep (h : Ready zero dis n d core)
    (hmax : ∀ i j, i < n → j < n → i ≠ j → Spec.mutualReach d core i j < dmax) {L : Nat} (hL : n ≤ L) :
    ∀ (k t : Nat) (a : Nat → Nat) (A : Nat → Bool) (D : Nat → W) (N O : Nat → Nat), 1 ≤ t → t + k = n →
    Inv n (Spec.mutualReach d core) dmax t a A D N → (∀ i, O i = if i < t then i else 0) →
    ∃ a' A' D' N', grow zero dmax dis n k t (a (t - 1)) ((List.range n).map A) ((List.range L).map D) ((List.range L).map N)
        ((List.range L).map O) = .ok ((List.range L).map D', (List.range L).map N', (List.range L).map (fun i => if i < n then i else 0)) ∧
      Inv n (Spec.mutualReach d core) dmax n a' A' D' N' := by
  intro k
  induction k with
  | zero =>
    intro t a A D N O ht htk hi hO
    have : t = n := by omega
    subst this
    refine ⟨a, A, D, N, ?_, hi⟩
    simp only [grow]
    rw [List.map_congr_left (fun i _ => hO i)]
  | succ k ih =>
    intro t a A D N O ht htk hi hO
    set m := Spec.mutualReach d core with hm
    have hcur : a (t - 1) < n := hi.lt _ (by omega)
    have hAc : A (a (t - 1)) = true := (hi.att _ hcur).mpr ⟨t - 1, by omega, rfl⟩
    have hAl : A (n - 1) = true := (hi.att _ (by omega)).mpr ⟨0, by omega, hi.zero⟩
    obtain ⟨s', D', N', e, r, f1, f2, f3, f4, f5⟩ := scan_rep h (L := L) (by omega) hcur hAc hAl (List.range n)
      { dist := (List.range L).map D, nb := (List.range L).map N, nd := dmax, np := none } D N List.nodup_range
      (fun v hv => List.mem_range.mp hv) ⟨rfl, rfl⟩
    simp only at f3 f4 f5
    -- facts about unattached points after the scan
    have hpend : ∀ v, v < n → A v = false → D' v < dmax ∧ (∀ p, p < t → D' v ≤ m (a p) v) ∧ (∃ p, p < t ∧ N' v = a p ∧ D' v = m (a p) v) := by
      intro v hv hAv
      obtain ⟨p1, p2, p3⟩ := hi.pend v hv hAv
      have hcv : a (t - 1) ≠ v := by rintro rfl; rw [hAc] at hAv; exact absurd hAv (by simp)
      have hmx := hmax (a (t - 1)) v hcur hv hcv
      have e1 := f1 v
      have e2 := f2 v
      simp only [List.mem_range, hv, hAv, true_and] at e1 e2
      by_cases c : m (a (t - 1)) v < D v
      · rw [if_pos c] at e1 e2
        refine ⟨by rw [e1]; exact hmx, ?_, t - 1, by omega, e2, e1⟩
        intro p hp
        by_cases hp' : p = t - 1
        · subst hp'; rw [e1]
        · rw [e1]; exact c.le.trans (p2 p (by omega))
      · rw [if_neg c] at e1 e2
        have hDle : D v ≤ m (a (t - 1)) v := not_lt.mp c
        have hDlt : D v < dmax := lt_of_le_of_lt hDle hmx
        refine ⟨by rw [e1]; exact hDlt, ?_, ?_⟩
        · intro p hp
          by_cases hp' : p = t - 1
          · subst hp'; rw [e1]; exact hDle
          · rw [e1]; exact p2 p (by omega)
        · rcases p3 with p3 | ⟨p, q1, q2, q3⟩
          · rw [p3] at hDlt; exact absurd hDlt (lt_irrefl _)
          · exact ⟨p, by omega, by rw [e2]; exact q2, by rw [e1]; exact q3⟩
    have hkeep : ∀ v, v < n → A v = true → D' v = D v ∧ N' v = N v := by
      intro v hv hAv
      constructor
      · rw [f1 v]; simp [hAv]
      · rw [f2 v]; simp [hAv]
    -- there is an unattached point
    have hex : ∃ v, v < n ∧ A v = false := by
      by_contra hc
      have hall : ∀ v, v < n → A v = true := by
        intro v hv
        by_contra hA
        exact hc ⟨v, hv, by simpa using hA⟩
      have hsub : List.range n ⊆ (List.range t).map a := by
        intro v hv
        obtain ⟨s, hs, rfl⟩ := (hi.att v (List.mem_range.mp hv)).mp (hall v (List.mem_range.mp hv))
        exact List.mem_map.mpr ⟨s, List.mem_range.mpr hs, rfl⟩
      have := (List.subperm_of_subset List.nodup_range hsub).length_le
      simp only [List.length_range, List.length_map] at this
      omega
    rcases f5 with ⟨_, _, g3⟩ | ⟨p, hp, hAp, g1, g2⟩
    · obtain ⟨v, hv, hAv⟩ := hex
      exact absurd (hpend v hv hAv).1.le (g3 v (List.mem_range.mpr hv) hAv)
    · have hpn : p < n := List.mem_range.mp hp
      have hcheap : ∀ x, x < n → A x = false → D' p ≤ D' x := by
        intro x hx hAx
        rw [← g2]; exact f4 x (List.mem_range.mpr hx) hAx
      have hpa : ∀ s, s < t → a s ≠ p := by
        intro s hs he
        have := (hi.att p hpn).mpr ⟨s, hs, he⟩
        rw [hAp] at this; exact absurd this (by simp)
      have hup : ∀ s, s < t → Function.update a t p s = a s := fun s hs => Function.update_of_ne (by omega) _ _
      have hupt : Function.update a t p t = p := Function.update_self _ _ _
      have hinv : Inv n m dmax (t + 1) (Function.update a t p) (fun v => if v = p then true else A v) D' N' := by
        refine ⟨?_, ?_, ?_, ?_, ?_, ?_⟩
        · rw [hup 0 (by omega)]; exact hi.zero
        · intro s hs
          by_cases c : s = t
          · subst c; rw [hupt]; exact hpn
          · rw [hup s (by omega)]; exact hi.lt s (by omega)
        · intro s s1 hs hs1 he
          by_cases c : s = t <;> by_cases c1 : s1 = t
          · omega
          · subst c; rw [hupt, hup s1 (by omega)] at he; exact absurd he.symm (hpa s1 (by omega))
          · subst c1; rw [hupt, hup s (by omega)] at he; exact absurd he (hpa s (by omega))
          · rw [hup s (by omega), hup s1 (by omega)] at he; exact hi.inj s s1 (by omega) (by omega) he
        · intro v hv
          by_cases c : v = p
          · subst c; simp only [if_true, true_iff]; exact ⟨t, by omega, hupt⟩
          · simp only [c, if_false]
            rw [hi.att v hv]
            constructor
            · rintro ⟨s, h1, h2⟩; exact ⟨s, by omega, by rw [hup s h1]; exact h2⟩
            · rintro ⟨s, h1, h2⟩
              by_cases c1 : s = t
              · subst c1; rw [hupt] at h2; exact absurd h2.symm c
              · exact ⟨s, by omega, by rw [← hup s (by omega)]; exact h2⟩
        · intro s h0 hs
          by_cases c : s = t
          · subst c
            rw [hupt]
            obtain ⟨_, q2, q, q3, q4, q5⟩ := hpend p hpn hAp
            refine ⟨q, q3, by rw [hup q q3]; exact q4, by rw [hup q q3]; exact q5, ?_⟩
            intro q' x hq' hx hxs
            rw [hup q' hq']
            have hAx : A x = false := by
              by_contra hA
              obtain ⟨s', h1, h2⟩ := (hi.att x hx).mp (by simpa using hA)
              exact hxs s' h1 (by rw [hup s' h1]; exact h2)
            exact (hcheap x hx hAx).trans ((hpend x hx hAx).2.1 q' hq')
          · have hst : s < t := by omega
            rw [hup s hst]
            obtain ⟨q, q1, q2, q3, q4⟩ := hi.fixed s h0 hst
            have hk := hkeep (a s) (hi.lt s hst) ((hi.att _ (hi.lt s hst)).mpr ⟨s, hst, rfl⟩)
            refine ⟨q, q1, by rw [hk.2, hup q (by omega)]; exact q2, by rw [hk.1, hup q (by omega)]; exact q3, ?_⟩
            intro q' x hq' hx hxs
            rw [hk.1, hup q' (by omega)]
            exact q4 q' x hq' hx (fun s' hs' => by rw [← hup s' (by omega)]; exact hxs s' hs')
        · intro v hv hAv
          by_cases c : v = p
          · simp [c] at hAv
          · simp only [c, if_false] at hAv
            obtain ⟨q1, q2, q, q3, q4, q5⟩ := hpend v hv hAv
            refine ⟨q1.le, ?_, .inr ⟨q, by omega, by rw [hup q q3]; exact q4, by rw [hup q q3]; exact q5⟩⟩
            intro p' hp'
            rw [hup p' (by omega)]; exact q2 p' (by omega)
      obtain ⟨a', A', D'', N'', e', hi'⟩ := ih (t + 1) _ _ D' N' (fun i => if i < t + 1 then i else 0) (by omega) (by omega) hinv (fun _ => rfl)
      refine ⟨a', A', D'', N'', ?_, hi'⟩
      have hO' : (List.range L).map (fun j => if j = t then t else O j) = (List.range L).map (fun i => if i < t + 1 then i else 0) := by
        apply List.map_congr_left
        intro i _
        rw [hO i]
        by_cases c : i = t
        · subst c; simp
        · by_cases c2 : i < t
          · simp [c, c2]; omega
          · simp [c, c2]; omega
      simp only [grow, e, Outcome.ok_bind, g1, attach]
      rw [wr_map _ _ hpn]
      simp only [Outcome.ok_bind, Outcome.pure_eq]
      rw [wr_map _ _ (show t < L by omega)]
      simp only [Outcome.ok_bind]
      rw [r.dist, r.nb, hO']
      have : Function.update a t p (t + 1 - 1) = p := by simp
      rw [this] at e'
      exact e'

/-- The finished loop is a run of Prim's algorithm. -/
theorem run_of_inv {m : Nat → Nat → W} {a : Nat → Nat} {A : Nat → Bool} {D : Nat → W} {N : Nat → Nat} (hi : Inv n m dmax n a A D N) :
    ∃ pi, Prim.Run n m a pi ∧ ∀ s, 0 < s → s < n → N (a s) = a (pi s) ∧ D (a s) = m (a (pi s)) (a s) := by
  have : ∀ s, ∃ p, 0 < s → s < n → p < s ∧ N (a s) = a p ∧ D (a s) = m (a p) (a s) ∧
      ∀ q x, q < s → x < n → (∀ s', s' < s → a s' ≠ x) → D (a s) ≤ m (a q) x := by
    intro s
    by_cases c : 0 < s ∧ s < n
    · obtain ⟨p, hp⟩ := hi.fixed s c.1 c.2
      exact ⟨p, fun _ _ => hp⟩
    · exact ⟨0, fun h1 h2 => absurd ⟨h1, h2⟩ c⟩
  choose pi hpi using this
  refine ⟨pi, ⟨hi.lt, hi.inj, ?_, fun t h0 ht => (hpi t h0 ht).1, ?_⟩, fun s h0 hs => ⟨(hpi s h0 hs).2.1, (hpi s h0 hs).2.2.1⟩⟩
  · -- a is onto
    intro v hv
    have hsub : ((List.range n).map a).Perm (List.range n) := by
      refine List.Subperm.perm_of_length_le (List.subperm_of_subset ?_ ?_) (by simp)
      · exact List.Nodup.map_on (fun x hx y hy => hi.inj x y (List.mem_range.mp hx) (List.mem_range.mp hy)) List.nodup_range
      · intro x hx
        obtain ⟨s, hs, rfl⟩ := List.mem_map.mp hx
        exact List.mem_range.mpr (hi.lt s (List.mem_range.mp hs))
    have := hsub.mem_iff.mpr (List.mem_range.mpr hv)
    obtain ⟨t, ht, e⟩ := List.mem_map.mp this
    exact ⟨t, List.mem_range.mp ht, e⟩
  · intro t h0 ht p q hp hq hqn
    obtain ⟨_, _, e, hc⟩ := hpi t h0 ht
    rw [← e]
    refine hc p (a q) hp (hi.lt q hqn) ?_
    intro s' hs' he
    have := hi.inj s' q (by omega) hqn he
    omega

end Linear

/-- The loop over self edges. -/
theorem selfLoop_rep {dis : Distance W} {core : Nat → W} {n start L : Nat} (hc : ∀ i, i < n → rdInit dis.coreDistances i = .ok (core i))
    (hL : start + n ≤ L) : ∀ (k v : Nat) (D : Nat → W) (N O : Nat → Nat), v + k = n →
    selfLoop dis start k v ((List.range L).map D) ((List.range L).map N) ((List.range L).map O) =
      .ok ((List.range L).map (fun i => if start + v ≤ i ∧ i < start + n then core (i - start) else D i),
        (List.range L).map (fun i => if start + v ≤ i ∧ i < start + n then i - start else N i),
        (List.range L).map (fun i => if start + v ≤ i ∧ i < start + n then i - start else O i)) := by
  intro k
  induction k with
  | zero =>
    intro v D N O hv
    have : ∀ i, ¬ (start + v ≤ i ∧ i < start + n) := by intro i; omega
    simp only [selfLoop, this, if_false]
  | succ k ih =>
    intro v D N O hv
    simp only [selfLoop]
    rw [wr_map _ _ (show start + v < L by omega), wr_map _ _ (show start + v < L by omega), hc v (by omega)]
    simp only [Outcome.ok_bind]
    rw [wr_map _ _ (show start + v < L by omega)]
    simp only [Outcome.ok_bind]
    rw [ih (v + 1) _ _ _ (by omega)]
    congr 2
    · apply List.map_congr_left
      intro i _
      by_cases c : i = start + v
      · subst c
        rw [if_neg (by omega), if_pos rfl, if_pos (by omega)]
        congr 1; omega
      · by_cases c2 : start + (v + 1) ≤ i ∧ i < start + n
        · rw [if_pos c2, if_pos (by omega)]
        · rw [if_neg c2, if_neg c, if_neg (by omega)]
    · congr 1
      · apply List.map_congr_left
        intro i _
        by_cases c : i = start + v
        · subst c
          rw [if_neg (by omega), if_pos rfl, if_pos (by omega)]
          omega
        · by_cases c2 : start + (v + 1) ≤ i ∧ i < start + n
          · rw [if_pos c2, if_pos (by omega)]
          · rw [if_neg c2, if_neg c, if_neg (by omega)]
      · apply List.map_congr_left
        intro i _
        by_cases c : i = start + v
        · subst c
          rw [if_neg (by omega), if_pos rfl, if_pos (by omega)]
          omega
        · by_cases c2 : start + (v + 1) ≤ i ∧ i < start + n
          · rw [if_pos c2, if_pos (by omega)]
          · rw [if_neg c2, if_neg c, if_neg (by omega)]

theorem map_range_add {α : Type} (f : Nat → α) (p q : Nat) :
    (List.range (p + q)).map f = (List.range p).map f ++ (List.range q).map (fun i => f (p + i)) := by
  rw [List.range_add, List.map_append, List.map_map]
  rfl

theorem replicate_eq_map {α : Type} (L : Nat) (x : α) : List.replicate L x = (List.range L).map (fun _ => x) := by
  apply List.ext_getElem
  · simp
  · intro i h1 h2; simp

/-- The whole construction. -/
theorem construct_rep [LinearOrder W] {zero dmax : W} {dis : Distance W} {n : Nat} {d : Nat → Nat → W} {core : Nat → W} (hn : 1 ≤ n)
    (h : Ready zero dis n d core) (hmax : ∀ i j, i < n → j < n → i ≠ j → Spec.mutualReach d core i j < dmax) :
    ∃ (g : Graph W) (a pi N : Nat → Nat), construct zero dmax true dis n = .ok g ∧ a 0 = n - 1 ∧ Prim.Run n (Spec.mutualReach d core) a pi ∧
      (∀ i, i < n - 1 → N i < n ∧ N i ≠ i) ∧
      (Prim.treeEdges a pi (n - 1)).Perm ((List.range (n - 1)).map (fun i => (N i, i))) ∧
      g.va = (List.range (n - 1)).map N ++ List.range n ∧ g.vb = List.range (n - 1) ++ List.range n ∧
      g.wt = (List.range (n - 1)).map (fun i => Spec.mutualReach d core (N i) i) ++ (List.range n).map core ∧
      g.numVertices = n ∧ Spec.Describes n g.edges (g.va.zip g.vb) := by
  set m := Spec.mutualReach d core with hm
  have hinit : Inv n m dmax 1 (fun _ => n - 1) (fun v => v == n - 1) (fun _ => dmax) (fun _ => 0) := by
    refine ⟨rfl, fun s _ => by omega, fun s s' h1 h2 _ => by omega, ?_, fun s h0 h1 => by omega, ?_⟩
    · intro v hv
      simp only [beq_iff_eq]
      constructor
      · intro e; exact ⟨0, by omega, e.symm⟩
      · rintro ⟨_, _, e⟩; exact e.symm
    · intro v hv _
      exact ⟨le_refl _, fun p hp => by omega, .inl rfl⟩
  obtain ⟨a, A, D, N, e, hi⟩ := grow_rep h hmax (L := n - 1 + n) (by omega) (n - 1) 1 (fun _ => n - 1) (fun v => v == n - 1) (fun _ => dmax)
    (fun _ => 0) (fun _ => 0) (le_refl _) (by omega) hinit (fun i => by split <;> omega)
  obtain ⟨pi, hrun, hN⟩ := run_of_inv hi
  have hpos : ∀ i, i < n - 1 → ∃ s, 0 < s ∧ s < n ∧ a s = i := by
    intro i hin
    obtain ⟨s, hs, he⟩ := hrun.surj i (by omega)
    refine ⟨s, ?_, hs, he⟩
    by_contra hc
    have : s = 0 := by omega
    subst this
    rw [hi.zero] at he; omega
  have hNi : ∀ i, i < n - 1 → N i < n ∧ N i ≠ i ∧ D i = m (N i) i := by
    intro i hin
    obtain ⟨s, h0, hs, rfl⟩ := hpos i hin
    obtain ⟨h1, h2⟩ := hN s h0 hs
    have hp := hrun.pi_lt s h0 hs
    rw [h1]
    refine ⟨hrun.lt _ (by omega), ?_, h2⟩
    intro he
    have := hrun.inj _ _ (by omega) hs he
    omega
  -- the arrays after the self edges
  have hatt : List.replicate (n - 1) false ++ [true] = (List.range n).map (fun v => v == n - 1) := by
    apply List.ext_getElem
    · simp; omega
    · intro i h1 h2
      simp at h1 h2
      by_cases c : i < n - 1
      · rw [List.getElem_append_left (by simpa using c)]
        simp; omega
      · have : i = n - 1 := by omega
        subst this
        simp
  have hself := selfLoop_rep (n := n) (start := n - 1) (L := n - 1 + n) h.core (le_refl _) n 0 D N (fun i => if i < n then i else 0) (by omega)
  have hva : (List.range (n - 1 + n)).map (fun i => if n - 1 + 0 ≤ i ∧ i < n - 1 + n then i - (n - 1) else N i) =
      (List.range (n - 1)).map N ++ List.range n := by
    rw [map_range_add]
    congr 1
    · apply List.map_congr_left; intro i hi'
      have := List.mem_range.mp hi'
      rw [if_neg (by omega)]
    · conv_rhs => rw [← List.map_id (List.range n)]
      apply List.map_congr_left; intro i hi'
      have := List.mem_range.mp hi'
      rw [if_pos (by omega)]; simp
  have hvb : (List.range (n - 1 + n)).map (fun i => if n - 1 + 0 ≤ i ∧ i < n - 1 + n then i - (n - 1) else if i < n then i else 0) =
      List.range (n - 1) ++ List.range n := by
    rw [map_range_add]
    congr 1
    · conv_rhs => rw [← List.map_id (List.range (n - 1))]
      apply List.map_congr_left; intro i hi'
      have := List.mem_range.mp hi'
      rw [if_neg (by omega), if_pos (by omega)]; rfl
    · conv_rhs => rw [← List.map_id (List.range n)]
      apply List.map_congr_left; intro i hi'
      have := List.mem_range.mp hi'
      rw [if_pos (by omega)]; simp
  have hwt : (List.range (n - 1 + n)).map (fun i => if n - 1 + 0 ≤ i ∧ i < n - 1 + n then core (i - (n - 1)) else D i) =
      (List.range (n - 1)).map (fun i => m (N i) i) ++ (List.range n).map core := by
    rw [map_range_add]
    congr 1
    · apply List.map_congr_left; intro i hi'
      have := List.mem_range.mp hi'
      rw [if_neg (by omega)]; exact (hNi i this).2.2
    · apply List.map_congr_left; intro i hi'
      have := List.mem_range.mp hi'
      rw [if_pos (by omega)]; simp
  rw [hva, hvb, hwt] at hself
  have hb1 : ∀ x ∈ (List.range (n - 1)).map N ++ List.range n, x < n := by
    intro x hx
    rcases List.mem_append.mp hx with hx | hx
    · obtain ⟨i, hi', rfl⟩ := List.mem_map.mp hx
      exact (hNi i (List.mem_range.mp hi')).1
    · exact List.mem_range.mp hx
  have hb2 : ∀ x ∈ List.range (n - 1) ++ List.range n, x < n := by
    intro x hx
    rcases List.mem_append.mp hx with hx | hx
    · have := List.mem_range.mp hx; omega
    · exact List.mem_range.mp hx
  have hg0 : Spec.Describes n (List.replicate n []) ((((List.range (n - 1)).map N ++ List.range n).zip (List.range (n - 1) ++ List.range n)).take 0) := by
    refine ⟨by simp, ?_⟩
    intro v w hv
    simp [hv]
  obtain ⟨adj, eadj, dadj⟩ := Graph.addEdges_describes hb1 hb2 (by simp) ((List.range (n - 1)).map N ++ List.range n).length 0 _ (by omega) hg0
  refine ⟨{ numVertices := n, va := (List.range (n - 1)).map N ++ List.range n, vb := List.range (n - 1) ++ List.range n,
            wt := (List.range (n - 1)).map (fun i => m (N i) i) ++ (List.range n).map core, edges := adj }, a, pi, N, ?_, hi.zero, hrun,
            fun i hin => ⟨(hNi i hin).1, (hNi i hin).2.1⟩, ?_, rfl, rfl, rfl, rfl, dadj⟩
  · simp only [construct, if_true]
    rw [hatt, replicate_eq_map, replicate_eq_map]
    rw [e]
    simp only [Outcome.ok_bind, addSelf, if_true]
    rw [hself]
    simp only [Outcome.ok_bind, Graph.init, eadj, Outcome.pure_eq]
  · -- the tree edges in index order
    have hperm : ((List.range' 1 (n - 1)).map a).Perm (List.range (n - 1)) := by
      refine List.Subperm.perm_of_length_le (List.subperm_of_subset ?_ ?_) (by simp)
      · refine List.Nodup.map_on ?_ List.nodup_range'
        intro x hx y hy
        simp only [List.mem_range'_1] at hx hy
        exact hrun.inj x y (by omega) (by omega)
      · intro x hx
        obtain ⟨s, hs, rfl⟩ := List.mem_map.mp hx
        simp only [List.mem_range'_1] at hs
        have h1 := hrun.lt s (by omega)
        have h2 : a s ≠ n - 1 := by
          intro he
          have := hrun.inj s 0 (by omega) (by omega) (by rw [he, hi.zero])
          omega
        exact List.mem_range.mpr (by omega)
    have := hperm.map (fun i => (N i, i))
    rw [List.map_map] at this
    refine List.Perm.trans (List.Perm.of_eq ?_) this
    unfold Prim.treeEdges
    apply List.map_congr_left
    intro t ht
    simp only [List.mem_range'_1] at ht
    simp only [Function.comp]
    rw [(hN t (by omega) (by omega)).1]

end Verif.Mst
