import Verif.Lemmas.Mst
/-
`hdbscan_construct_mst` without any bound on the distances: values at or above `dmax` are never recorded, so the run is one
of Prim's algorithm for the mutual reachability distance cut off at `dmax`; a point that meets no smaller value keeps the
initial neighbour 0 and the initial distance `dmax`.
-/
namespace Verif.Mst
open Graph (rd_map wr_map)
variable {W : Type}

section Linear
variable [LinearOrder W] {zero dmax : W} {dis : Distance W} {n : Nat} {d : Nat → Nat → W} {core : Nat → W}

/-- Values above `dmax` are read as `dmax`. -/
def cap (dmax : W) (m : Nat → Nat → W) (i j : Nat) : W := min (m i j) dmax

theorem cap_symm {m : Nat → Nat → W} (h : ∀ i j, m i j = m j i) (i j : Nat) : cap dmax m i j = cap dmax m j i := by
  unfold cap; rw [h i j]

theorem cap_le {m : Nat → Nat → W} {M : W} (hM : M < dmax) (i j : Nat) : cap dmax m i j ≤ M ↔ m i j ≤ M := by
  unfold cap
  rw [min_le_iff]
  exact ⟨fun h => h.resolve_right (not_le.mpr hM), .inl⟩

/-- State of the outer loop when the `t` points `a 0, ..., a (t-1)` are attached. -/
structure InvAny (n : Nat) (m : Nat → Nat → W) (dmax : W) (t : Nat) (a : Nat → Nat) (A : Nat → Bool) (D : Nat → W) (N : Nat → Nat) : Prop where
  zero : a 0 = n - 1
  lt : ∀ s, s < t → a s < n
  inj : ∀ s s', s < t → s' < t → a s = a s' → s = s'
  att : ∀ v, v < n → (A v = true ↔ ∃ s, s < t ∧ a s = v)
  fixed : ∀ s, 0 < s → s < t → ∃ p, p < s ∧ (D (a s) < dmax → N (a s) = a p) ∧ (D (a s) = dmax → N (a s) = 0) ∧
    D (a s) = cap dmax m (a p) (a s) ∧ ∀ q x, q < s → x < n → (∀ s', s' < s → a s' ≠ x) → D (a s) ≤ cap dmax m (a q) x
  pend : ∀ v, v < n → A v = false → D v ≤ dmax ∧ (∀ p, p + 1 < t → D v ≤ m (a p) v) ∧
    ((D v = dmax ∧ N v = 0) ∨ ∃ p, p + 1 < t ∧ N v = a p ∧ D v = m (a p) v ∧ D v < dmax)

theorem grow_any (h : Ready zero dis n d core) {L : Nat} (hL : n ≤ L) :
    ∀ (k t : Nat) (a : Nat → Nat) (A : Nat → Bool) (D : Nat → W) (N O : Nat → Nat), 1 ≤ t → t + k = n →
    InvAny n (Spec.mutualReach d core) dmax t a A D N → (∀ i, O i = if i < t then i else 0) →
    ∃ a' A' D' N', grow zero dmax dis n k t (a (t - 1)) ((List.range n).map A) ((List.range L).map D) ((List.range L).map N)
        ((List.range L).map O) = .ok ((List.range L).map D', (List.range L).map N', (List.range L).map (fun i => if i < n then i else 0)) ∧
      InvAny n (Spec.mutualReach d core) dmax n a' A' D' N' := by
  intro k
  induction k with
  | zero =>
    intro t a A D N O ht htk hi hO
    have : t = n := by omega
    subst this
    refine ⟨a, A, D, N, ?_, hi⟩
    simp only [grow]
    rw [List.map_congr_left (fun i _ => hO i)]
  | succ k ih =>
    intro t a A D N O ht htk hi hO
    set m := Spec.mutualReach d core with hm
    have hcur : a (t - 1) < n := hi.lt _ (by omega)
    have hAc : A (a (t - 1)) = true := (hi.att _ hcur).mpr ⟨t - 1, by omega, rfl⟩
    have hAl : A (n - 1) = true := (hi.att _ (by omega)).mpr ⟨0, by omega, hi.zero⟩
    obtain ⟨s', D', N', e, r, f1, f2, f3, f4, f5⟩ := scan_rep h (L := L) (by omega) hcur hAc hAl (List.range n)
      { dist := (List.range L).map D, nb := (List.range L).map N, nd := dmax, np := none } D N List.nodup_range
      (fun v hv => List.mem_range.mp hv) ⟨rfl, rfl⟩
    simp only at f3 f4 f5
    -- facts about unattached points after the scan
    have hpend : ∀ v, v < n → A v = false → D' v ≤ dmax ∧ (∀ p, p < t → D' v ≤ m (a p) v) ∧
        ((D' v = dmax ∧ N' v = 0) ∨ ∃ p, p < t ∧ N' v = a p ∧ D' v = m (a p) v ∧ D' v < dmax) := by
      intro v hv hAv
      obtain ⟨p1, p2, p3⟩ := hi.pend v hv hAv
      have e1 := f1 v
      have e2 := f2 v
      simp only [List.mem_range, hv, hAv, true_and] at e1 e2
      by_cases c : m (a (t - 1)) v < D v
      · rw [if_pos c] at e1 e2
        refine ⟨by rw [e1]; exact c.le.trans p1, ?_, .inr ⟨t - 1, by omega, e2, e1, by rw [e1]; exact lt_of_lt_of_le c p1⟩⟩
        intro p hp
        by_cases hp' : p = t - 1
        · subst hp'; rw [e1]
        · rw [e1]; exact c.le.trans (p2 p (by omega))
      · rw [if_neg c] at e1 e2
        have hDle : D v ≤ m (a (t - 1)) v := not_lt.mp c
        refine ⟨by rw [e1]; exact p1, ?_, ?_⟩
        · intro p hp
          by_cases hp' : p = t - 1
          · subst hp'; rw [e1]; exact hDle
          · rw [e1]; exact p2 p (by omega)
        · rcases p3 with ⟨p3, p4⟩ | ⟨p, q1, q2, q3, q4⟩
          · exact .inl ⟨by rw [e1]; exact p3, by rw [e2]; exact p4⟩
          · exact .inr ⟨p, by omega, by rw [e2]; exact q2, by rw [e1]; exact q3, by rw [e1]; exact q4⟩
    have hkeep : ∀ v, v < n → A v = true → D' v = D v ∧ N' v = N v := by
      intro v hv hAv
      constructor
      · rw [f1 v]; simp [hAv]
      · rw [f2 v]; simp [hAv]
    -- there is an unattached point
    have hex : ∃ v, v < n ∧ A v = false := by
      by_contra hc
      have hall : ∀ v, v < n → A v = true := by
        intro v hv
        by_contra hA
        exact hc ⟨v, hv, by simpa using hA⟩
      have hsub : List.range n ⊆ (List.range t).map a := by
        intro v hv
        obtain ⟨s, hs, rfl⟩ := (hi.att v (List.mem_range.mp hv)).mp (hall v (List.mem_range.mp hv))
        exact List.mem_map.mpr ⟨s, List.mem_range.mpr hs, rfl⟩
      have := (List.subperm_of_subset List.nodup_range hsub).length_le
      simp only [List.length_range, List.length_map] at this
      omega
    rcases f5 with ⟨_, _, g3⟩ | ⟨p, hp, hAp, g1, g2⟩
    · obtain ⟨v, hv, hAv⟩ := hex
      exact absurd (hpend v hv hAv).1 (g3 v (List.mem_range.mpr hv) hAv)
    · have hpn : p < n := List.mem_range.mp hp
      have hcheap : ∀ x, x < n → A x = false → D' p ≤ D' x := by
        intro x hx hAx
        rw [← g2]; exact f4 x (List.mem_range.mpr hx) hAx
      have hpa : ∀ s, s < t → a s ≠ p := by
        intro s hs he
        have := (hi.att p hpn).mpr ⟨s, hs, he⟩
        rw [hAp] at this; exact absurd this (by simp)
      have hup : ∀ s, s < t → Function.update a t p s = a s := fun s hs => Function.update_of_ne (by omega) _ _
      have hupt : Function.update a t p t = p := Function.update_self _ _ _
      have hinv : InvAny n m dmax (t + 1) (Function.update a t p) (fun v => if v = p then true else A v) D' N' := by
        refine ⟨?_, ?_, ?_, ?_, ?_, ?_⟩
        · rw [hup 0 (by omega)]; exact hi.zero
        · intro s hs
          by_cases c : s = t
          · subst c; rw [hupt]; exact hpn
          · rw [hup s (by omega)]; exact hi.lt s (by omega)
        · intro s s1 hs hs1 he
          by_cases c : s = t <;> by_cases c1 : s1 = t
          · omega
          · subst c; rw [hupt, hup s1 (by omega)] at he; exact absurd he.symm (hpa s1 (by omega))
          · subst c1; rw [hupt, hup s (by omega)] at he; exact absurd he (hpa s (by omega))
          · rw [hup s (by omega), hup s1 (by omega)] at he; exact hi.inj s s1 (by omega) (by omega) he
        · intro v hv
          by_cases c : v = p
          · subst c; simp only [if_true, true_iff]; exact ⟨t, by omega, hupt⟩
          · simp only [c, if_false]
            rw [hi.att v hv]
            constructor
            · rintro ⟨s, h1, h2⟩; exact ⟨s, by omega, by rw [hup s h1]; exact h2⟩
            · rintro ⟨s, h1, h2⟩
              by_cases c1 : s = t
              · subst c1; rw [hupt] at h2; exact absurd h2.symm c
              · exact ⟨s, by omega, by rw [← hup s (by omega)]; exact h2⟩
        · intro s h0 hs
          by_cases c : s = t
          · subst c
            rw [hupt]
            obtain ⟨q1, q2, q3⟩ := hpend p hpn hAp
            have hall : ∀ q' x, q' < s → x < n → (∀ s', s' < s → Function.update a s p s' ≠ x) → D' p ≤ cap dmax m (Function.update a s p q') x := by
              intro q' x hq' hx hxs
              rw [hup q' hq']
              have hAx : A x = false := by
                by_contra hA
                obtain ⟨s', h1, h2⟩ := (hi.att x hx).mp (by simpa using hA)
                exact hxs s' h1 (by rw [hup s' h1]; exact h2)
              exact le_min ((hcheap x hx hAx).trans ((hpend x hx hAx).2.1 q' hq')) q1
            rcases q3 with ⟨q3, q4⟩ | ⟨q, q3, q4, q5, q6⟩
            · refine ⟨0, by omega, fun hlt => absurd q3 hlt.ne, fun _ => q4, ?_, hall⟩
              rw [hup 0 (by omega)]
              refine le_antisymm ?_ ?_
              · exact le_min (q2 0 (by omega)) q1
              · rw [q3]; exact min_le_right _ _
            · refine ⟨q, q3, fun _ => by rw [hup q q3]; exact q4, fun he => absurd he q6.ne, ?_, hall⟩
              rw [hup q q3]
              unfold cap
              rw [← q5, min_eq_left q6.le]
          · have hst : s < t := by omega
            rw [hup s hst]
            obtain ⟨q, q1, q2, q2', q3, q4⟩ := hi.fixed s h0 hst
            have hk := hkeep (a s) (hi.lt s hst) ((hi.att _ (hi.lt s hst)).mpr ⟨s, hst, rfl⟩)
            refine ⟨q, q1, by rw [hk.1, hk.2, hup q (by omega)]; exact q2, by rw [hk.1, hk.2]; exact q2', by rw [hk.1, hup q (by omega)]; exact q3, ?_⟩
            intro q' x hq' hx hxs
            rw [hk.1, hup q' (by omega)]
            exact q4 q' x hq' hx (fun s' hs' => by rw [← hup s' (by omega)]; exact hxs s' hs')
        · intro v hv hAv
          by_cases c : v = p
          · simp [c] at hAv
          · simp only [c, if_false] at hAv
            obtain ⟨q1, q2, q3⟩ := hpend v hv hAv
            refine ⟨q1, ?_, q3.imp id (fun ⟨q, q3, q4, q5, q6⟩ => ⟨q, by omega, by rw [hup q q3]; exact q4, by rw [hup q q3]; exact q5, q6⟩)⟩
            intro p' hp'
            rw [hup p' (by omega)]; exact q2 p' (by omega)
      obtain ⟨a', A', D'', N'', e', hi'⟩ := ih (t + 1) _ _ D' N' (fun i => if i < t + 1 then i else 0) (by omega) (by omega) hinv (fun _ => rfl)
      refine ⟨a', A', D'', N'', ?_, hi'⟩
      have hO' : (List.range L).map (fun j => if j = t then t else O j) = (List.range L).map (fun i => if i < t + 1 then i else 0) := by
        apply List.map_congr_left
        intro i _
        rw [hO i]
        by_cases c : i = t
        · subst c; simp
        · by_cases c2 : i < t
          · simp [c, c2]; omega
          · simp [c, c2]; omega
      simp only [grow, e, Outcome.ok_bind, g1, attach]
      rw [wr_map _ _ hpn]
      simp only [Outcome.ok_bind, Outcome.pure_eq]
      rw [wr_map _ _ (show t < L by omega)]
      simp only [Outcome.ok_bind]
      rw [r.dist, r.nb, hO']
      have : Function.update a t p (t + 1 - 1) = p := by simp
      rw [this] at e'
      exact e'

/-- The finished loop is a run of Prim's algorithm. -/
theorem run_of_any {m : Nat → Nat → W} {a : Nat → Nat} {A : Nat → Bool} {D : Nat → W} {N : Nat → Nat} (hi : InvAny n m dmax n a A D N) :
    ∃ pi, Prim.Run n (cap dmax m) a pi ∧ ∀ s, 0 < s → s < n →
      (D (a s) < dmax → N (a s) = a (pi s)) ∧ (D (a s) = dmax → N (a s) = 0) ∧ D (a s) = cap dmax m (a (pi s)) (a s) := by
  have : ∀ s, ∃ p, 0 < s → s < n → p < s ∧ (D (a s) < dmax → N (a s) = a p) ∧ (D (a s) = dmax → N (a s) = 0) ∧ D (a s) = cap dmax m (a p) (a s) ∧
      ∀ q x, q < s → x < n → (∀ s', s' < s → a s' ≠ x) → D (a s) ≤ cap dmax m (a q) x := by
    intro s
    by_cases c : 0 < s ∧ s < n
    · obtain ⟨p, hp⟩ := hi.fixed s c.1 c.2
      exact ⟨p, fun _ _ => hp⟩
    · exact ⟨0, fun h1 h2 => absurd ⟨h1, h2⟩ c⟩
  choose pi hpi using this
  refine ⟨pi, ⟨hi.lt, hi.inj, ?_, fun t h0 ht => (hpi t h0 ht).1, ?_⟩, fun s h0 hs => ⟨(hpi s h0 hs).2.1, (hpi s h0 hs).2.2.1, (hpi s h0 hs).2.2.2.1⟩⟩
  · -- a is onto
    intro v hv
    have hsub : ((List.range n).map a).Perm (List.range n) := by
      refine List.Subperm.perm_of_length_le (List.subperm_of_subset ?_ ?_) (by simp)
      · exact List.Nodup.map_on (fun x hx y hy => hi.inj x y (List.mem_range.mp hx) (List.mem_range.mp hy)) List.nodup_range
      · intro x hx
        obtain ⟨s, hs, rfl⟩ := List.mem_map.mp hx
        exact List.mem_range.mpr (hi.lt s (List.mem_range.mp hs))
    have := hsub.mem_iff.mpr (List.mem_range.mpr hv)
    obtain ⟨t, ht, e⟩ := List.mem_map.mp this
    exact ⟨t, List.mem_range.mp ht, e⟩
  · intro t h0 ht p q hp hq hqn
    obtain ⟨_, _, _, e, hc⟩ := hpi t h0 ht
    rw [← e]
    refine hc p (a q) hp (hi.lt q hqn) ?_
    intro s' hs' he
    have := hi.inj s' q (by omega) hqn he
    omega

end Linear

/-- The whole construction. -/
theorem construct_any [LinearOrder W] {zero dmax : W} {dis : Distance W} {n : Nat} {d : Nat → Nat → W} {core : Nat → W} (hn : 1 ≤ n)
    (h : Ready zero dis n d core) :
    ∃ (g : Graph W) (a pi N : Nat → Nat) (D : Nat → W), construct zero dmax true dis n = .ok g ∧ a 0 = n - 1 ∧ Prim.Run n (cap dmax (Spec.mutualReach d core)) a pi ∧
      (∀ i, i < n - 1 → N i < n ∧ D i ≤ dmax ∧ (D i < dmax → N i ≠ i ∧ D i = Spec.mutualReach d core (N i) i)) ∧
      (∀ s, 0 < s → s < n → D (a s) = cap dmax (Spec.mutualReach d core) (a (pi s)) (a s) ∧ (D (a s) < dmax → N (a s) = a (pi s))) ∧
      g.va = (List.range (n - 1)).map N ++ List.range n ∧ g.vb = List.range (n - 1) ++ List.range n ∧
      g.wt = (List.range (n - 1)).map D ++ (List.range n).map core ∧
      g.numVertices = n ∧ Spec.Describes n g.edges (g.va.zip g.vb) := by
  set m := Spec.mutualReach d core with hm
  have hinit : InvAny n m dmax 1 (fun _ => n - 1) (fun v => v == n - 1) (fun _ => dmax) (fun _ => 0) := by
    refine ⟨rfl, fun s _ => by omega, fun s s' h1 h2 _ => by omega, ?_, fun s h0 h1 => by omega, ?_⟩
    · intro v hv
      simp only [beq_iff_eq]
      constructor
      · intro e; exact ⟨0, by omega, e.symm⟩
      · rintro ⟨_, _, e⟩; exact e.symm
    · intro v hv _
      exact ⟨le_refl _, fun p hp => by omega, .inl ⟨rfl, rfl⟩⟩
  obtain ⟨a, A, D, N, e, hi⟩ := grow_any h (L := n - 1 + n) (by omega) (n - 1) 1 (fun _ => n - 1) (fun v => v == n - 1) (fun _ => dmax)
    (fun _ => 0) (fun _ => 0) (le_refl _) (by omega) hinit (fun i => by split <;> omega)
  obtain ⟨pi, hrun, hN⟩ := run_of_any hi
  have hpos : ∀ i, i < n - 1 → ∃ s, 0 < s ∧ s < n ∧ a s = i := by
    intro i hin
    obtain ⟨s, hs, he⟩ := hrun.surj i (by omega)
    refine ⟨s, ?_, hs, he⟩
    by_contra hc
    have : s = 0 := by omega
    subst this
    rw [hi.zero] at he; omega
  have hNi : ∀ i, i < n - 1 → N i < n ∧ D i ≤ dmax ∧ (D i < dmax → N i ≠ i ∧ D i = m (N i) i) := by
    intro i hin
    obtain ⟨s, h0, hs, rfl⟩ := hpos i hin
    obtain ⟨h1, h1', h2⟩ := hN s h0 hs
    have hp := hrun.pi_lt s h0 hs
    have hle : D (a s) ≤ dmax := by rw [h2]; exact min_le_right _ _
    refine ⟨?_, hle, ?_⟩
    · rcases lt_or_eq_of_le hle with c | c
      · rw [h1 c]; exact hrun.lt _ (by omega)
      · rw [h1' c]; omega
    · intro c
      rw [h1 c]
      refine ⟨?_, ?_⟩
      · intro he
        have := hrun.inj _ _ (by omega) hs he
        omega
      · rw [h2] at c ⊢
        unfold cap at c ⊢
        refine min_eq_left ?_
        rcases min_lt_iff.mp c with c | c
        · exact c.le
        · exact absurd c (lt_irrefl _)
  -- the arrays after the self edges
  have hatt : List.replicate (n - 1) false ++ [true] = (List.range n).map (fun v => v == n - 1) := by
    apply List.ext_getElem
    · simp; omega
    · intro i h1 h2
      simp at h1 h2
      by_cases c : i < n - 1
      · rw [List.getElem_append_left (by simpa using c)]
        simp; omega
      · have : i = n - 1 := by omega
        subst this
        simp
  have hself := selfLoop_rep (n := n) (start := n - 1) (L := n - 1 + n) h.core (le_refl _) n 0 D N (fun i => if i < n then i else 0) (by omega)
  have hva : (List.range (n - 1 + n)).map (fun i => if n - 1 + 0 ≤ i ∧ i < n - 1 + n then i - (n - 1) else N i) =
      (List.range (n - 1)).map N ++ List.range n := by
    rw [map_range_add]
    congr 1
    · apply List.map_congr_left; intro i hi'
      have := List.mem_range.mp hi'
      rw [if_neg (by omega)]
    · conv_rhs => rw [← List.map_id (List.range n)]
      apply List.map_congr_left; intro i hi'
      have := List.mem_range.mp hi'
      rw [if_pos (by omega)]; simp
  have hvb : (List.range (n - 1 + n)).map (fun i => if n - 1 + 0 ≤ i ∧ i < n - 1 + n then i - (n - 1) else if i < n then i else 0) =
      List.range (n - 1) ++ List.range n := by
    rw [map_range_add]
    congr 1
    · conv_rhs => rw [← List.map_id (List.range (n - 1))]
      apply List.map_congr_left; intro i hi'
      have := List.mem_range.mp hi'
      rw [if_neg (by omega), if_pos (by omega)]; rfl
    · conv_rhs => rw [← List.map_id (List.range n)]
      apply List.map_congr_left; intro i hi'
      have := List.mem_range.mp hi'
      rw [if_pos (by omega)]; simp
  have hwt : (List.range (n - 1 + n)).map (fun i => if n - 1 + 0 ≤ i ∧ i < n - 1 + n then core (i - (n - 1)) else D i) =
      (List.range (n - 1)).map D ++ (List.range n).map core := by
    rw [map_range_add]
    congr 1
    · apply List.map_congr_left; intro i hi'
      have := List.mem_range.mp hi'
      rw [if_neg (by omega)]
    · apply List.map_congr_left; intro i hi'
      have := List.mem_range.mp hi'
      rw [if_pos (by omega)]; simp
  rw [hva, hvb, hwt] at hself
  have hb1 : ∀ x ∈ (List.range (n - 1)).map N ++ List.range n, x < n := by
    intro x hx
    rcases List.mem_append.mp hx with hx | hx
    · obtain ⟨i, hi', rfl⟩ := List.mem_map.mp hx
      exact (hNi i (List.mem_range.mp hi')).1
    · exact List.mem_range.mp hx
  have hb2 : ∀ x ∈ List.range (n - 1) ++ List.range n, x < n := by
    intro x hx
    rcases List.mem_append.mp hx with hx | hx
    · have := List.mem_range.mp hx; omega
    · exact List.mem_range.mp hx
  have hg0 : Spec.Describes n (List.replicate n []) ((((List.range (n - 1)).map N ++ List.range n).zip (List.range (n - 1) ++ List.range n)).take 0) := by
    refine ⟨by simp, ?_⟩
    intro v w hv
    simp [hv]
  obtain ⟨adj, eadj, dadj⟩ := Graph.addEdges_describes hb1 hb2 (by simp) ((List.range (n - 1)).map N ++ List.range n).length 0 _ (by omega) hg0
  refine ⟨{ numVertices := n, va := (List.range (n - 1)).map N ++ List.range n, vb := List.range (n - 1) ++ List.range n,
            wt := (List.range (n - 1)).map D ++ (List.range n).map core, edges := adj }, a, pi, N, D, ?_, hi.zero, hrun,
            hNi, fun s h0 hs => ⟨(hN s h0 hs).2.2, (hN s h0 hs).1⟩, rfl, rfl, rfl, rfl, dadj⟩
  · simp only [construct, if_true]
    rw [hatt, replicate_eq_map, replicate_eq_map]
    rw [e]
    simp only [Outcome.ok_bind, addSelf, if_true]
    rw [hself]
    simp only [Outcome.ok_bind, Graph.init, eadj, Outcome.pure_eq]

end Verif.Mst
