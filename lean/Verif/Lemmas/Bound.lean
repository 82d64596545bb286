import Verif.Lemmas.Explore
/-
Helper lemmas: bounds on the size of the hierarchy that hold for every graph, whatever the weights (NaN included).
-/
namespace Verif.Hier
variable {W S : Type}

theorem sInsert_le (l : List Nat) (x : Nat) : (sInsert l x).length ≤ l.length + 1 := by
  unfold sInsert
  split
  · omega
  · have : ∀ l : List Nat, (l.filter (fun y => decide (y < x))).length + (l.filter (fun y => decide (x < y))).length ≤ l.length := by
      intro l
      induction l with
      | nil => simp
      | cons a l ih =>
        by_cases h1 : a < x
        · have h2 : ¬ x < a := by omega
          simp [h1, h2]; omega
        · by_cases h2 : x < a
          · simp [h1, h2]; omega
          · simp [h1, h2]; omega
    have := this l
    simp only [List.length_append, List.length_cons]
    omega

theorem visitNbrs_examined (nb : List Nat) (e : Ex) : (visitNbrs nb e).examined.length ≤ e.examined.length := by
  induction nb generalizing e with
  | nil => exact Nat.le_refl _
  | cons v r ih =>
    rw [visitNbrs]
    split
    · exact ih _
    · refine Nat.le_trans (ih _) ?_
      exact length_sRemove_le _ _

theorem explore_examined (adj : List (List Nat)) (m : Nat) : ∀ (fuel : Nat) (e e' : Ex), explore adj m fuel e = .ok e' → e'.examined.length ≤ e.examined.length := by
  intro fuel
  induction fuel with
  | zero =>
    intro e e' h
    rw [explore] at h
    by_cases hu : e.unexpl = []
    · rw [if_pos hu] at h; cases h; exact Nat.le_refl _
    · rw [if_neg hu] at h; cases h
  | succ fuel ih =>
    intro e e' h
    rw [explore] at h
    cases hl : e.unexpl.getLast? with
    | none => rw [hl] at h; cases h; exact Nat.le_refl _
    | some v =>
      rw [hl] at h
      simp only at h
      obtain ⟨nb, _, h⟩ := Outcome.bind_eq_ok.1 h
      have hv := visitNbrs_examined nb { e with unexpl := e.unexpl.dropLast }
      revert h
      split
      · split
        · intro h
          cases h
          exact hv
        · intro h
          exact Nat.le_trans (ih _ _ h) hv
      · intro h
        exact Nat.le_trans (ih _ _ h) hv

theorem newCluster_count {ar : Arith W S} {ps : List Nat} {q : Nat} {w : W} {wk wk' : Work W S} (h : newCluster ar ps q w wk = .ok wk') :
    wk'.clusters.length = wk.clusters.length + 1 := by
  unfold newCluster at h
  obtain ⟨_, _, h⟩ := Outcome.bind_eq_ok.1 h
  obtain ⟨c, _, h⟩ := Outcome.bind_eq_ok.1 h
  obtain ⟨cs, hcs, h⟩ := Outcome.bind_eq_ok.1 h
  have : cs.length = wk.clusters.length := by
    unfold wr at hcs
    split at hcs <;> cases hcs
    simp
  cases h
  simp [this]

theorem newNoise_count {ar : Arith W S} {ps : List Nat} {q : Nat} {w : W} {wk wk' : Work W S} (h : newNoise ar ps q w wk = .ok wk') :
    wk'.clusters.length = wk.clusters.length := by
  unfold newNoise at h
  obtain ⟨_, _, h⟩ := Outcome.bind_eq_ok.1 h
  obtain ⟨c, _, h⟩ := Outcome.bind_eq_ok.1 h
  obtain ⟨cs, hcs, h⟩ := Outcome.bind_eq_ok.1 h
  obtain ⟨_, _, h⟩ := Outcome.bind_eq_ok.1 h
  obtain ⟨_, _, h⟩ := Outcome.bind_eq_ok.1 h
  have : cs.length = wk.clusters.length := by
    unfold wr at hcs
    split at hcs <;> cases hcs
    simp
  cases h
  simp [this]

theorem settle_count {ar : Arith W S} {m label : Nat} {w : W} {e e' : Ex} {wk wk' : Work W S} (h : settle ar m label w e wk = .ok (e', wk')) :
    wk'.clusters.length ≤ wk.clusters.length + 1 ∧ e'.examined = e.examined := by
  unfold settle at h
  split at h
  · cases hl : e.first.getLast? with
    | none => rw [hl] at h; cases h
    | some x =>
      rw [hl] at h
      simp only at h
      split at h
      · cases h; exact ⟨by omega, rfl⟩
      · obtain ⟨wk1, h1, h⟩ := Outcome.bind_eq_ok.1 h
        cases h
        exact ⟨by have := newCluster_count h1; omega, rfl⟩
  · split at h
    · obtain ⟨wk1, h1, h⟩ := Outcome.bind_eq_ok.1 h
      cases h
      exact ⟨by rw [newNoise_count h1]; omega, rfl⟩
    · cases h; exact ⟨by omega, rfl⟩

theorem roots_count {ar : Arith W S} {adj : List (List Nat)} {m label : Nat} {w : W} : ∀ (fuel : Nat) (e e' : Ex) (wk wk' : Work W S),
    roots ar adj m label w fuel e wk = .ok (e', wk') →
    wk'.clusters.length + e'.examined.length ≤ wk.clusters.length + e.examined.length ∧ (e.examined = [] → e' = e) := by
  intro fuel
  induction fuel with
  | zero =>
    intro e e' wk wk' h
    rw [roots] at h
    by_cases hu : e.examined = []
    · rw [if_pos hu] at h; cases h; exact ⟨Nat.le_refl _, fun _ => rfl⟩
    · rw [if_neg hu] at h; cases h
  | succ fuel ih =>
    intro e e' wk wk' h
    rw [roots] at h
    cases hl : e.examined.getLast? with
    | none => rw [hl] at h; cases h; exact ⟨Nat.le_refl _, fun _ => rfl⟩
    | some v =>
      rw [hl] at h
      simp only at h
      obtain ⟨e1, h1, h⟩ := Outcome.bind_eq_ok.1 h
      obtain ⟨⟨e2, wk2⟩, h2, h⟩ := Outcome.bind_eq_ok.1 h
      have q1 := explore_examined _ _ _ _ _ h1
      obtain ⟨q2, q3⟩ := settle_count h2
      have q4 := (ih _ _ _ _ h).1
      have hne : e.examined ≠ [] := by intro hx; rw [hx] at hl; simp at hl
      have hpos := List.length_pos_iff.2 hne
      simp only [List.length_dropLast] at q1
      simp only at q4
      rw [q3] at q4
      exact ⟨by omega, fun hx => absurd hx hne⟩

theorem finish_count {ar : Arith W S} {adj : List (List Nat)} {label : Nat} {w : W} {e : Ex} {wk wk' : Work W S} (h : finish ar adj label w e wk = .ok wk') :
    wk'.clusters.length ≤ wk.clusters.length + 1 ∧ (e.numChild = 0 → wk' = wk) := by
  unfold finish at h
  split at h
  · rename_i h2
    refine ⟨?_, by omega⟩
    obtain ⟨dd, _, h⟩ := Outcome.bind_eq_ok.1 h
    obtain ⟨l, _, h⟩ := Outcome.bind_eq_ok.1 h
    split at h
    · obtain ⟨fst, _, h⟩ := Outcome.bind_eq_ok.1 h
      have := newCluster_count h
      omega
    · cases h; omega
  · cases h; exact ⟨by omega, fun _ => rfl⟩

theorem collect_count {cur : List Nat} {label : Nat} : ∀ (l ex rest : List Nat) (r : List Nat × List Nat), collect cur label l ex rest = .ok r →
    r.1.length + r.2.length ≤ l.length + ex.length + rest.length := by
  intro l
  induction l with
  | nil => intro ex rest r h; cases h; simp
  | cons v l ih =>
    intro ex rest r h
    rw [collect] at h
    obtain ⟨x, _, h⟩ := Outcome.bind_eq_ok.1 h
    split at h
    · have := ih _ _ _ h
      have := sInsert_le ex v
      simp only [List.length_cons]
      omega
    · have := ih _ _ _ h
      simp only [List.length_append, List.length_cons, List.length_nil] at this ⊢
      omega

theorem clustersLoop_count {ar : Arith W S} {adj : List (List Nat)} {m : Nat} {w : W} : ∀ (fuel : Nat) (affL affV : List Nat) (wk : Work W S) (r : List Nat × Work W S),
    clustersLoop ar adj m w fuel affL affV wk = .ok r → r.2.clusters.length + 2 * r.1.length ≤ wk.clusters.length + 2 * affV.length := by
  intro fuel
  induction fuel with
  | zero =>
    intro affL affV wk r h
    rw [clustersLoop] at h
    split at h <;> cases h
    exact Nat.le_refl _
  | succ fuel ih =>
    intro affL affV wk r h
    rw [clustersLoop] at h
    cases hl : affL.getLast? with
    | none => rw [hl] at h; cases h; exact Nat.le_refl _
    | some label =>
      rw [hl] at h
      simp only at h
      obtain ⟨⟨ex, affV'⟩, h1, h⟩ := Outcome.bind_eq_ok.1 h
      obtain ⟨⟨e, wk1⟩, h2, h⟩ := Outcome.bind_eq_ok.1 h
      obtain ⟨wk2, h3, h⟩ := Outcome.bind_eq_ok.1 h
      have q1 := collect_count _ _ _ _ h1
      obtain ⟨q2, q2'⟩ := roots_count _ _ _ _ _ h2
      obtain ⟨q3, q3'⟩ := finish_count h3
      have q4 := ih _ _ _ _ h
      simp only [List.length_nil, Nat.add_zero] at q1
      have q2 : wk1.clusters.length + e.examined.length ≤ wk.clusters.length + ex.length := q2
      have q4 : r.2.clusters.length + 2 * r.1.length ≤ wk2.clusters.length + 2 * affV'.length := q4
      have q1 : ex.length + affV'.length ≤ affV.length := q1
      by_cases hx : ex = []
      · have hz := q2' hx
        subst hx
        have : wk2 = wk1 := q3' (by rw [hz])
        subst this
        simp only [List.length_nil] at q1 q2
        omega
      · have := List.length_pos_iff.2 hx
        have q3 : wk2.clusters.length ≤ wk1.clusters.length + 1 := q3
        omega

theorem removeTied_count [CCmp W] {va vb : List Nat} {wt : List W} {cur : List Nat} {w : W} : ∀ (k : Nat) (r r' : Removal), r.k = k → removeTied va vb wt cur w k r = .ok r' →
    r'.affV.length + 2 * r'.k ≤ r.affV.length + 2 * r.k := by
  intro k
  induction k with
  | zero => intro r r' _ h; cases h; exact Nat.le_refl _
  | succ k ih =>
    intro r r' hk h
    rw [removeTied] at h
    obtain ⟨t, _, h⟩ := Outcome.bind_eq_ok.1 h
    split at h
    · obtain ⟨r1, h1, h⟩ := Outcome.bind_eq_ok.1 h
      have hr1 : r1.k = k ∧ r1.affV.length ≤ r.affV.length + 2 := by
        unfold removeOne at h1
        obtain ⟨a, _, h1⟩ := Outcome.bind_eq_ok.1 h1
        obtain ⟨b, _, h1⟩ := Outcome.bind_eq_ok.1 h1
        obtain ⟨g, _, h1⟩ := Outcome.bind_eq_ok.1 h1
        obtain ⟨la, _, h1⟩ := Outcome.bind_eq_ok.1 h1
        split at h1
        · cases h1; exact ⟨rfl, by simp⟩
        · cases h1
          refine ⟨rfl, ?_⟩
          have := sInsert_le r.affV a
          have := sInsert_le (sInsert r.affV a) b
          simp only
          omega
      have := ih _ _ hr1.1 h
      omega
    · cases h; exact Nat.le_refl _

theorem setOffsets_count {lc : Nat} : ∀ (fresh : List Nat) (cs cs' : List (Option (Cl W S))), setOffsets lc fresh cs = .ok cs' → cs'.length = cs.length := by
  intro fresh
  induction fresh with
  | nil => intro cs cs' h; cases h; rfl
  | cons l r ih =>
    intro cs cs' h
    rw [setOffsets] at h
    obtain ⟨c, _, h⟩ := Outcome.bind_eq_ok.1 h
    obtain ⟨cs1, h1, h⟩ := Outcome.bind_eq_ok.1 h
    rw [ih _ _ h]
    unfold wr at h1
    split at h1 <;> cases h1
    simp

theorem removeTied_k [CCmp W] {va vb : List Nat} {wt : List W} {cur : List Nat} {w : W} : ∀ (k : Nat) (r r' : Removal), r.k = k → removeTied va vb wt cur w k r = .ok r' →
    r'.k ≤ k := by
  intro k
  induction k with
  | zero => intro r r' hk h; cases h; omega
  | succ k ih =>
    intro r r' hk h
    rw [removeTied] at h
    obtain ⟨t, _, h⟩ := Outcome.bind_eq_ok.1 h
    split at h
    · obtain ⟨r1, h1, h⟩ := Outcome.bind_eq_ok.1 h
      have hr1 : r1.k = k := by
        unfold removeOne at h1
        obtain ⟨a, _, h1⟩ := Outcome.bind_eq_ok.1 h1
        obtain ⟨b, _, h1⟩ := Outcome.bind_eq_ok.1 h1
        obtain ⟨g, _, h1⟩ := Outcome.bind_eq_ok.1 h1
        obtain ⟨la, _, h1⟩ := Outcome.bind_eq_ok.1 h1
        split at h1 <;> cases h1 <;> rfl
      have := ih _ _ hr1 h
      omega
    · cases h; omega

/-- One level: the potential `clusters + 2 * affected vertices + 4 * edges left` does not grow. -/
theorem level_count [CCmp W] {ar : Arith W S} {m : Nat} {compact : Bool} {va vb : List Nat} {wt : List W} {k k' : Nat} {st st' : St W S}
    (h : level ar m compact va vb wt k st = .ok (k', st')) :
    st'.wk.clusters.length + 2 * st'.affV.length + 4 * k' ≤ st.wk.clusters.length + 2 * st.affV.length + 4 * (k + 1) ∧ st'.lines.length ≤ st.lines.length + 1 := by
  unfold level at h
  obtain ⟨w, _, h⟩ := Outcome.bind_eq_ok.1 h
  obtain ⟨r, h1, h⟩ := Outcome.bind_eq_ok.1 h
  have q1 := removeTied_count (k + 1) _ _ rfl h1
  simp only at q1
  split at h
  · cases h
    exact ⟨by simp only; omega, by simp⟩
  · obtain ⟨⟨affV', wk'⟩, h2, h⟩ := Outcome.bind_eq_ok.1 h
    obtain ⟨st1, h3, h⟩ := Outcome.bind_eq_ok.1 h
    cases h
    have q2 : wk'.clusters.length + 2 * affV'.length ≤ st.wk.clusters.length + 2 * r.affV.length := clustersLoop_count _ _ _ _ _ h2
    unfold endLevel at h3
    obtain ⟨cs, h4, h3⟩ := Outcome.bind_eq_ok.1 h3
    have q3 : cs.length = wk'.clusters.length := setOffsets_count _ _ _ h4
    cases h3
    refine ⟨by simp only; omega, ?_⟩
    simp only
    split <;> simp

theorem mainLoop_count [CCmp W] {ar : Arith W S} {m : Nat} {compact : Bool} {va vb : List Nat} {wt : List W} : ∀ (fuel k : Nat) (st st' : St W S),
    mainLoop ar m compact va vb wt fuel k st = .ok st' →
    st'.wk.clusters.length ≤ st.wk.clusters.length + 2 * st.affV.length + 4 * k ∧ st'.lines.length ≤ st.lines.length + fuel := by
  intro fuel
  induction fuel with
  | zero =>
    intro k st st' h
    cases k with
    | zero => rw [mainLoop] at h; cases h; exact ⟨by omega, by omega⟩
    | succ k => rw [mainLoop] at h; cases h
  | succ fuel ih =>
    intro k st st' h
    cases k with
    | zero => rw [mainLoop] at h; cases h; exact ⟨by omega, by omega⟩
    | succ k =>
      rw [mainLoop] at h
      obtain ⟨⟨k', st1⟩, h1, h⟩ := Outcome.bind_eq_ok.1 h
      obtain ⟨a1, a2⟩ := level_count h1
      obtain ⟨b1, b2⟩ := ih _ _ _ h
      exact ⟨by omega, by omega⟩

/-- For any graph whatsoever: at most two clusters more than four times the edges, and a line per edge. -/
theorem compute_count [CCmp W] {ar : Arith W S} {m : Nat} {compact : Bool} {g : Graph W} {res : Result W S} (h : compute ar m compact g = .ok res) :
    res.clusters.length ≤ 2 + 4 * g.wt.length ∧ res.hierarchy.length ≤ g.wt.length + 1 := by
  unfold compute at h
  obtain ⟨st, h1, h⟩ := Outcome.bind_eq_ok.1 h
  obtain ⟨a1, a2⟩ := mainLoop_count _ _ _ _ h1
  cases h
  simp only [initial, List.length_cons, List.length_nil] at a1 a2
  simp only [List.length_append, List.length_cons, List.length_nil]
  exact ⟨by omega, by omega⟩

end Verif.Hier
