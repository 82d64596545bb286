import Verif.Model.SortClusters
import Verif.Lemmas.GraphSort
/-
Helper lemmas for `hdbscan_quicksort`.
-/
namespace Verif.CSort
open Graph (rd_map wr_map swap_apply_if Within within_swap within_mul within_refl within_mono within_mem)
variable {L D : Type}

/-- The arrays hold the pairs `f 0, ..., f (n-1)`. -/
structure Rep (a : Arr L D) (n : Nat) (f : Nat → L × D) : Prop where
  c : a.c = (List.range n).map (fun i => (f i).1)
  d : a.d = (List.range n).map (fun i => (f i).2)

theorem swap_rep {a : Arr L D} {n i j : Nat} {f : Nat → L × D} (h : Rep a n f) (hi : i < n) (hj : j < n) (hij : i ≠ j) :
    ∃ a', swap a i j = .ok a' ∧ Rep a' n (fun k => f (Equiv.swap i j k)) := by
  unfold swap
  rw [h.c, h.d]
  simp only [rd_map _ hi, rd_map _ hj, wr_map _ _ hi, wr_map _ _ hj, Outcome.ok_bind]
  refine ⟨_, rfl, ⟨?_, ?_⟩⟩
  · apply List.map_congr_left; intro k _
    rw [swap_apply_if (fun k => (f k))]
    by_cases h1 : k = j <;> by_cases h2 : k = i <;> simp [h1, h2, hij]
  · apply List.map_congr_left; intro k _
    rw [swap_apply_if (fun k => (f k))]
    by_cases h1 : k = j <;> by_cases h2 : k = i <;> simp [h1, h2, hij]

theorem upLoop_rep [LinearOrder D] {a : Arr L D} {n : Nat} {f : Nat → L × D} (h : Rep a n f) (x : D) : ∀ (k up : Nat), up + k < n →
    ∃ u, upLoop a.d x k up = .ok u ∧ up ≤ u ∧ u ≤ up + k ∧ (∀ i, up ≤ i → i < u → (f i).2 ≤ x) ∧ (u < up + k → x < (f u).2) := by
  intro k
  induction k with
  | zero => exact fun up _ => ⟨up, rfl, le_refl _, le_refl _, fun i h1 h2 => by omega, fun h => by omega⟩
  | succ k ih =>
    intro up hup
    rw [upLoop, h.d, rd_map _ (by omega), Outcome.ok_bind, ← h.d]
    by_cases hle : (f up).2 ≤ x
    · rw [if_pos (by simpa using hle)]
      obtain ⟨u, e, h1, h2, h3, h4⟩ := ih (up + 1) (by omega)
      refine ⟨u, e, by omega, by omega, fun i hi hu => ?_, fun hu => h4 (by omega)⟩
      by_cases hi' : i = up
      · rw [hi']; exact hle
      · exact h3 i (by omega) hu
    · rw [if_neg (by simpa using hle)]
      exact ⟨up, rfl, le_refl _, by omega, fun i h1 h2 => by omega, fun _ => not_le.1 hle⟩

theorem downLoop_rep [LinearOrder D] {a : Arr L D} {n : Nat} {f : Nat → L × D} (h : Rep a n f) (x : D) : ∀ (k down : Nat), down < n → k ≤ down →
    ∃ e, downLoop a.d x k down = .ok e ∧ down - k ≤ e ∧ e ≤ down ∧ (∀ i, e < i → i ≤ down → x < (f i).2) ∧ (down - k < e → (f e).2 ≤ x) := by
  intro k
  induction k with
  | zero => exact fun down _ _ => ⟨down, rfl, by omega, le_refl _, fun i h1 h2 => by omega, fun h => by omega⟩
  | succ k ih =>
    intro down hd hk
    rw [downLoop, h.d, rd_map _ hd, Outcome.ok_bind, ← h.d]
    by_cases hlt : x < (f down).2
    · rw [if_pos (by simpa using hlt)]
      obtain ⟨e, e1, h1, h2, h3, h4⟩ := ih (down - 1) (by omega) (by omega)
      refine ⟨e, e1, by omega, by omega, fun i hi hu => ?_, fun hu => h4 (by omega)⟩
      by_cases hi' : i = down
      · rw [hi']; exact hlt
      · exact h3 i hi (by omega)
    · rw [if_neg (by simpa using hlt)]
      exact ⟨down, rfl, by omega, le_refl _, fun i h1 h2 => by omega, fun _ => not_lt.1 hlt⟩

theorem partLoop_rep [LinearOrder D] {n s e : Nat} (x : D) (he : e < n) : ∀ (fuel up down : Nat) (a : Arr L D) (f : Nat → L × D), Rep a n f →
    s < up → up ≤ down → down ≤ e → down - up + (if (f up).2 ≤ x then 0 else 1) ≤ fuel → (∀ i, s < i → i < up → (f i).2 ≤ x) → (∀ i, down < i → i ≤ e → x < (f i).2) →
    ∃ u a' σ, partLoop x fuel up down a = .ok (u, a') ∧ Within (s + 1) e σ ∧ Rep a' n (fun k => f (σ k)) ∧ s < u ∧ u ≤ e ∧
      (∀ i, s < i → i < u → (f (σ i)).2 ≤ x) ∧ (∀ i, u < i → i ≤ e → x < (f (σ i)).2) := by
  intro fuel
  induction fuel with
  | zero =>
    intro up down a f h h1 h2 h3 h4 h5 h6
    have : up = down := by omega
    subst this
    exact ⟨up, a, Equiv.refl _, by simp [partLoop], within_refl _ _, h, h1, h3, h5, h6⟩
  | succ fuel ih =>
    intro up down a f h h1 h2 h3 h4 h5 h6
    rw [partLoop]
    by_cases hud : up < down
    · rw [if_pos hud]
      obtain ⟨u, e1, u1, u2, u3, u4⟩ := upLoop_rep h x (down - up) up (by omega)
      obtain ⟨w, e2, w1, w2, w3, w4⟩ := downLoop_rep h x (down - u) down (by omega) (by omega)
      rw [e1, Outcome.ok_bind, e2, Outcome.ok_bind]
      have lo : ∀ i, s < i → i < u → (f i).2 ≤ x := fun i hi hu => by
        by_cases h' : i < up
        · exact h5 i hi h'
        · exact u3 i (by omega) hu
      have hi : ∀ i, w < i → i ≤ e → x < (f i).2 := fun i hi hu => by
        by_cases h' : i ≤ down
        · exact w3 i hi h'
        · exact h6 i (by omega) hu
      by_cases huw : u = w
      · rw [if_pos huw]
        subst huw
        exact ⟨u, a, Equiv.refl _, rfl, within_refl _ _, h, by omega, by omega, lo, hi⟩
      · rw [if_neg huw]
        have hu : x < (f u).2 := u4 (by omega)
        have hw : (f w).2 ≤ x := w4 (by omega)
        obtain ⟨a', e3, h'⟩ := swap_rep h (i := u) (j := w) (by omega) (by omega) huw
        rw [e3, Outcome.ok_bind]
        -- one more round: the elements at u and w are now in place
        have lo' : ∀ i, s < i → i < u + 1 → (f (Equiv.swap u w i)).2 ≤ x := by
          intro i h1 h2
          by_cases hiu : i = u
          · rw [hiu, Equiv.swap_apply_left]; exact hw
          · rw [Equiv.swap_apply_of_ne_of_ne hiu (by omega)]; exact lo i h1 (by omega)
        have hi' : ∀ i, w - 1 < i → i ≤ e → x < (f (Equiv.swap u w i)).2 := by
          intro i h1 h2
          by_cases hiu : i = w
          · rw [hiu, Equiv.swap_apply_right]; exact hu
          · rw [Equiv.swap_apply_of_ne_of_ne (by omega) hiu]; exact hi i (by omega) h2
        have hf : w - u + (if (f (Equiv.swap u w u)).2 ≤ x then 0 else 1) ≤ fuel := by
          rw [if_pos (lo' u (by omega) (by omega))]
          by_cases hup : (f up).2 ≤ x
          · rw [if_pos hup] at h4
            have : up ≠ u := fun hc => by rw [hc] at hup; exact absurd hu (not_lt.2 hup)
            omega
          · rw [if_neg hup] at h4
            omega
        obtain ⟨r, b, σ, e4, q1, q2, q3, q4, q5, q6⟩ := ih u w a' _ h' (by omega) (by omega) (by omega) hf (fun i h1 h2 => lo' i h1 (by omega))
            (fun i h1 h2 => hi' i (by omega) h2)
        exact ⟨r, b, σ.trans (Equiv.swap u w), e4, within_mul (within_swap (by omega) (by omega)) q1, q2, q3, q4, q5, q6⟩
    · rw [if_neg hud]
      have : up = down := by omega
      subst this
      exact ⟨up, a, Equiv.refl _, rfl, within_refl _ _, h, h1, h3, h5, h6⟩

theorem partition_rep [LinearOrder D] {n s e : Nat} {a : Arr L D} {f : Nat → L × D} (h : Rep a n f) (hse : s < e) (he : e < n) :
    ∃ p a' σ, partition a s e = .ok (p, a') ∧ Within s e σ ∧ Rep a' n (fun k => f (σ k)) ∧ s ≤ p ∧ p ≤ e ∧ σ p = s ∧
      (∀ i, s ≤ i → i < p → (f (σ i)).2 ≤ (f s).2) ∧ (∀ i, p < i → i ≤ e → (f s).2 < (f (σ i)).2) := by
  obtain ⟨u, a1, σ, e1, h1, h2, h3, h4, h5, h6⟩ := partLoop_rep (s := s) (e := e) (f s).2 he (e - s) (s + 1) e a f h (by omega) (by omega) (le_refl _)
    (by split <;> omega) (fun i h1 h2 => by omega) (fun i h1 h2 => by omega)
  have hσs : σ s = s := h1 s (by omega)
  unfold partition
  have r1 : rd a.d s = .ok (f s).2 := by rw [h.d, rd_map _ (by omega)]
  have r2 : rd a.c s = .ok (f s).1 := by rw [h.c, rd_map _ (by omega)]
  rw [r1, r2]
  simp only [Outcome.ok_bind]
  have e1' : partLoop (f s).2 (e - s) (s + 1) e a = .ok (u, a1) := e1
  rw [e1', Outcome.ok_bind]
  simp only []
  rw [h2.d, rd_map _ (by omega), Outcome.ok_bind]
  -- the final position of the pivot
  obtain ⟨p, hp, p1, p2, p3, p4⟩ : ∃ p, (if CCmp.lt (f s).2 (f (σ u)).2 = true then u - 1 else u) = p ∧ s ≤ p ∧ p ≤ e ∧ (∀ i, s < i → i ≤ p → (f (σ i)).2 ≤ (f s).2) ∧
      (∀ i, p < i → i ≤ e → (f s).2 < (f (σ i)).2) := by
    by_cases hlt : (f s).2 < (f (σ u)).2
    · refine ⟨u - 1, by rw [if_pos (by simpa using hlt)], by omega, by omega, fun i hi hp => h5 i hi (by omega), fun i hi hp => ?_⟩
      by_cases hiu : i = u
      · rw [hiu]; exact hlt
      · exact h6 i (by omega) hp
    · refine ⟨u, by rw [if_neg (by simpa using hlt)], by omega, h4, fun i hi hp => ?_, h6⟩
      by_cases hiu : i = u
      · rw [hiu]; exact not_lt.1 hlt
      · exact h5 i hi (by omega)
  rw [hp, rd_map _ (by omega), Outcome.ok_bind, wr_map _ _ (by omega), Outcome.ok_bind, wr_map _ _ (by omega), Outcome.ok_bind,
    h2.c, rd_map _ (by omega), Outcome.ok_bind, wr_map _ _ (by omega), Outcome.ok_bind, wr_map _ _ (by omega), Outcome.ok_bind]
  refine ⟨p, _, (Equiv.swap s p).trans σ, rfl, within_mul (within_mono h1 (by omega) (le_refl _)) (within_swap (by omega) (by omega)), ⟨?_, ?_⟩, p1, p2, ?_, ?_, ?_⟩
  · apply List.map_congr_left; intro k _
    simp only [Equiv.trans_apply]
    rw [swap_apply_if (fun k => f (σ k))]
    by_cases q1 : k = p
    · simp [q1, hσs]
    · by_cases q2 : k = s
      · rw [if_neg q1, if_pos q2, if_neg q1, if_pos q2]
      · rw [if_neg q1, if_neg q2, if_neg q1, if_neg q2]
  · apply List.map_congr_left; intro k _
    simp only [Equiv.trans_apply]
    rw [swap_apply_if (fun k => f (σ k))]
    by_cases q1 : k = p
    · simp [q1, hσs]
    · by_cases q2 : k = s
      · rw [if_neg q1, if_pos q2, if_neg q1, if_pos q2]
      · rw [if_neg q1, if_neg q2, if_neg q1, if_neg q2]
  · simp [hσs]
  · intro i hi hip
    simp only [Equiv.trans_apply]
    by_cases his : i = s
    · rw [his, Equiv.swap_apply_left]
      exact p3 p (by omega) (le_refl _)
    · rw [Equiv.swap_apply_of_ne_of_ne his (by omega)]
      exact p3 i (by omega) (by omega)
  · intro i hi hip
    simp only [Equiv.trans_apply]
    rw [Equiv.swap_apply_of_ne_of_ne (by omega) (by omega)]
    exact p4 i hi hip

/-- The sort of the positions `left..hi-1`: a permutation of these positions after which the values ascend. -/
theorem quicksort_rep [LinearOrder D] {n : Nat} : ∀ (fuel : Nat) (a : Arr L D) (f : Nat → L × D) (left hi : Nat), Rep a n f → hi ≤ n → hi - left ≤ fuel + 1 →
    ∃ (a' : Arr L D) (σ : Equiv.Perm Nat), quicksort fuel a left hi = .ok a' ∧ Rep a' n (fun k => f (σ k)) ∧ (∀ k, k < left ∨ hi ≤ k → σ k = k) ∧
      (∀ i j, left ≤ i → i ≤ j → j < hi → (f (σ i)).2 ≤ (f (σ j)).2) := by
  intro fuel
  induction fuel with
  | zero =>
    intro a f left hi h hn hf
    refine ⟨a, Equiv.refl _, by rw [quicksort, if_neg (by omega)], h, fun _ _ => rfl, fun i j h1 h2 h3 => ?_⟩
    have : i = j := by omega
    rw [this]
  | succ fuel ih =>
    intro a f left hi h hn hf
    rw [quicksort]
    by_cases hlt : left + 1 < hi
    · rw [if_pos hlt]
      obtain ⟨p, a1, σ, e1, w1, h1, p1, p2, p3, p4, p5⟩ := partition_rep h (s := left) (e := hi - 1) (by omega) (by omega)
      obtain ⟨a2, τ, e2, h2, w2, s2⟩ := ih a1 _ left p h1 (by omega) (by omega)
      obtain ⟨a3, ρ, e3, h3, w3, s3⟩ := ih a2 _ (p + 1) hi h2 hn (by omega)
      rw [e1, Outcome.ok_bind]
      simp only []
      rw [e2, Outcome.ok_bind, e3]
      have wτ : Within left (p - 1) τ := fun k hk => w2 k (by omega)
      have wρ : Within (p + 1) (hi - 1) ρ := fun k hk => w3 k (by omega)
      -- the element at a position
      have low : ∀ i, left ≤ i → i < p → ρ i = i ∧ left ≤ τ i ∧ τ i < p := fun i h1 h2 => by
        have := within_mem wτ (k := i) ⟨h1, by omega⟩
        exact ⟨w3 i (by omega), this.1, by omega⟩
      have up : ∀ i, p < i → i < hi → p < ρ i ∧ ρ i < hi ∧ τ (ρ i) = ρ i := fun i h1 h2 => by
        have := within_mem wρ (k := i) ⟨by omega, by omega⟩
        exact ⟨by omega, by omega, w2 _ (by omega)⟩
      have vlow : ∀ i, left ≤ i → i < p → (f (σ (τ (ρ i)))).2 ≤ (f left).2 := fun i h1 h2 => by
        obtain ⟨q1, q2, q3⟩ := low i h1 h2
        rw [q1]; exact p4 _ q2 q3
      have vup : ∀ i, p < i → i < hi → (f left).2 < (f (σ (τ (ρ i)))).2 := fun i h1 h2 => by
        obtain ⟨q1, q2, q3⟩ := up i h1 h2
        rw [q3]; exact p5 _ q1 (by omega)
      have vmid : (f (σ (τ (ρ p)))).2 = (f left).2 := by rw [w3 p (by omega), w2 p (by omega), p3]
      refine ⟨a3, (ρ.trans τ).trans σ, rfl, h3, fun k hk => ?_, fun i j hi1 hij hj => ?_⟩
      · simp only [Equiv.trans_apply]
        rw [w3 k (by omega), w2 k (by omega), w1 k (by omega)]
      · simp only [Equiv.trans_apply]
        rcases lt_trichotomy i p with hip | hip | hip <;> rcases lt_trichotomy j p with hjp | hjp | hjp
        · rw [(low i hi1 hip).1, (low j (by omega) hjp).1]
          exact s2 i j hi1 hij hjp
        · rw [hjp, vmid]; exact vlow i hi1 hip
        · exact (vlow i hi1 hip).trans (vup j hjp hj).le
        · omega
        · rw [hip, hjp]
        · rw [hip, vmid]; exact (vup j hjp hj).le
        · omega
        · omega
        · exact s3 i j (by omega) hij hj
    · rw [if_neg hlt]
      refine ⟨a, Equiv.refl _, rfl, h, fun _ _ => rfl, fun i j h1 h2 h3 => ?_⟩
      have : i = j := by omega
      rw [this]

end Verif.CSort
