import Verif.Lemmas.Core
/-
The core distance is less than `D_MAX` as soon as there are enough points, whatever the ties among the distances do to its value.
-/
namespace Verif.Distance
variable {W : Type} [LinearOrder W]

/-- The search only moves right past smaller elements. -/
theorem searchPos_left (sd : List W) (t : W) : ∀ fuel low high p, searchPos sd t fuel low high = .ok p →
    (low = 0 ∨ ∃ x, sd[low - 1]? = some x ∧ x < t) → (p = 0 ∨ ∃ x, sd[p - 1]? = some x ∧ x < t) := by
  intro fuel
  induction fuel with
  | zero => intro low high p h; simp [searchPos] at h
  | succ fuel ih =>
    intro low high p h hl
    by_cases hm : low + (high - low) / 2 < sd.length
    · simp only [searchPos, rd_ok hm, Outcome.ok_bind, ccmp_lt, ccmp_eq, decide_eq_true_eq] at h
      split at h
      · split at h
        · exact ih _ _ p h hl
        · cases h; exact hl
      · rename_i h1
        split at h
        · cases h; exact hl
        · rename_i h2
          have hlt : sd[low + (high - low) / 2] < t := lt_of_le_of_ne (not_lt.1 h1) h2
          have hr : low + (high - low) / 2 + 1 = 0 ∨ ∃ x, sd[low + (high - low) / 2 + 1 - 1]? = some x ∧ x < t :=
            .inr ⟨_, by simp [hm], hlt⟩
          split at h
          · exact ih _ _ p h hr
          · cases h; exact hr
    · simp [searchPos, rd, List.getElem?_eq_none (not_lt.1 hm)] at h

/-- `k` values less than `D_MAX`, then `D_MAX` to the end. -/
def Filled (nn : Nat) (dmax : W) (k : Nat) (sd : List W) : Prop :=
  ∃ a : List W, a.length = k ∧ (∀ x ∈ a, x < dmax) ∧ k ≤ nn + 1 ∧ sd = a ++ List.replicate (nn + 1 - k) dmax

theorem offer_filled {nn : Nat} {dmax t : W} {k : Nat} {sd : List W} (h : Filled nn dmax k sd) (ht : t < dmax) :
    ∃ sd', offer nn sd t = .ok sd' ∧ Filled nn dmax (min (k + 1) (nn + 1)) sd' := by
  obtain ⟨a, rfl, ha, hk, rfl⟩ := h
  by_cases hfull : a.length = nn + 1
  · obtain ⟨sd', e, hl, hm⟩ := offer_safe (nn := nn) (sd := a ++ List.replicate (nn + 1 - a.length) dmax) t (by simp; omega)
    refine ⟨sd', e, sd', by omega, ?_, by omega, ?_⟩
    · intro x hx
      rcases hm x hx with rfl | hx
      · exact ht
      · simp [hfull] at hx; exact ha x hx
    · simp; omega
  · obtain ⟨m, hm⟩ : ∃ m, nn = a.length + m := ⟨nn - a.length, by omega⟩
    subst hm
    have e1 : a.length + m + 1 - a.length = m + 1 := by omega
    rw [e1]
    have hlast : (a ++ List.replicate (m + 1) dmax)[a.length + m]? = some dmax := by
      rw [List.getElem?_append_right (by omega)]
      simp
    have hlen : a.length + m < (a ++ List.replicate (m + 1) dmax).length := by simp
    have hlast' : (a ++ List.replicate (m + 1) dmax)[a.length + m] = dmax := by
      have := List.getElem?_eq_getElem hlen
      rw [hlast] at this
      simp
    obtain ⟨p, ep, hp⟩ := searchPos_safe (a ++ List.replicate (m + 1) dmax) t (a.length + m + 2) 0 (a.length + m + 1) (by omega) (by simp; omega) (by omega)
    have hpa : p ≤ a.length := by
      rcases searchPos_left _ _ _ _ _ _ ep (.inl rfl) with h | ⟨x, hx, hxt⟩
      · omega
      · by_contra hc
        rw [List.getElem?_append_right (by omega), List.getElem?_replicate] at hx
        split at hx
        · cases hx; exact absurd hxt (not_lt.2 ht.le)
        · simp at hx
    refine ⟨a.take p ++ t :: (a.drop p ++ List.replicate m dmax), ?_, a.take p ++ t :: a.drop p, ?_, ?_, by omega, ?_⟩
    · simp only [offer, rd_ok hlen, hlast', Outcome.ok_bind, ccmp_lt, ccmp_eq, ep]
      rw [if_neg (by simpa using ht.le), if_pos ⟨by omega, by simpa using ht.ne'⟩]
      rw [List.take_append_of_le_length hpa, List.drop_append_of_le_length hpa]
      show Outcome.ok _ = _
      congr 3
      rw [List.replicate_succ', ← List.append_assoc, List.take_append_of_le_length (by simp; omega), List.take_of_length_le (by simp; omega)]
    · simp; omega
    · intro x hx
      rcases List.mem_append.1 hx with hx | hx
      · exact ha x (List.mem_of_mem_take hx)
      · rcases List.mem_cons.1 hx with rfl | hx
        · exact ht
        · exact ha x (List.mem_of_mem_drop hx)
    · rw [show a.length + m + 1 - min (a.length + 1) (a.length + m + 1) = m by omega]
      simp

theorem coreLoop_filled {zero dmax : W} {dis : Distance W} {i : Nat} {d : Nat → W} :
    ∀ (js : List Nat) (k : Nat) (sd : List W), (∀ j ∈ js, dis.get zero i j = .ok (d j) ∧ d j < dmax) → Filled dis.numNeighbors dmax k sd →
    ∃ sd', coreLoop zero dis i js sd = .ok sd' ∧ Filled dis.numNeighbors dmax (min (k + js.length) (dis.numNeighbors + 1)) sd' := by
  intro js
  induction js with
  | nil => intro k sd _ h; exact ⟨sd, rfl, by obtain ⟨a, h1, h2, h3, h4⟩ := h; exact ⟨a, by simp; omega, h2, by omega, by rw [h4]; congr 2; simp; omega⟩⟩
  | cons j r ih =>
    intro k sd hd h
    obtain ⟨s1, e1, h1⟩ := offer_filled h (hd j (by simp)).2
    obtain ⟨s2, e2, h2⟩ := ih _ s1 (fun j hj => hd j (by simp [hj])) h1
    refine ⟨s2, by simp [coreLoop, (hd j (by simp)).1, e1, e2], ?_⟩
    rwa [show min (k + (j :: r).length) (dis.numNeighbors + 1) = min (min (k + 1) (dis.numNeighbors + 1) + r.length) (dis.numNeighbors + 1) by simp; omega]

/-- With more than `numNeighbors` points at distances less than `D_MAX` the core distance is less than `D_MAX`. -/
theorem coreOf_lt {zero dmax : W} {dis : Distance W} {i : Nat} {d : Nat → W}
    (hd : ∀ j, j < dis.rows → dis.get zero i j = .ok (d j) ∧ d j < dmax) (hn : dis.numNeighbors < dis.rows) :
    ∃ x, coreOf zero dmax dis i = .ok x ∧ x < dmax := by
  obtain ⟨sd, e, a, h1, h2, h3, h4⟩ := coreLoop_filled (dmax := dmax) (List.range dis.rows) 0 (List.replicate (dis.numNeighbors + 1) dmax)
    (fun j hj => hd j (List.mem_range.1 hj)) ⟨[], rfl, by simp, by omega, by simp⟩
  have hl : a.length = dis.numNeighbors + 1 := by simp at h1; omega
  subst h4
  have hlt : dis.numNeighbors < (a ++ List.replicate (dis.numNeighbors + 1 - min (0 + (List.range dis.rows).length) (dis.numNeighbors + 1)) dmax).length := by simp; omega
  refine ⟨_, by simp only [coreOf, e, Outcome.ok_bind]; exact rd_ok hlt, ?_⟩
  rw [List.getElem_append_left (by omega)]
  exact h2 _ (List.getElem_mem _)

/-- A distance of `D_MAX` or more changes nothing. -/
theorem offer_skip {nn : Nat} {dmax t : W} {k : Nat} {sd : List W} (h : Filled nn dmax k sd) (ht : dmax ≤ t) : offer nn sd t = .ok sd := by
  obtain ⟨a, rfl, ha, hk, rfl⟩ := h
  have hlen : nn < (a ++ List.replicate (nn + 1 - a.length) dmax).length := by simp; omega
  have hlast : (a ++ List.replicate (nn + 1 - a.length) dmax)[nn] ≤ dmax := by
    rcases List.mem_append.1 (List.getElem_mem hlen) with h | h
    · exact (ha _ h).le
    · exact (List.eq_of_mem_replicate h).le
  obtain ⟨p, ep, hp⟩ := searchPos_safe (a ++ List.replicate (nn + 1 - a.length) dmax) t (nn + 2) 0 (nn + 1) (by omega) (by simp; omega) (by omega)
  simp only [offer, rd_ok hlen, Outcome.ok_bind, ccmp_lt, ccmp_eq, ep]
  by_cases h1 : (a ++ List.replicate (nn + 1 - a.length) dmax)[nn] < t
  · rw [if_pos (by simpa using h1)]; rfl
  · have : (a ++ List.replicate (nn + 1 - a.length) dmax)[nn] = t := le_antisymm (le_trans hlast ht) (not_lt.1 h1)
    rw [if_neg (by simpa using h1), if_neg (by simp [this])]; rfl

theorem coreLoop_count {zero dmax : W} {dis : Distance W} {i : Nat} {d : Nat → W} :
    ∀ (js : List Nat) (k : Nat) (sd : List W), (∀ j ∈ js, dis.get zero i j = .ok (d j)) → Filled dis.numNeighbors dmax k sd →
    ∃ sd', coreLoop zero dis i js sd = .ok sd' ∧ Filled dis.numNeighbors dmax (min (k + js.countP (fun j => decide (d j < dmax))) (dis.numNeighbors + 1)) sd' := by
  intro js
  induction js with
  | nil => intro k sd _ h; exact ⟨sd, rfl, by obtain ⟨a, h1, h2, h3, h4⟩ := h; exact ⟨a, by simp; omega, h2, by omega, by rw [h4]; congr 2; simp; omega⟩⟩
  | cons j r ih =>
    intro k sd hd h
    by_cases hj : d j < dmax
    · obtain ⟨s1, e1, h1⟩ := offer_filled h hj
      obtain ⟨s2, e2, h2⟩ := ih _ s1 (fun j hj => hd j (by simp [hj])) h1
      refine ⟨s2, by simp [coreLoop, hd j (by simp), e1, e2], ?_⟩
      rw [List.countP_cons_of_pos (by simpa using hj)]
      rwa [show min (k + (r.countP (fun j => decide (d j < dmax)) + 1)) (dis.numNeighbors + 1) =
        min (min (k + 1) (dis.numNeighbors + 1) + r.countP (fun j => decide (d j < dmax))) (dis.numNeighbors + 1) by omega]
    · obtain ⟨s2, e2, h2⟩ := ih k sd (fun j hj => hd j (by simp [hj])) h
      refine ⟨s2, by simp [coreLoop, hd j (by simp), offer_skip h (not_lt.1 hj), e2], ?_⟩
      rw [List.countP_cons_of_neg (by simpa using hj)]
      exact h2

/-- The core distance is less than `D_MAX` exactly when more than `numNeighbors` points are at distances less than `D_MAX`. -/
theorem coreOf_count {zero dmax : W} {dis : Distance W} {i : Nat} {d : Nat → W} (hd : ∀ j, j < dis.rows → dis.get zero i j = .ok (d j)) {x : W}
    (hx : coreOf zero dmax dis i = .ok x) : x < dmax ↔ dis.numNeighbors < (List.range dis.rows).countP (fun j => decide (d j < dmax)) := by
  obtain ⟨sd, e, a, h1, h2, h3, h4⟩ := coreLoop_count (dmax := dmax) (List.range dis.rows) 0 (List.replicate (dis.numNeighbors + 1) dmax)
    (fun j hj => hd j (List.mem_range.1 hj)) ⟨[], rfl, by simp, by omega, by simp⟩
  rw [Nat.zero_add] at h1 h3 h4
  subst h4
  simp only [coreOf, e, Outcome.ok_bind] at hx
  have hlt : dis.numNeighbors < (a ++ List.replicate (dis.numNeighbors + 1 - min ((List.range dis.rows).countP (fun j => decide (d j < dmax))) (dis.numNeighbors + 1)) dmax).length := by
    simp; omega
  rw [rd_ok hlt] at hx
  cases hx
  constructor
  · intro hxl
    by_contra hc
    rw [List.getElem_append_right (by omega), List.getElem_replicate] at hxl
    exact lt_irrefl _ hxl
  · intro hc
    rw [List.getElem_append_left (by omega)]
    exact h2 _ (List.getElem_mem _)

end Verif.Distance
