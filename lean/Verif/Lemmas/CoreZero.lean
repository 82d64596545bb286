import Verif.Lemmas.CoreTie
/-
Helper lemmas: core distances of points with many points at the least distance.
-/
namespace Verif.Distance
variable {W : Type} [LinearOrder W]

/-- Either the last value is the least one, or none of those offered is lost. -/
def Kept (nn : Nat) (z : W) (ts sd : List W) : Prop := sd.length = nn + 1 ∧ (∀ x ∈ sd, z ≤ x) ∧ (sd[nn]? = some z ∨ ts.count z ≤ sd.count z)

theorem kept_offer {nn : Nat} {z t : W} {ts sd : List W} (h : Kept nn z ts sd) (ht : z ≤ t) : ∃ sd', offer nn sd t = .ok sd' ∧ Kept nn z (ts ++ [t]) sd' := by
  obtain ⟨hlen, hz, hk⟩ := h
  obtain ⟨p, e, hp⟩ := searchPos_behind (sd := sd) (t := t) (nn + 2) 0 (nn + 1) (by omega) (by omega) (by omega)
  obtain ⟨lv, hlast⟩ : ∃ v, sd[nn]? = some v := ⟨_, List.getElem?_eq_getElem (by omega)⟩
  have hlz : z ≤ lv := hz lv (List.mem_of_getElem? hlast)
  rw [offer_at hlen hlast e]
  by_cases htl : t < lv
  · have hpn : p ≤ nn := by
      rcases hp with rfl | ⟨y, h0, hy, hyt⟩
      · omega
      · have := (List.getElem?_eq_some_iff.1 hy).1
        by_contra hne
        have : p - 1 = nn := by omega
        rw [this, hlast] at hy
        cases hy
        exact lt_asymm htl hyt
    rw [if_pos ⟨htl, by omega⟩]
    have hperm : (sd.take p ++ t :: (sd.drop p).take (nn + 1 - p - 1)).Perm (t :: sd.take nn) := by
      refine List.perm_middle.trans (List.Perm.cons _ ?_)
      rw [← List.take_append_drop p (sd.take nn), List.take_take, Nat.min_eq_left hpn, List.drop_take]
      rw [show nn + 1 - p - 1 = nn - p by omega]
    have hsd : sd = sd.take nn ++ [lv] := by
      conv_lhs => rw [← List.take_append_drop nn sd]
      congr 1
      have hl : (sd.drop nn).length = 1 := by rw [List.length_drop]; omega
      obtain ⟨a, ha⟩ := List.length_eq_one_iff.1 hl
      rw [ha]
      have : (sd.drop nn)[0]? = some lv := by rw [List.getElem?_drop]; simpa using hlast
      rw [ha] at this
      simpa using this
    refine ⟨_, rfl, ?_, ?_, ?_⟩
    · rw [hperm.length_eq, List.length_cons, List.length_take]; omega
    · intro x hx
      rcases List.mem_cons.1 (hperm.subset hx) with rfl | hx
      · exact ht
      · exact hz x (List.mem_of_mem_take hx)
    · right
      rw [hperm.count_eq, List.count_append, List.count_cons, List.count_cons, List.count_nil]
      have hne : lv ≠ z := (lt_of_le_of_lt ht htl).ne'
      have hc : sd.count z = (sd.take nn).count z := by
        conv_lhs => rw [hsd]
        rw [List.count_append, List.count_singleton]
        simp [hne]
      rcases hk with hk | hk
      · rw [hlast] at hk; cases hk; exact absurd rfl hne
      · rw [hc] at hk
        omega
  · rw [if_neg fun h => htl h.1]
    refine ⟨_, rfl, hlen, hz, ?_⟩
    rcases hk with hk | hk
    · exact .inl hk
    · by_cases htz : t = z
      · subst htz
        left
        rw [hlast, le_antisymm (not_lt.1 htl) hlz]
      · right
        rw [List.count_append, List.count_singleton]
        simpa [htz] using hk

theorem coreLoop_kept {zero z : W} {dis : Distance W} {i : Nat} {d : Nat → W} : ∀ (js : List Nat) (ts sd : List W), (∀ j ∈ js, dis.get zero i j = .ok (d j) ∧ z ≤ d j) →
    Kept dis.numNeighbors z ts sd → ∃ sd', coreLoop zero dis i js sd = .ok sd' ∧ Kept dis.numNeighbors z (ts ++ js.map d) sd' := by
  intro js
  induction js with
  | nil => intro ts sd _ h; exact ⟨sd, rfl, by simpa using h⟩
  | cons j r ih =>
    intro ts sd hd h
    obtain ⟨s1, e1, h1⟩ := kept_offer h (hd j (by simp)).2
    obtain ⟨s2, e2, h2⟩ := ih (ts ++ [d j]) s1 (fun k hk => hd k (by simp [hk])) h1
    exact ⟨s2, by simp [coreLoop, (hd j (by simp)).1, e1, e2], by simpa using h2⟩

theorem le_count {z : W} {n : Nat} {d : Nat → W} {l : List Nat} (hl : l.Nodup) (h : ∀ v ∈ l, v < n ∧ d v = z) : l.length ≤ ((List.range n).map d).count z := by
  rw [List.count, List.countP_map, List.countP_eq_length_filter]
  refine (hl.subperm fun v hv => ?_).length_le
  rw [List.mem_filter]
  exact ⟨List.mem_range.2 (h v hv).1, by simp [(h v hv).2]⟩

/-- A point with as many points at the least distance as there are neighbours to look for has the least core distance. -/
theorem coreOf_least {zero dmax z : W} {dis : Distance W} {i : Nat} {d : Nat → W} (hd : ∀ j, j < dis.rows → dis.get zero i j = .ok (d j) ∧ z ≤ d j) (hz : z ≤ dmax)
    (hc : dis.numNeighbors + 1 ≤ ((List.range dis.rows).map d).count z) : coreOf zero dmax dis i = .ok z := by
  obtain ⟨sd, e, hlen, hge, hk⟩ := coreLoop_kept (zero := zero) (z := z) (dis := dis) (i := i) (d := d) (List.range dis.rows) [] (List.replicate (dis.numNeighbors + 1) dmax)
    (fun j hj => hd j (List.mem_range.1 hj)) ⟨by simp, by simp [hz], .inr (by simp)⟩
  have hlt : dis.numNeighbors < sd.length := by omega
  rw [coreOf, e, Outcome.ok_bind, rd_ok hlt]
  congr 1
  rcases hk with hk | hk
  · simpa [hlt] using hk
  · rw [List.nil_append] at hk
    have : sd.count z = sd.length := le_antisymm List.count_le_length (by omega)
    exact (List.count_eq_length.1 this _ (List.getElem_mem hlt)).symm

end Verif.Distance
