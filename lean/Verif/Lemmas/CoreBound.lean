import Verif.Lemmas.CoreMax
import Verif.Lemmas.CoreTie
/-
Helper lemmas: the distance of a point from itself never becomes its core distance.
-/
namespace Verif.Distance
variable {W : Type} [LinearOrder W]

theorem searchPos_ge (sd : List W) (t : W) : ∀ fuel low high p, searchPos sd t fuel low high = .ok p → low ≤ p := by
  intro fuel
  induction fuel with
  | zero => intro low high p h; cases h
  | succ fuel ih =>
    intro low high p h
    simp only [searchPos] at h
    obtain ⟨x, _, h⟩ := Outcome.bind_eq_ok.1 h
    split at h
    · split at h
      · exact ih _ _ _ h
      · cases h; exact le_refl _
    · split at h
      · cases h; exact le_refl _
      · split at h
        · have := ih _ _ _ h; omega
        · cases h; omega

omit [LinearOrder W] in
/-- The values after an insertion. -/
theorem get_inserted {nn lo : Nat} {sd : List W} {t : W} (hlen : sd.length = nn + 1) (hlo : lo ≤ nn) (q : Nat) (hq : q ≤ nn) :
    (sd.take lo ++ t :: (sd.drop lo).take (nn + 1 - lo - 1))[q]? = if q < lo then sd[q]? else if q = lo then some t else sd[q - 1]? := by
  have hl : (sd.take lo).length = lo := by rw [List.length_take]; omega
  by_cases h1 : q < lo
  · rw [if_pos h1, List.getElem?_append_left (by omega), List.getElem?_take, if_pos h1]
  · rw [if_neg h1, List.getElem?_append_right (by omega), hl]
    by_cases h2 : q = lo
    · rw [if_pos h2, h2, Nat.sub_self]; rfl
    · rw [if_neg h2]
      obtain ⟨k, hk⟩ : ∃ k, q - lo = k + 1 := ⟨q - lo - 1, by omega⟩
      rw [hk, List.getElem?_cons_succ, List.getElem?_take, if_pos (by omega), List.getElem?_drop]
      congr 1; omega

/-- A value smaller than what is inserted is not moved beyond the middle of the array. -/
theorem search_beyond {nn p lo : Nat} {sd : List W} {t z last : W} (hlen : sd.length = nn + 1) (hp : p < nn) (hp2 : p ≤ (nn + 1) / 2) (hz : sd[p]? = some z) (hzt : z < t) (hl : sd[nn]? = some last)
    (htl : t < last) (hs : searchPos sd t (nn + 2) 0 (nn + 1) = .ok lo) (hlo : lo ≤ p) : p + 1 < nn ∧ p + 1 ≤ (nn + 1) / 2 := by
  have hmid : p ≠ (nn + 1) / 2 := by
    intro e
    have hx : rd sd (0 + (nn + 1 - 0) / 2) = .ok z := by
      rw [show 0 + (nn + 1 - 0) / 2 = p by omega, rd, hz]
    rw [searchPos] at hs
    simp only [hx, Outcome.ok_bind, ccmp_lt, ccmp_eq, decide_eq_true_eq] at hs
    rw [if_neg (not_lt.2 hzt.le), if_neg hzt.ne] at hs
    split at hs
    · have := searchPos_ge sd t _ _ _ _ hs; omega
    · cases hs; omega
  by_cases h1 : nn = 1
  · subst h1
    have hp0 : p = 0 := by omega
    subst hp0
    have e1 : rd sd 1 = .ok last := by rw [rd, hl]
    have e0 : rd sd 0 = .ok z := by rw [rd, hz]
    exfalso
    simp only [searchPos, Nat.zero_add, Nat.sub_zero, show (1 + 1) / 2 = 1 from rfl, show 1 / 2 = 0 from rfl, e1, e0, Outcome.ok_bind, ccmp_lt, ccmp_eq, decide_eq_true_eq] at hs
    rw [if_pos htl, if_pos (by omega), if_neg (not_lt.2 hzt.le), if_neg hzt.ne, if_neg (by omega)] at hs
    cases hs
    omega
  · omega

/-- All values satisfy `P`. -/
def AllP (nn : Nat) (P : W → Prop) (sd : List W) : Prop := sd.length = nn + 1 ∧ ∀ x ∈ sd, P x

/-- One value is `z`, not the last; the others satisfy `P`. -/
def OneZ (nn : Nat) (z : W) (P : W → Prop) (sd : List W) : Prop :=
  sd.length = nn + 1 ∧ ∃ p, p < nn ∧ p ≤ (nn + 1) / 2 ∧ sd[p]? = some z ∧ ∀ q x, q ≠ p → sd[q]? = some x → P x

omit [LinearOrder W] in
theorem inserted_length {nn lo : Nat} {sd : List W} {t : W} (hlen : sd.length = nn + 1) (hlo : lo ≤ nn) : (sd.take lo ++ t :: (sd.drop lo).take (nn + 1 - lo - 1)).length = nn + 1 := by
  simp only [List.length_append, List.length_take, List.length_cons, List.length_drop]; omega

theorem allP_offer {nn : Nat} {P : W → Prop} {sd : List W} {t : W} (h : AllP nn P sd) (ht : P t) : ∃ sd', offer nn sd t = .ok sd' ∧ AllP nn P sd' := by
  obtain ⟨hlen, hP⟩ := h
  obtain ⟨lo, e, _⟩ := searchPos_behind (sd := sd) (t := t) (nn + 2) 0 (nn + 1) (by omega) (by omega) (by omega)
  obtain ⟨last, hl⟩ : ∃ v, sd[nn]? = some v := ⟨_, List.getElem?_eq_getElem (by omega)⟩
  rw [offer_at hlen hl e]
  refine ⟨_, rfl, ?_⟩
  split
  · rename_i hc
    refine ⟨inserted_length hlen (by omega), ?_⟩
    intro x hx
    rcases List.mem_append.1 hx with hx | hx
    · exact hP x (List.mem_of_mem_take hx)
    · rcases List.mem_cons.1 hx with rfl | hx
      · exact ht
      · exact hP x (List.mem_of_mem_drop (List.mem_of_mem_take hx))
  · exact ⟨hlen, hP⟩

/-- The least value is put in front. -/
theorem allP_least {nn : Nat} {P : W → Prop} {sd : List W} {z : W} (h : AllP nn P sd) (hz : ∀ x, P x → z < x) (hnn : 1 ≤ nn) : ∃ sd', offer nn sd z = .ok sd' ∧ OneZ nn z P sd' := by
  obtain ⟨hlen, hP⟩ := h
  have e : searchPos sd z (nn + 2) 0 (nn + 1) = .ok 0 :=
    searchPos_part (q := 0) (by intro i x h; omega) (fun i x _ hx => hz x (hP x (List.mem_of_getElem? hx))) _ _ _ (by omega) (by omega) (by omega) (by omega) (by omega)
  obtain ⟨last, hl⟩ : ∃ v, sd[nn]? = some v := ⟨_, List.getElem?_eq_getElem (by omega)⟩
  rw [offer_at hlen hl e, if_pos ⟨hz last (hP last (List.mem_of_getElem? hl)), by omega⟩]
  refine ⟨_, rfl, inserted_length hlen (by omega), 0, by omega, by omega, ?_, ?_⟩
  · rw [get_inserted hlen (by omega) 0 (by omega)]; simp
  · intro q x hq hx
    have hqn : q ≤ nn := by
      have := (List.getElem?_eq_some_iff.1 hx).1
      rw [inserted_length hlen (by omega)] at this; omega
    rw [get_inserted hlen (by omega) q hqn, if_neg (by omega), if_neg hq] at hx
    exact hP x (List.mem_of_getElem? hx)

theorem oneZ_offer {nn : Nat} {z : W} {P : W → Prop} {sd : List W} {t : W} (h : OneZ nn z P sd) (hz : ∀ x, P x → z < x) (ht : P t) : ∃ sd', offer nn sd t = .ok sd' ∧ OneZ nn z P sd' := by
  obtain ⟨hlen, p, hp, hp2, hpz, hP⟩ := h
  obtain ⟨lo, e, _⟩ := searchPos_behind (sd := sd) (t := t) (nn + 2) 0 (nn + 1) (by omega) (by omega) (by omega)
  obtain ⟨last, hl⟩ : ∃ v, sd[nn]? = some v := ⟨_, List.getElem?_eq_getElem (by omega)⟩
  rw [offer_at hlen hl e]
  refine ⟨_, rfl, ?_⟩
  split
  · rename_i hc
    have hlo : lo ≤ nn := by omega
    refine ⟨inserted_length hlen hlo, ?_⟩
    by_cases hle : lo ≤ p
    · obtain ⟨b1, b2⟩ := search_beyond hlen hp hp2 hpz (hz t ht) hl hc.1 e hle
      refine ⟨p + 1, b1, b2, ?_, ?_⟩
      · rw [get_inserted hlen hlo (p + 1) (by omega), if_neg (by omega), if_neg (by omega)]; exact hpz
      · intro q x hq hx
        have hqn : q ≤ nn := by
          have := (List.getElem?_eq_some_iff.1 hx).1
          rw [inserted_length hlen hlo] at this; omega
        rw [get_inserted hlen hlo q hqn] at hx
        split at hx
        · exact hP q x (by omega) hx
        · split at hx
          · cases hx; exact ht
          · exact hP (q - 1) x (by omega) hx
    · refine ⟨p, hp, hp2, ?_, ?_⟩
      · rw [get_inserted hlen hlo p (by omega), if_pos (by omega)]; exact hpz
      · intro q x hq hx
        have hqn : q ≤ nn := by
          have := (List.getElem?_eq_some_iff.1 hx).1
          rw [inserted_length hlen hlo] at this; omega
        rw [get_inserted hlen hlo q hqn] at hx
        split at hx
        · exact hP q x hq hx
        · split at hx
          · cases hx; exact ht
          · exact hP (q - 1) x (by omega) hx
  · exact ⟨hlen, p, hp, hp2, hpz, hP⟩

theorem coreLoop_oneZ {zero z : W} {dis : Distance W} {i : Nat} {d : Nat → W} {P : W → Prop} (hz : ∀ x, P x → z < x) : ∀ (js : List Nat) (sd : List W), (∀ j ∈ js, dis.get zero i j = .ok (d j) ∧ P (d j)) →
    OneZ dis.numNeighbors z P sd → ∃ sd', coreLoop zero dis i js sd = .ok sd' ∧ OneZ dis.numNeighbors z P sd' := by
  intro js
  induction js with
  | nil => intro sd _ h; exact ⟨sd, rfl, h⟩
  | cons j r ih =>
    intro sd hd h
    obtain ⟨s1, e1, h1⟩ := oneZ_offer h hz (hd j (by simp)).2
    obtain ⟨s2, e2, h2⟩ := ih s1 (fun k hk => hd k (by simp [hk])) h1
    exact ⟨s2, by simp [coreLoop, (hd j (by simp)).1, e1, e2], h2⟩

theorem coreLoop_allP {zero z : W} {dis : Distance W} {i : Nat} {d : Nat → W} {P : W → Prop} (hz : ∀ x, P x → z < x) (hnn : 1 ≤ dis.numNeighbors) (hi : dis.get zero i i = .ok z) :
    ∀ (js : List Nat) (sd : List W), js.Nodup → (∀ j ∈ js, j ≠ i → dis.get zero i j = .ok (d j) ∧ P (d j)) →
    AllP dis.numNeighbors P sd → ∃ sd', coreLoop zero dis i js sd = .ok sd' ∧ if i ∈ js then OneZ dis.numNeighbors z P sd' else AllP dis.numNeighbors P sd' := by
  intro js
  induction js with
  | nil => intro sd _ _ h; exact ⟨sd, rfl, by simpa using h⟩
  | cons j r ih =>
    intro sd hnd hd h
    rw [List.nodup_cons] at hnd
    by_cases hji : j = i
    · subst hji
      obtain ⟨s1, e1, h1⟩ := allP_least h hz hnn
      obtain ⟨s2, e2, h2⟩ := coreLoop_oneZ (zero := zero) (i := j) (d := d) hz r s1 (fun k hk => hd k (by simp [hk]) (by rintro rfl; exact hnd.1 hk)) h1
      exact ⟨s2, by simp [coreLoop, hi, e1, e2], by simpa using h2⟩
    · obtain ⟨g, hp⟩ := hd j (by simp) hji
      obtain ⟨s1, e1, h1⟩ := allP_offer h hp
      obtain ⟨s2, e2, h2⟩ := ih s1 hnd.2 (fun k hk => hd k (by simp [hk])) h1
      refine ⟨s2, by simp [coreLoop, g, e1, e2], ?_⟩
      have : i ∈ j :: r ↔ i ∈ r := by simp [Ne.symm hji]
      simpa only [this] using h2

/-- The core distance of a point that is at a larger distance from all others than from itself is a distance from another point, or `D_MAX`. -/
theorem coreOf_other {zero dmax z : W} {dis : Distance W} {i : Nat} {d : Nat → W} (hnn : 1 ≤ dis.numNeighbors) (hi : i < dis.rows) (hself : dis.get zero i i = .ok z) (hmax : z < dmax)
    (hd : ∀ j, j < dis.rows → j ≠ i → dis.get zero i j = .ok (d j) ∧ z < d j) : ∃ x, coreOf zero dmax dis i = .ok x ∧ (x = dmax ∨ ∃ j, j < dis.rows ∧ j ≠ i ∧ x = d j) := by
  obtain ⟨sd, e, h⟩ := coreLoop_allP (zero := zero) (d := d) (P := fun x => x = dmax ∨ ∃ j, j < dis.rows ∧ j ≠ i ∧ x = d j) (z := z)
    (by rintro x (rfl | ⟨j, hj, hne, rfl⟩); exacts [hmax, (hd j hj hne).2]) hnn hself (List.range dis.rows) (List.replicate (dis.numNeighbors + 1) dmax) List.nodup_range
    (fun j hj hne => ⟨(hd j (List.mem_range.1 hj) hne).1, .inr ⟨j, List.mem_range.1 hj, hne, rfl⟩⟩) ⟨by simp, fun x hx => .inl (List.eq_of_mem_replicate hx)⟩
  rw [if_pos (List.mem_range.2 hi)] at h
  obtain ⟨hlen, p, hp, _, _, hP⟩ := h
  have hlt : dis.numNeighbors < sd.length := by omega
  refine ⟨sd[dis.numNeighbors], by rw [coreOf, e, Outcome.ok_bind, rd_ok hlt], ?_⟩
  exact hP dis.numNeighbors _ (by omega) (List.getElem?_eq_getElem hlt)

end Verif.Distance
