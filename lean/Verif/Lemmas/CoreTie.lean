import Verif.Lemmas.Core
import Verif.Spec.Distance
import Mathlib.Data.List.TakeWhile
/-
Helper lemmas: core distances when distances repeat that are smaller than the core distance, or when all points count.
-/
namespace Verif.Distance
open Spec
variable {W : Type} [LinearOrder W]

/-- If the array is split at `q` into values below and above `t`, the search finds `q`. -/
theorem searchPos_part {sd : List W} {t : W} {q : Nat} (hlo : ∀ i x, i < q → sd[i]? = some x → x < t) (hhi : ∀ i x, q ≤ i → sd[i]? = some x → t < x) :
    ∀ fuel low high, low < high → high ≤ sd.length → high - low < fuel → low ≤ q → q ≤ high → searchPos sd t fuel low high = .ok q := by
  intro fuel
  induction fuel with
  | zero => intro low high _ _ h; omega
  | succ fuel ih =>
    intro low high h1 h2 h3 h4 h5
    have hm : low + (high - low) / 2 < sd.length := by omega
    simp only [searchPos, rd_ok hm, Outcome.ok_bind]
    generalize hmid : low + (high - low) / 2 = mid at *
    have hget : sd[mid]? = some sd[mid] := by simp [hm]
    simp only [ccmp_lt, ccmp_eq, decide_eq_true_eq]
    rcases Nat.lt_or_ge mid q with hq | hq
    · have hx := hlo mid _ hq hget
      rw [if_neg (not_lt.2 hx.le), if_neg hx.ne]
      by_cases hmh : mid + 1 < high
      · rw [if_pos hmh]
        exact ih (mid + 1) high hmh h2 (by omega) (by omega) h5
      · rw [if_neg hmh]
        have : mid + 1 = q := by omega
        rw [this]; rfl
    · have hx := hhi mid _ hq hget
      rw [if_pos hx]
      by_cases hlm : low < mid
      · rw [if_pos hlm]
        exact ih low mid hlm (by omega) (by omega) h4 hq
      · rw [if_neg hlm]
        have : low = q := by omega
        rw [this]; rfl

/-- Whatever the array, the position found is 0 or behind a value below `t`. -/
theorem searchPos_behind {sd : List W} {t : W} : ∀ fuel low high, low < high → high ≤ sd.length → high - low < fuel →
    ∃ p, searchPos sd t fuel low high = .ok p ∧ (p = low ∨ ∃ y, 0 < p ∧ sd[p - 1]? = some y ∧ y < t) := by
  intro fuel
  induction fuel with
  | zero => intro low high _ _ h; omega
  | succ fuel ih =>
    intro low high h1 h2 h3
    have hm : low + (high - low) / 2 < sd.length := by omega
    simp only [searchPos, rd_ok hm, Outcome.ok_bind]
    generalize hmid : low + (high - low) / 2 = mid at *
    have hget : sd[mid]? = some sd[mid] := by simp [hm]
    simp only [ccmp_lt, ccmp_eq, decide_eq_true_eq]
    by_cases hlt : t < sd[mid]
    · rw [if_pos hlt]
      by_cases hlm : low < mid
      · rw [if_pos hlm]
        exact ih low mid hlm (by omega) (by omega)
      · rw [if_neg hlm]
        exact ⟨low, rfl, .inl rfl⟩
    · rw [if_neg hlt]
      by_cases he : sd[mid] = t
      · rw [if_pos he]
        exact ⟨low, rfl, .inl rfl⟩
      · rw [if_neg he]
        have hb : sd[mid] < t := lt_of_le_of_ne (not_lt.1 hlt) he
        by_cases hmh : mid + 1 < high
        · rw [if_pos hmh]
          obtain ⟨p, e, hp⟩ := ih (mid + 1) high hmh h2 (by omega)
          refine ⟨p, e, .inr ?_⟩
          rcases hp with rfl | hp
          · exact ⟨_, by omega, by simpa using hget, hb⟩
          · exact hp
        · rw [if_neg hmh]
          exact ⟨mid + 1, rfl, .inr ⟨_, by omega, by simpa using hget, hb⟩⟩

omit [LinearOrder W] in
/-- Inserting in the first part. -/
theorem insert_first {L R : List W} {p m r : Nat} (t : W) (hp : p ≤ L.length) (hm : m = (L.length - p) + r) :
    (L ++ R).take p ++ t :: ((L ++ R).drop p).take m = (L.take p ++ t :: L.drop p) ++ R.take r := by
  have h1 : (L ++ R).take p = L.take p := List.take_append_of_le_length hp
  have h2 : ((L ++ R).drop p).take m = L.drop p ++ R.take r := by
    rw [List.drop_append_of_le_length hp, List.take_append, List.length_drop, hm, Nat.add_sub_cancel_left, List.take_of_length_le (l := L.drop p)]
    rw [List.length_drop]; omega
  rw [h1, h2]
  simp

/-- What `offer` does, given the position. -/
theorem offer_at {nn : Nat} {sd : List W} {t last : W} {p : Nat} (hlen : sd.length = nn + 1) (hl : sd[nn]? = some last) (hp : searchPos sd t (nn + 2) 0 (nn + 1) = .ok p) :
    offer nn sd t = .ok (if t < last ∧ p < nn + 1 then sd.take p ++ t :: (sd.drop p).take (nn + 1 - p - 1) else sd) := by
  have hn : nn < sd.length := by omega
  have e : sd[nn] = last := by simpa [hn] using hl
  simp only [offer, rd_ok hn, Outcome.ok_bind, e, ccmp_lt, ccmp_eq, decide_eq_true_eq, hp]
  by_cases h1 : last < t
  · rw [if_pos h1, if_neg (fun h => absurd h.1 (not_lt.2 h1.le))]; rfl
  · rw [if_neg h1]
    by_cases h2 : last = t
    · rw [if_neg (by simp [h2]), if_neg (fun h => h.1.ne h2.symm)]; rfl
    · have : t < last := lt_of_le_of_ne (not_lt.1 h1) (Ne.symm h2)
      by_cases h3 : p < nn + 1
      · rw [if_pos ⟨h3, by simp [h2]⟩, if_pos ⟨this, h3⟩]; rfl
      · rw [if_neg (fun h => h3 h.1), if_neg (fun h => h3 h.2)]; rfl

/-! ### Repeated distances below the core distance -/

/-- The distances below `x` come first, in any order, then the smallest of the others in ascending order. -/
def Low (nn : Nat) (dmax x : W) (ts sd : List W) : Prop :=
  ∃ L H rest, sd = L ++ H ∧ sd.length = nn + 1 ∧ (∀ a ∈ L, a < x) ∧ (∀ b ∈ H, x ≤ b) ∧ H.Pairwise (· ≤ ·) ∧
    (H ++ rest).Perm (ts.filter (fun t => decide (x ≤ t)) ++ List.replicate (nn + 1) dmax) ∧ (∀ s ∈ H, ∀ r ∈ rest, s ≤ r) ∧ L.length = min (ts.countP (fun t => decide (t < x))) (nn + 1)

theorem low_init (nn : Nat) {dmax x : W} (hx : x ≤ dmax) : Low nn dmax x [] (List.replicate (nn + 1) dmax) := by
  refine ⟨[], List.replicate (nn + 1) dmax, [], rfl, by simp, by simp, ?_, ?_, by simp, by simp, by simp⟩
  · intro b hb
    rw [List.eq_of_mem_replicate hb]; exact hx
  · rw [List.pairwise_iff_getElem]
    intro i j hi hj _
    simp

/-- A further distance below `x`. -/
theorem low_below {nn : Nat} {dmax x t : W} {ts sd : List W} (h : Low nn dmax x ts sd) (ht : t < x) : ∃ sd', offer nn sd t = .ok sd' ∧ Low nn dmax x (ts ++ [t]) sd' := by
  obtain ⟨L, H, rest, rfl, hlen, hL, hH, hs, hperm, hrest, hc⟩ := h
  have ef : (ts ++ [t]).filter (fun t => decide (x ≤ t)) = ts.filter (fun t => decide (x ≤ t)) := by
    rw [List.filter_append, List.filter_cons_of_neg (by simpa using ht)]; simp
  have ec : (ts ++ [t]).countP (fun t => decide (t < x)) = ts.countP (fun t => decide (t < x)) + 1 := by
    rw [List.countP_append, List.countP_cons_of_pos (by simpa using ht)]; simp
  obtain ⟨p, e, hp⟩ := searchPos_behind (sd := L ++ H) (t := t) (nn + 2) 0 (nn + 1) (by omega) (by omega) (by omega)
  have hpL : p ≤ L.length := by
    rcases hp with rfl | ⟨y, hp0, hy, hyt⟩
    · omega
    · by_contra hcon
      rw [List.getElem?_append_right (by omega)] at hy
      exact absurd (hyt.trans ht) (not_lt.2 (hH y (List.mem_of_getElem? hy)))
  obtain ⟨lv, hlast⟩ : ∃ v, (L ++ H)[nn]? = some v := ⟨_, List.getElem?_eq_getElem (by omega)⟩
  rw [offer_at hlen hlast e]
  refine ⟨_, rfl, ?_⟩
  rcases List.eq_nil_or_concat H with rfl | ⟨H0, last, rfl⟩
  · rw [List.append_nil] at hlen ⊢
    split
    · rename_i hcond
      refine ⟨L.take p ++ t :: (L.drop p).take (nn + 1 - p - 1), [], rest, by simp, ?_, ?_, by simp, by simp, by rw [ef]; simpa using hperm, by simp, ?_⟩
      · simp [hlen]; omega
      · intro a ha
        rcases List.mem_append.1 ha with ha | ha
        · exact hL a (List.mem_of_mem_take ha)
        · rcases List.mem_cons.1 ha with rfl | ha
          · exact ht
          · exact hL a (List.mem_of_mem_drop (List.mem_of_mem_take ha))
      · rw [ec]; simp [hlen]; omega
    · exact ⟨L, [], rest, by simp, hlen, hL, by simp, by simp, by rw [ef]; exact hperm, by simp, by rw [ec]; omega⟩
  · rw [List.concat_eq_append] at *
    have hl1 : L.length + H0.length = nn := by simp at hlen; omega
    have hlv : last = lv := by
      rw [List.getElem?_append_right (by omega), List.getElem?_append_right (by omega)] at hlast
      simpa [show nn - L.length - H0.length = 0 by omega] using hlast
    subst hlv
    rw [if_pos ⟨lt_of_lt_of_le ht (hH last (by simp)), by omega⟩]
    refine ⟨L.take p ++ t :: L.drop p, H0, last :: rest, ?_, ?_, ?_, fun b hb => hH b (by simp [hb]), (List.pairwise_append.1 hs).1, ?_, ?_, ?_⟩
    · rw [insert_first (r := H0.length) t hpL (by omega), show (H0 ++ [last]).take H0.length = H0 by simp]
    · simp; omega
    · intro a ha
      rcases List.mem_append.1 ha with ha | ha
      · exact hL a (List.mem_of_mem_take ha)
      · rcases List.mem_cons.1 ha with rfl | ha
        · exact ht
        · exact hL a (List.mem_of_mem_drop ha)
    · rw [ef]; simpa using hperm
    · intro s hs' r hr
      rcases List.mem_cons.1 hr with rfl | hr
      · exact (List.pairwise_append.1 hs).2.2 s hs' _ (by simp)
      · exact hrest s (by simp [hs']) r hr
    · rw [ec]; simp; omega

/-- A further distance, not below `x` and new. -/
theorem low_above {nn : Nat} {dmax x t : W} {ts sd : List W} (h : Low nn dmax x ts sd) (ht : x ≤ t) (hnew : t ∉ ts) (hts : ∀ s ∈ ts, s ≤ dmax) : ∃ sd', offer nn sd t = .ok sd' ∧ Low nn dmax x (ts ++ [t]) sd' := by
  obtain ⟨L, H, rest, rfl, hlen, hL, hH, hs, hperm, hrest, hc⟩ := h
  have ef : (ts ++ [t]).filter (fun t => decide (x ≤ t)) = ts.filter (fun t => decide (x ≤ t)) ++ [t] := by
    rw [List.filter_append, List.filter_cons_of_pos (by simpa using ht)]; simp
  have ec : (ts ++ [t]).countP (fun t => decide (t < x)) = ts.countP (fun t => decide (t < x)) := by
    rw [List.countP_append, List.countP_cons_of_neg (by simpa using ht)]; simp
  obtain ⟨p, e, hp⟩ := searchPos_behind (sd := L ++ H) (t := t) (nn + 2) 0 (nn + 1) (by omega) (by omega) (by omega)
  obtain ⟨lv, hlast⟩ : ∃ v, (L ++ H)[nn]? = some v := ⟨_, List.getElem?_eq_getElem (by omega)⟩
  have pm : ∀ r : List W, (H ++ t :: r).Perm (t :: (H ++ r)) := fun r => List.perm_middle
  have hperm' : (H ++ t :: rest).Perm ((ts ++ [t]).filter (fun t => decide (x ≤ t)) ++ List.replicate (nn + 1) dmax) := by
    rw [ef, List.append_assoc, List.singleton_append]
    exact (pm rest).trans ((hperm.cons t).trans List.perm_middle.symm)
  -- nothing is inserted
  have skip : (∀ s ∈ H, s ≤ t) → Low nn dmax x (ts ++ [t]) (L ++ H) := fun hst => ⟨L, H, t :: rest, rfl, hlen, hL, hH, hs, hperm', fun s hs' r hr => by
    rcases List.mem_cons.1 hr with rfl | hr
    · exact hst s hs'
    · exact hrest s hs' r hr, by rw [ec]; exact hc⟩
  rcases List.eq_nil_or_concat H with rfl | ⟨H0, last, rfl⟩
  · rw [offer_at hlen hlast e, if_neg]
    · exact ⟨_, rfl, skip (by simp)⟩
    · rintro ⟨h1, _⟩
      exact absurd (h1.trans (hL _ (by simpa using List.mem_of_getElem? hlast))) (not_lt.2 ht)
  · rw [List.concat_eq_append] at *
    have hl1 : L.length + H0.length = nn := by simp at hlen; omega
    have hlv : last = lv := by
      rw [List.getElem?_append_right (by omega), List.getElem?_append_right (by omega)] at hlast
      simpa [show nn - L.length - H0.length = 0 by omega] using hlast
    subst hlv
    have hle : ∀ s ∈ H0 ++ [last], s ≤ last := by
      intro s hs'
      rcases List.mem_append.1 hs' with h | h
      · exact (List.pairwise_append.1 hs).2.2 s h _ (by simp)
      · rw [List.mem_singleton.1 h]
    by_cases htl : t < last
    · have hin : ∀ s ∈ H0 ++ [last], s ∈ ts ∨ s = dmax := by
        intro s hs'
        rcases List.mem_append.1 (hperm.subset (List.mem_append_left _ hs')) with h | h
        · exact .inl (List.mem_of_mem_filter h)
        · exact .inr (List.eq_of_mem_replicate h)
      have hld : last ≤ dmax := by
        rcases hin last (by simp) with h | h
        · exact hts _ h
        · exact h.le
      have hne : ∀ s ∈ H0 ++ [last], s ≠ t := by
        rintro s hs' rfl
        rcases hin s hs' with h | h
        · exact hnew h
        · exact absurd (h ▸ htl) (not_lt.2 hld)
      -- the position in the upper part
      obtain ⟨A, B, rfl, hA, hB⟩ : ∃ A B, H0 = A ++ B ∧ (∀ a ∈ A, a < t) ∧ ∀ b ∈ B, t < b := by
        refine ⟨H0.takeWhile (fun a => decide (a < t)), H0.dropWhile (fun a => decide (a < t)), List.takeWhile_append_dropWhile.symm, fun a ha => by simpa using List.mem_takeWhile_imp ha, ?_⟩
        have hs0 := (List.pairwise_append.1 hs).1
        intro b hb
        cases hdw : H0.dropWhile (fun a => decide (a < t)) with
        | nil => rw [hdw] at hb; cases hb
        | cons c r =>
          have h0 : t ≤ c := by
            have := List.head_dropWhile_not (l := H0) (fun a => decide (a < t)) (by rw [hdw]; simp)
            simp only [hdw, List.head_cons, decide_eq_false_iff_not, not_lt] at this
            exact this
          have hbm : b ∈ H0 := (List.dropWhile_suffix _).subset hb
          have hsd : (c :: r).Pairwise (· ≤ ·) := hdw ▸ hs0.sublist (List.dropWhile_suffix _).sublist
          have hcb : c ≤ b := by
            rw [hdw] at hb
            rcases List.mem_cons.1 hb with rfl | hb
            · exact le_refl _
            · exact (List.pairwise_cons.1 hsd).1 b hb
          exact lt_of_le_of_ne (h0.trans hcb) (Ne.symm (hne b (List.mem_append_left _ hbm)))
      have hsearch : searchPos (L ++ ((A ++ B) ++ [last])) t (nn + 2) 0 (nn + 1) = .ok (L.length + A.length) := by
        rw [show L ++ ((A ++ B) ++ [last]) = (L ++ A) ++ (B ++ [last]) by simp] at hlen ⊢
        refine searchPos_part (q := L.length + A.length) ?_ ?_ (nn + 2) 0 (nn + 1) (by omega) (by omega) (by omega) (by omega) (by simp at hlen; omega)
        · intro i y hi hy
          rw [List.getElem?_append_left (by simpa using hi)] at hy
          rcases List.mem_append.1 (List.mem_of_getElem? hy) with h | h
          · exact lt_of_lt_of_le (hL y h) ht
          · exact hA y h
        · intro i y hi hy
          rw [List.getElem?_append_right (by simpa using hi)] at hy
          rcases List.mem_append.1 (List.mem_of_getElem? hy) with h | h
          · exact hB y h
          · rw [List.mem_singleton.1 h]; exact htl
      have hl2 : L.length + (A.length + B.length) = nn := by simpa using hl1
      rw [offer_at hlen hlast hsearch, if_pos ⟨htl, by omega⟩]
      refine ⟨_, rfl, L, A ++ t :: B, last :: rest, ?_, ?_, hL, ?_, ?_, ?_, ?_, by rw [ec]; exact hc⟩
      · rw [show L ++ ((A ++ B) ++ [last]) = (L ++ A) ++ (B ++ [last]) by simp, List.take_append_of_le_length (by simp), List.take_of_length_le (by simp),
          List.drop_append_of_le_length (by simp), List.drop_of_length_le (by simp), List.nil_append, List.take_append_of_le_length (by omega), List.take_of_length_le (by omega)]
        simp
      · rw [show L ++ ((A ++ B) ++ [last]) = (L ++ A) ++ (B ++ [last]) by simp, List.take_append_of_le_length (by simp), List.take_of_length_le (by simp),
          List.drop_append_of_le_length (by simp), List.drop_of_length_le (by simp), List.nil_append, List.take_append_of_le_length (by omega), List.take_of_length_le (by omega)]
        simp; omega
      · intro b hb
        rcases List.mem_append.1 hb with hb | hb
        · exact hH b (by simp [hb])
        · rcases List.mem_cons.1 hb with rfl | hb
          · exact ht
          · exact hH b (by simp [hb])
      · have hs0 := List.pairwise_append.1 (List.pairwise_append.1 hs).1
        rw [List.pairwise_append]
        refine ⟨hs0.1, List.pairwise_cons.2 ⟨fun b hb => (hB b hb).le, hs0.2.1⟩, ?_⟩
        intro a ha b hb
        rcases List.mem_cons.1 hb with rfl | hb
        · exact (hA a ha).le
        · exact hs0.2.2 a ha b hb
      · refine List.Perm.trans ?_ hperm'
        have : (A ++ t :: B ++ last :: rest).Perm (t :: (A ++ B ++ last :: rest)) := by
          simp only [List.append_assoc, List.cons_append]
          exact List.perm_middle
        refine this.trans ?_
        have e2 : A ++ B ++ [last] ++ t :: rest = A ++ B ++ [last] ++ (t :: rest) := rfl
        refine List.Perm.trans ?_ List.perm_middle.symm
        simp
      · intro s hs' r hr
        have hsl : s ≤ last := by
          rcases List.mem_append.1 hs' with h | h
          · exact hle s (by simp [h])
          · rcases List.mem_cons.1 h with rfl | h
            · exact htl.le
            · exact hle s (by simp [h])
        rcases List.mem_cons.1 hr with rfl | hr
        · exact hsl
        · exact hsl.trans (hrest last (by simp) r hr)
    · rw [offer_at hlen hlast e, if_neg (fun h => htl h.1)]
      exact ⟨_, rfl, skip fun s hs' => (hle s hs').trans (not_lt.1 htl)⟩

theorem coreLoop_low {zero dmax x : W} {dis : Distance W} {i : Nat} {d : Nat → W} : ∀ (js : List Nat) (ts sd : List W), (∀ j ∈ js, dis.get zero i j = .ok (d j)) →
    Low dis.numNeighbors dmax x ts sd → (∀ s ∈ ts ++ js.map d, s ≤ dmax) → (∀ t, x ≤ t → (ts ++ js.map d).count t ≤ 1) →
    ∃ sd', coreLoop zero dis i js sd = .ok sd' ∧ Low dis.numNeighbors dmax x (ts ++ js.map d) sd' := by
  intro js
  induction js with
  | nil => intro ts sd _ h _ _; exact ⟨sd, rfl, by simpa using h⟩
  | cons j r ih =>
    intro ts sd hd h hle hu
    have e0 : ts ++ (j :: r).map d = (ts ++ [d j]) ++ r.map d := by simp
    rw [e0] at hle hu ⊢
    obtain ⟨s1, e1, h1⟩ : ∃ sd', offer dis.numNeighbors sd (d j) = .ok sd' ∧ Low dis.numNeighbors dmax x (ts ++ [d j]) sd' := by
      rcases lt_or_ge (d j) x with hj | hj
      · exact low_below h hj
      · refine low_above h hj (fun hm => ?_) fun s hs => hle s (by simp [hs])
        have h1 := hu (d j) hj
        have h2 : 1 ≤ ts.count (d j) := List.count_pos_iff.2 hm
        simp only [List.count_append, List.count_singleton_self] at h1
        omega
    obtain ⟨s2, e2, h2⟩ := ih (ts ++ [d j]) s1 (fun k hk => hd k (by simp [hk])) h1 hle hu
    exact ⟨s2, by simp [coreLoop, hd j (by simp), e1, e2], h2⟩

theorem low_last {nn : Nat} {dmax x : W} {ts sd : List W} (h : Low nn dmax x ts sd) (hx : x ∈ ts) (hc : ts.countP (fun t => decide (t < x)) = nn) : rd sd nn = .ok x := by
  obtain ⟨L, H, rest, rfl, hlen, hL, hH, hs, hperm, hrest, hl⟩ := h
  rw [hc] at hl
  have hll : L.length = nn := by omega
  obtain ⟨y, rfl⟩ : ∃ y, H = [y] := by
    rw [List.length_append] at hlen
    exact List.length_eq_one_iff.1 (by omega)
  have hxm : x ∈ [y] ++ rest := hperm.symm.subset (List.mem_append_left _ (List.mem_filter.2 ⟨hx, by simp⟩))
  have hyx : y = x := by
    refine le_antisymm ?_ (hH y (by simp))
    rcases List.mem_append.1 hxm with h | h
    · rw [List.mem_singleton.1 h]
    · exact hrest y (by simp) x h
  rw [rd_ok (by omega)]
  simp [hll, hyx]

/-! ### When all points count -/

/-- The distances offered so far (other than `dmax`) come first; the last of them is the largest. -/
def Filling (nn : Nat) (dmax : W) (ts sd : List W) : Prop :=
  ∃ A, sd = A ++ List.replicate (nn + 1 - A.length) dmax ∧ A.length ≤ nn + 1 ∧ A.Perm (ts.filter (fun t => decide (t < dmax))) ∧ ∀ y, A.getLast? = some y → ∀ a ∈ A, a ≤ y

theorem filling_offer {nn : Nat} {dmax t : W} {ts sd : List W} (h : Filling nn dmax ts sd) (ht : t ≤ dmax) (hlt : ts.length < nn + 1) :
    ∃ sd', offer nn sd t = .ok sd' ∧ Filling nn dmax (ts ++ [t]) sd' := by
  obtain ⟨A, rfl, hA, hp, hmax⟩ := h
  have hAl : A.length ≤ nn := by
    have := hp.length_eq
    have := List.length_filter_le (fun t => decide (t < dmax)) ts
    omega
  have hlen : (A ++ List.replicate (nn + 1 - A.length) dmax).length = nn + 1 := by simp; omega
  have hlast : (A ++ List.replicate (nn + 1 - A.length) dmax)[nn]? = some dmax := by
    rw [List.getElem?_append_right (by omega), List.getElem?_replicate, if_pos (by omega)]
  have hR : ∀ i y, A.length ≤ i → (A ++ List.replicate (nn + 1 - A.length) dmax)[i]? = some y → y = dmax := by
    intro i y hi hy
    rw [List.getElem?_append_right hi] at hy
    exact List.eq_of_mem_replicate (List.mem_of_getElem? hy)
  obtain ⟨p, e, hb⟩ := searchPos_behind (sd := A ++ List.replicate (nn + 1 - A.length) dmax) (t := t) (nn + 2) 0 (nn + 1) (by omega) (by omega) (by omega)
  by_cases htd : t < dmax
  · have hpA : p ≤ A.length := by
      rcases hb with rfl | ⟨y, hp0, hy, hyt⟩
      · omega
      · by_contra hcon
        have := hR _ _ (by omega) hy
        subst this
        exact absurd htd (not_lt.2 hyt.le)
    rw [offer_at hlen hlast e, if_pos ⟨htd, by omega⟩]
    refine ⟨_, rfl, A.take p ++ t :: A.drop p, ?_, by simp; omega, ?_, ?_⟩
    · rw [insert_first (r := nn - A.length) t hpA (by omega), List.take_replicate, show (List.take p A ++ t :: List.drop p A).length = A.length + 1 by simp; omega,
        show min (nn - A.length) (nn + 1 - A.length) = nn + 1 - (A.length + 1) by omega]
    · rw [List.filter_append, List.filter_cons_of_pos (by simpa using htd)]
      refine (List.perm_middle.trans ?_).trans (List.perm_append_comm (l₁ := [t]))
      rw [List.take_append_drop]
      exact hp.cons t
    · intro y hy a ha
      have ham : a = t ∨ a ∈ A := by
        rcases List.mem_append.1 ha with h | h
        · exact .inr (List.mem_of_mem_take h)
        · rcases List.mem_cons.1 h with h | h
          · exact .inl h
          · exact .inr (List.mem_of_mem_drop h)
      rcases List.eq_nil_or_concat A with rfl | ⟨A0, z, rfl⟩
      · simp at hy ha
        rw [ha, hy]
      · rw [List.concat_eq_append] at *
        have hz : ∀ a ∈ A0 ++ [z], a ≤ z := hmax z (by simp)
        rcases lt_or_ge z t with hzt | hzt
        · -- larger than all: behind them
          have : searchPos ((A0 ++ [z]) ++ List.replicate (nn + 1 - (A0 ++ [z]).length) dmax) t (nn + 2) 0 (nn + 1) = .ok (A0 ++ [z]).length := by
            refine searchPos_part ?_ ?_ (nn + 2) 0 (nn + 1) (by omega) (by omega) (by omega) (by omega) (by omega)
            · intro i y hi hy
              rw [List.getElem?_append_left hi] at hy
              exact lt_of_le_of_lt (hz y (List.mem_of_getElem? hy)) hzt
            · intro i y hi hy
              rw [hR i y hi hy]; exact htd
          rw [e] at this
          cases this
          simp at hy
          subst hy
          rcases ham with rfl | h
          · exact le_refl _
          · exact (hz a h).trans hzt.le
        · have hpl : p ≤ A0.length := by
            rcases hb with rfl | ⟨y', hp0, hy', hyt⟩
            · omega
            · by_contra hcon
              have : p - 1 = A0.length := by simp at hpA; omega
              rw [this, List.getElem?_append_left (by simp)] at hy'
              simp at hy'
              subst hy'
              exact absurd hyt (not_lt.2 hzt)
          rw [List.drop_append_of_le_length hpl] at hy
          simp only [← List.cons_append, ← List.append_assoc, List.getLast?_append, List.getLast?_singleton] at hy
          simp at hy
          subst hy
          rcases ham with rfl | h
          · exact hzt
          · exact hz a h
  · rw [offer_at hlen hlast e, if_neg (fun h => htd h.1)]
    refine ⟨_, rfl, A, rfl, hA, ?_, hmax⟩
    rw [List.filter_append, List.filter_cons_of_neg (by simpa using htd)]
    simpa using hp

theorem coreLoop_filling {zero dmax : W} {dis : Distance W} {i : Nat} {d : Nat → W} : ∀ (js : List Nat) (ts sd : List W), (∀ j ∈ js, dis.get zero i j = .ok (d j)) →
    Filling dis.numNeighbors dmax ts sd → (∀ s ∈ ts ++ js.map d, s ≤ dmax) → ts.length + js.length ≤ dis.numNeighbors + 1 →
    ∃ sd', coreLoop zero dis i js sd = .ok sd' ∧ Filling dis.numNeighbors dmax (ts ++ js.map d) sd' := by
  intro js
  induction js with
  | nil => intro ts sd _ h _ _; exact ⟨sd, rfl, by simpa using h⟩
  | cons j r ih =>
    intro ts sd hd h hle hl
    have e0 : ts ++ (j :: r).map d = (ts ++ [d j]) ++ r.map d := by simp
    rw [e0] at hle ⊢
    rw [List.length_cons] at hl
    obtain ⟨s1, e1, h1⟩ := filling_offer (t := d j) h (hle _ (by simp)) (by omega)
    obtain ⟨s2, e2, h2⟩ := ih (ts ++ [d j]) s1 (fun k hk => hd k (by simp [hk])) h1 hle (by simp; omega)
    exact ⟨s2, by simp [coreLoop, hd j (by simp), e1, e2], h2⟩

theorem filling_last {nn : Nat} {dmax : W} {ts sd : List W} (h : Filling nn dmax ts sd) (hle : ∀ s ∈ ts, s ≤ dmax) (hl : ts.length = nn + 1) :
    ∃ x, rd sd nn = .ok x ∧ IsKth ts (nn + 1) x := by
  obtain ⟨A, rfl, hA, hp, hmax⟩ := h
  have hAl := hp.length_eq
  rcases Nat.lt_or_ge A.length (nn + 1) with h | h
  · refine ⟨dmax, ?_, ?_, ?_⟩
    · rw [rd_ok (by simp; omega), List.getElem_append_right (by omega)]
      simp
    · rw [List.countP_eq_length_filter, ← hAl]; exact h
    · rw [List.countP_eq_length.2 (fun s hs => by simpa using hle s hs)]; omega
  · have hAn : A.length = nn + 1 := by omega
    have hall : ts.filter (fun t => decide (t < dmax)) = ts := by
      refine List.filter_eq_self.2 ?_
      exact List.length_filter_eq_length_iff.1 (by omega)
    rw [hall] at hp
    obtain ⟨y, hy⟩ : ∃ y, A.getLast? = some y := by
      cases hg : A.getLast? with
      | none => rw [List.getLast?_eq_none_iff] at hg; subst hg; simp at hAn
      | some y => exact ⟨y, rfl⟩
    have hget : A[nn]? = some y := by
      rw [List.getLast?_eq_getElem?, hAn] at hy; simpa using hy
    refine ⟨y, ?_, ?_, ?_⟩
    · rw [rd_ok (by simp; omega), List.getElem_append_left (by omega)]
      obtain ⟨h1, h2⟩ := List.getElem?_eq_some_iff.1 hget
      rw [h2]
    · have : ts.countP (fun t => decide (t < y)) < ts.length := by
        refine lt_of_le_of_ne List.countP_le_length fun he => ?_
        have := List.countP_eq_length.1 he y (hp.subset (List.mem_of_getElem? hget))
        simp at this
      omega
    · rw [List.countP_eq_length.2 (fun s hs => by simpa using hmax y hy s (hp.symm.subset hs))]; omega

/-! ### The core distance -/

theorem exists_kth (ts : List W) {k : Nat} (h1 : 1 ≤ k) (h2 : k ≤ ts.length) : ∃ x ∈ ts, IsKth ts k x := by
  obtain ⟨s, hs, hp⟩ : ∃ s : List W, s.Pairwise (· ≤ ·) ∧ s.Perm ts := ⟨ts.mergeSort (fun a b => decide (a ≤ b)), by
    have := List.pairwise_mergeSort (le := fun a b : W => decide (a ≤ b)) (fun a b c => by simpa using le_trans) (fun a b => by simpa using le_total a b) ts
    simpa using this, List.mergeSort_perm _ _⟩
  have hl := hp.length_eq
  have hk : k - 1 < s.length := by omega
  obtain ⟨y, hym, hy1, hy2⟩ : ∃ y, y ∈ s ∧ (∀ r ∈ s.drop (k - 1), y ≤ r) ∧ ∀ r ∈ s.take k, r ≤ y := by
    refine ⟨s[k - 1], List.getElem_mem hk, ?_, ?_⟩
    · intro r hr
      obtain ⟨i, hi, rfl⟩ := List.mem_iff_getElem.1 hr
      rw [List.getElem_drop]
      rcases Nat.eq_zero_or_pos i with h | h
      · subst h; exact le_refl _
      · exact (List.pairwise_iff_getElem.1 hs) _ _ _ _ (by omega)
    · intro r hr
      obtain ⟨i, hi, rfl⟩ := List.mem_iff_getElem.1 hr
      rw [List.getElem_take]
      rw [List.length_take] at hi
      rcases Nat.lt_or_ge i (k - 1) with h | h
      · exact (List.pairwise_iff_getElem.1 hs) _ _ _ _ h
      · have : i = k - 1 := by omega
        subst this; exact le_refl _
  refine ⟨y, hp.subset hym, ?_, ?_⟩
  · rw [← hp.countP_eq, ← List.take_append_drop (k - 1) s, List.countP_append, List.countP_eq_zero.2 (fun r hr => by simpa using hy1 r hr : ∀ r ∈ s.drop (k - 1), ¬ decide (r < y) = true)]
    have := List.countP_le_length (p := fun t => decide (t < y)) (l := s.take (k - 1))
    rw [List.length_take] at this
    omega
  · rw [← hp.countP_eq, ← List.take_append_drop k s, List.countP_append, List.countP_eq_length.2 (fun r hr => by simpa using hy2 r hr : ∀ r ∈ s.take k, decide (r ≤ y) = true), List.length_take]
    omega

/-- The core distance is the `numNeighbors + 1`-th smallest distance if at most two points count, or all do, or every distance that occurs twice is the smallest one or smaller than that. -/
theorem coreOf_kth {zero dmax : W} {dis : Distance W} {i : Nat} {d : Nat → W} (hd : ∀ j, j < dis.rows → dis.get zero i j = .ok (d j)) (hmax : ∀ j, j < dis.rows → d j ≤ dmax)
    (hk : dis.numNeighbors + 1 ≤ dis.rows) (htie : TiesBelow dis.rows (dis.numNeighbors + 1) d) {x : W} (hx : coreOf zero dmax dis i = .ok x) :
    IsKth ((List.range dis.rows).map d) (dis.numNeighbors + 1) x := by
  have hd' : ∀ j ∈ List.range dis.rows, dis.get zero i j = .ok (d j) := fun j hj => hd j (List.mem_range.1 hj)
  have hle : ∀ s ∈ (List.range dis.rows).map d, s ≤ dmax := by
    intro s hs
    obtain ⟨j, hj, rfl⟩ := List.mem_map.1 hs
    exact hmax j (List.mem_range.1 hj)
  have hdup : ∀ t, 2 ≤ ((List.range dis.rows).map d).count t → ∃ j j', j < dis.rows ∧ j' < dis.rows ∧ j ≠ j' ∧ d j = t ∧ d j' = t := by
    intro t ht
    obtain ⟨a, b, hab, ea⟩ := List.duplicate_iff_exists_distinct_get.1 (List.duplicate_iff_two_le_count.2 ht)
    have ha : a.val < dis.rows := by have := a.isLt; simpa using this
    have hb : b.val < dis.rows := by have := b.isLt; simpa using this
    exact ⟨a.val, b.val, ha, hb, by omega, by have := ea.1; simpa using this.symm, by have := ea.2; simpa using this.symm⟩
  have old : (dis.numNeighbors ≤ 1 ∨ ∀ t, 2 ≤ ((List.range dis.rows).map d).count t → ∀ s ∈ (List.range dis.rows).map d, t ≤ s) → IsKth ((List.range dis.rows).map d) (dis.numNeighbors + 1) x := by
    intro h
    obtain ⟨sd, e, hs⟩ := coreLoop_smallest (List.range dis.rows) [] _ hd' (smallest_init _ dmax) (by simpa using hle) (by simpa using h)
    rw [List.nil_append] at hs
    obtain ⟨y, ey, h1, h2⟩ := smallest_last hs hle (by simpa using hk)
    unfold coreOf at hx
    rw [e] at hx
    simp only [Outcome.ok_bind, ey, Outcome.ok.injEq] at hx
    subst hx
    exact ⟨h1, h2⟩
  rcases htie with h | h | h
  · exact old (.inl (by omega))
  · obtain ⟨sd, e, hs⟩ := coreLoop_filling (dmax := dmax) (List.range dis.rows) [] (List.replicate (dis.numNeighbors + 1) dmax) hd' ⟨[], by simp, by simp, by simp, by simp⟩ (by simpa using hle) (by simp; omega)
    rw [List.nil_append] at hs
    obtain ⟨y, ey, hy⟩ := filling_last hs hle (by simpa using h.symm)
    unfold coreOf at hx
    rw [e] at hx
    simp only [Outcome.ok_bind, ey, Outcome.ok.injEq] at hx
    subst hx
    exact hy
  · obtain ⟨k, hkm, hk1, hk2⟩ := exists_kth ((List.range dis.rows).map d) (k := dis.numNeighbors + 1) (by omega) (by simpa using hk)
    by_cases hmin : ∀ s ∈ (List.range dis.rows).map d, k ≤ s
    · refine old (.inr fun t ht s hs => ?_)
      obtain ⟨j, j', hj, hj', hne, rfl, ej⟩ := hdup t ht
      rcases h j j' hj hj' hne ej.symm with h | h
      · obtain ⟨l, hl, rfl⟩ := List.mem_map.1 hs
        exact h l (List.mem_range.1 hl)
      · by_contra hcon
        have : ((List.range dis.rows).map d).countP (fun t => decide (t ≤ k)) ≤ ((List.range dis.rows).map d).countP (fun t => decide (t ≤ d j)) :=
          List.countP_mono_left fun t _ ht => by
            simp only [decide_eq_true_eq] at ht ⊢
            exact ht.trans (hmin _ (List.mem_map.2 ⟨j, List.mem_range.2 hj, rfl⟩))
        rw [List.countP_map (l := List.range dis.rows) (p := fun t => decide (t ≤ d j))] at this
        have h' : ((List.range dis.rows).countP ((fun t => decide (t ≤ d j)) ∘ d)) < dis.numNeighbors + 1 := h
        omega
    · obtain ⟨m, hm, hmk⟩ : ∃ m ∈ (List.range dis.rows).map d, m < k := by
        by_contra hcon
        exact hmin fun s hs => not_lt.1 fun hlt => hcon ⟨s, hs, hlt⟩
      have hu : ∀ t, k ≤ t → ((List.range dis.rows).map d).count t ≤ 1 := by
        intro t hkt
        by_contra hcon
        obtain ⟨j, j', hj, hj', hne, rfl, ej⟩ := hdup t (by omega)
        rcases h j j' hj hj' hne ej.symm with h | h
        · obtain ⟨l, hl, rfl⟩ := List.mem_map.1 hm
          exact absurd (hkt.trans (h l (List.mem_range.1 hl))) (not_le.2 hmk)
        · have : ((List.range dis.rows).map d).countP (fun t => decide (t ≤ k)) ≤ ((List.range dis.rows).map d).countP (fun t => decide (t ≤ d j)) :=
            List.countP_mono_left fun t _ ht => by
              simp only [decide_eq_true_eq] at ht ⊢
              exact ht.trans hkt
          rw [List.countP_map (l := List.range dis.rows) (p := fun t => decide (t ≤ d j))] at this
          have h' : ((List.range dis.rows).countP ((fun t => decide (t ≤ d j)) ∘ d)) < dis.numNeighbors + 1 := h
          omega
      obtain ⟨sd, e, hs⟩ := coreLoop_low (x := k) (List.range dis.rows) [] _ hd' (low_init _ (hle k hkm)) (by simpa using hle) (by simpa using hu)
      rw [List.nil_append] at hs
      have hcl : ((List.range dis.rows).map d).countP (fun t => decide (t < k)) = dis.numNeighbors := by
        have h1 : ((List.range dis.rows).map d).countP (fun t => decide (t ≤ k)) = ((List.range dis.rows).map d).countP (fun t => decide (t < k)) + ((List.range dis.rows).map d).count k := by
          generalize (List.range dis.rows).map d = l
          induction l with
          | nil => rfl
          | cons a r ih =>
            simp only [List.countP_cons, List.count_cons, ih, decide_eq_true_eq, beq_iff_eq]
            rcases lt_trichotomy a k with h | h | h
            · rw [if_pos h.le, if_pos h, if_neg h.ne]; omega
            · rw [if_pos h.le, if_neg (by rw [h]; exact lt_irrefl _), if_pos h]; omega
            · rw [if_neg (not_le.2 h), if_neg (not_lt.2 h.le), if_neg h.ne']; omega
        have := hu k (le_refl _)
        omega
      have ey := low_last hs hkm hcl
      unfold coreOf at hx
      rw [e] at hx
      simp only [Outcome.ok_bind, ey, Outcome.ok.injEq] at hx
      subst hx
      exact ⟨hk1, hk2⟩

end Verif.Distance
