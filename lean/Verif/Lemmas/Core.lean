import Verif.Lemmas.Distance
import Mathlib.Order.Basic
import Mathlib.Data.List.Sort
import Mathlib.Data.List.Count
/-
Helper lemmas for the core distance loop.
-/
namespace Verif.Distance
variable {W : Type}

/-! ### Memory safety and termination, for any values (NaN included) -/

theorem searchPos_safe [CCmp W] (sd : List W) (t : W) : ∀ fuel low high, low < high → high ≤ sd.length → high - low < fuel →
    ∃ p, searchPos sd t fuel low high = .ok p ∧ p ≤ high := by
  intro fuel
  induction fuel with
  | zero => intro low high _ _ h; omega
  | succ fuel ih =>
    intro low high h1 h2 h3
    have hm : low + (high - low) / 2 < sd.length := by omega
    simp only [searchPos, rd_ok hm, Outcome.ok_bind]
    split
    · split
      · obtain ⟨p, e, hp⟩ := ih low (low + (high - low) / 2) (by omega) (by omega) (by omega)
        exact ⟨p, e, by omega⟩
      · exact ⟨low, rfl, by omega⟩
    · split
      · exact ⟨low, rfl, by omega⟩
      · split
        · exact ih _ high (by omega) h2 (by omega)
        · exact ⟨_, rfl, by omega⟩

theorem offer_safe [CCmp W] {nn : Nat} {sd : List W} (t : W) (h : sd.length = nn + 1) :
    ∃ sd', offer nn sd t = .ok sd' ∧ sd'.length = nn + 1 ∧ ∀ x ∈ sd', x = t ∨ x ∈ sd := by
  have hn : nn < sd.length := by omega
  simp only [offer, rd_ok hn, Outcome.ok_bind]
  split
  · exact ⟨sd, rfl, h, fun x hx => .inr hx⟩
  · obtain ⟨p, e, hp⟩ := searchPos_safe sd t (nn + 2) 0 (nn + 1) (by omega) (by omega) (by omega)
    rw [e]
    simp only [Outcome.ok_bind]
    split
    · rename_i hc
      refine ⟨_, rfl, ?_, ?_⟩
      · simp [h]; omega
      · intro x hx
        rcases List.mem_append.mp hx with hx | hx
        · exact .inr (List.mem_of_mem_take hx)
        · rcases List.mem_cons.mp hx with hx | hx
          · exact .inl hx
          · exact .inr (List.mem_of_mem_drop (List.mem_of_mem_take hx))
    · exact ⟨sd, rfl, h, fun x hx => .inr hx⟩

theorem coreLoop_safe [CCmp W] {zero : W} {dis : Distance W} {i : Nat} {d : Nat → W} :
    ∀ (js : List Nat) (sd : List W), (∀ j ∈ js, dis.get zero i j = .ok (d j)) → sd.length = dis.numNeighbors + 1 →
    ∃ sd', coreLoop zero dis i js sd = .ok sd' ∧ sd'.length = dis.numNeighbors + 1 ∧
      ∀ x ∈ sd', x ∈ js.map d ∨ x ∈ sd := by
  intro js
  induction js with
  | nil => intro sd _ h; exact ⟨sd, rfl, h, fun x hx => .inr hx⟩
  | cons j r ih =>
    intro sd hd h
    obtain ⟨s1, e1, h1, m1⟩ := offer_safe (d j) h
    obtain ⟨s2, e2, h2, m2⟩ := ih s1 (fun k hk => hd k (by simp [hk])) h1
    refine ⟨s2, by simp [coreLoop, hd j (by simp), e1, e2], h2, ?_⟩
    intro x hx
    rcases m2 x hx with hx | hx
    · exact .inl (by simp at hx ⊢; exact .inr hx)
    · rcases m1 x hx with rfl | hx
      · exact .inl (by simp)
      · exact .inr hx

/-- The core distance is always defined, and is a distance of the row or the initial value. -/
theorem coreOf_safe [CCmp W] {zero dmax : W} {dis : Distance W} {i : Nat} {d : Nat → W}
    (hd : ∀ j, j < dis.rows → dis.get zero i j = .ok (d j)) :
    ∃ x, coreOf zero dmax dis i = .ok x ∧ (x = dmax ∨ ∃ j, j < dis.rows ∧ x = d j) := by
  obtain ⟨sd, e, hl, hm⟩ := coreLoop_safe (zero := zero) (i := i) (d := d) (List.range dis.rows)
    (List.replicate (dis.numNeighbors + 1) dmax) (fun j hj => hd j (List.mem_range.mp hj)) (by simp)
  have hn : dis.numNeighbors < sd.length := by omega
  refine ⟨sd[dis.numNeighbors], by simp [coreOf, e, rd_ok hn], ?_⟩
  rcases hm _ (List.getElem_mem hn) with h | h
  · obtain ⟨j, hj, he⟩ := List.mem_map.mp h
    exact .inr ⟨j, List.mem_range.mp hj, he.symm⟩
  · exact .inl (List.eq_of_mem_replicate h)

/-! ### Exactness -/

variable [LinearOrder W]

theorem searchPos_spec (sd : List W) (t : W) : ∀ fuel low high, low < high → high ≤ sd.length → high - low < fuel →
    (∀ i x, i < low → sd[i]? = some x → x < t) → (∀ i x, high ≤ i → sd[i]? = some x → t < x) →
    sd.Pairwise (· ≤ ·) →
    ∃ p, searchPos sd t fuel low high = .ok p ∧ (∀ i x, i < p → sd[i]? = some x → x < t) ∧
      ((∀ i x, p ≤ i → sd[i]? = some x → t < x) ∨ ∃ mid, p ≤ mid ∧ sd[mid]? = some t) := by
  intro fuel
  induction fuel with
  | zero => intro low high _ _ h; omega
  | succ fuel ih =>
    intro low high h1 h2 h3 hlo hhi hs
    have hm : low + (high - low) / 2 < sd.length := by omega
    simp only [searchPos, rd_ok hm, Outcome.ok_bind]
    generalize hmid : low + (high - low) / 2 = mid at *
    have hget : sd[mid]? = some sd[mid] := by simp [hm]
    have hmono : ∀ i x, mid ≤ i → sd[i]? = some x → sd[mid] ≤ x := by
      intro i x hi hx
      obtain ⟨hi', rfl⟩ := List.getElem?_eq_some_iff.mp hx
      rcases Nat.lt_or_eq_of_le hi with h | h
      · exact (List.pairwise_iff_getElem.mp hs) _ _ _ _ h
      · subst h; exact le_refl _
    have hmono2 : ∀ i x, i ≤ mid → sd[i]? = some x → x ≤ sd[mid] := by
      intro i x hi hx
      obtain ⟨hi', rfl⟩ := List.getElem?_eq_some_iff.mp hx
      rcases Nat.lt_or_eq_of_le hi with h | h
      · exact (List.pairwise_iff_getElem.mp hs) _ _ _ _ h
      · subst h; exact le_refl _
    simp only [ccmp_lt, ccmp_eq, decide_eq_true_eq]
    by_cases hlt : t < sd[mid]
    · have hhi' : ∀ i x, mid ≤ i → sd[i]? = some x → t < x := fun i x hi hx => lt_of_lt_of_le hlt (hmono i x hi hx)
      rw [if_pos hlt]
      by_cases hlm : low < mid
      · rw [if_pos hlm]
        exact ih low mid hlm (by omega) (by omega) hlo hhi' hs
      · rw [if_neg hlm]
        have : low = mid := by omega
        subst this
        exact ⟨low, rfl, hlo, .inl hhi'⟩
    · rw [if_neg hlt]
      by_cases he : sd[mid] = t
      · rw [if_pos he]
        exact ⟨low, rfl, hlo, .inr ⟨mid, by omega, by rw [hget, he]⟩⟩
      · rw [if_neg he]
        have hlo' : ∀ i x, i < mid + 1 → sd[i]? = some x → x < t := fun i x hi hx =>
          lt_of_le_of_lt (hmono2 i x (by omega) hx) (lt_of_le_of_ne (not_lt.mp hlt) he)
        by_cases hmh : mid + 1 < high
        · rw [if_pos hmh]
          exact ih (mid + 1) high hmh h2 (by omega) hlo' hhi hs
        · rw [if_neg hmh]
          have : mid + 1 = high := by omega
          exact ⟨mid + 1, rfl, hlo', .inl (fun i x hi hx => hhi i x (by omega) hx)⟩

/-- The array holds the `nn + 1` smallest of the distances offered so far (and of `nn + 1` copies of `dmax`). -/
structure Smallest (nn : Nat) (dmax : W) (ts sd : List W) : Prop where
  length : sd.length = nn + 1
  sorted : sd.Pairwise (· ≤ ·)
  rest : ∃ rest, (sd ++ rest).Perm (ts ++ List.replicate (nn + 1) dmax) ∧ ∀ s ∈ sd, ∀ r ∈ rest, s ≤ r

theorem smallest_init (nn : Nat) (dmax : W) : Smallest nn dmax [] (List.replicate (nn + 1) dmax) where
  length := by simp
  sorted := by
    rw [List.pairwise_iff_getElem]
    intro i j hi hj _
    simp
  rest := ⟨[], by simp, by simp⟩

theorem offer_smallest {nn : Nat} {dmax t : W} {ts sd : List W} (h : Smallest nn dmax ts sd)
    (htie : nn ≤ 1 ∨ (t ∈ ts → ∀ s ∈ ts, t ≤ s)) (hts : ∀ s ∈ ts, s ≤ dmax) (ht : t ≤ dmax) :
    ∃ sd', offer nn sd t = .ok sd' ∧ Smallest nn dmax (ts ++ [t]) sd' := by
  obtain ⟨hlen, hsort, rest, hperm, hrest⟩ := h
  have hn : nn < sd.length := by omega
  obtain ⟨p, e, hlo, hhi⟩ := searchPos_spec sd t (nn + 2) 0 (nn + 1) (by omega) (by omega) (by omega)
    (fun i x hi => by omega) (fun i x hi hx => by
      have := (List.getElem?_eq_some_iff.mp hx).1; omega) hsort
  rcases List.eq_nil_or_concat sd with rfl | ⟨ini, last, rfl⟩
  · simp at hlen
  rw [List.concat_eq_append] at *
  have hil : ini.length = nn := by simpa using hlen
  have hlast : (ini ++ [last])[nn] = last := by simp [hil]
  have hle : ∀ s ∈ ini ++ [last], s ≤ last := by
    intro s hs
    rcases List.mem_append.mp hs with hs | hs
    · exact (List.pairwise_append.mp hsort).2.2 s hs last (by simp)
    · simp at hs; exact le_of_eq hs
  simp only [offer, rd_ok hn, Outcome.ok_bind, hlast, ccmp_lt, ccmp_eq, decide_eq_true_eq, e]
  have skip : last ≤ t → Smallest nn dmax (ts ++ [t]) (ini ++ [last]) := by
    intro hlt
    refine ⟨hlen, hsort, t :: rest, ?_, ?_⟩
    · have h1 : ((ini ++ [last]) ++ t :: rest).Perm (t :: ((ini ++ [last]) ++ rest)) := List.perm_middle
      refine h1.trans ?_
      rw [List.append_assoc ts, List.singleton_append]
      exact (List.Perm.cons t hperm).trans List.perm_middle.symm
    · intro s hs r hr
      rcases List.mem_cons.mp hr with rfl | hr
      · exact (hle s hs).trans hlt
      · exact hrest s hs r hr
  by_cases hlt : last < t
  · rw [if_pos hlt]; exact ⟨_, rfl, skip hlt.le⟩
  rw [if_neg hlt]
  have htl : t ≤ last := not_lt.mp hlt
  by_cases heq : last = t
  · rw [if_neg (by simp [heq])]; exact ⟨_, rfl, skip heq.le⟩
  have hltl : t < last := lt_of_le_of_ne htl (Ne.symm heq)
  have hp : p < nn + 1 := by
    by_contra hc
    have := hlo nn last (by omega) (by simp [hil])
    exact absurd this hlt
  rw [if_pos ⟨hp, by simp [heq]⟩]
  refine ⟨_, rfl, ?_⟩
  -- the position is right
  have hge : ∀ i x, p ≤ i → (ini ++ [last])[i]? = some x → t ≤ x := by
    rcases hhi with hhi | ⟨mid, hpm, hmid⟩
    · exact fun i x hi hx => (hhi i x hi hx).le
    · have htmem : t ∈ ini ++ [last] := by
        obtain ⟨h1, h2⟩ := List.getElem?_eq_some_iff.mp hmid
        rw [← h2]; exact List.getElem_mem h1
      have hmono : ∀ i x, mid ≤ i → (ini ++ [last])[i]? = some x → t ≤ x := by
        intro i x hi hx
        obtain ⟨h1, h2⟩ := List.getElem?_eq_some_iff.mp hmid
        obtain ⟨h3, h4⟩ := List.getElem?_eq_some_iff.mp hx
        rw [← h2, ← h4]
        rcases Nat.lt_or_eq_of_le hi with h | h
        · exact (List.pairwise_iff_getElem.mp hsort) _ _ _ _ h
        · subst h; exact le_refl _
      rcases htie with hnn | hmin
      · -- nn ≤ 1: mid is 0, since at nn the array holds last ≠ t
        have hm1 : mid < nn + 1 := by
          have := (List.getElem?_eq_some_iff.mp hmid).1; omega
        have hm2 : mid ≠ nn := by
          intro hc; rw [hc] at hmid; simp [hil] at hmid; exact heq hmid
        have : p = mid := by omega
        rw [this]; exact hmono
      · -- t is the least value, so nothing is below it
        intro i x hi hx
        have hall : x ∈ ini ++ [last] := by
          obtain ⟨h1, h2⟩ := List.getElem?_eq_some_iff.mp hx
          rw [← h2]; exact List.getElem_mem h1
        have hin : ∀ y ∈ ini ++ [last], y ∈ ts ∨ y = dmax := by
          intro y hy
          have := hperm.subset (List.mem_append_left _ hy)
          rcases List.mem_append.mp this with h | h
          · exact .inl h
          · exact .inr (List.eq_of_mem_replicate h)
        rcases hin x hall with hx1 | rfl
        · rcases hin t htmem with ht1 | rfl
          · exact hmin ht1 x hx1
          · have : last ≤ t := by
              rcases hin last (by simp) with h | h
              · exact hts _ h
              · exact h.le
            exact absurd hltl (not_lt.mpr this)
        · exact ht
  have e1 : (ini ++ [last]).take p = ini.take p := by
    rw [List.take_append_of_le_length (by omega)]
  have e2 : ((ini ++ [last]).drop p).take (nn + 1 - p - 1) = ini.drop p := by
    rw [List.drop_append_of_le_length (by omega)]
    rw [List.take_append_of_le_length (by simp; omega)]
    rw [List.take_of_length_le (by simp; omega)]
  rw [e1, e2]
  have hA : ∀ x ∈ ini.take p, x < t := by
    intro x hx
    obtain ⟨i, hi, rfl⟩ := List.mem_iff_getElem.mp hx
    simp at hi
    refine hlo i _ hi.1 ?_
    simp [List.getElem?_append_left hi.2]
  have hB : ∀ x ∈ ini.drop p, t ≤ x := by
    intro x hx
    obtain ⟨i, hi, rfl⟩ := List.mem_iff_getElem.mp hx
    simp at hi
    refine hge (p + i) _ (by omega) ?_
    rw [List.getElem?_append_left (by omega)]
    simp
  have hini : ini.Pairwise (· ≤ ·) := (List.pairwise_append.mp hsort).1
  refine ⟨by simp; omega, ?_, last :: rest, ?_, ?_⟩
  · rw [List.pairwise_append]
    refine ⟨hini.sublist (List.take_sublist _ _), ?_, ?_⟩
    · rw [List.pairwise_cons]
      exact ⟨hB, hini.sublist (List.drop_sublist _ _)⟩
    · intro a ha b hb
      rcases List.mem_cons.mp hb with rfl | hb
      · exact (hA a ha).le
      · exact (hA a ha).le.trans (hB b hb)
  · have h1 : (ini.take p ++ t :: ini.drop p ++ last :: rest).Perm (t :: ((ini ++ [last]) ++ rest)) := by
      have : (ini.take p ++ t :: ini.drop p).Perm (t :: ini) := by
        refine List.perm_middle.trans ?_
        rw [List.take_append_drop]
      refine (this.append_right _).trans ?_
      simp
    refine h1.trans ?_
    rw [List.append_assoc ts, List.singleton_append]
    exact (List.Perm.cons t hperm).trans List.perm_middle.symm
  · intro s hs r hr
    have hs' : s ≤ last := by
      rcases List.mem_append.mp hs with hs | hs
      · exact hle s (List.mem_append_left _ (List.mem_of_mem_take hs))
      · rcases List.mem_cons.mp hs with rfl | hs
        · exact htl
        · exact hle s (List.mem_append_left _ (List.mem_of_mem_drop hs))
    rcases List.mem_cons.mp hr with rfl | hr
    · exact hs'
    · exact hs'.trans (hrest last (by simp) r hr)

theorem coreLoop_smallest {zero dmax : W} {dis : Distance W} {i : Nat} {d : Nat → W} :
    ∀ (js : List Nat) (ts sd : List W), (∀ j ∈ js, dis.get zero i j = .ok (d j)) →
    Smallest dis.numNeighbors dmax ts sd → (∀ s ∈ ts ++ js.map d, s ≤ dmax) →
    (dis.numNeighbors ≤ 1 ∨ ∀ t, 2 ≤ (ts ++ js.map d).count t → ∀ s ∈ ts ++ js.map d, t ≤ s) →
    ∃ sd', coreLoop zero dis i js sd = .ok sd' ∧ Smallest dis.numNeighbors dmax (ts ++ js.map d) sd' := by
  intro js
  induction js with
  | nil => intro ts sd _ h _ _; exact ⟨sd, rfl, by simpa using h⟩
  | cons j r ih =>
    intro ts sd hd h hle htie
    have e0 : ts ++ (j :: r).map d = (ts ++ [d j]) ++ r.map d := by simp
    rw [e0] at hle htie ⊢
    obtain ⟨s1, e1, h1⟩ := offer_smallest (t := d j) h (by
      rcases htie with h | htie
      · exact .inl h
      · refine .inr (fun hm s hs => ?_)
        refine htie (d j) ?_ s (by simp [hs])
        have : 1 ≤ ts.count (d j) := List.count_pos_iff.mpr hm
        simp only [List.count_append, List.count_singleton_self]
        omega) (fun s hs => hle s (by simp [hs])) (hle _ (by simp))
    obtain ⟨s2, e2, h2⟩ := ih (ts ++ [d j]) s1 (fun k hk => hd k (by simp [hk])) h1 hle htie
    exact ⟨s2, by simp [coreLoop, hd j (by simp), e1, e2], h2⟩

/-- The last entry of the array is the (nn+1)-th smallest distance. -/
theorem smallest_last {nn : Nat} {dmax : W} {ts sd : List W} (h : Smallest nn dmax ts sd) (hle : ∀ s ∈ ts, s ≤ dmax)
    (hn : nn + 1 ≤ ts.length) : ∃ x, rd sd nn = .ok x ∧
      ts.countP (fun t => decide (t < x)) < nn + 1 ∧ nn + 1 ≤ ts.countP (fun t => decide (t ≤ x)) := by
  obtain ⟨hlen, hsort, rest, hperm, hrest⟩ := h
  have hnl : nn < sd.length := by omega
  refine ⟨sd[nn], rd_ok hnl, ?_, ?_⟩
  · have h1 : ts.countP (fun t => decide (t < sd[nn])) ≤ (sd ++ rest).countP (fun t => decide (t < sd[nn])) := by
      rw [hperm.countP_eq, List.countP_append]; omega
    have h2 : rest.countP (fun t => decide (t < sd[nn])) = 0 := by
      rw [List.countP_eq_zero]
      intro r hr
      simpa using hrest _ (List.getElem_mem hnl) r hr
    have h3 : sd.countP (fun t => decide (t < sd[nn])) ≤ nn := by
      have key : ∀ (l : List W) q, l.countP q = (l.take nn).countP q + (l.drop nn).countP q := by
        intro l q; rw [← List.countP_append, List.take_append_drop]
      rw [key]
      have : (sd.drop nn).countP (fun t => decide (t < sd[nn])) = 0 := by
        rw [List.countP_eq_zero]
        intro r hr
        obtain ⟨i, hi, rfl⟩ := List.mem_iff_getElem.mp hr
        simp only [List.getElem_drop, decide_eq_true_eq, not_lt]
        rcases Nat.eq_zero_or_pos i with h | h
        · subst h; simp
        · exact (List.pairwise_iff_getElem.mp hsort) _ _ _ _ (by omega)
      rw [this]
      have := List.countP_le_length (p := fun t => decide (t < sd[nn])) (l := sd.take nn)
      simp at this ⊢; omega
    rw [List.countP_append, h2] at h1
    omega
  · by_cases hd : sd[nn] = dmax
    · rw [hd]
      have : ts.countP (fun t => decide (t ≤ dmax)) = ts.length := by
        rw [List.countP_eq_length]; intro s hs; simpa using hle s hs
      omega
    · have h1 : sd.countP (fun t => decide (t ≤ sd[nn])) = nn + 1 := by
        rw [← hlen, List.countP_eq_length]
        intro s hs
        obtain ⟨i, hi, rfl⟩ := List.mem_iff_getElem.mp hs
        simp only [decide_eq_true_eq]
        rcases Nat.lt_or_ge i nn with h | h
        · exact (List.pairwise_iff_getElem.mp hsort) _ _ _ _ h
        · have : i = nn := by omega
          subst this; exact le_refl _
      have hlt : sd[nn] < dmax := by
        refine lt_of_le_of_ne ?_ hd
        have := hperm.subset (List.mem_append_left rest (List.getElem_mem hnl))
        rcases List.mem_append.mp this with h | h
        · exact hle _ h
        · exact (List.eq_of_mem_replicate h).le
      have h2 : (List.replicate (nn + 1) dmax).countP (fun t => decide (t ≤ sd[nn])) = 0 := by
        rw [List.countP_eq_zero]
        intro s hs
        rw [List.eq_of_mem_replicate hs]
        simpa using hlt
      have h3 := hperm.countP_eq (fun t => decide (t ≤ sd[nn]))
      rw [List.countP_append, List.countP_append, h1, h2] at h3
      omega

end Verif.Distance
