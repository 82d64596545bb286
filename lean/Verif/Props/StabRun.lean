import Verif.Spec.StabRun
import Verif.Lemmas.StabRun
import Verif.Props.Groups
/-
Parts of C104: the levels of a run on `double` data and the stabilities computed from them.
-/
namespace Verif.Props
open Verif Verif.Spec Verif.Binary64

/-- Core distances are distances. -/
theorem core_of {data : List (Fin754 binary64)} {rows cols : Nat} (h5 : 5 ≤ rows) {P : Num754 binary64 → Prop}
    (hdw : ∀ i j, i < rows → j < rows → P (distOf numOps (numSq data cols) i j)) {dis : Distance (Num754 binary64)} {core : Nat → Num754 binary64} (r1 : dis.rows = rows)
    (hget : ∀ i j, i < rows → j < rows → dis.get numOps.zero i j = .ok (distOf numOps (numSq data cols) i j))
    (hcore : ∀ i, i < rows → dis.coreDistances[i]? = some (some (core i)) ∧ Distance.coreOf numOps.zero numArith.dmax dis i = .ok (core i))
    (hmax : ∀ i j, i < rows → j < rows → i ≠ j → mutualReach (distOf numOps (numSq data cols)) core i j < numArith.dmax) (i : Nat) (hi : i < rows) :
    P (core i) := by
  obtain ⟨x, hx, h1⟩ := Distance.coreOf_safe (zero := numOps.zero) (dmax := numArith.dmax) (dis := dis) (i := i) (d := fun j => distOf numOps (numSq data cols) i j) (by
    intro j hj; rw [r1] at hj; exact hget i j hi hj)
  have h2 := (hcore i hi).2
  rw [hx] at h2
  obtain rfl := Outcome.ok.inj h2
  rcases h1 with h1 | ⟨j, hj, h1⟩
  · exfalso
    obtain ⟨j, hj, hij⟩ : ∃ j, j < rows ∧ i ≠ j := ⟨if i = 0 then 1 else 0, by split <;> omega, by split <;> omega⟩
    have := hmax i j hi hj hij
    simp only [mutualReach, max_lt_iff] at this
    have h2 := this.1.2
    rw [h1] at h2
    exact absurd h2 (lt_irrefl _)
  · rw [r1] at hj
    rw [h1]
    exact hdw i j hi hj

/-- What holds of the distances holds of the mutual reachability distances. -/
theorem reach_of {data : List (Fin754 binary64)} {rows cols : Nat} (h5 : 5 ≤ rows) {P : Num754 binary64 → Prop}
    (hdw : ∀ i j, i < rows → j < rows → P (distOf numOps (numSq data cols) i j)) {dis : Distance (Num754 binary64)} {core : Nat → Num754 binary64} (r1 : dis.rows = rows)
    (hget : ∀ i j, i < rows → j < rows → dis.get numOps.zero i j = .ok (distOf numOps (numSq data cols) i j))
    (hcore : ∀ i, i < rows → dis.coreDistances[i]? = some (some (core i)) ∧ Distance.coreOf numOps.zero numArith.dmax dis i = .ok (core i))
    (hmax : ∀ i j, i < rows → j < rows → i ≠ j → mutualReach (distOf numOps (numSq data cols)) core i j < numArith.dmax) (i j : Nat) (hi : i < rows) (hj : j < rows) :
    P (mutualReach (distOf numOps (numSq data cols)) core i j) := by
  have hcw : ∀ i, i < rows → P (core i) := core_of h5 hdw r1 hget hcore hmax
  unfold mutualReach
  rcases max_choice (max (distOf numOps (numSq data cols) i j) (core i)) (core j) with h1 | h1 <;> rw [h1]
  · rcases max_choice (distOf numOps (numSq data cols) i j) (core i) with h2 | h2 <;> rw [h2]
    · exact hdw i j hi hj
    · exact hcw i hi
  · exact hcw j hj

/-- A weight below `2 ^ 1000`. -/
def Usual (w : Num754 binary64) : Prop := ∃ x : Fin754 binary64, w = .fin x ∧ (x.1 = 0 ∨ (2 : ℚ) ^ (-537 : ℤ) ≤ x.1) ∧ x.1 ≤ 2 ^ (1000 : ℤ)

theorem moderate_usual {data : List (Fin754 binary64)} {rows cols : Nat} (h : Moderate data rows cols) (i j : Nat) (hi : i < rows) (hj : j < rows) : Usual (numOps.sqrt (numSq data cols i j)) := by
  obtain ⟨_, s, e, s0, s1, _⟩ := numSq_spec h.toSized hi hj
  rcases sqrt_weight (numSq data cols i j) with ⟨x, h1, h2⟩ | h
  · exact ⟨x, h1, h2, sqrt_le h1⟩
  · have := (sqrt_spec s0 s1).1
    rw [← e, h] at this
    exact absurd (num_le_pinf _) (not_le.2 this)

/-- The finite stabilities. -/
theorem stability_of {b : Fin754 binary64} (hb : b.1 = 0 ∨ (2 : ℚ) ^ (-537 : ℤ) ≤ b.1) {members : List Nat} {leave : Nat → Fin754 binary64} (h0 : members ≠ [])
    (hm : members.length < 2 ^ 32) (hl : ∀ p ∈ members, (leave p).1 < b.1 ∧ ((leave p).1 = 0 ∨ (2 : ℚ) ^ (-537 : ℤ) ≤ (leave p).1) ∧ (leave p).1 ≤ 2 ^ (1000 : ℤ)) {es : List (Hier.Event (Num754 binary64))}
    (hes : ∀ e ∈ es, e.1 ≠ 0) {z d : Num754 binary64}
    (he : Hier.total (Hier.tallyArith z d) es = (members.map (fun p => (Num754.fin (leave p), some (Num754.fin b))) : List (Num754 binary64 × Option (Num754 binary64)))) :
    Stability b members leave (Hier.total numArith es) ∧ CCmp.eq (Hier.total numArith es) Fp.max = false := by
  have hmem : ∀ e ∈ es, ∃ p ∈ members, e.2 = (Num754.fin (leave p), some (Num754.fin b)) := by
    intro e h1
    have h3 := Hier.mem_tally (z := z) (d := d) e h1 (hes e h1)
    rw [he, Multiset.mem_coe, List.mem_map] at h3
    obtain ⟨p, hp, h4⟩ := h3
    exact ⟨p, hp, h4.symm⟩
  have hsum : (es.map (·.1)).sum = members.length := by
    rw [sum_counts (z := z) (d := d), he]; simp
  have hzero : ∀ x : Fin754 binary64, x.1 = 0 ↔ Num754.fin x = numArith.zeroW := by
    intro x
    rw [num_zero]
    constructor
    · intro h
      congr 1
      exact Subtype.ext h
    · intro h; cases h; rfl
  obtain ⟨i1, _⟩ := (num_infinite members.length hm).total (.fin b) es ⟨b, rfl, hb⟩ (by
    intro e h1
    obtain ⟨p, hp, h4⟩ := hmem e h1
    rw [h4]
    exact ⟨hes e h1, rfl, ⟨_, rfl, (hl p hp).2.1⟩, num_fin_lt.2 (hl p hp).1⟩) hsum.le
  by_cases hpos : ∀ p ∈ members, 0 < (leave p).1
  · obtain ⟨x, x1, x2, x3, x4⟩ := total_fin (β := b) es (by
      intro e h1
      obtain ⟨p, hp, h4⟩ := hmem e h1
      rw [h4]
      refine ⟨rfl, _, rfl, ?_, (hl p hp).1⟩
      rcases (hl p hp).2.1 with h | h
      · exact absurd h (hpos p hp).ne'
      · exact h) (by omega)
    rw [hsum] at x3
    have hd := total_map (z := z) (d := d) (z' := F64.of 0) (d' := F64.of 0) widen es
    rw [he, Multiset.map_coe, List.map_map] at hd
    obtain ⟨_, _, r3⟩ := Hier.stab_error (b := widen (.fin b)) (leave := fun p => widen (.fin (leave p))) hm (fun p hp => ⟨hpos p hp, (hl p hp).1, (hl p hp).2.2⟩) hd
    rw [← x4] at r3
    refine ⟨⟨?_, fun _ => ⟨x, x1, x2, ?_, r3⟩⟩, ?_⟩
    · rintro ⟨p, hp, h⟩
      exact absurd h (hpos p hp).ne'
    · refine List.sum_pos _ ?_ (by simpa using h0)
      intro y hy
      obtain ⟨p, hp, rfl⟩ := List.mem_map.1 hy
      exact sub_pos.2 (one_div_lt_one_div_of_lt (hpos p hp) (hl p hp).1)
    · rw [x1]
      exact not_max (by omega) x3
  · push Not at hpos
    obtain ⟨p, hp, hle⟩ := hpos
    have hp0 : (leave p).1 = 0 := by
      rcases (hl p hp).2.1 with h | h
      · exact h
      · exact absurd ((two_zpow_pos _).trans_le h) (not_lt.2 hle)
    obtain ⟨e, g1, g2⟩ := mem_tally_conv (z := z) (d := d) es (Num754.fin (leave p), some (Num754.fin b)) (by
      rw [he, Multiset.mem_coe]
      exact List.mem_map.2 ⟨p, hp, rfl⟩)
    have hinf : Hier.total numArith es = .num .pinf := i1 ⟨e, g1, by rw [g2]; exact (hzero _).1 hp0⟩
    refine ⟨⟨fun _ => hinf, fun h => absurd hp0 (h p hp).ne'⟩, ?_⟩
    rw [hinf]
    decide +kernel

/-! ### Concrete cases -/

/-- Two groups and a value apart. -/
def spread : List (Fin754 binary64) := [1, 2, 4, 100, 101, 104, 200].attach.map fun k => whole k.1 ((by decide : ∀ k ∈ [1, 2, 4, 100, 101, 104, 200], k < 2 ^ 33) k.1 k.2)

theorem spread_moderate : Moderate spread 7 1 := whole_moderate [1, 2, 4, 100, 101, 104, 200] (by decide) (by decide)

/-- The stability as text, with the number if it is one. -/
def stabOf : Dbl → String × ℚ
  | .nan => ("nan", 0)
  | .num .pinf => ("+inf", 0)
  | .num .ninf => ("-inf", 0)
  | .num (.fin x) => ("number", x.1)

end Verif.Props
