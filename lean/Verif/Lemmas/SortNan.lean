import Verif.Lemmas.Report
/-
Sorting values among which two or more are NaN.
-/
namespace Verif.Report
open Verif.CSort Verif.Spec
section
variable {L V D : Type}

/-- `v` is neither at most `x` nor above `x`: neither loop of `partition` passes it. -/
def Stops [CCmp D] (x v : D) : Prop := CCmp.le v x = false ∧ CCmp.lt x v = false

theorem upLoop_stops [CCmp D] (d : List D) (x : D) {i : Nat} (hi : i < d.length) (hs : CCmp.le d[i] x = false) : ∀ (k up : Nat), up ≤ i → i < up + k →
    ∃ up', upLoop d x k up = .ok up' ∧ up ≤ up' ∧ up' ≤ i := by
  intro k
  induction k with
  | zero => intro up h1 h2; omega
  | succ k ih =>
    intro up h1 h2
    rw [upLoop, rd_ok (by omega), Outcome.ok_bind]
    split
    · rename_i h
      have hne : up ≠ i := by rintro rfl; rw [hs] at h; cases h
      obtain ⟨u, e, h3, h4⟩ := ih (up + 1) (by omega) (by omega)
      exact ⟨u, e, by omega, h4⟩
    · exact ⟨up, rfl, le_rfl, h1⟩

theorem downLoop_stops [CCmp D] (d : List D) (x : D) {j : Nat} (hj : j < d.length) (hs : CCmp.lt x d[j] = false) : ∀ (k down : Nat), down < d.length → j ≤ down → down < j + k →
    ∃ down', downLoop d x k down = .ok down' ∧ j ≤ down' ∧ down' ≤ down := by
  intro k
  induction k with
  | zero => intro down _ h1 h2; omega
  | succ k ih =>
    intro down hd h1 h2
    rw [downLoop, rd_ok hd, Outcome.ok_bind]
    split
    · rename_i h
      have hne : down ≠ j := by rintro rfl; rw [hs] at h; cases h
      obtain ⟨u, e, h3, h4⟩ := ih (down - 1) (by omega) (by omega) (by omega)
      exact ⟨u, e, h3, by omega⟩
    · exact ⟨down, rfl, h1, le_rfl⟩

/-- The loop of `partition` does not end if two of the values in its range stop both inner loops, whatever number of iterations is allowed. -/
theorem partLoop_stops [CCmp D] (x : D) : ∀ (fuel : Nat) (a : Arr L D) (up down i j : Nat), a.c.length = a.d.length → down < a.d.length → up ≤ i → i < j → j ≤ down →
    (∀ v, a.d[i]? = some v → Stops x v) → (∀ v, a.d[j]? = some v → Stops x v) → partLoop x fuel up down a = .diverge := by
  intro fuel
  induction fuel with
  | zero => intro a up down i j _ _ _ _ _ _ _; rw [partLoop, if_pos (by omega)]
  | succ fuel ih =>
    intro a up down i j hl hd h1 h2 h3 hi hj
    have hi' := hi a.d[i] (List.getElem?_eq_getElem (by omega))
    have hj' := hj a.d[j] (List.getElem?_eq_getElem (by omega))
    obtain ⟨u, eu, g1, g2⟩ := upLoop_stops a.d x (by omega) hi'.1 (down - up) up h1 (by omega)
    obtain ⟨w, ew, g3, g4⟩ := downLoop_stops a.d x (by omega) hj'.2 (down - u) down hd h3 (by omega)
    rw [partLoop, if_pos (by omega), eu, Outcome.ok_bind, ew, Outcome.ok_bind, if_neg (by omega)]
    have hs : swap a u w = .ok { c := (a.c.set u (a.c[w]'(by omega))).set w (a.c[u]'(by omega)), d := (a.d.set u (a.d[w]'(by omega))).set w (a.d[u]'(by omega)) } := by
      simp only [swap, rd_ok (show u < a.d.length by omega), rd_ok (show w < a.d.length by omega), rd_ok (show u < a.c.length by omega), rd_ok (show w < a.c.length by omega), Outcome.ok_bind]
      rw [wr_ok (by omega), Outcome.ok_bind, wr_ok (by simp; omega), Outcome.ok_bind, wr_ok (by omega), Outcome.ok_bind, wr_ok (by simp; omega)]
      rfl
    rw [hs, Outcome.ok_bind]
    have hget : ∀ p, p < a.d.length → ((a.d.set u (a.d[w]'(by omega))).set w (a.d[u]'(by omega)))[p]? = if p = w then a.d[u]? else if p = u then a.d[w]? else a.d[p]? := by
      intro p hp
      rw [List.getElem?_set, List.getElem?_set]
      by_cases hw : w = p
      · subst hw; simp [hp, List.getElem?_eq_getElem (show u < a.d.length by omega)]
      · by_cases hu : u = p
        · subst hu; simp [hw, hp, Ne.symm hw, List.getElem?_eq_getElem (show w < a.d.length by omega)]
        · simp [hw, hu, Ne.symm hw, Ne.symm hu]
    have key : ∀ i' j', u ≤ i' → i' < j' → j' ≤ w → (∀ v, (if i' = w then a.d[u]? else if i' = u then a.d[w]? else a.d[i']?) = some v → Stops x v) →
        (∀ v, (if j' = w then a.d[u]? else if j' = u then a.d[w]? else a.d[j']?) = some v → Stops x v) →
        partLoop x fuel u w { c := (a.c.set u (a.c[w]'(by omega))).set w (a.c[u]'(by omega)), d := (a.d.set u (a.d[w]'(by omega))).set w (a.d[u]'(by omega)) } = .diverge := by
      intro i' j' k1 k2 k3 k4 k5
      exact ih _ u w i' j' (by simpa using hl) (by simp; omega) k1 k2 k3 (fun v hv => k4 v (by rw [← hget i' (by omega)]; exact hv)) (fun v hv => k5 v (by rw [← hget j' (by omega)]; exact hv))
    by_cases hiu : i = u
    · by_cases hjw : j = w
      · refine key i j g2 h2 g3 ?_ ?_
        · rw [if_neg (by omega), if_pos hiu, ← hjw]; exact hj
        · rw [if_pos hjw, ← hiu]; exact hi
      · refine key j w (by omega) (by omega) le_rfl ?_ ?_
        · rw [if_neg hjw, if_neg (by omega)]; exact hj
        · rw [if_pos rfl, ← hiu]; exact hi
    · by_cases hjw : j = w
      · refine key u i le_rfl (by omega) (by omega) ?_ ?_
        · rw [if_neg (by omega), if_pos rfl, ← hjw]; exact hj
        · rw [if_neg (by omega), if_neg hiu]; exact hi
      · refine key i j g2 h2 g3 ?_ ?_
        · rw [if_neg (by omega), if_neg hiu]; exact hi
        · rw [if_neg hjw, if_neg (by omega)]; exact hj

/-- The loop of `partition` on a range of three or more values does not end if two of them are NaN, whatever number of iterations is allowed. -/
theorem partLoop_nans [LinearOrder V] {a : Arr L (Ieee V)} {left hi i j : Nat} (hl : a.c.length = a.d.length) (hh : hi ≤ a.d.length) (h3 : left + 3 ≤ hi) (h1 : left ≤ i) (h2 : i < j) (hj : j < hi)
    (ni : a.d[i]? = some .nan) (nj : a.d[j]? = some .nan) (x : Ieee V) (hx : a.d[left]? = some x) (fuel : Nat) : partLoop x fuel (left + 1) (hi - 1) a = .diverge := by
  have hany : ∀ v : Ieee V, Stops .nan v := fun v => by cases v <;> exact ⟨rfl, rfl⟩
  have hnan : ∀ x : Ieee V, Stops x .nan := fun v => by cases v <;> exact ⟨rfl, rfl⟩
  by_cases hil : i = left
  · subst hil
    rw [ni] at hx
    cases hx
    exact partLoop_stops _ _ _ _ _ (i + 1) (i + 2) hl (by omega) le_rfl (by omega) (by omega) (fun v _ => hany v) (fun v _ => hany v)
  · exact partLoop_stops _ _ _ _ _ i j hl (by omega) (by omega) h2 (by omega) (fun v hv => by rw [ni] at hv; cases hv; exact hnan _) (fun v hv => by rw [nj] at hv; cases hv; exact hnan _)

/-- `partition` of a range of three or more values does not end if two of them are NaN. -/
theorem partition_nans [LinearOrder V] {a : Arr L (Ieee V)} {left hi i j : Nat} (hl : a.c.length = a.d.length) (hh : hi ≤ a.d.length) (h3 : left + 3 ≤ hi) (h1 : left ≤ i) (h2 : i < j) (hj : j < hi)
    (ni : a.d[i]? = some .nan) (nj : a.d[j]? = some .nan) : partition a left (hi - 1) = .diverge := by
  simp only [partition]
  rw [rd_ok (by omega), Outcome.ok_bind, rd_ok (by omega), Outcome.ok_bind,
    partLoop_nans hl hh h3 h1 h2 hj ni nj _ (List.getElem?_eq_getElem (by omega))]
  rfl

/-- The whole sort of a range of three or more values does not end if two of them are NaN. -/
theorem quicksort_nans [LinearOrder V] {a : Arr L (Ieee V)} {left hi i j : Nat} (hl : a.c.length = a.d.length) (hh : hi ≤ a.d.length) (h3 : left + 3 ≤ hi) (h1 : left ≤ i) (h2 : i < j) (hj : j < hi)
    (ni : a.d[i]? = some .nan) (nj : a.d[j]? = some .nan) (fuel : Nat) : quicksort fuel a left hi = .diverge := by
  cases fuel with
  | zero => rw [quicksort, if_pos (by omega)]
  | succ fuel =>
    rw [quicksort, if_pos (by omega), partition_nans hl hh h3 h1 h2 hj ni nj]
    rfl

theorem sortAll_nans [LinearOrder V] (cl : List Nat) (ds : List (Ieee V)) (hl : cl.length = ds.length) (h3 : 3 ≤ cl.length) {i j : Nat} (h2 : i < j) (ni : ds[i]? = some .nan) (nj : ds[j]? = some .nan) :
    sortAll cl ds = .diverge := by
  have hj : j < ds.length := (List.getElem?_eq_some_iff.1 nj).1
  rw [sortAll, quicksort_nans (a := { c := cl, d := ds }) (i := i) (j := j) hl (by show cl.length ≤ ds.length; omega) (by omega) (by omega) h2 (by omega) ni nj]
  rfl

end
end Verif.Report
