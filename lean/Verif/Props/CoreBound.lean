import Verif.Lemmas.CoreBound
import Verif.Props.Distance
/-
C19: how wrong a core distance can be.
-/
namespace Verif.Props
open Verif Spec
variable {D W : Type} [LinearOrder W]

/-- **C19, bounds.** With 2 ≤ minPoints ≤ rows (`nn` is minPoints - 1) the core distance of a point without duplicates is the distance from another point, however many distances repeat: it lies between
those from the nearest and from the farthest of the other points. It is never 0. -/
theorem C19_bounds (ops : DistOps D W) (dmax : W) (data : List D) (rows cols nn : Nat) (hn : rows ≤ 65536) (h1 : 1 ≤ nn) (h2 : nn + 1 ≤ rows) (order : List (Nat × Nat)) (corder : List Nat)
    (ho : order.Perm (Distance.pairs rows)) (hco : corder.Perm (List.range rows)) (f : Nat → Nat → W) (hf : ∀ i j, i < j → j < rows → SqSum ops data cols i j (f i j))
    (hlt : ∀ i j, i < j → j < rows → ops.sqrt (f i j) < dmax) (hz : ops.zero < dmax) :
    ∃ dis, Distance.compute ops dmax order corder data rows cols nn = .ok dis ∧
      ∀ i, i < rows → ∀ d : Nat → W, (∀ j, j < rows → dis.get ops.zero i j = .ok (d j)) → (∀ j, j < rows → j ≠ i → ops.zero < d j) →
        ∃ x, dis.coreDistances[i]? = some (some x) ∧ (∃ j, j < rows ∧ j ≠ i ∧ x = d j) ∧ ops.zero < x := by
  obtain ⟨dis, core, e, r1, _, r3, hget, hself, hcore, _⟩ :=
    compute_rep (ops := ops) dmax (data := data) (cols := cols) (nn := nn) hn ho hco (fun i j h hj => sqSum_iff.2 (hf i j h hj))
  refine ⟨dis, e, ?_⟩
  intro i hi d hd hpos
  have hdm : ∀ j, j < dis.rows → dis.get ops.zero i j = .ok (d j) ∧ d j < dmax := by
    intro j hj
    rw [r1] at hj
    refine ⟨hd j hj, ?_⟩
    have g := hd j hj
    rcases Nat.lt_trichotomy i j with h | h | h
    · rw [(hget i j h hj).1] at g; rw [← Outcome.ok.inj g]; exact hlt i j h hj
    · rw [← h, hself i] at g; rw [← h, ← Outcome.ok.inj g]; exact hz
    · rw [(hget j i h hi).2] at g; rw [← Outcome.ok.inj g]; exact hlt j i h hi
  obtain ⟨x, ex, hx⟩ := Distance.coreOf_other (dmax := dmax) (d := d) (by omega) (by omega) (hself i) hz fun j hj hne => ⟨(hdm j hj).1, hpos j (by omega) hne⟩
  obtain ⟨y, ey, hy⟩ := Distance.coreOf_lt hdm (by omega)
  obtain ⟨c1, c2⟩ := hcore i hi
  rw [ex] at c1 ey
  have c1 := Outcome.ok.inj c1
  have ey := Outcome.ok.inj ey
  rw [← c1] at c2
  rw [← ey] at hy
  have hj : ∃ j, j < rows ∧ j ≠ i ∧ x = d j := by
    rcases hx with h | ⟨j, a, b, c⟩
    · exact absurd h hy.ne
    · exact ⟨j, by omega, b, c⟩
  refine ⟨_, c2, hj, ?_⟩
  obtain ⟨j, a, b, rfl⟩ := hj
  exact hpos j a b

/-- The first point of 0, 2, 4, -2, 1 with minPoints = 3, where the core distance is too small (`C19_core_distance_violated`): the distance of the nearest point. -/
example : ∃ dis : Distance Int, Distance.compute exactIntOps 1000 (Distance.pairs 5) (List.range 5) [0, 2, 4, -2, 1] 5 1 2 = .ok dis ∧
    (∀ j, j < 5 → dis.get 0 0 j = .ok ([0, 2, 4, 2, 1].getD j 0)) ∧ (∀ j, j < 5 → j ≠ 0 → (0 : Int) < [0, 2, 4, 2, 1].getD j 0) ∧ dis.coreDistances[0]? = some (some 1) :=
  ⟨_, rfl, by decide, by decide, by decide⟩

/-! ### The largest distance -/

/-- Distances offered one after the other. -/
def offers (nn : Nat) : List W → List W → Outcome (List W)
  | [], sd => .ok sd
  | t :: r, sd => do
    let sd' ← Distance.offer nn sd t
    offers nn r sd'

theorem offers_append (nn : Nat) : ∀ (a b sd sd' : List W), offers nn a sd = .ok sd' → offers nn (a ++ b) sd = offers nn b sd'
  | [], b, sd, sd', h => by cases h; rfl
  | t :: a, b, sd, sd', h => by
    rw [offers] at h
    obtain ⟨s, e, h⟩ := Outcome.bind_eq_ok.1 h
    rw [List.cons_append, offers, e, Outcome.ok_bind]
    exact offers_append nn a b s sd' h

theorem coreLoop_offers {zero : W} {dis : Distance W} {i : Nat} {d : Nat → W} : ∀ (js : List Nat) (sd : List W), (∀ j ∈ js, dis.get zero i j = .ok (d j)) →
    Distance.coreLoop zero dis i js sd = offers dis.numNeighbors (js.map d) sd
  | [], sd, _ => rfl
  | j :: r, sd, h => by
    rw [Distance.coreLoop, h j (by simp), List.map_cons, offers, Outcome.ok_bind]
    cases Distance.offer dis.numNeighbors sd (d j) with
    | ok s => exact coreLoop_offers r s fun k hk => h k (by simp [hk])
    | _ => rfl

/-- The array for minPoints = 3. -/
theorem offer_three (x y v t : W) : Distance.offer 2 [x, y, v] t =
    .ok (if v ≤ t then [x, y, v] else if t < y then (if x < t then [x, t, y] else [t, x, y]) else if y = t then [t, x, y] else [x, y, t]) := by
  by_cases h0 : v < t
  · simp [Distance.offer, rd, ccmp_lt, h0, h0.le]
  by_cases h1 : v = t
  · subst h1
    by_cases h2 : v < y
    · by_cases h3 : v < x
      · simp [Distance.offer, Distance.searchPos, rd, ccmp_lt, ccmp_eq, h2, h3]
      · by_cases h4 : x = v
        · simp [Distance.offer, Distance.searchPos, rd, ccmp_lt, ccmp_eq, h2, h4]
        · simp [Distance.offer, Distance.searchPos, rd, ccmp_lt, ccmp_eq, h2, h3, h4]
    · by_cases h3 : y = v
      · simp [Distance.offer, Distance.searchPos, rd, ccmp_lt, ccmp_eq, h3]
      · simp [Distance.offer, Distance.searchPos, rd, ccmp_lt, ccmp_eq, h2, h3]
  have h : t < v := lt_of_le_of_ne (not_lt.1 h0) (Ne.symm h1)
  by_cases h2 : t < y
  · by_cases h3 : t < x
    · simp [Distance.offer, Distance.searchPos, rd, ccmp_lt, ccmp_eq, h0, h1, h, h2, h3, not_lt.2 h3.le]
    · by_cases h4 : x = t
      · simp [Distance.offer, Distance.searchPos, rd, ccmp_lt, ccmp_eq, h0, h1, h, h2, h4]
      · have h5 : x < t := lt_of_le_of_ne (not_lt.1 h3) h4
        simp [Distance.offer, Distance.searchPos, rd, ccmp_lt, ccmp_eq, h0, h1, h, h2, h3, h4, h5]
  · by_cases h3 : y = t
    · simp [Distance.offer, Distance.searchPos, rd, ccmp_lt, ccmp_eq, h0, h1, h, h3]
    · simp [Distance.offer, Distance.searchPos, rd, ccmp_lt, ccmp_eq, h0, h1, h, h2, h3]

/-- Distances between `a` and `b` while the array begins with `b`, `a`. -/
theorem offers_between {a b : W} : ∀ (xs : List W) (v : W), a < v → (∀ x ∈ xs, a < x) → ∃ v', a < v' ∧ offers 2 xs [b, a, v] = .ok [b, a, v']
  | [], v, hv, _ => ⟨v, hv, rfl⟩
  | x :: xs, v, hv, h => by
    have hx := h x (by simp)
    rw [offers, offer_three, Outcome.ok_bind]
    by_cases hvx : v ≤ x
    · rw [if_pos hvx]
      exact offers_between xs v hv fun y hy => h y (by simp [hy])
    · rw [if_neg hvx, if_neg (not_lt.2 hx.le), if_neg hx.ne]
      exact offers_between xs x hx fun y hy => h y (by simp [hy])

/-- **C19 is violated** as badly as the bounds allow, for any number of points: with minPoints = 3, if the distances from a point are, in the order of the rows, `b`, `a`, `b`, any number of distances greater
than `a` and at most `b`, `a`, and that from the point itself, then the reported core distance is `b`, the largest of all, instead of `a`, the third smallest. -/
theorem C19_farthest_violated (zero dmax : W) (dis : Distance W) (i : Nat) (z a b : W) (xs : List W) (hza : z < a) (hab : a < b) (hb : b < dmax) (hxs : ∀ x ∈ xs, a < x ∧ x ≤ b)
    (hrows : dis.rows = xs.length + 5) (hnn : dis.numNeighbors = 2) (hd : ∀ j, j < dis.rows → dis.get zero i j = .ok (([b, a, b] ++ xs ++ [a, z]).getD j zero)) :
    Distance.coreOf zero dmax dis i = .ok b ∧ (∀ x ∈ [b, a, b] ++ xs ++ [a, z], x ≤ b) ∧ IsKth ([b, a, b] ++ xs ++ [a, z]) 3 a := by
  refine ⟨?_, ?_, ?_⟩
  · have hm : (List.range dis.rows).map (fun j => ([b, a, b] ++ xs ++ [a, z]).getD j zero) = [b, a, b] ++ (xs ++ [a, z]) := by
      rw [← List.append_assoc]
      apply List.ext_getElem?
      intro j
      rw [List.getElem?_map]
      by_cases hj : j < dis.rows
      · rw [List.getElem?_range hj, Option.map_some, List.getD_eq_getElem?_getD, List.getElem?_eq_getElem (by simp; omega)]
        rfl
      · rw [List.getElem?_eq_none (by simp; omega), List.getElem?_eq_none (by simp; omega)]
        rfl
    have s0 : offers 2 [b, a, b] [dmax, dmax, dmax] = .ok [b, a, b] := by
      have ha : a < dmax := hab.trans hb
      simp only [offers, offer_three, Outcome.ok_bind, if_neg (not_le.2 hb), if_neg (not_le.2 ha), if_pos hb, if_pos ha, if_neg (not_lt.2 hb.le), if_neg (not_lt.2 hab.le), if_neg (lt_irrefl b), if_true]
    obtain ⟨v, hv, s1⟩ := offers_between (b := b) xs b hab fun x hx => (hxs x hx).1
    rw [Distance.coreOf, coreLoop_offers (List.range dis.rows) _ fun j hj => hd j (List.mem_range.1 hj), hm, hnn]
    have hr : (List.replicate (2 + 1) dmax) = [dmax, dmax, dmax] := rfl
    rw [hr, offers_append 2 _ _ _ _ s0, offers_append 2 _ _ _ _ s1]
    simp only [offers, offer_three, Outcome.ok_bind, if_neg (not_le.2 hv), if_neg (lt_irrefl a), if_true, if_neg (not_le.2 hza), if_pos (hza.trans hab), if_neg (not_lt.2 hza.le)]
    rfl
  · intro x hx
    simp only [List.mem_append, List.mem_cons, List.not_mem_nil, or_false] at hx
    rcases hx with ((rfl | rfl | rfl) | h) | rfl | rfl
    · exact le_refl _
    · exact hab.le
    · exact le_refl _
    · exact (hxs x h).2
    · exact hab.le
    · exact (hza.trans hab).le
  · have c1 : xs.countP (fun t => decide (t < a)) = 0 := List.countP_eq_zero.2 fun x hx => by simpa using (hxs x hx).1.le
    have c2 : xs.countP (fun t => decide (t ≤ a)) = 0 := List.countP_eq_zero.2 fun x hx => by simpa using (hxs x hx).1
    constructor
    · simp [List.countP_append, c1, hza, not_lt.2 hab.le]
    · simp [List.countP_append, c2, hza.le, not_le.2 hab]

/-- The points 9, 1, -9, 5, 3, -1, 0 on a line with minPoints = 3: the core distance of the last one is 9. -/
example : ∃ dis : Distance Int, Distance.compute exactIntOps 1000 (Distance.pairs 7) (List.range 7) [9, 1, -9, 5, 3, -1, 0] 7 1 2 = .ok dis ∧
    dis.rows = [5, 3].length + 5 ∧ dis.numNeighbors = 2 ∧ (∀ j, j < 7 → dis.get 0 6 j = .ok (([9, 1, 9] ++ [5, 3] ++ [1, 0]).getD j 0)) ∧ dis.coreDistances[6]? = some (some 9) :=
  ⟨_, rfl, rfl, rfl, by decide, by decide⟩

end Verif.Props
