import Verif.Lemmas.Outlier
import Verif.Props.Labels
import Mathlib.Algebra.Order.Ring.Rat
/-
C39, C40, C56: outlier scores.
-/
namespace Verif.Props
open Spec Relation Outlier
variable {W S T : Type}

/-- `outlier_score_compare` is a total order on scores with ids below 2^31, namely the documented one. -/
theorem C39_compare [LinearOrder W] [LinearOrder T] (xs : List (OScore W T)) (hid : ∀ o ∈ xs, o.id < 2 ^ 31) :
    OrderOn outlierCompare xs ∧ ∀ a ∈ xs, ∀ b ∈ xs, (outlierCompare a b < 0 ↔ Before a b) := by
  refine ⟨⟨fun a ha b hb => ?_, fun a ha b hb c hc h1 h2 => ?_⟩, fun a ha b hb => (compare_neg (hid a ha) (hid b hb)).1⟩
  · rw [(compare_neg (hid a ha) (hid b hb)).1, (compare_neg (hid b hb) (hid a ha)).2]
  · have k1 := (compare_neg (hid b hb) (hid a ha)).1
    have k2 := (compare_neg (hid a ha) (hid b hb)).2
    have k3 := (compare_neg (hid b hb) (hid c hc)).2
    have k4 := (compare_neg (hid a ha) (hid c hc)).2
    rw [← not_lt] at h1 h2 ⊢
    rw [k2] at h1
    rw [k3] at h2
    rw [k4]
    intro hca
    -- c before a, not b before a, not c before b
    by_cases hab : a.id = b.id
    · -- a before b is possible only through score or core
      unfold Before at *
      rcases lt_trichotomy a.score b.score with hs | hs | hs
      · exact h2 (.inl (by rcases hca with h | ⟨h, _⟩ <;> [exact h.trans hs; exact h ▸ hs]))
      · rcases lt_trichotomy a.core b.core with hc | hc | hc
        · refine h2 ?_
          rcases hca with h | ⟨h, h' | ⟨h', _⟩⟩
          · exact .inl (hs ▸ h)
          · exact .inr ⟨h.trans hs, .inl (h'.trans hc)⟩
          · exact .inr ⟨h.trans hs, .inl (h' ▸ hc)⟩
        · refine h2 ?_
          rw [← hs, ← hc, ← hab]; exact hca
        · exact h1 (.inr ⟨hs.symm, .inl hc⟩)
      · exact h1 (.inl hs)
    · rcases before_total a b hab with h | h
      · exact h2 (before_trans hca h)
      · exact h1 h

/-- The cast of the difference of two ids to `int` is not an order beyond 2^31 ids (there can be no such data set: the distance matrix
    allows 65536 points, property C17). -/
theorem C39_large_ids : ∃ xs : List (OScore Int Int), (∀ o ∈ xs, o.id < 2 ^ 32) ∧ ¬ OrderOn outlierCompare xs := by
  refine ⟨[⟨0, 0, 0⟩, ⟨0, 0, 1500000000⟩, ⟨0, 0, 3000000000⟩], by decide, fun h => ?_⟩
  have := h.trans ⟨0, 0, 0⟩ (by simp) ⟨0, 0, 1500000000⟩ (by simp) ⟨0, 0, 3000000000⟩ (by simp) (by decide) (by decide)
  exact absurd this (by decide)

section
variable [LinearOrder W] [CCmp S] [LinearOrder T] (qsort : (OScore W T → OScore W T → Int) → List (OScore W T) → List (OScore W T))
    (ar : Arith W S) (smax : S) (ops : Outlier.Ops W T) (minPoints : Nat) (dis : Distance W) (n : Nat) (d : Nat → Nat → W) (core : Nat → W)

/-- The whole run with all that is known about the scores. -/
theorem full_rep (hq : SortsAscending qsort) (hm : 1 ≤ minPoints) (hn1 : 2 ≤ n) (hn : n < 2 ^ 31)
    (hget : ∀ i j, i < n → j < n → i ≠ j → dis.get ar.zeroW i j = .ok (d i j)) (hsym : ∀ i j, d i j = d j i)
    (hcore : ∀ i, i < n → dis.coreDistances[i]? = some (some (core i)))
    (hmax : ∀ i j, i < n → j < n → i ≠ j → mutualReach d core i j < ar.dmax) :
    ∃ out : Run.Full W S T, (∀ (sch : Run.Schedule) (order : List Nat), sch.Complete → order.Perm (List.range n) →
        Run.full qsort ar smax ops sch order minPoints dis n = .ok out) ∧
      (out.outliers.map (·.id)).Perm (List.range n) ∧ out.outliers.Pairwise Before ∧
      (∀ o ∈ out.outliers, o.id < n ∧ o.core = core o.id ∧ ∃ (eps : W) (l : Nat) (c : Cl W S),
        out.noise[o.id]? = some (some eps) ∧ out.last[o.id]? = some (some l) ∧ out.clusters[l]? = some (some c) ∧
        ((∃ i, i < n ∧ eps = core i) ∨ ∃ i j, i < n ∧ j < n ∧ i ≠ j ∧ eps = mutualReach d core i j) ∧
        (∃ i, 1 ≤ i ∧ l ≠ 0 ∧ Carries out.hierarchy i o.id l ∧ HasWeight out.hierarchy i eps ∧ ∀ j x, i < j → Carries out.hierarchy j o.id x → x = 0) ∧
        o.score = (if eps = ar.zeroW then ops.zero else ops.ratio c.propLowest eps) ∧
        (out.clusters.length = 2 → c.propLowest = ar.dmax) ∧
        (out.clusters.length ≠ 2 → c.propLowest ≤ eps ∧ LowestBelow out.clusters l c.propLowest ∧
          ((∃ i, i < n ∧ c.propLowest = core i) ∨ ∃ i j, i < n ∧ j < n ∧ i ≠ j ∧ c.propLowest = mutualReach d core i j))) := by
  obtain ⟨g, g', e1, e2, e3, hin, _, hw⟩ := Run.sorted_mst ar.zeroW ar.dmax dis n (by omega) d core hget hsym hcore hmax
  subst e3
  have hwt : ∀ w ∈ g'.wt, (∃ i, i < g'.numVertices ∧ w = core i) ∨ ∃ i j, i < g'.numVertices ∧ j < g'.numVertices ∧ i ≠ j ∧ w = mutualReach d core i j := by
    intro w hw'
    rcases (hw w).1 hw' with h | ⟨i, j, h1, h2, h3, h4, _⟩
    · exact .inl h
    · exact .inr ⟨i, j, h1, h2, h3, h4⟩
  have hwmax : ∀ w ∈ g'.wt, w < ar.dmax := by
    intro w hw'
    rcases hwt w hw' with ⟨i, hi, rfl⟩ | ⟨i, j, h1, h2, h3, rfl⟩
    · obtain ⟨j, hj, hij⟩ : ∃ j, j < g'.numVertices ∧ i ≠ j := by
        by_cases h0 : i = 0
        · exact ⟨1, by omega, by omega⟩
        · exact ⟨0, by omega, h0⟩
      refine lt_of_le_of_lt ?_ (hmax i j hi hj hij)
      simp [mutualReach]
    · exact hmax i j h1 h2 h3
  obtain ⟨out, h1, h2⟩ := source_rep ar smax g' minPoints hm (by omega) hin hwmax
  have hex : ∀ p, ∃ x : W × Nat × Cl W S, p < g'.numVertices → out.noise[p]? = some (some x.1) ∧ out.last[p]? = some (some x.2.1) ∧ out.clusters[x.2.1]? = some (some x.2.2) ∧
        x.1 ∈ g'.wt ∧ (∃ i, 1 ≤ i ∧ x.2.1 ≠ 0 ∧ Carries out.hierarchy i p x.2.1 ∧ HasWeight out.hierarchy i x.1 ∧ ∀ j y, i < j → Carries out.hierarchy j p y → y = 0) ∧
        (out.clusters.length = 2 → x.2.2.propLowest = ar.dmax) ∧
        (out.clusters.length ≠ 2 → x.2.2.propLowest ≤ x.1 ∧ x.2.2.propLowest ∈ g'.wt ∧ LowestBelow out.clusters x.2.1 x.2.2.propLowest) := by
    intro p
    by_cases hp : p < g'.numVertices
    · obtain ⟨w, l, c, h⟩ := h2 p hp
      exact ⟨(w, l, c), fun _ => h⟩
    · exact ⟨(ar.zeroW, 0, Cl.init ar 0 none none 0), fun h => absurd h hp⟩
  obtain ⟨X, hX⟩ := Classical.axiomOfChoice hex
  have hs : ∀ i, i < g'.numVertices → scoreOf ar.zeroW ops out.clusters out.noise out.last i =
      .ok (if (X i).1 = ar.zeroW then ops.zero else ops.ratio (X i).2.2.propLowest (X i).1) := by
    intro i hi
    obtain ⟨q1, q2, q3, _⟩ := hX i hi
    simp [scoreOf, rdInit_ok q1, rdInit_ok q2, Hier.getCl_ok q3]
  have hcmp := C39_compare ((List.range g'.numVertices).map (fun i => (⟨if (X i).1 = ar.zeroW then ops.zero else ops.ratio (X i).2.2.propLowest (X i).1, core i, i⟩ : OScore W T))) (by
    intro o ho
    obtain ⟨i, hi, rfl⟩ := List.mem_map.1 ho
    exact Nat.lt_trans (List.mem_range.1 hi) hn)
  obtain ⟨hord, hbef⟩ := hcmp
  obtain ⟨hperm, hsorted⟩ := hq _ _ hord
  have hids : ((qsort outlierCompare ((List.range g'.numVertices).map (fun i => (⟨if (X i).1 = ar.zeroW then ops.zero else ops.ratio (X i).2.2.propLowest (X i).1, core i, i⟩ : OScore W T)))).map (·.id)).Perm
      (List.range g'.numVertices) := by
    refine (hperm.map _).trans ?_
    rw [List.map_map]
    have : ((fun o : OScore W T => o.id) ∘ fun i => (⟨if (X i).1 = ar.zeroW then ops.zero else ops.ratio (X i).2.2.propLowest (X i).1, core i, i⟩ : OScore W T)) = id := rfl
    rw [this, List.map_id]
  refine ⟨{ out with outliers := _ }, fun sch order hsch ho => ?_, hids, ?_, ?_⟩
  · simp only [Run.full, Run.doRun, e1, e2, Outcome.ok_bind, h1 sch hsch, scores_rep qsort hs hcore ho, Outcome.pure_eq]
  · have hnd : ((qsort outlierCompare ((List.range g'.numVertices).map (fun i => (⟨if (X i).1 = ar.zeroW then ops.zero else ops.ratio (X i).2.2.propLowest (X i).1, core i, i⟩ : OScore W T)))).map (·.id)).Nodup :=
      hids.nodup_iff.2 List.nodup_range
    rw [List.Nodup, List.pairwise_map] at hnd
    refine (hsorted.and hnd).imp_of_mem ?_
    intro a b ha hb hab
    have ha' := hperm.mem_iff.1 ha
    have hb' := hperm.mem_iff.1 hb
    rcases before_total a b hab.2 with h | h
    · exact h
    · have := (hord.swap b hb' a ha').1 ((hbef b hb' a ha').2 h)
      have h0 := hab.1
      omega
  · intro o ho
    obtain ⟨i, hi, rfl⟩ := List.mem_map.1 (hperm.mem_iff.1 ho)
    rw [List.mem_range] at hi
    obtain ⟨q1, q2, q3, q4, q5, q6, q7⟩ := hX i hi
    refine ⟨hi, rfl, (X i).1, (X i).2.1, (X i).2.2, q1, q2, q3, hwt _ q4, q5, rfl, q6, fun h => ?_⟩
    obtain ⟨r1, r2, r3⟩ := q7 h
    exact ⟨r1, r3, hwt _ r2⟩

/-- C39. After a run on 2 ≤ n < 2^31 points the outlier score array contains every point id exactly once, in strictly ascending documented
    order, each entry with the core distance of its point; for every schedule of the parallel loops and every conforming `qsort`. -/
theorem C39_sorted (hq : SortsAscending qsort) (hm : 1 ≤ minPoints) (hn1 : 2 ≤ n) (hn : n < 2 ^ 31)
    (hget : ∀ i j, i < n → j < n → i ≠ j → dis.get ar.zeroW i j = .ok (d i j)) (hsym : ∀ i j, d i j = d j i)
    (hcore : ∀ i, i < n → dis.coreDistances[i]? = some (some (core i)))
    (hmax : ∀ i j, i < n → j < n → i ≠ j → mutualReach d core i j < ar.dmax) :
    ∃ out : Run.Full W S T, (∀ (sch : Run.Schedule) (order : List Nat), sch.Complete → order.Perm (List.range n) →
        Run.full qsort ar smax ops sch order minPoints dis n = .ok out) ∧
      (out.outliers.map (·.id)).Perm (List.range n) ∧ out.outliers.Pairwise Before ∧ ∀ o ∈ out.outliers, o.core = core o.id := by
  obtain ⟨out, h1, h2, h3, h4⟩ := full_rep qsort ar smax ops minPoints dis n d core hq hm hn1 hn hget hsym hcore hmax
  exact ⟨out, h1, h2, h3, fun o ho => (h4 o ho).2.1⟩

/-- C56. The score of a point is `1 - epsmax / eps` (0 if `eps` is 0), where `eps` is the weight of the last line in which the point carries a
    cluster label `l`, and `epsmax` is the smallest death level of the childless clusters at or below `l`, provided the hierarchy splits at all. -/
theorem C56_glosh (hq : SortsAscending qsort) (hm : 1 ≤ minPoints) (hn1 : 2 ≤ n) (hn : n < 2 ^ 31)
    (hget : ∀ i j, i < n → j < n → i ≠ j → dis.get ar.zeroW i j = .ok (d i j)) (hsym : ∀ i j, d i j = d j i)
    (hcore : ∀ i, i < n → dis.coreDistances[i]? = some (some (core i)))
    (hmax : ∀ i j, i < n → j < n → i ≠ j → mutualReach d core i j < ar.dmax) (sch : Run.Schedule) (order : List Nat) (hsch : sch.Complete) (ho : order.Perm (List.range n)) :
    ∃ out : Run.Full W S T, Run.full qsort ar smax ops sch order minPoints dis n = .ok out ∧
      (out.clusters.length ≠ 2 → ∀ o ∈ out.outliers, ∃ eps epsmax l i, 1 ≤ i ∧ l ≠ 0 ∧ Carries out.hierarchy i o.id l ∧ HasWeight out.hierarchy i eps ∧
        (∀ j x, i < j → Carries out.hierarchy j o.id x → x = 0) ∧ LowestBelow out.clusters l epsmax ∧
        o.score = if eps = ar.zeroW then ops.zero else ops.ratio epsmax eps) := by
  obtain ⟨out, h1, h2, h3, h4⟩ := full_rep qsort ar smax ops minPoints dis n d core hq hm hn1 hn hget hsym hcore hmax
  refine ⟨out, h1 sch order hsch ho, fun hl o ho => ?_⟩
  obtain ⟨_, _, eps, l, c, _, _, _, _, ⟨i, i1, i2, i3, i4, i5⟩, q, _, r⟩ := h4 o ho
  exact ⟨eps, c.propLowest, l, i, i1, i2, i3, i4, i5, (r hl).2.1, q⟩

end

/-- The exact score: `1 - a / b`. -/
def exactScore (K : Type) [Field K] : Outlier.Ops K K := { zero := 0, ratio := fun a b => 1 - a / b }

section
variable {K : Type} [Field K] [LinearOrder K] [IsStrictOrderedRing K] [CCmp S] (qsort : (OScore K K → OScore K K → Int) → List (OScore K K) → List (OScore K K))
    (ar : Arith K S) (smax : S) (minPoints : Nat) (dis : Distance K) (n : Nat) (d : Nat → Nat → K) (core : Nat → K)

/-- C40, the part that holds: with positive distances and positive core distances (minPoints ≥ 2), every score lies in [0, 1) whenever the hierarchy splits.
    Missing: hierarchies that never split, for which the claim is false (`C40_unsplit_negative`); minPoints = 1, where core distances are 0. -/
theorem C40_range_partial (hq : SortsAscending qsort) (hm : 1 ≤ minPoints) (hn1 : 2 ≤ n) (hn : n < 2 ^ 31)
    (hget : ∀ i j, i < n → j < n → i ≠ j → dis.get ar.zeroW i j = .ok (d i j)) (hsym : ∀ i j, d i j = d j i)
    (hcore : ∀ i, i < n → dis.coreDistances[i]? = some (some (core i))) (hpos : ∀ i, i < n → 0 < core i)
    (hmax : ∀ i j, i < n → j < n → i ≠ j → mutualReach d core i j < ar.dmax) (sch : Run.Schedule) (order : List Nat) (hsch : sch.Complete) (ho : order.Perm (List.range n)) :
    ∃ out : Run.Full K S K, Run.full qsort ar smax (exactScore K) sch order minPoints dis n = .ok out ∧
      (out.clusters.length ≠ 2 → ∀ o ∈ out.outliers, 0 ≤ o.score ∧ o.score < 1) := by
  obtain ⟨out, h1, h2, h3, h4⟩ := full_rep qsort ar smax (exactScore K) minPoints dis n d core hq hm hn1 hn hget hsym hcore hmax
  have hw : ∀ w, ((∃ i, i < n ∧ w = core i) ∨ ∃ i j, i < n ∧ j < n ∧ i ≠ j ∧ w = mutualReach d core i j) → 0 < w := by
    rintro w (⟨i, hi, rfl⟩ | ⟨i, j, hi, hj, hij, rfl⟩)
    · exact hpos i hi
    · refine lt_of_lt_of_le (hpos i hi) ?_
      simp [mutualReach]
  refine ⟨out, h1 sch order hsch ho, fun hl o ho => ?_⟩
  obtain ⟨_, _, eps, l, c, _, _, _, q4, _, q, _, r⟩ := h4 o ho
  obtain ⟨r1, _, r3⟩ := r hl
  have he := hw eps q4
  have hc := hw _ r3
  rw [q]
  simp only [exactScore]
  split
  · exact ⟨le_refl _, one_pos⟩
  · exact ⟨by rw [sub_nonneg, div_le_one he]; exact r1, by linarith [div_pos hc he]⟩

/-- C40 is violated by every data set with positive core distances whose hierarchy never splits: all scores are negative. -/
theorem C40_unsplit_negative (hq : SortsAscending qsort) (hm : 1 ≤ minPoints) (hn1 : 2 ≤ n) (hn : n < 2 ^ 31) (hz : ar.zeroW = 0)
    (hget : ∀ i j, i < n → j < n → i ≠ j → dis.get ar.zeroW i j = .ok (d i j)) (hsym : ∀ i j, d i j = d j i)
    (hcore : ∀ i, i < n → dis.coreDistances[i]? = some (some (core i))) (hpos : ∀ i, i < n → 0 < core i)
    (hmax : ∀ i j, i < n → j < n → i ≠ j → mutualReach d core i j < ar.dmax) (sch : Run.Schedule) (order : List Nat) (hsch : sch.Complete) (ho : order.Perm (List.range n)) :
    ∃ out : Run.Full K S K, Run.full qsort ar smax (exactScore K) sch order minPoints dis n = .ok out ∧
      (out.clusters.length = 2 → ∀ o ∈ out.outliers, o.score < 0) := by
  obtain ⟨out, h1, h2, h3, h4⟩ := full_rep qsort ar smax (exactScore K) minPoints dis n d core hq hm hn1 hn hget hsym hcore hmax
  refine ⟨out, h1 sch order hsch ho, fun hl o ho => ?_⟩
  obtain ⟨_, _, eps, l, c, _, _, _, q4, _, q, r, _⟩ := h4 o ho
  have he : 0 < eps ∧ eps < ar.dmax := by
    rcases q4 with ⟨i, hi, rfl⟩ | ⟨i, j, hi, hj, hij, rfl⟩
    · obtain ⟨j, hj, hij⟩ : ∃ j, j < n ∧ i ≠ j := by
        by_cases h0 : i = 0
        · exact ⟨1, by omega, by omega⟩
        · exact ⟨0, by omega, h0⟩
      exact ⟨hpos i hi, lt_of_le_of_lt (by simp [mutualReach]) (hmax i j hi hj hij)⟩
    · exact ⟨lt_of_lt_of_le (hpos i hi) (by simp [mutualReach]), hmax i j hi hj hij⟩
  rw [q, r hl, hz]
  simp only [exactScore]
  rw [if_neg he.1.ne']
  have := (one_lt_div he.1).2 he.2
  linarith

end

/-! ### Concrete cases -/

/-- Insertion sort with a C comparison function. -/
def ins {α : Type} (cmp : α → α → Int) (x : α) : List α → List α
  | [] => [x]
  | y :: r => if cmp x y ≤ 0 then x :: y :: r else y :: ins cmp x r

def isort {α : Type} (cmp : α → α → Int) (xs : List α) : List α := xs.foldr (ins cmp) []

theorem ins_perm {α : Type} (cmp : α → α → Int) (x : α) : ∀ l : List α, (ins cmp x l).Perm (x :: l)
  | [] => .refl _
  | y :: r => by
    unfold ins
    split
    · exact .refl _
    · exact ((ins_perm cmp x r).cons y).trans (.swap _ _ _)

/-- There is a function that meets the contract of `qsort`. -/
theorem isort_sorts (α : Type) : SortsAscending (isort (α := α)) := by
  intro cmp xs h
  have key : ∀ l : List α, (∀ x ∈ l, x ∈ xs) → (isort cmp l).Perm l ∧ (isort cmp l).Pairwise (fun a b => cmp a b ≤ 0) := by
    intro l hl
    induction l with
    | nil => exact ⟨.refl _, .nil⟩
    | cons a l ih =>
      obtain ⟨p, s⟩ := ih (fun x hx => hl x (by simp [hx]))
      refine ⟨(ins_perm cmp a _).trans (p.cons a), ?_⟩
      have hmem : ∀ x ∈ isort cmp l, x ∈ xs := fun x hx => hl x (by simp [p.mem_iff.1 hx])
      have ha := hl a (by simp)
      show (ins cmp a (isort cmp l)).Pairwise _
      generalize isort cmp l = ys at s hmem
      clear p ih
      induction ys with
      | nil => exact List.pairwise_singleton _ _
      | cons y r ih =>
        unfold ins
        rw [List.pairwise_cons] at s
        split
        · rename_i hle
          refine List.pairwise_cons.2 ⟨fun z hz => ?_, List.pairwise_cons.2 s⟩
          rcases List.mem_cons.1 hz with rfl | hz
          · exact hle
          · exact h.trans a ha y (hmem y (by simp)) z (hmem z (by simp [hz])) hle (s.1 z hz)
        · rename_i hle
          refine List.pairwise_cons.2 ⟨fun z hz => ?_, ih s.2 (fun x hx => hmem x (by simp [hx]))⟩
          rcases List.mem_cons.1 ((ins_perm cmp a r).mem_iff.1 hz) with rfl | hz
          · have := (h.swap y (hmem y (by simp)) z ha).2 (by omega)
            omega
          · exact s.1 z hz
  exact key xs (fun x hx => hx)

/-- Five points on a line over the rationals. -/
def lineArithQ : Arith Rat Rat :=
  { zeroW := 0, dmax := 1000, zeroS := 0, add := (· + ·), term := fun k w b => match b with | some b => k * (1 / w - 1 / b) | none => 0 }

def lineDistQ (i j : Nat) : Rat := (lineDist i j : Rat)

def lineDataQ : Distance Rat :=
  { rows := 5, cols := 1, numNeighbors := 1
    distances := [some 7, some 1, some 9, some 3, some 6, some 2, some 4, some 8, some 2, some 6]
    coreDistances := [some 1, some 2, some 1, some 2, some 2] }

/-- The hypotheses of C39, C40 and C56 hold for five points on a line. -/
theorem line_hyps : (∀ i j, i < 5 → j < 5 → i ≠ j → lineDataQ.get lineArithQ.zeroW i j = .ok (lineDistQ i j)) ∧ (∀ i j, lineDistQ i j = lineDistQ j i) ∧
    (∀ i, i < 5 → lineDataQ.coreDistances[i]? = some (some (([1, 2, 1, 2, 2] : List Rat).getD i 0))) ∧ (∀ i, i < 5 → 0 < ([1, 2, 1, 2, 2] : List Rat).getD i 0) ∧
    (∀ i j, i < 5 → j < 5 → i ≠ j → mutualReach lineDistQ (fun i => ([1, 2, 1, 2, 2] : List Rat).getD i 0) i j < lineArithQ.dmax) := by
  refine ⟨fun i j hi hj => (by decide +kernel : ∀ i, i < 5 → ∀ j, j < 5 → i ≠ j → lineDataQ.get lineArithQ.zeroW i j = .ok (lineDistQ i j)) i hi j hj, fun i j => ?_,
    by decide +kernel, by decide +kernel,
    fun i j hi hj => (by decide +kernel : ∀ i, i < 5 → ∀ j, j < 5 → i ≠ j → mutualReach lineDistQ (fun i => ([1, 2, 1, 2, 2] : List Rat).getD i 0) i j < lineArithQ.dmax) i hi j hj⟩
  rw [lineDistQ, lineDistQ, lineDist, lineDist, ← Int.natAbs_neg, Int.neg_sub]

example := C39_sorted isort lineArithQ 100000 (exactScore Rat) 2 lineDataQ 5 lineDistQ _ (isort_sorts _) (by omega) (by omega) (by omega)
  line_hyps.1 line_hyps.2.1 line_hyps.2.2.1 line_hyps.2.2.2.2
example := C56_glosh isort lineArithQ 100000 (exactScore Rat) 2 lineDataQ 5 lineDistQ _ (isort_sorts _) (by omega) (by omega) (by omega)
  line_hyps.1 line_hyps.2.1 line_hyps.2.2.1 line_hyps.2.2.2.2 seqSchedule _ seqSchedule_complete (.refl _)
example := C40_range_partial isort lineArithQ 100000 2 lineDataQ 5 lineDistQ _ (isort_sorts _) (by omega) (by omega) (by omega)
  line_hyps.1 line_hyps.2.1 line_hyps.2.2.1 line_hyps.2.2.2.1 line_hyps.2.2.2.2 seqSchedule _ seqSchedule_complete (.refl _)

/-- The scores of that data set, in order: (id, score). -/
example : (Run.full isort lineArithQ 100000 (exactScore Rat) seqSchedule (List.range 5) 2 lineDataQ 5 >>= fun o => .ok (o.outliers.map (fun s => (s.id, s.score)))) =
    .ok [(0, 0), (2, 0), (1, 0), (3, 0), (4, 1 / 2)] := by decide +kernel

/-- That hierarchy splits, so the conclusions of C40 and C56 are not empty. -/
example : (Run.full isort lineArithQ 100000 (exactScore Rat) seqSchedule (List.range 5) 2 lineDataQ 5 >>= fun o => .ok o.clusters.length) = .ok 4 := by decide +kernel

/-- Three points of equal distance: nothing splits. -/
def triangleQ : Distance Rat :=
  { rows := 3, cols := 1, numNeighbors := 1, distances := [some 2, some 2, some 2], coreDistances := [some 2, some 2, some 2] }

/-- C40 is violated: the scores of three points of equal distance are -499 (with D_MAX = 1000). -/
theorem C40_violated : (Run.full isort lineArithQ 100000 (exactScore Rat) seqSchedule (List.range 3) 2 triangleQ 3 >>= fun o => .ok (o.outliers.map (fun s => (s.id, s.score)))) =
    .ok [(0, -499), (1, -499), (2, -499)] := by decide +kernel

end Verif.Props
