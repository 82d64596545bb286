import Verif.Lemmas.CoreTie
import Verif.Spec.Distance
import Verif.Lemmas.Core
/-
Properties C17-C20: distances and core distances.
-/
namespace Verif.Props
open Spec
variable {D W : Type}

/-! ### C17 -/

/-- C17: up to 65536 points, the cells of the packed matrix are in bijection with the unordered pairs of different
    points, all accesses are in bounds, and reading and writing agree on the cell. -/
theorem C17_packed_bijection (n : Nat) (hn : n ≤ 65536) :
    (∀ i j, i < n → j < n → i ≠ j → addressed n i j < subCells n) ∧
    (∀ i j, addressed n i j = addressed n j i) ∧
    (∀ i j i' j', i < n → j < n → i ≠ j → i' < n → j' < n → i' ≠ j' → addressed n i j = addressed n i' j' →
      (i = i' ∧ j = j') ∨ (i = j' ∧ j = i')) ∧
    (∀ c, c < subCells n → ∃ i j, i < j ∧ j < n ∧ addressed n i j = c) ∧
    (∀ i j, i < j → j < n → cellSet n i j = addressed n i j) := by
  have hA : ∀ i j, i < j → j < n → addressed n i j = Distance.cell n i j := by
    intro i j h hj; rw [addressed, if_pos h, Distance.cellGet_eq hn h hj]
  have hB : ∀ i j, i < j → j < n → addressed n j i = Distance.cell n i j := by
    intro i j h hj; rw [addressed, if_neg (by omega), Distance.cellGet_eq hn h hj]
  refine ⟨?_, ?_, ?_, ?_, ?_⟩
  · intro i j hi hj hne
    rw [Distance.subCells_eq hn]
    rcases Nat.lt_or_gt_of_ne hne with h | h
    · rw [hA i j h hj]; exact Distance.cell_lt h hj
    · rw [hB j i h hi]; exact Distance.cell_lt h hi
  · intro i j
    unfold addressed
    rcases Nat.lt_trichotomy i j with h | h | h
    · rw [if_pos h, if_neg (by omega)]
    · rw [h]
    · rw [if_neg (by omega), if_pos h]
  · intro i j i' j' hi hj hne hi' hj' hne' e
    rcases Nat.lt_or_gt_of_ne hne with h | h <;> rcases Nat.lt_or_gt_of_ne hne' with h' | h'
    · rw [hA i j h hj, hA i' j' h' hj'] at e
      exact .inl (Distance.cell_inj h hj h' hj' e)
    · rw [hA i j h hj, hB j' i' h' hi'] at e
      exact .inr (Distance.cell_inj h hj h' hi' e)
    · rw [hB j i h hi, hA i' j' h' hj'] at e
      have := Distance.cell_inj h hi h' hj' e
      exact .inr ⟨this.2, this.1⟩
    · rw [hB j i h hi, hB j' i' h' hi'] at e
      have := Distance.cell_inj h hi h' hi' e
      exact .inl ⟨this.2, this.1⟩
  · intro c hc
    rw [Distance.subCells_eq hn] at hc
    obtain ⟨i, j, h, hj, e⟩ := Distance.cell_surj n (le_refl n) c hc
    exact ⟨i, j, h, hj, by rw [hA i j h hj, e]⟩
  · intro i j h hj
    rw [hA i j h hj, Distance.cellSet_eq hn h hj]

example : (65536 : Nat) ≤ 65536 ∧ addressed 65536 65534 65535 = 2147450879 ∧ subCells 65536 = 2147450880 := by
  decide

/-- The inner loop computes the sum of the squared differences of the specification. -/
theorem sumFrom_iff {ops : DistOps D W} {data : List D} {cols i j : Nat} : ∀ {n k : Nat} {s0 s : W}, Distance.sumFrom ops data cols i j n k s0 = .ok s ↔
    ∃ ds : List W, ds.length = n ∧ s = ds.foldl (fun s d => ops.add s (ops.mul d d)) s0 ∧
      ∀ x d, ds[x]? = some d → ∃ a b, data[i * cols + (k + x)]? = some a ∧ data[j * cols + (k + x)]? = some b ∧ ops.diff a b = .ok d
  | 0, k, s0, s => by
    simp only [Distance.sumFrom, List.length_eq_zero_iff]
    constructor
    · intro h; cases h; exact ⟨[], rfl, rfl, by simp⟩
    · rintro ⟨ds, rfl, rfl, _⟩; rfl
  | n + 1, k, s0, s => by
    have hrd : ∀ (p : Nat) (a : D), rd data p = .ok a ↔ data[p]? = some a := by
      intro p a
      simp only [rd]
      cases data[p]? with
      | none => simp
      | some b => simp
    simp only [Distance.sumFrom, Outcome.bind_eq_ok, sumFrom_iff, hrd]
    constructor
    · rintro ⟨a, ha, b, hb, d, hd, ds, hl, rfl, h⟩
      refine ⟨d :: ds, by simp [hl], rfl, ?_⟩
      intro x e he
      cases x with
      | zero => cases he; exact ⟨a, b, ha, hb, hd⟩
      | succ x =>
        have := h x e he
        rwa [show k + 1 + x = k + (x + 1) by omega] at this
    · rintro ⟨ds, hl, rfl, h⟩
      cases ds with
      | nil => simp at hl
      | cons d ds =>
        obtain ⟨a, b, ha, hb, hd⟩ := h 0 d rfl
        refine ⟨a, ha, b, hb, d, hd, ds, by simpa using hl, rfl, ?_⟩
        intro x e he
        have := h (x + 1) e he
        rwa [show k + (x + 1) = k + 1 + x by omega] at this

theorem sqSum_iff {ops : DistOps D W} {data : List D} {cols i j : Nat} {s : W} :
    Distance.sumFrom ops data cols i j cols 0 ops.zero = .ok s ↔ SqSum ops data cols i j s := by
  rw [sumFrom_iff, SqSum]
  simp only [Nat.zero_add]

theorem computeLoop_ub {ops : DistOps D W} {data : List D} {cols n : Nat} (i j : Nat) :
    ∀ (order : List (Nat × Nat)) (m : List (Option W)),
    (∀ p ∈ order, ∃ s, Distance.sumFrom ops data cols p.1 p.2 cols 0 ops.zero = .ok s) →
    (i, j) ∈ order → m.length ≤ cellSet n i j → (Distance.computeLoop ops data cols n order m).IsUB := by
  intro order
  induction order with
  | nil => intro m _ h; simp at h
  | cons p r ih =>
    intro m hs hm hlen
    obtain ⟨a, b⟩ := p
    obtain ⟨s, es⟩ := hs (a, b) (by simp)
    simp only at es
    have e : Distance.computeLoop ops data cols n ((a, b) :: r) m =
      (wr m (cellSet n a b) (some (ops.sqrt s)) >>= Distance.computeLoop ops data cols n r) := by
        rw [Distance.computeLoop, Distance.computeCell, es, Outcome.ok_bind]
    rw [e]
    by_cases hc : cellSet n a b < m.length
    · rw [wr_ok hc, Outcome.ok_bind]
      have hne : (i, j) ≠ (a, b) := by
        intro he
        obtain ⟨rfl, rfl⟩ := Prod.mk.inj he
        exact absurd hc (not_lt.mpr hlen)
      refine ih _ (fun p hp => hs p (List.mem_cons_of_mem _ hp)) ?_ ?_
      · rcases List.mem_cons.mp hm with h | h
        · exact absurd h hne
        · exact h
      · rw [List.length_set]; exact hlen
    · rw [wr_ub hc, Outcome.ub_bind]
      exact ⟨_, rfl⟩

/-- C17 beyond the limit: with 65537 points only 32768 cells are allocated and `distance_compute` writes outside them,
    whatever the data and the schedule. -/
theorem C17_limit_violated [CCmp W] (ops : DistOps D W) (dmax : W) (data : List D) (cols nn : Nat)
    (order : List (Nat × Nat)) (corder : List Nat) (ho : order.Perm (Distance.pairs 65537))
    (hd : ∀ p ∈ order, ∃ s, SqSum ops data cols p.1 p.2 s) :
    (Distance.compute ops dmax order corder data 65537 cols nn).IsUB := by
  have hmem : ((0, 40000) : Nat × Nat) ∈ order := ho.mem_iff.mpr (Distance.mem_pairs.mpr (by decide))
  obtain ⟨s, e⟩ := computeLoop_ub (n := 65537) 0 40000 order (List.replicate (subCells 65537) none)
    (fun p hp => (hd p hp).imp fun _ h => sqSum_iff.2 h) hmem (by
    rw [List.length_replicate]; decide)
  refine ⟨s, ?_⟩
  unfold Distance.compute
  rw [e]; rfl

/-- The data hypothesis of the previous theorem is met by any number of points on a line. -/
example (n : Nat) (x : Int) : ∀ p ∈ Distance.pairs n, ∃ s,
    SqSum exactIntOps (List.replicate n x) 1 p.1 p.2 s := by
  intro p hp
  obtain ⟨h1, h2⟩ := Distance.mem_pairs.mp hp
  refine ⟨0, sqSum_iff.1 ?_⟩
  simp only [Distance.sumFrom]
  rw [rd_ok (by simp; omega), rd_ok (by simp; omega)]
  simp [exactIntOps]

/-! ### C18 -/

theorem coreOf_congr [CCmp W] {zero dmax : W} {d1 d2 : Distance W} (h1 : d1.rows = d2.rows) (h2 : d1.distances = d2.distances)
    (h3 : d1.numNeighbors = d2.numNeighbors) (i : Nat) : Distance.coreOf zero dmax d1 i = Distance.coreOf zero dmax d2 i := by
  have hg : ∀ a b, d1.get zero a b = d2.get zero a b := by intro a b; simp [Distance.get, h1, h2]
  have hl : ∀ js sd, Distance.coreLoop zero d1 i js sd = Distance.coreLoop zero d2 i js sd := by
    intro js
    induction js with
    | nil => intro sd; rfl
    | cons j r ih => intro sd; simp only [Distance.coreLoop, ih, hg, h3]
  unfold Distance.coreOf
  rw [hl, h1, h3]

/-- `distance_compute` on up to 65536 rows fills the matrix, whatever the schedule; helper for C18-C20. -/
theorem compute_rep [CCmp W] {ops : DistOps D W} (dmax : W) {data : List D} {rows cols nn : Nat} {f : Nat → Nat → W}
    {order : List (Nat × Nat)} {corder : List Nat} (hn : rows ≤ 65536)
    (ho : order.Perm (Distance.pairs rows)) (hco : corder.Perm (List.range rows))
    (hf : ∀ i j, i < j → j < rows → Distance.sumFrom ops data cols i j cols 0 ops.zero = .ok (f i j)) :
    ∃ (dis : Distance W) (core : Nat → W), Distance.compute ops dmax order corder data rows cols nn = .ok dis ∧
      dis.rows = rows ∧ dis.cols = cols ∧ dis.numNeighbors = nn ∧
      (∀ i j, i < j → j < rows → dis.get ops.zero i j = .ok (ops.sqrt (f i j)) ∧
        dis.get ops.zero j i = .ok (ops.sqrt (f i j))) ∧
      (∀ i, dis.get ops.zero i i = .ok ops.zero) ∧
      (∀ i, i < rows → Distance.coreOf ops.zero dmax dis i = .ok (core i) ∧ dis.coreDistances[i]? = some (some (core i))) ∧
      dis.coreDistances.length = rows ∧
      (∃ m, Distance.computeLoop ops data cols rows order (List.replicate (subCells rows) none) = .ok m ∧ dis.distances = m) := by
  obtain ⟨m, e, hml, hm⟩ := Distance.computeLoop_rep hn hf order (List.replicate (subCells rows) none)
    (fun p hp => Distance.mem_pairs.mp (ho.mem_iff.mp hp)) (by simp [Distance.subCells_eq hn])
  have hget : ∀ (dis : Distance W), dis.rows = rows → dis.distances = m → ∀ i j, i < j → j < rows →
      dis.get ops.zero i j = .ok (ops.sqrt (f i j)) ∧ dis.get ops.zero j i = .ok (ops.sqrt (f i j)) := by
    intro dis h1 h2 i j h hj
    have hr : rdInit m (cellGet rows i j) = .ok (ops.sqrt (f i j)) := by
      have := hm i j h hj
      rw [if_pos (ho.mem_iff.mpr (Distance.mem_pairs.mpr ⟨h, hj⟩))] at this
      simp [rdInit, rd, Distance.cellGet_eq hn h hj, this]
    unfold Distance.get
    rw [if_pos h, if_neg (by omega), if_neg (by omega), h1, h2, hr]
    exact ⟨rfl, rfl⟩
  have hself : ∀ (dis : Distance W) i, dis.get ops.zero i i = .ok ops.zero := by
    intro dis i; simp [Distance.get]
  have hcore : ∀ (dis : Distance W), dis.rows = rows → dis.distances = m → ∀ i, i < rows →
      ∃ x, Distance.coreOf ops.zero dmax dis i = .ok x := by
    intro dis h1 h2 i hi
    have : ∀ j, ∃ x, j < dis.rows → dis.get ops.zero i j = .ok x := by
      intro j
      rcases Nat.lt_trichotomy i j with h | h | h
      · exact ⟨_, fun hj => (hget dis h1 h2 i j h (by omega)).1⟩
      · exact ⟨_, fun hj => by rw [← h]; exact hself dis i⟩
      · exact ⟨_, fun hj => (hget dis h1 h2 j i h hi).2⟩
    choose d hd using this
    obtain ⟨x, e, _⟩ := Distance.coreOf_safe (dmax := dmax) hd
    exact ⟨x, e⟩
  let dis0 : Distance W := { rows := rows, cols := cols, numNeighbors := nn, distances := m, coreDistances := List.replicate rows none }
  have hc0 : ∀ i, ∃ x, i < rows → Distance.coreOf ops.zero dmax dis0 i = .ok x := by
    intro i
    by_cases hi : i < rows
    · obtain ⟨x, ex⟩ := hcore dis0 rfl rfl i hi; exact ⟨x, fun _ => ex⟩
    · exact ⟨dmax, fun h => absurd h hi⟩
  choose core hcore' using hc0
  obtain ⟨c, ec, hcl, hc⟩ := Distance.coreAll_rows (dis := dis0) (core := core) hcore' corder (List.replicate rows none)
    (fun i hi => List.mem_range.mp (hco.mem_iff.mp hi)) (by simp [dis0])
  refine ⟨{ dis0 with coreDistances := c }, core, ?_, rfl, rfl, rfl, hget _ rfl rfl, hself _, ?_, hcl, m, e, rfl⟩
  · simp only [Distance.compute, e, Outcome.ok_bind, Distance.getCoreDistances]
    show (Distance.coreAll ops.zero dmax dis0 corder (List.replicate rows none) >>= _) = _
    rw [ec]; rfl
  · intro i hi
    refine ⟨?_, ?_⟩
    · rw [← hcore' i hi]
      refine coreOf_congr ?_ ?_ ?_ i <;> rfl
    · have := hc i hi
      rw [if_pos (hco.mem_iff.mpr (List.mem_range.mpr hi))] at this
      exact this

/-- The sum of squares the inner loop accumulates, over the reals. -/
theorem sumFrom_real (data : List ℝ) (cols i j : Nat) (hi : (i + 1) * cols ≤ data.length) (hj : (j + 1) * cols ≤ data.length) :
    ∀ n k s, k + n = cols → Distance.sumFrom realOps data cols i j n k s =
      .ok (s + ∑ x ∈ Finset.Ico k cols, (data.getD (i * cols + x) 0 - data.getD (j * cols + x) 0) ^ 2) := by
  intro n
  induction n with
  | zero => intro k s h; simp at h; subst h; simp [Distance.sumFrom]
  | succ n ih =>
    intro k s h
    have h1 : i * cols + k < data.length := by nlinarith
    have h2 : j * cols + k < data.length := by nlinarith
    simp only [Distance.sumFrom, rd_ok h1, rd_ok h2, Outcome.ok_bind, realOps]
    have := ih (k + 1) (s + (data[i * cols + k] - data[j * cols + k]) * (data[i * cols + k] - data[j * cols + k])) (by omega)
    simp only [realOps] at this
    rw [this]
    rw [Finset.sum_eq_sum_Ico_succ_bot (by omega : k < cols)]
    simp only [List.getD_eq_getElem?_getD, List.getElem?_eq_getElem h1, List.getElem?_eq_getElem h2, Option.getD_some]
    congr 1
    ring

/-- C18: in exact arithmetic `distance_get` returns the Euclidean distance, for every schedule of the parallel loops. -/
theorem C18_euclidean_distance [CCmp ℝ] (dmax : ℝ) (data : List ℝ) (rows cols nn : Nat) (hn : rows ≤ 65536)
    (hdata : rows * cols ≤ data.length) (order : List (Nat × Nat)) (corder : List Nat)
    (ho : order.Perm (Distance.pairs rows)) (hco : corder.Perm (List.range rows)) :
    ∃ dis, Distance.compute realOps dmax order corder data rows cols nn = .ok dis ∧
      ∀ i j, i < rows → j < rows → dis.get 0 i j = .ok (euclid data cols i j) ∧ dis.get 0 i j = dis.get 0 j i := by
  have hle : ∀ i, i < rows → (i + 1) * cols ≤ data.length := by
    intro i hi
    exact le_trans (Nat.mul_le_mul_right _ hi) hdata
  obtain ⟨dis, core, e, h1, h2, h3, hget, hself, _⟩ := compute_rep (ops := realOps) dmax (data := data) (cols := cols) (nn := nn)
    hn ho hco (f := fun i j => ∑ x ∈ Finset.range cols, (data.getD (i * cols + x) 0 - data.getD (j * cols + x) 0) ^ 2) (by
      intro i j h hj
      rw [sumFrom_real data cols i j (hle i (by omega)) (hle j hj) cols 0 _ (by omega)]
      rw [Finset.range_eq_Ico]
      simp [realOps])
  have hsym : ∀ i j, euclid data cols i j = euclid data cols j i := by
    intro i j
    unfold euclid
    congr 1
    apply Finset.sum_congr rfl
    intro k _; ring
  refine ⟨dis, e, ?_⟩
  intro i j hi hj
  rcases Nat.lt_trichotomy i j with h | h | h
  · have := hget i j h hj
    exact ⟨this.1, this.1.trans this.2.symm⟩
  · subst h
    refine ⟨(hself i).trans ?_, rfl⟩
    simp [euclid, realOps]
  · have := hget j i h hi
    refine ⟨this.2.trans ?_, this.2.trans this.1.symm⟩
    rw [hsym i j]; rfl

/-- C18 for any arithmetic (for instance IEEE doubles with rounding, or `float` data): the result is symmetric, zero on
    the diagonal, the same for every schedule, and the value of the loop over the columns for that pair of rows. -/
theorem C18_any_arithmetic [CCmp W] (ops : DistOps D W) (dmax : W) (data : List D) (rows cols nn : Nat) (hn : rows ≤ 65536)
    (f : Nat → Nat → W)
    (hf : ∀ i j, i < j → j < rows → SqSum ops data cols i j (f i j))
    (order : List (Nat × Nat)) (corder : List Nat)
    (ho : order.Perm (Distance.pairs rows)) (hco : corder.Perm (List.range rows)) :
    ∃ dis, Distance.compute ops dmax order corder data rows cols nn = .ok dis ∧
      ∀ i j, i < rows → j < rows →
        dis.get ops.zero i j = .ok (if i < j then ops.sqrt (f i j) else if i = j then ops.zero else ops.sqrt (f j i)) := by
  obtain ⟨dis, core, e, h1, h2, h3, hget, hself, _⟩ := compute_rep (ops := ops) dmax (data := data) (cols := cols) (nn := nn) hn ho hco (fun i j h hj => sqSum_iff.2 (hf i j h hj))
  refine ⟨dis, e, ?_⟩
  intro i j hi hj
  rcases Nat.lt_trichotomy i j with h | h | h
  · rw [if_pos h]; exact (hget i j h hj).1
  · subst h; simp [hself i]
  · rw [if_neg (by omega), if_neg (by omega)]; exact (hget j i h hi).2

/-- Three points in the plane, visited in a scrambled order. -/
example : [(1, 2), (0, 2), (0, 1)].Perm (Distance.pairs 3) ∧ [2, 0, 1].Perm (List.range 3) ∧
    3 * 2 ≤ ([0, 0, 3, 4, 0, 8] : List ℝ).length := by
  refine ⟨by decide, by decide, by norm_num⟩

/-- C18 fails for `int` data whose differences leave the range of `int`: the subtraction is undefined. -/
theorem C18_int_overflow_violated [CCmp ℝ] (dmax : ℝ) :
    (Distance.compute int32Ops dmax [(0, 1)] [0, 1] [2147483647, -1] 2 1 1).IsUB := by
  refine ⟨"signed overflow", ?_⟩
  simp [Distance.compute, Distance.computeLoop, Distance.computeCell, Distance.sumFrom, rd, int32Ops]

/-! ### C19 -/

/-- C19, the proved part: with minPoints = nn + 1 at most the number of rows and all distances at most `D_MAX`, the core distance of point `i` is the minPoints-th smallest distance from it, provided
    that minPoints is at most 2 or equal to the number of rows, or that every distance from this point that occurs more than once is smaller than the minPoints-th smallest or the smallest of all
    (duplicates of the point itself).
    Missing: repeated distances from the minPoints-th smallest on, where the claim is false (next theorem). -/
theorem C19_core_distance_partial [LinearOrder W] (ops : DistOps D W) (dmax : W) (data : List D) (rows cols nn : Nat)
    (hn : rows ≤ 65536) (order : List (Nat × Nat)) (corder : List Nat)
    (ho : order.Perm (Distance.pairs rows)) (hco : corder.Perm (List.range rows))
    (dis : Distance W) (hdis : Distance.compute ops dmax order corder data rows cols nn = .ok dis)
    (i : Nat) (hi : i < rows) (d : Nat → W) (hd : ∀ j, j < rows → dis.get ops.zero i j = .ok (d j))
    (hmax : ∀ j, j < rows → d j ≤ dmax) (hk : nn + 1 ≤ rows)
    (htie : TiesBelow rows (nn + 1) d) :
    ∃ x, dis.coreDistances[i]? = some (some x) ∧ IsKth ((List.range rows).map d) (nn + 1) x := by
  -- what compute returned
  have hparts : dis.rows = rows ∧ dis.numNeighbors = nn ∧ ∃ x, Distance.coreOf ops.zero dmax dis i = .ok x ∧
      dis.coreDistances[i]? = some (some x) := by
    unfold Distance.compute at hdis
    obtain ⟨m, e1, e2⟩ := Outcome.bind_eq_ok.mp hdis
    unfold Distance.getCoreDistances at e2
    obtain ⟨c, e3, e4⟩ := Outcome.bind_eq_ok.mp e2
    simp only [Outcome.pure_eq, Outcome.ok.injEq] at e4
    subst e4
    have key : ∀ (dis0 : Distance W) (ord : List Nat) (c0 c : List (Option W)), Distance.coreAll ops.zero dmax dis0 ord c0 = .ok c →
        c.length = c0.length ∧ ∀ i, (i ∈ ord → ∃ x, Distance.coreOf ops.zero dmax dis0 i = .ok x ∧ c[i]? = some (some x)) ∧
          (i ∉ ord → c[i]? = c0[i]?) := by
      intro dis0 ord
      induction ord with
      | nil => intro c0 c h; simp [Distance.coreAll] at h; subst h; simp
      | cons p r ih =>
        intro c0 c h
        unfold Distance.coreAll at h
        obtain ⟨x, hx, h⟩ := Outcome.bind_eq_ok.mp h
        obtain ⟨c1, hc1, h⟩ := Outcome.bind_eq_ok.mp h
        unfold wr at hc1
        split at hc1
        · rename_i hp
          simp at hc1; subst hc1
          obtain ⟨hl, hr⟩ := ih _ _ h
          refine ⟨by simpa using hl, ?_⟩
          intro i
          constructor
          · intro him
            by_cases hir : i ∈ r
            · exact (hr i).1 hir
            · have : i = p := by simpa [hir] using him
              subst this
              refine ⟨x, hx, ?_⟩
              rw [(hr i).2 hir]; simp [hp]
          · intro hni
            simp at hni
            rw [(hr i).2 hni.2, List.getElem?_set_ne (Ne.symm hni.1)]
        · simp at hc1
    obtain ⟨x, hx, hcx⟩ := ((key _ _ _ _ e3).2 i).1 (hco.mem_iff.mpr (List.mem_range.mpr hi))
    refine ⟨rfl, rfl, x, ?_, hcx⟩
    rw [← hx]
    refine coreOf_congr ?_ ?_ ?_ i <;> rfl
  obtain ⟨hr, hnn, x, hx, hcx⟩ := hparts
  subst hr hnn
  exact ⟨x, hcx, Distance.coreOf_kth hd hmax hk htie hx⟩

/-- The hypotheses of the partial theorem are met by six points on a line with minPoints = 4: from the first point there are two points at distance 1 and a duplicate. -/
example : ∃ dis : Distance Int,
    Distance.compute exactIntOps 1000 (Distance.pairs 6) (List.range 6) [0, 5, 1, 0, -1, 9] 6 1 4 = .ok dis ∧
    (∀ j, j < 6 → dis.get 0 0 j = .ok ([0, 5, 1, 0, 1, 9].getD j 0)) ∧ TiesBelow 6 5 (fun j => ([0, 5, 1, 0, 1, 9].getD j 0 : Int)) ∧ dis.coreDistances[0]? = some (some 5) := by
  refine ⟨_, rfl, by decide, .inr <| .inr fun j j' hj hj' => ?_, by decide⟩
  exact (by decide : ∀ j, j < 6 → ∀ j', j' < 6 → j ≠ j' → ([0, 5, 1, 0, 1, 9].getD j 0 : Int) = [0, 5, 1, 0, 1, 9].getD j' 0 → (∀ l, l < 6 → ([0, 5, 1, 0, 1, 9].getD j 0 : Int) ≤ [0, 5, 1, 0, 1, 9].getD l 0) ∨
    (List.range 6).countP (fun l => decide (([0, 5, 1, 0, 1, 9].getD l 0 : Int) ≤ [0, 5, 1, 0, 1, 9].getD j 0)) < 5) j hj j' hj'

/-- The hypotheses of the partial theorem are met by four points on a line, two of them equal, with minPoints = 3. -/
example : ∃ dis : Distance Int,
    Distance.compute exactIntOps 1000 (Distance.pairs 4) (List.range 4) [0, 5, 0, 2] 4 1 2 = .ok dis ∧
    (∀ j, j < 4 → dis.get 0 0 j = .ok ([0, 5, 0, 2].getD j 0)) ∧
    (∀ j, j < 4 → ∀ j', j' < 4 → j ≠ j' → ([0, 5, 0, 2].getD j 0 : Int) = [0, 5, 0, 2].getD j' 0 → ∀ l, l < 4 →
      ([0, 5, 0, 2].getD j 0 : Int) ≤ [0, 5, 0, 2].getD l 0) ∧ dis.coreDistances[0]? = some (some 2) := by
  refine ⟨_, rfl, by decide, by decide, by decide⟩

/-- C19 fails: the points 0, 2, 4, -2, 1 on a line with minPoints = 3. The distances from the first point are
    0, 2, 4, 2, 1, the third smallest is 2, the code reports 1. -/
theorem C19_core_distance_violated :
    ∃ dis : Distance Int,
      Distance.compute exactIntOps 1000 (Distance.pairs 5) (List.range 5) [0, 2, 4, -2, 1] 5 1 2 = .ok dis ∧
      (∀ j, j < 5 → dis.get 0 0 j = .ok ([0, 2, 4, 2, 1].getD j 0)) ∧
      dis.coreDistances[0]? = some (some 1) ∧ IsKth ([0, 2, 4, 2, 1] : List Int) 3 2 ∧ ¬ IsKth ([0, 2, 4, 2, 1] : List Int) 3 1 := by
  refine ⟨_, rfl, by decide, by decide, by unfold IsKth; decide, by unfold IsKth; decide⟩

/-- It fails in the other direction, too: the points 1, 2, -2, 0, 0. The distances from the fourth point are 1, 2, 2, 0, 0, the third smallest is 1, the code reports 2. -/
theorem C19_core_distance_too_large :
    ∃ dis : Distance Int,
      Distance.compute exactIntOps 1000 (Distance.pairs 5) (List.range 5) [1, 2, -2, 0, 0] 5 1 2 = .ok dis ∧
      (∀ j, j < 5 → dis.get 0 3 j = .ok ([1, 2, 2, 0, 0].getD j 0)) ∧
      dis.coreDistances[3]? = some (some 2) ∧ IsKth ([1, 2, 2, 0, 0] : List Int) 3 1 ∧ ¬ IsKth ([1, 2, 2, 0, 0] : List Int) 3 2 := by
  refine ⟨_, rfl, by decide, by decide, by unfold IsKth; decide, by unfold IsKth; decide⟩

/-- What always holds: the core distance is defined, and is a distance from that point or `D_MAX`; for any values
    including NaN. -/
theorem C19_core_distance_defined [CCmp W] (ops : DistOps D W) (dmax : W) (data : List D) (rows cols nn : Nat)
    (hn : rows ≤ 65536) (order : List (Nat × Nat)) (corder : List Nat)
    (ho : order.Perm (Distance.pairs rows)) (hco : corder.Perm (List.range rows)) (f : Nat → Nat → W)
    (hf : ∀ i j, i < j → j < rows → SqSum ops data cols i j (f i j)) :
    ∃ dis, Distance.compute ops dmax order corder data rows cols nn = .ok dis ∧
      ∀ i, i < rows → ∃ x, dis.coreDistances[i]? = some (some x) ∧
        (x = dmax ∨ ∃ j, j < rows ∧ dis.get ops.zero i j = .ok x) := by
  obtain ⟨dis, core, e, h1, h2, h3, hget, hself, hcore, _⟩ :=
    compute_rep (ops := ops) dmax (data := data) (cols := cols) (nn := nn) hn ho hco (fun i j h hj => sqSum_iff.2 (hf i j h hj))
  refine ⟨dis, e, ?_⟩
  intro i hi
  have : ∀ j, ∃ x, j < dis.rows → dis.get ops.zero i j = .ok x := by
    intro j
    rcases Nat.lt_trichotomy i j with h | h | h
    · exact ⟨_, fun hj => (hget i j h (by omega)).1⟩
    · exact ⟨_, fun hj => by rw [← h]; exact hself i⟩
    · exact ⟨_, fun hj => (hget j i h hi).2⟩
  choose d hd using this
  obtain ⟨x, ex, hx⟩ := Distance.coreOf_safe (dmax := dmax) hd
  refine ⟨core i, (hcore i hi).2, ?_⟩
  have : core i = x := by
    have := (hcore i hi).1
    rw [ex] at this
    simpa using this.symm
  rw [this]
  rcases hx with h | ⟨j, hj, h⟩
  · exact .inl h
  · exact .inr ⟨j, by omega, by rw [h]; exact hd j hj⟩

/-! ### C20 -/

/-- A sequence of reruns: each sets `numNeighbors` and recomputes the core distances (/repo/src/hdbscan.c 286-287), with
    its own schedule of the parallel loop. -/
def rerunCores [CCmp W] (zero dmax : W) : Distance W → List (Nat × List Nat) → Outcome (Distance W)
  | dis, [] => .ok dis
  | dis, (nn, order) :: r => do
    let dis' ← Distance.getCoreDistances zero dmax order { dis with numNeighbors := nn }
    rerunCores zero dmax dis' r

/-- Recomputing the core distances on filled distances gives the same for any previous core distances and schedule. -/
theorem getCore_rep [CCmp W] {zero dmax : W} {dis : Distance W} {core : Nat → W} {order : List Nat}
    (hc : ∀ i, i < dis.rows → Distance.coreOf zero dmax dis i = .ok (core i)) (hl : dis.coreDistances.length = dis.rows)
    (ho : order.Perm (List.range dis.rows)) :
    Distance.getCoreDistances zero dmax order dis =
      .ok { dis with coreDistances := (List.range dis.rows).map (fun i => some (core i)) } := by
  obtain ⟨c, e, hcl, hci⟩ := Distance.coreAll_rows hc order dis.coreDistances
    (fun i hi => List.mem_range.mp (ho.mem_iff.mp hi)) hl
  unfold Distance.getCoreDistances
  rw [e]
  have : c = (List.range dis.rows).map (fun i => some (core i)) := by
    apply List.ext_getElem?
    intro i
    by_cases hi : i < dis.rows
    · rw [hci i hi, if_pos (ho.mem_iff.mpr (List.mem_range.mpr hi))]; simp [hi]
    · rw [List.getElem?_eq_none (by omega), List.getElem?_eq_none (by simp; omega)]
  rw [this]; rfl

/-- C20: after any sequence of reruns, the distance object is exactly the one a fresh run with the last minPts builds. -/
theorem C20_cores_history_independent [CCmp W] (ops : DistOps D W) (dmax : W) (data : List D) (rows cols nn0 nn : Nat)
    (hn : rows ≤ 65536) (f : Nat → Nat → W)
    (hf : ∀ i j, i < j → j < rows → SqSum ops data cols i j (f i j))
    (order order' : List (Nat × Nat)) (corder corder' : List Nat)
    (ho : order.Perm (Distance.pairs rows)) (ho' : order'.Perm (Distance.pairs rows))
    (hco : corder.Perm (List.range rows)) (hco' : corder'.Perm (List.range rows))
    (hist : List (Nat × List Nat)) (hh : ∀ p ∈ hist, p.2.Perm (List.range rows))
    (last : List Nat) (hl : last.Perm (List.range rows)) :
    ∃ d0 d1, Distance.compute ops dmax order corder data rows cols nn0 = .ok d0 ∧
      rerunCores ops.zero dmax d0 (hist ++ [(nn, last)]) = .ok d1 ∧
      Distance.compute ops dmax order' corder' data rows cols nn = .ok d1 := by
  obtain ⟨d0, core0, e0, h1, h2, h3, hget, hself, hcore, hcl, m, em, hm⟩ :=
    compute_rep (ops := ops) dmax (data := data) (cols := cols) (nn := nn0) hn ho hco (fun i j h hj => sqSum_iff.2 (hf i j h hj))
  obtain ⟨d1, core1, e1, g1, g2, g3, gget, gself, gcore, gcl, m', em', gm⟩ :=
    compute_rep (ops := ops) dmax (data := data) (cols := cols) (nn := nn) hn ho' hco' (fun i j h hj => sqSum_iff.2 (hf i j h hj))
  have hmm : m = m' := by
    obtain ⟨x, ex, hxl, hx⟩ := Distance.computeLoop_rep hn (fun i j h hj => sqSum_iff.2 (hf i j h hj)) order (List.replicate (subCells rows) none)
      (fun p hp => Distance.mem_pairs.mp (ho.mem_iff.mp hp)) (by simp [Distance.subCells_eq hn])
    obtain ⟨y, ey, hyl, hy⟩ := Distance.computeLoop_rep hn (fun i j h hj => sqSum_iff.2 (hf i j h hj)) order' (List.replicate (subCells rows) none)
      (fun p hp => Distance.mem_pairs.mp (ho'.mem_iff.mp hp)) (by simp [Distance.subCells_eq hn])
    rw [em] at ex; rw [em'] at ey
    simp only [Outcome.ok.injEq] at ex ey
    subst ex ey
    apply List.ext_getElem?
    intro c
    by_cases hc : c < Distance.rowStart rows rows
    · obtain ⟨i, j, h, hj, rfl⟩ := Distance.cell_surj rows (le_refl _) c hc
      rw [hx i j h hj, hy i j h hj, if_pos (ho.mem_iff.mpr (Distance.mem_pairs.mpr ⟨h, hj⟩)),
        if_pos (ho'.mem_iff.mpr (Distance.mem_pairs.mpr ⟨h, hj⟩))]
    · rw [List.getElem?_eq_none (by omega), List.getElem?_eq_none (by omega)]
  refine ⟨d0, d1, e0, ?_, e1⟩
  -- any state with these distances
  have gen : ∀ (hist : List (Nat × List Nat)) (d : Distance W), (∀ p ∈ hist, p.2.Perm (List.range rows)) →
      d.rows = rows → d.cols = cols → d.distances = m → d.coreDistances.length = rows →
      rerunCores ops.zero dmax d (hist ++ [(nn, last)]) = .ok d1 := by
    intro hist
    induction hist with
    | nil =>
      intro d _ a1 a2 a3 a4
      have hc : ∀ i, i < ({ d with numNeighbors := nn } : Distance W).rows →
          Distance.coreOf ops.zero dmax { d with numNeighbors := nn } i = .ok (core1 i) := by
        intro i hi
        rw [← (gcore i (by simpa [a1] using hi)).1]
        exact coreOf_congr (by simp [a1, g1]) (by simp [a3, gm, hmm]) (by simp [g3]) i
      simp only [List.nil_append, rerunCores]
      rw [getCore_rep hc (by simp [a4, a1]) (by simpa [a1] using hl)]
      simp only [Outcome.ok_bind, Outcome.ok.injEq]
      have hcs : d1.coreDistances = (List.range rows).map (fun i => some (core1 i)) := by
        apply List.ext_getElem?
        intro i
        by_cases hi : i < rows
        · rw [(gcore i hi).2]; simp [hi]
        · rw [List.getElem?_eq_none (by omega), List.getElem?_eq_none (by simp; omega)]
      cases d1
      simp only at g1 g2 g3 gm hcs
      simp only [Distance.mk.injEq]
      exact ⟨by rw [a1, g1], by rw [a2, g2], g3.symm, by rw [a3, gm, hmm], by rw [hcs, a1]⟩
    | cons p r ih =>
      intro d hp a1 a2 a3 a4
      have hdef : ∀ i, ∃ x, i < rows → Distance.coreOf ops.zero dmax { d with numNeighbors := p.1 } i = .ok x := by
        intro i
        by_cases hi : i < rows
        · have : ∀ j, ∃ x, j < ({ d with numNeighbors := p.1 } : Distance W).rows →
              ({ d with numNeighbors := p.1 } : Distance W).get ops.zero i j = .ok x := by
            intro j
            have hg : ∀ a b, ({ d with numNeighbors := p.1 } : Distance W).get ops.zero a b = d0.get ops.zero a b := by
              intro a b; simp [Distance.get, a1, h1, a3, hm]
            rw [hg]
            show ∃ x, j < d.rows → _
            rw [a1]
            rcases Nat.lt_trichotomy i j with h | h | h
            · exact ⟨_, fun hj => (hget i j h hj).1⟩
            · exact ⟨_, fun hj => by rw [← h]; exact hself i⟩
            · exact ⟨_, fun hj => (hget j i h hi).2⟩
          choose dd hdd using this
          obtain ⟨x, ex, _⟩ := Distance.coreOf_safe (dmax := dmax) hdd
          exact ⟨x, fun _ => ex⟩
        · exact ⟨dmax, fun h => absurd h hi⟩
      choose cc hcc using hdef
      simp only [List.cons_append, rerunCores]
      rw [getCore_rep (core := cc) (by intro i hi; exact hcc i (by simpa [a1] using hi)) (by simp [a4, a1])
        (by simpa [a1] using hp p (by simp))]
      simp only [Outcome.ok_bind]
      exact ih _ (fun q hq => hp q (by simp [hq])) a1 a2 a3 (by simp [a1])
  exact gen hist d0 hh h1 h2 hm hcl

/-- A history for C20: three reruns on four points, each with its own schedule. -/
example : (∀ p ∈ [(1, [3, 1, 0, 2]), (0, [0, 1, 2, 3])], p.2.Perm (List.range 4)) ∧ [2, 3, 0, 1].Perm (List.range 4) ∧
    (Distance.compute exactIntOps 1000 (Distance.pairs 4) (List.range 4) [0, 5, 0, 2] 4 1 2).Returns := by
  refine ⟨by decide, by decide, _, rfl⟩

end Verif.Props
