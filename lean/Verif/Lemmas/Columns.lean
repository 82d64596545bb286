import Verif.Spec.Columns
import Verif.Props.Invariance
import Verif.Model.RaceRun
import Verif.Lemmas.Fp
/-
The sum over the columns as a fold over a list of columns, and runs whose sums agree.
-/
namespace Verif.Columns
open Verif Verif.Spec Verif.Props Verif.Binary64
variable {D W S T : Type}

/-- One column. -/
def step (ops : DistOps D W) (a b : Option D) (s : W) : Outcome W :=
  match a, b with
  | some a, some b => ops.diff a b >>= fun d => .ok (ops.add s (ops.mul d d))
  | _, _ => .ub "out of bounds read"

/-- The sum over the columns of a list. -/
def colSum (ops : DistOps D W) (a b : Nat → Option D) : List Nat → W → Outcome W
  | [], s => .ok s
  | k :: r, s => step ops (a k) (b k) s >>= colSum ops a b r

theorem sumFrom_eq (ops : DistOps D W) (data : List D) (cols i j : Nat) : ∀ (n k : Nat) (s : W), (∀ l, k ≤ l → l < k + n → i * cols + l < data.length ∧ j * cols + l < data.length) →
    Distance.sumFrom ops data cols i j n k s = colSum ops (fun k => data[i * cols + k]?) (fun k => data[j * cols + k]?) (List.range' k n) s := by
  intro n
  induction n with
  | zero => intros; rfl
  | succ n ih =>
    intro k s h
    obtain ⟨h1, h2⟩ := h k (le_refl _) (by omega)
    unfold Distance.sumFrom
    rw [List.range'_succ]
    simp only [colSum, step, rd, List.getElem?_eq_getElem h1, List.getElem?_eq_getElem h2, Outcome.ok_bind]
    cases ops.diff data[i * cols + k] data[j * cols + k] <;> simp only [Outcome.ok_bind, Outcome.ub_bind, Outcome.abort_bind, Outcome.diverge_bind]
    exact ih (k + 1) _ fun l a b => h l (by omega) (by omega)

theorem colSum_append (ops : DistOps D W) (a b : Nat → Option D) (l₁ l₂ : List Nat) : ∀ s, colSum ops a b (l₁ ++ l₂) s = colSum ops a b l₁ s >>= colSum ops a b l₂ := by
  induction l₁ with
  | nil => intro s; rfl
  | cons k r ih =>
    intro s
    simp only [List.cons_append, colSum]
    rw [Outcome.bind_assoc]
    cases step ops (a k) (b k) s <;> simp only [Outcome.ok_bind, Outcome.ub_bind, Outcome.abort_bind, Outcome.diverge_bind]
    exact ih _

theorem colSum_map (ops : DistOps D W) (a b : Nat → Option D) (g : Nat → Nat) (l : List Nat) : ∀ s, colSum ops a b (l.map g) s = colSum ops (fun k => a (g k)) (fun k => b (g k)) l s := by
  induction l with
  | nil => intro s; rfl
  | cons k r ih =>
    intro s
    simp only [List.map_cons, colSum]
    cases step ops (a (g k)) (b (g k)) s <;> simp only [Outcome.ok_bind, Outcome.ub_bind, Outcome.abort_bind, Outcome.diverge_bind]
    exact ih _

theorem colSum_congr {D' : Type} {ops : DistOps D W} {ops' : DistOps D' W} {a b : Nat → Option D} {a' b' : Nat → Option D'} (l : List Nat)
    (h : ∀ k ∈ l, ∀ s, step ops (a k) (b k) s = step ops' (a' k) (b' k) s) : ∀ s, colSum ops a b l s = colSum ops' a' b' l s := by
  induction l with
  | nil => intro s; rfl
  | cons k r ih =>
    intro s
    simp only [colSum]
    rw [h k (List.mem_cons_self ..)]
    cases step ops' (a' k) (b' k) s <;> simp only [Outcome.ok_bind, Outcome.ub_bind, Outcome.abort_bind, Outcome.diverge_bind]
    exact ih (fun k hk => h k (List.mem_cons_of_mem _ hk)) _

/-- Two data sets with the same sums have the same runs. -/
theorem fresh_sums [CCmp W] [CCmp S] [CCmp T] (env : Api.Env D W S T) {data data' : List D} {rows cols cols' : Nat}
    (h : ∀ i j, i < j → j < rows → Distance.sumFrom env.dops data' cols' i j cols' 0 env.dops.zero = Distance.sumFrom env.dops data cols i j cols 0 env.dops.zero) (m : Nat) (par : Api.Par)
    (hp : Complete rows rows par) :
    SameRun cols' (Api.fresh env par m data rows cols true) (Api.fresh env par m data' rows cols' true) ∧
    ∀ th, SameRun cols' (Race.fresh th env par m data rows cols true) (Race.fresh th env par m data' rows cols' true) := by
  have hl : ∀ order : List (Nat × Nat), (∀ x ∈ order, x.1 < x.2 ∧ x.2 < rows) → ∀ cs, Distance.computeLoop env.dops data' cols' rows order cs = Distance.computeLoop env.dops data cols rows order cs := by
    intro order
    induction order with
    | nil => intros; rfl
    | cons x r ih =>
      obtain ⟨i, j⟩ := x
      intro hx cs
      obtain ⟨h1, h2⟩ := hx _ (List.mem_cons_self ..)
      simp only [Distance.computeLoop, Distance.computeCell]
      rw [h i j h1 h2]
      simp only [ih fun y hy => hx y (List.mem_cons_of_mem _ hy)]
  have hc : ∀ nn, Distance.compute env.dops env.ar.dmax par.pairs par.cores data' rows cols' nn =
      Distance.compute env.dops env.ar.dmax par.pairs par.cores data rows cols nn >>= fun d => .ok { d with cols := cols' } := by
    intro nn
    unfold Distance.compute
    rw [hl par.pairs fun x hx => Distance.mem_pairs.1 (hp.pairs.mem_iff.1 hx)]
    cases Distance.computeLoop env.dops data cols rows par.pairs (List.replicate (subCells rows) none) <;> simp only [Outcome.ok_bind, Outcome.ub_bind, Outcome.abort_bind, Outcome.diverge_bind]
    rename_i c
    unfold Distance.getCoreDistances
    have : Distance.coreAll env.dops.zero env.ar.dmax (⟨rows, cols', nn, c, List.replicate rows none⟩ : Distance W) par.cores (List.replicate rows none) =
      Distance.coreAll env.dops.zero env.ar.dmax (⟨rows, cols, nn, c, List.replicate rows none⟩ : Distance W) par.cores (List.replicate rows none) :=
      coreAll_cols (⟨rows, cols, nn, c, List.replicate rows none⟩ : Distance W) cols' _ _ _ _
    show (Distance.coreAll _ _ _ _ _ >>= _) = _
    rw [this]
    cases Distance.coreAll env.dops.zero env.ar.dmax (⟨rows, cols, nn, c, List.replicate rows none⟩ : Distance W) par.cores (List.replicate rows none) <;> rfl
  have hr : ∀ th (dis : Distance W) (sch : Run.Schedule) (order : List Nat) (m n : Nat), Race.full th env.qsort env.ar env.smax env.oops sch order m { dis with cols := cols' } n =
      Race.full th env.qsort env.ar env.smax env.oops sch order m dis n := by
    intro th dis sch order m n
    simp only [Race.full, Mst.construct, Mst.addSelf, grow_cols, selfLoop_cols]
  refine ⟨?_, fun th => ?_⟩
  · unfold SameRun Api.fresh Api.run Api.doRun
    cases Api.initObj m <;> simp only [Outcome.ok_bind, Outcome.ub_bind, Outcome.abort_bind, Outcome.diverge_bind]
    rw [hc]
    rename_i m
    cases Distance.compute env.dops env.ar.dmax par.pairs par.cores data rows cols (subIndex m 1) <;> simp only [Outcome.ok_bind, Outcome.ub_bind, Outcome.abort_bind, Outcome.diverge_bind]
    rename_i d
    show _ = _
    rw [full_cols]
    show _ = _
    simp only [Api.datasetSize, if_true]
    cases (AList.init (Api.csize rows) : Outcome (AList Nat)) <;> simp only [Outcome.ok_bind, Outcome.ub_bind, Outcome.abort_bind, Outcome.diverge_bind]
    cases (HTable.init (Api.csize rows) .int .ptr : Outcome (HTable.Table Int)) <;> simp only [Outcome.ok_bind, Outcome.ub_bind, Outcome.abort_bind, Outcome.diverge_bind]
    cases (HTable.init (Api.csize rows) .long .ptr : Outcome (HTable.Table Int)) <;> simp only [Outcome.ok_bind, Outcome.ub_bind, Outcome.abort_bind, Outcome.diverge_bind]
    cases Run.full env.qsort env.ar env.smax env.oops par.sch par.scores m d rows <;> rfl
  · unfold SameRun Race.fresh Race.doRun
    cases Api.initObj m <;> simp only [Outcome.ok_bind, Outcome.ub_bind, Outcome.abort_bind, Outcome.diverge_bind]
    rw [hc]
    rename_i m
    cases Distance.compute env.dops env.ar.dmax par.pairs par.cores data rows cols (subIndex m 1) <;> simp only [Outcome.ok_bind, Outcome.ub_bind, Outcome.abort_bind, Outcome.diverge_bind]
    rename_i d
    rw [hr]
    simp only [Api.datasetSize, if_true]
    cases (AList.init (Api.csize rows) : Outcome (AList Nat)) <;> simp only [Outcome.ok_bind, Outcome.ub_bind, Outcome.abort_bind, Outcome.diverge_bind]
    cases (HTable.init (Api.csize rows) .int .ptr : Outcome (HTable.Table Int)) <;> simp only [Outcome.ok_bind, Outcome.ub_bind, Outcome.abort_bind, Outcome.diverge_bind]
    cases (HTable.init (Api.csize rows) .long .ptr : Outcome (HTable.Table Int)) <;> simp only [Outcome.ok_bind, Outcome.ub_bind, Outcome.abort_bind, Outcome.diverge_bind]
    cases Race.full th env.qsort env.ar env.smax env.oops par.sch par.scores m d rows <;> rfl

/-- The same with as many columns. -/
theorem fresh_sums_eq [CCmp W] [CCmp S] [CCmp T] (env : Api.Env D W S T) {data data' : List D} {rows cols : Nat}
    (h : ∀ i j, i < j → j < rows → Distance.sumFrom env.dops data' cols i j cols 0 env.dops.zero = Distance.sumFrom env.dops data cols i j cols 0 env.dops.zero) (m : Nat) (par : Api.Par)
    (hp : Complete rows rows par) :
    Api.fresh env par m data' rows cols true = Api.fresh env par m data rows cols true ∧ ∀ th, Race.fresh th env par m data' rows cols true = Race.fresh th env par m data rows cols true := by
  have hl : ∀ order : List (Nat × Nat), (∀ x ∈ order, x.1 < x.2 ∧ x.2 < rows) → ∀ cs, Distance.computeLoop env.dops data' cols rows order cs = Distance.computeLoop env.dops data cols rows order cs := by
    intro order
    induction order with
    | nil => intros; rfl
    | cons x r ih =>
      obtain ⟨i, j⟩ := x
      intro hx cs
      obtain ⟨h1, h2⟩ := hx _ (List.mem_cons_self ..)
      simp only [Distance.computeLoop, Distance.computeCell]
      rw [h i j h1 h2]
      simp only [ih fun y hy => hx y (List.mem_cons_of_mem _ hy)]
  have hc : ∀ nn, Distance.compute env.dops env.ar.dmax par.pairs par.cores data' rows cols nn = Distance.compute env.dops env.ar.dmax par.pairs par.cores data rows cols nn := by
    intro nn
    unfold Distance.compute
    rw [hl par.pairs fun x hx => Distance.mem_pairs.1 (hp.pairs.mem_iff.1 hx)]
  refine ⟨?_, fun th => ?_⟩
  · unfold Api.fresh Api.run
    simp only [hc]
  · unfold Race.fresh
    simp only [hc]

/-- Data with the same differences within each column have the same sums. -/
theorem sum_diffs (ops : DistOps D W) {data data' : List D} {rows cols : Nat} (hdata : rows * cols ≤ data.length) (hdata' : rows * cols ≤ data'.length)
    (h : ∀ (i j k : Nat) (a b a' b' : D), i < rows → j < rows → k < cols → data[i * cols + k]? = some a → data[j * cols + k]? = some b → data'[i * cols + k]? = some a' → data'[j * cols + k]? = some b' →
      ops.diff a' b' = ops.diff a b) {i j : Nat} (hi : i < rows) (hj : j < rows) (s : W) :
    Distance.sumFrom ops data' cols i j cols 0 s = Distance.sumFrom ops data cols i j cols 0 s := by
  have hin : ∀ {x l}, x < rows → l < cols → x * cols + l < rows * cols := by
    intro x l hx hl
    have : (x + 1) * cols ≤ rows * cols := Nat.mul_le_mul_right _ hx
    have : (x + 1) * cols = x * cols + cols := by ring
    omega
  rw [sumFrom_eq _ _ _ _ _ _ _ _ fun l _ hl => ⟨(hin hi (by omega)).trans_le hdata', (hin hj (by omega)).trans_le hdata'⟩,
    sumFrom_eq _ _ _ _ _ _ _ _ fun l _ hl => ⟨(hin hi (by omega)).trans_le hdata, (hin hj (by omega)).trans_le hdata⟩]
  refine colSum_congr _ (fun k hk s => ?_) _
  rw [List.mem_range'_1] at hk
  have g1 := List.getElem?_eq_getElem ((hin hi (show k < cols by omega)).trans_le hdata)
  have g2 := List.getElem?_eq_getElem ((hin hj (show k < cols by omega)).trans_le hdata)
  have g3 := List.getElem?_eq_getElem ((hin hi (show k < cols by omega)).trans_le hdata')
  have g4 := List.getElem?_eq_getElem ((hin hj (show k < cols by omega)).trans_le hdata')
  have := h i j k _ _ _ _ hi hj (by omega) g1 g2 g3 g4
  rw [g1, g2, g3, g4]
  simp only [step, this]

/-- A column whose differences add nothing. -/
theorem sum_constant (ops : DistOps D W) {data data' : List D} {rows cols q : Nat} {c : D} (hdata : rows * cols ≤ data.length) (h : ConstantColumn data data' rows cols q c) {z : W}
    (hz : ops.diff c c = .ok z) (hadd : ∀ s, ops.add s (ops.mul z z) = s) {i j : Nat} (hi : i < rows) (hj : j < rows) (s : W) :
    Distance.sumFrom ops data' (cols + 1) i j (cols + 1) 0 s = Distance.sumFrom ops data cols i j cols 0 s := by
  have hin : ∀ {x l}, x < rows → l < cols → x * cols + l < data.length := by
    intro x l hx hl
    have : (x + 1) * cols ≤ rows * cols := Nat.mul_le_mul_right _ hx
    have : (x + 1) * cols = x * cols + cols := by ring
    omega
  have hin' : ∀ {x l}, x < rows → l < cols + 1 → x * (cols + 1) + l < data'.length := by
    intro x l hx hl
    have hs : ∃ y, data'[x * (cols + 1) + l]? = some y := by
      rcases lt_trichotomy l q with h1 | h1 | h1
      · rw [h.before x l hx h1]
        exact ⟨_, List.getElem?_eq_getElem (hin hx (by have := h.place; omega))⟩
      · rw [h1]; exact ⟨_, h.new x hx⟩
      · obtain ⟨l', rfl⟩ : ∃ l', l = l' + 1 := ⟨l - 1, by omega⟩
        rw [h.after x l' hx (by omega) (by omega)]
        exact ⟨_, List.getElem?_eq_getElem (hin hx (by omega))⟩
    obtain ⟨y, hy⟩ := hs
    exact (List.getElem?_eq_some_iff.1 hy).1
  rw [sumFrom_eq _ _ _ _ _ _ _ _ fun l _ hl => ⟨hin' hi (by omega), hin' hj (by omega)⟩, sumFrom_eq _ _ _ _ _ _ _ _ fun l _ hl => ⟨hin hi (by omega), hin hj (by omega)⟩]
  obtain ⟨r, rfl⟩ : ∃ r, cols = q + r := ⟨cols - q, by have := h.place; omega⟩
  have e1 : List.range' 0 (q + r + 1) = List.range' 0 q ++ q :: (List.range' q r).map (· + 1) := by
    rw [Nat.add_assoc, ← List.range'_append_1, Nat.zero_add, List.range'_succ]
    congr 2
    rw [show (fun x : Nat => x + 1) = (fun x => 1 + x) from funext fun x => Nat.add_comm _ _, List.map_add_range', Nat.add_comm]
  have e2 : List.range' 0 (q + r) = List.range' 0 q ++ List.range' q r := by
    rw [← List.range'_append_1, Nat.zero_add]
  rw [e1, e2, colSum_append, colSum_append]
  rw [colSum_congr (List.range' 0 q) (ops' := ops) (a' := fun k => data[i * (q + r) + k]?) (b' := fun k => data[j * (q + r) + k]?)]
  · cases colSum ops (fun k => data[i * (q + r) + k]?) (fun k => data[j * (q + r) + k]?) (List.range' 0 q) s <;> simp only [Outcome.ok_bind, Outcome.ub_bind, Outcome.abort_bind, Outcome.diverge_bind]
    rename_i t
    simp only [colSum, step, h.new i hi, h.new j hj, hz, Outcome.ok_bind, hadd, colSum_map]
    refine colSum_congr _ (fun k hk s => ?_) _
    rw [List.mem_range'_1] at hk
    rw [h.after i k hi hk.1 (by omega), h.after j k hj hk.1 (by omega)]
  · intro k hk s
    rw [List.mem_range'_1] at hk
    rw [h.before i k hi (by omega), h.before j k hj (by omega)]

/-- Whole numbers whose squared distances are at most `2 ^ 53`: the sum over the columns is exact. -/
theorem colSum_exact {bits : Nat} (a b : Nat → Option ℤ) : ∀ (l : List Nat) (t : ℤ), 0 ≤ t → (∀ k ∈ l, ∃ x y : ℤ, a k = some x ∧ b k = some y ∧ -2 ^ (bits - 1) ≤ x - y ∧ x - y < 2 ^ (bits - 1)) →
    t + (l.map fun k => ((a k).getD 0 - (b k).getD 0) ^ 2).sum ≤ 2 ^ 53 →
    colSum (integerOps bits) a b l (Fp.of (t : ℚ)) = .ok (Fp.of ((t + (l.map fun k => ((a k).getD 0 - (b k).getD 0) ^ 2).sum : ℤ) : ℚ)) := by
  have hd : ∀ x : ℤ, |x| ≤ 2 ^ 53 → ∃ y : Fin754 binary64, (Fp.of (x : ℚ) : Dbl) = Fp.fin y ∧ y.1 = x := by
    intro x h1
    have h2 : IsDouble (x : ℚ) := by
      rcases lt_or_eq_of_le h1 with h | h
      · exact isDouble_int h
      · rcases abs_eq (by norm_num : (0 : ℤ) ≤ 2 ^ 53) |>.1 h with e | e
        · exact ⟨1, 53, by norm_num, by norm_num, by rw [e]; norm_num⟩
        · exact ⟨-1, 53, by norm_num, by norm_num, by rw [e]; norm_num⟩
    have h3 : |(x : ℚ)| < 2 ^ (1024 : ℤ) := by
      have : |(x : ℚ)| ≤ 2 ^ 53 := by exact_mod_cast h1
      exact lt_of_le_of_lt this (by decide +kernel)
    exact ⟨_, fp_of_binary (f := binary64) h2 h3, rfl⟩
  intro l
  induction l with
  | nil => intro t _ _ _; simp [colSum]
  | cons k r ih =>
    intro t ht hin hle
    obtain ⟨x, y, hx, hy, h1, h2⟩ := hin k (List.mem_cons_self ..)
    rw [List.map_cons, List.sum_cons, hx, hy] at hle ⊢
    simp only [Option.getD_some] at hle ⊢
    have hr : 0 ≤ (r.map fun k => ((a k).getD 0 - (b k).getD 0) ^ 2).sum := List.sum_nonneg (by
      intro v hv
      obtain ⟨k, _, rfl⟩ := List.mem_map.1 hv
      positivity)
    have hq : 0 ≤ (x - y) ^ 2 := sq_nonneg _
    have hd1 : |x - y| ≤ 2 ^ 53 := by
      by_cases h0 : x - y = 0
      · rw [h0]; norm_num
      · have h3 : 1 ≤ |x - y| := Int.one_le_abs h0
        have h4 : |x - y| * |x - y| = (x - y) ^ 2 := by rw [abs_mul_abs_self]; ring
        nlinarith
    obtain ⟨d, e1, f1⟩ := hd (x - y) hd1
    obtain ⟨w, e2, f2⟩ := hd ((x - y) ^ 2) (by rw [abs_of_nonneg hq]; omega)
    obtain ⟨u, e3, f3⟩ := hd t (by rw [abs_of_nonneg ht]; omega)
    have hs : step (integerOps bits) (a k) (b k) (Fp.of (t : ℚ)) = .ok (Fp.of ((t + (x - y) ^ 2 : ℤ) : ℚ)) := by
      rw [hx, hy]
      show ((if -2 ^ (bits - 1) ≤ x - y ∧ x - y < 2 ^ (bits - 1) then (Outcome.ok (Fp.of ((x - y : ℤ) : ℚ))) else .ub "signed overflow") >>= fun d => .ok (Fp.add (Fp.of (t : ℚ)) (Fp.mul d d))) = _
      rw [if_pos ⟨h1, h2⟩, Outcome.ok_bind]
      congr 1
      rw [e1, e3]
      show Fp.add (Fp.fin u) (Fp.of (d.1 * d.1)) = _
      have : d.1 * d.1 = (((x - y) ^ 2 : ℤ) : ℚ) := by rw [f1]; push_cast; ring
      rw [this, e2]
      show Fp.of (u.1 + w.1) = _
      rw [f2, f3]
      push_cast
      rfl
    simp only [colSum]
    rw [hs, Outcome.ok_bind, ih _ (by omega) (fun k hk => hin k (List.mem_cons_of_mem _ hk)) (by omega)]
    congr 3
    ring

end Verif.Columns
