import Verif.Model.RaceRun
import Verif.Model.Fp
import Verif.Lemmas.Fp
import Verif.Props.Double
/-
C106: the same numbers give the same results whatever the type of the data is.
-/
namespace Verif.Props
open Verif Verif.Spec Verif.Binary64

section
variable {D D' W S T : Type}

/-- The sum depends on the differences only. -/
theorem sumFrom_types {ops : DistOps D W} {ops' : DistOps D' W} (φ : D → D') {data : List D} (ha : ops.add = ops'.add) (hm : ops.mul = ops'.mul)
    (hd : ∀ a ∈ data, ∀ b ∈ data, ops.diff a b = ops'.diff (φ a) (φ b)) (cols i j : Nat) :
    ∀ (n k : Nat) (s : W), Distance.sumFrom ops data cols i j n k s = Distance.sumFrom ops' (data.map φ) cols i j n k s := by
  intro n
  induction n with
  | zero => intros; rfl
  | succ n ih =>
    intro k s
    have hr : ∀ p, rd (data.map φ) p = (rd data p >>= fun a => .ok (φ a)) := by
      intro p
      unfold rd
      rw [List.getElem?_map]
      cases data[p]? <;> rfl
    unfold Distance.sumFrom
    rw [hr, hr]
    cases ea : rd data (i * cols + k) with
    | ok a =>
      cases eb : rd data (j * cols + k) with
      | ok b =>
        have hmem : ∀ {p a}, rd data p = .ok a → a ∈ data := by
          intro p a h
          unfold rd at h
          cases e : data[p]? with
          | none => rw [e] at h; cases h
          | some x => rw [e] at h; cases h; exact List.mem_of_getElem? e
        simp only [Outcome.ok_bind]
        rw [← hd a (hmem ea) b (hmem eb)]
        cases ops.diff a b <;> simp only [Outcome.ok_bind, Outcome.ub_bind, Outcome.abort_bind, Outcome.diverge_bind]
        rw [ih, ha, hm]
      | ub s => rfl
      | abort s => rfl
      | diverge => rfl
    | ub s => rfl
    | abort s => rfl
    | diverge => rfl

/-- So do the distances. -/
theorem compute_types [CCmp W] {ops : DistOps D W} {ops' : DistOps D' W} (φ : D → D') {data : List D} (ha : ops.add = ops'.add) (hm : ops.mul = ops'.mul) (hs : ops.sqrt = ops'.sqrt)
    (hz : ops.zero = ops'.zero) (hd : ∀ a ∈ data, ∀ b ∈ data, ops.diff a b = ops'.diff (φ a) (φ b)) (dmax : W) (order : List (Nat × Nat)) (corder : List Nat) (rows cols nn : Nat) :
    Distance.compute ops dmax order corder data rows cols nn = Distance.compute ops' dmax order corder (data.map φ) rows cols nn := by
  have hl : ∀ m, Distance.computeLoop ops data cols rows order m = Distance.computeLoop ops' (data.map φ) cols rows order m := by
    induction order with
    | nil => intros; rfl
    | cons p r ih =>
      obtain ⟨i, j⟩ := p
      intro m
      unfold Distance.computeLoop Distance.computeCell
      rw [sumFrom_types φ ha hm hd, hs, hz]
      simp only [ih]
  unfold Distance.compute
  rw [hl, hz]

/-- And the results. -/
theorem fresh_types [CCmp W] [CCmp S] [CCmp T] {env : Api.Env D W S T} {env' : Api.Env D' W S T} (φ : D → D') {data : List D} (e1 : env'.ar = env.ar) (e2 : env'.smax = env.smax)
    (e3 : env'.oops = env.oops) (e4 : env'.qsort = env.qsort) (ha : env.dops.add = env'.dops.add) (hm : env.dops.mul = env'.dops.mul) (hs : env.dops.sqrt = env'.dops.sqrt)
    (hz : env.dops.zero = env'.dops.zero) (hd : ∀ a ∈ data, ∀ b ∈ data, env.dops.diff a b = env'.dops.diff (φ a) (φ b)) (m rows cols : Nat) (rowwise : Bool) (par : Api.Par) :
    Api.fresh env par m data rows cols rowwise = Api.fresh env' par m (data.map φ) rows cols rowwise ∧
    ∀ th, Race.fresh th env par m data rows cols rowwise = Race.fresh th env' par m (data.map φ) rows cols rowwise := by
  have h := fun nn => compute_types φ ha hm hs hz hd env.ar.dmax par.pairs par.cores rows cols nn
  refine ⟨?_, fun th => ?_⟩
  · unfold Api.fresh Api.run Api.doRun
    simp only [h, e1, e2, e3, e4]
  · unfold Race.fresh Race.doRun
    simp only [h, e1, e2, e3, e4]

end

abbrev Sorter := (OScore Dbl (Num754 binary64) → OScore Dbl (Num754 binary64) → Int) → List (OScore Dbl (Num754 binary64)) → List (OScore Dbl (Num754 binary64))

/-- **C106, proved part, integers.** Whole numbers up to `2 ^ 53` in size that are given as `char`, `short`, `int` or `long`, none of whose differences overflows, have the same results as
    the same numbers given as `double`: the outcome of the run is the same, for all parameters, schedules and interleavings. -/
theorem C106_integers_partial (qsort : Sorter) (bits : Nat) (data : List ℤ) (hx : ∀ x ∈ data, |x| ≤ 2 ^ 53) (hd : ∀ x ∈ data, ∀ y ∈ data, -2 ^ (bits - 1) ≤ x - y ∧ x - y < 2 ^ (bits - 1))
    (m rows cols : Nat) (rowwise : Bool) (par : Api.Par) :
    Api.fresh (fpEnv (integerOps bits) qsort) par m data rows cols rowwise = Api.fresh (fpEnv doubleOps qsort) par m (data.map fun x : ℤ => Fp.of (x : ℚ)) rows cols rowwise ∧
    ∀ th, Race.fresh th (fpEnv (integerOps bits) qsort) par m data rows cols rowwise = Race.fresh th (fpEnv doubleOps qsort) par m (data.map fun x : ℤ => Fp.of (x : ℚ)) rows cols rowwise := by
  refine fresh_types (env := fpEnv (integerOps bits) qsort) (env' := fpEnv doubleOps qsort) (fun x : ℤ => (Fp.of (x : ℚ) : Dbl)) rfl rfl rfl rfl rfl rfl rfl rfl ?_ m rows cols rowwise par
  intro a ha b hb
  show (if -2 ^ (bits - 1) ≤ a - b ∧ a - b < 2 ^ (bits - 1) then _ else _) = Outcome.ok ((Fp.of (a : ℚ) : Dbl).sub (Fp.of (b : ℚ)))
  rw [if_pos (hd a ha b hb)]
  have hfin : ∀ x ∈ data, ∃ y : Fin754 binary64, (Fp.of (x : ℚ) : Dbl) = Fp.fin y ∧ y.1 = x := by
    intro x hxd
    have h1 := hx x hxd
    have h2 : IsDouble (x : ℚ) := by
      rcases lt_or_eq_of_le h1 with h | h
      · exact ⟨x, 0, h, by norm_num, by simp⟩
      · rcases abs_eq (by norm_num : (0 : ℤ) ≤ 2 ^ 53) |>.1 h with h | h
        · exact ⟨1, 53, by norm_num, by norm_num, by rw [h]; norm_num⟩
        · exact ⟨-1, 53, by norm_num, by norm_num, by rw [h]; norm_num⟩
    have h3 : |(x : ℚ)| < 2 ^ (1024 : ℤ) := by
      have : |(x : ℚ)| ≤ 2 ^ 53 := by exact_mod_cast h1
      refine lt_of_le_of_lt this ?_
      rw [← zpow_natCast]
      exact zpow_lt_zpow_right₀ (by norm_num) (by norm_num)
    exact ⟨_, fp_of_binary (f := binary64) h2 h3, rfl⟩
  obtain ⟨x, x1, x2⟩ := hfin a ha
  obtain ⟨y, y1, y2⟩ := hfin b hb
  rw [x1, y1, fp_sub, x2, y2]
  push_cast
  rfl

/-- A `float` is a `double`. -/
theorem binary_wider {x : ℚ} (h : IsBinary binary32 x) : IsDouble x := by
  obtain ⟨m, e, h1, h2, h3⟩ := h
  refine ⟨m, e, lt_of_lt_of_le h1 ?_, le_trans (by decide) h2, h3⟩
  show (2 : ℤ) ^ (23 + 1) ≤ 2 ^ 53
  norm_num

theorem widen_fin (x : Fin754 binary32) : ∃ y : Fin754 binary64, Fp.widen (Fp.fin x) = Fp.fin y ∧ y.1 = x.1 := by
  have h : |x.1| < 2 ^ (1024 : ℤ) := lt_trans x.2.2 (zpow_lt_zpow_right₀ (by norm_num) (by decide))
  exact ⟨_, fp_of_binary (f := binary64) (binary_wider x.2.1) h, rfl⟩

theorem infinite_sub (neg : Bool) (x : Fin754 binary32) : Fp.widen ((Fp.inf neg : Flt).sub (Fp.fin x)) = (Fp.widen (Fp.inf neg)).sub (Fp.widen (Fp.fin x)) := by
  have hn : ∀ {f : Format} (x : Fin754 f), ∃ y, Fp.neg (Fp.fin x) = Fp.fin y :=
    fun x => ⟨_, fp_of_binary (isBinary_neg x.2.1) (by rw [abs_neg]; exact x.2.2)⟩
  obtain ⟨y, h1, _⟩ := widen_fin x
  obtain ⟨z, h2⟩ := hn x
  obtain ⟨z', h3⟩ := hn y
  unfold Fp.sub
  rw [h1, h2, h3]
  cases neg <;> rfl

/-- **C106, proved part, `float`.** Values of type `float`, NaN and infinities included, whose finite differences are `float`s have the same results as the same values given as `double`.
    Missing: differences that are rounded, for which the claim is false (`C106_violated`). -/
theorem C106_float_partial (qsort : Sorter) (data : List Flt)
    (hd : ∀ x y : Fin754 binary32, Fp.fin x ∈ data → Fp.fin y ∈ data → IsBinary binary32 (x.1 - y.1) ∧ |x.1 - y.1| < 2 ^ binary32.top) (m rows cols : Nat) (rowwise : Bool) (par : Api.Par) :
    Api.fresh (fpEnv floatOps qsort) par m data rows cols rowwise = Api.fresh (fpEnv doubleOps qsort) par m (data.map Fp.widen) rows cols rowwise ∧
    ∀ th, Race.fresh th (fpEnv floatOps qsort) par m data rows cols rowwise = Race.fresh th (fpEnv doubleOps qsort) par m (data.map Fp.widen) rows cols rowwise := by
  refine fresh_types (env := fpEnv floatOps qsort) (env' := fpEnv doubleOps qsort) Fp.widen rfl rfl rfl rfl rfl rfl rfl rfl ?_ m rows cols rowwise par
  intro a ha b hb
  show Outcome.ok (Fp.widen (a.sub b)) = .ok ((Fp.widen a).sub (Fp.widen b))
  congr 1
  match a, b, ha, hb with
  | .nan, _, _, _ => rfl
  | .num .ninf, .nan, _, _ => rfl
  | .num .pinf, .nan, _, _ => rfl
  | .num .ninf, .num .ninf, _, _ => rfl
  | .num .ninf, .num .pinf, _, _ => rfl
  | .num .pinf, .num .ninf, _, _ => rfl
  | .num .pinf, .num .pinf, _, _ => rfl
  | .num (.fin x), .nan, _, _ =>
    obtain ⟨y, h1, _⟩ := widen_fin x
    rw [h1]; rfl
  | .num (.fin x), .num .ninf, _, _ =>
    obtain ⟨y, h1, _⟩ := widen_fin x
    rw [h1]; rfl
  | .num (.fin x), .num .pinf, _, _ =>
    obtain ⟨y, h1, _⟩ := widen_fin x
    rw [h1]; rfl
  | .num .ninf, .num (.fin x), _, _ => exact infinite_sub true x
  | .num .pinf, .num (.fin x), _, _ => exact infinite_sub false x
  | .num (.fin x), .num (.fin y), hx, hy =>
    obtain ⟨h1, h2⟩ := hd x y hx hy
    obtain ⟨x', e1, f1⟩ := widen_fin x
    obtain ⟨y', e2, f2⟩ := widen_fin y
    rw [e1, e2, fp_sub, fp_sub, fp_of_binary h1 h2, f1, f2]
    rfl

/-! ### Concrete cases -/

/-- Three groups of two. -/
def farFloats : List Flt := [Fp.of 0, Fp.of (1 / 2), Fp.of (2 ^ 24), Fp.of (2 ^ 24 + 2), Fp.of (-2 ^ 24), Fp.of (-2 ^ 24 - 2)]

/-- C106 is violated by `float` data whose differences are rounded: the cluster tree and the labels differ from those of the same numbers given as `double`. -/
theorem C106_violated : ∃ par, Complete 6 6 par ∧
    (Api.fresh (fpEnv floatOps isort) par 2 farFloats 6 1 true >>= fun o => .ok (o.results.clusters.length, o.results.labels)) = .ok (5, [3, 3, 2, 2, 4, 4]) ∧
    (Api.fresh (fpEnv doubleOps isort) par 2 (farFloats.map Fp.widen) 6 1 true >>= fun o => .ok (o.results.clusters.length, o.results.labels)) = .ok (6, [4, 4, 5, 5, 3, 3]) :=
  ⟨backPar 6 6, backPar_complete 6 6, by decide +kernel, by decide +kernel⟩

/-- Whole numbers up to `2 ^ 22` meet the requirement. -/
theorem whole_floats {data : List ℤ} (h : ∀ x ∈ data, |x| ≤ 2 ^ 22) (x y : Fin754 binary32) (hx : Fp.fin x ∈ data.map fun x : ℤ => (Fp.of (x : ℚ) : Flt))
    (hy : Fp.fin y ∈ data.map fun x : ℤ => (Fp.of (x : ℚ) : Flt)) : IsBinary binary32 (x.1 - y.1) ∧ |x.1 - y.1| < 2 ^ binary32.top := by
  have hbig : ((2 : ℚ) ^ (24 : ℕ)) < 2 ^ binary32.top := by
    rw [← zpow_natCast]
    exact zpow_lt_zpow_right₀ (by norm_num) (by decide)
  have hval : ∀ z : Fin754 binary32, (Fp.fin z ∈ data.map fun x : ℤ => (Fp.of (x : ℚ) : Flt)) → ∃ a : ℤ, z.1 = a ∧ |a| ≤ 2 ^ 22 := by
    intro z hz
    obtain ⟨a, ha, e⟩ := List.mem_map.1 hz
    have h1 := h a ha
    have h2 : IsBinary binary32 (a : ℚ) := ⟨a, 0, lt_of_le_of_lt h1 (by decide), by decide, by simp⟩
    have h3 : |(a : ℚ)| < 2 ^ binary32.top := by
      have : |(a : ℚ)| ≤ 2 ^ 22 := by exact_mod_cast h1
      exact lt_trans (lt_of_le_of_lt this (by norm_num)) hbig
    rw [fp_of_binary h2 h3] at e
    injection e with e
    injection e with e
    exact ⟨a, by rw [← e], h1⟩
  obtain ⟨a, ha, ha'⟩ := hval x hx
  obtain ⟨b, hb, hb'⟩ := hval y hy
  rw [ha, hb]
  have hab : |a - b| ≤ 2 ^ 23 := by
    refine (abs_sub a b).trans ?_
    calc |a| + |b| ≤ 2 ^ 22 + 2 ^ 22 := add_le_add ha' hb'
      _ = 2 ^ 23 := by norm_num
  refine ⟨⟨a - b, 0, lt_of_le_of_lt hab (by decide), by decide, by push_cast; simp⟩, ?_⟩
  have : |(a : ℚ) - b| ≤ 2 ^ 23 := by exact_mod_cast hab
  exact lt_trans (lt_of_le_of_lt this (by norm_num)) hbig

/-- Whole numbers. -/
def wholePts : List ℤ := [0, 1, 5, 6, 20, 22, -3]

example := C106_integers_partial isort 32 wholePts (by decide) (by decide) 2 7 1 true (backPar 7 7)
example := C106_float_partial isort (wholePts.map fun x : ℤ => Fp.of (x : ℚ)) (whole_floats (by decide)) 2 7 1 true (backPar 7 7)

end Verif.Props
