import Verif.Lemmas.ParamRun
import Verif.Lemmas.Num
import Verif.Props.Outlier
/-
Helper lemmas: for finite `double` data the model without NaN (`numEnv`) and the model with NaN (`fpEnv`) agree.
-/
namespace Verif.Param
open Verif Spec Verif.Binary64 Verif.Props

/-- A number that is not negative, as a value. -/
def IsNum (v : Num754 binary64) (d : Dbl) : Prop := d = .num v ∧ numArith.zeroW ≤ v

theorem of_num (x : ℚ) : (Fp.of x : Dbl) = .num (Fp.of x : Dbl).toNum := by
  rcases of_cases x with ⟨g, e⟩ | ⟨g, e⟩
  · rw [e]; rfl
  · rw [e]
    generalize decide (x < 0) = s
    cases s <;> rfl

theorem zero_isNum : IsNum numArith.zeroW (Fp.of 0) := ⟨of_num 0, le_refl _⟩

theorem isNum_fin {x : Fin754 binary64} : numArith.zeroW ≤ .fin x ↔ 0 ≤ x.1 := by rw [num_zero, num_fin_le]

theorem isNum_inf : numArith.zeroW ≤ .pinf := num_le_pinf _

theorem isNum_ninf : ¬ numArith.zeroW ≤ (.ninf : Num754 binary64) := by
  rw [num_zero]
  show ¬ Num754.place _ ≤ Num754.place .ninf
  simp [Num754.place]

theorem of_nonneg {x : ℚ} (h : 0 ≤ x) : numArith.zeroW ≤ (Fp.of x : Dbl).toNum := by
  rcases of_cases x with ⟨g, e⟩ | ⟨g, e⟩
  · rw [e]
    exact isNum_fin.2 (fl_nonneg h)
  · rw [e, decide_eq_false (not_lt.2 h)]
    exact isNum_inf

theorem max_isNum : IsNum numArith.dmax Fp.max := by
  refine ⟨of_num _, of_nonneg (by positivity : (0 : ℚ) ≤ (2 ^ 53 - 1) * 2 ^ 971)⟩

/-- The square of a number. -/
theorem square_num (d : Num754 binary64) : IsNum (numOps.mul d d) (Fp.mul (.num d) (.num d)) := by
  match d with
  | .ninf => exact ⟨rfl, isNum_inf⟩
  | .pinf => exact ⟨rfl, isNum_inf⟩
  | .fin x => exact ⟨of_num _, of_nonneg (mul_self_nonneg x.1)⟩

/-- Sums of numbers that are not negative. -/
theorem add_num {a b : Num754 binary64} {a' b' : Dbl} (ha : IsNum a a') (hb : IsNum b b') : IsNum (numOps.add a b) (Fp.add a' b') := by
  obtain ⟨rfl, ha⟩ := ha
  obtain ⟨rfl, hb⟩ := hb
  match a, b, ha, hb with
  | .ninf, _, ha, _ => exact absurd ha isNum_ninf
  | _, .ninf, _, hb => exact absurd hb isNum_ninf
  | .pinf, .pinf, _, _ => exact ⟨rfl, isNum_inf⟩
  | .pinf, .fin _, _, _ => exact ⟨rfl, isNum_inf⟩
  | .fin _, .pinf, _, _ => exact ⟨rfl, isNum_inf⟩
  | .fin x, .fin y, ha, hb => exact ⟨of_num _, of_nonneg (add_nonneg (isNum_fin.1 ha) (isNum_fin.1 hb))⟩

theorem sqrt_num {a : Num754 binary64} {a' : Dbl} (ha : IsNum a a') : IsNum (numOps.sqrt a) (Fp.sqrt a') := by
  obtain ⟨rfl, ha⟩ := ha
  match a, ha with
  | .ninf, ha => exact absurd ha isNum_ninf
  | .pinf, _ => exact ⟨rfl, isNum_inf⟩
  | .fin x, ha =>
    have h0 := isNum_fin.1 ha
    have e : Fp.sqrt (Fp.fin x) = Fp.of (flSqrt x.1) := by
      show (if x.1 < 0 then Ieee.nan else Fp.of (flSqrt x.1) : Dbl) = _
      rw [if_neg (not_lt.2 h0)]
    have h1 : 0 ≤ flSqrt x.1 := by
      have h2 : (0 : ℝ) ≤ flSqrt x.1 := by rw [flSqrt_spec h0]; exact fl_nonneg (Real.sqrt_nonneg _)
      exact_mod_cast h2
    refine ⟨?_, ?_⟩
    · rw [e]
      show _ = Ieee.num (Fp.sqrt (Fp.fin x)).toNum
      rw [e]
      exact of_num _
    · show _ ≤ (Fp.sqrt (Fp.fin x)).toNum
      rw [e]
      exact of_nonneg h1

theorem sum_num (data : List (Fin754 binary64)) (cols i j : Nat) : ∀ (n k : Nat) {s : Num754 binary64} {s' : Dbl}, IsNum s s' →
    ORel IsNum (Distance.sumFrom numOps data cols i j n k s) (Distance.sumFrom doubleOps (data.map Fp.fin) cols i j n k s') := by
  intro n
  induction n with
  | zero => intro k s s' hs; exact .ok hs
  | succ n ih =>
    intro k s s' hs
    have hr : ∀ p, rd (data.map Fp.fin) p = (rd data p >>= fun a => .ok (Fp.fin a)) := by
      intro p
      unfold rd
      rw [List.getElem?_map]
      cases data[p]? <;> rfl
    unfold Distance.sumFrom
    rw [hr, hr, Outcome.bind_assoc]
    refine ORel.bind_same _ fun a => ?_
    rw [Outcome.ok_bind, Outcome.bind_assoc]
    refine ORel.bind_same _ fun b => ?_
    rw [Outcome.ok_bind]
    show ORel IsNum (Distance.sumFrom numOps data cols i j n (k + 1) (numOps.add s (numOps.mul ((Fp.fin a).sub (Fp.fin b)).toNum ((Fp.fin a).sub (Fp.fin b)).toNum)))
      (Distance.sumFrom doubleOps (data.map Fp.fin) cols i j n (k + 1) (Fp.add s' (Fp.mul ((Fp.fin a).sub (Fp.fin b)) ((Fp.fin a).sub (Fp.fin b)))))
    refine ih (k + 1) (add_num hs ?_)
    rw [fp_sub]
    have := square_num (Fp.of (a.1 - b.1) : Dbl).toNum
    rwa [← of_num] at this

/-- A score with its core distance as a value. -/
def upScore (o : OScore (Num754 binary64) (Num754 binary64)) : OScore Dbl (Num754 binary64) := ⟨o.score, .num o.core, o.id⟩
def downScore (o : OScore Dbl (Num754 binary64)) : OScore (Num754 binary64) (Num754 binary64) := ⟨o.score, o.core.toNum, o.id⟩

theorem compare_up (a b : OScore (Num754 binary64) (Num754 binary64)) : outlierCompare (upScore a) (upScore b) = outlierCompare a b := rfl

theorem rel_up {xs : List (OScore (Num754 binary64) (Num754 binary64))} {ys : List (OScore Dbl (Num754 binary64))} (h : LRel (ScRel IsNum) xs ys) : ys = xs.map upScore ∧ ∀ x ∈ xs, numArith.zeroW ≤ x.core := by
  induction h with
  | nil => exact ⟨rfl, by simp⟩
  | @cons a b _ _ h _ ih =>
    refine ⟨?_, ?_⟩
    · rw [List.map_cons, ← ih.1]
      congr 1
      obtain ⟨s, c, i⟩ := b
      have h1 := h.score
      have h2 := h.core.1
      have h3 := h.id
      dsimp only at h1 h2 h3
      subst h1 h2 h3
      rfl
    · intro x hx
      rcases List.mem_cons.1 hx with rfl | hx
      · exact h.core.2
      · exact ih.2 x hx

theorem up_rel : ∀ {xs : List (OScore (Num754 binary64) (Num754 binary64))}, (∀ x ∈ xs, numArith.zeroW ≤ x.core) → LRel (ScRel IsNum) xs (xs.map upScore)
  | [], _ => .nil
  | _ :: _, h => .cons ⟨rfl, ⟨rfl, h _ List.mem_cons_self⟩, rfl⟩ (up_rel fun x hx => h x (List.mem_cons_of_mem _ hx))

/-- Conforming sorting functions return the same order. -/
theorem sort_num {n : Nat} (hn : n ≤ 2 ^ 31) {q : (OScore (Num754 binary64) (Num754 binary64) → OScore (Num754 binary64) (Num754 binary64) → Int) → List (OScore (Num754 binary64) (Num754 binary64)) → List (OScore (Num754 binary64) (Num754 binary64))}
    {q' : (OScore Dbl (Num754 binary64) → OScore Dbl (Num754 binary64) → Int) → List (OScore Dbl (Num754 binary64)) → List (OScore Dbl (Num754 binary64))} (hq : SortsAscending q) (hq' : SortsAscending q') :
    SortRel n IsNum q q' := by
  intro xs ys hxy hids
  obtain ⟨rfl, h0⟩ := rel_up hxy
  have hid : ∀ o ∈ xs, o.id < 2 ^ 31 := by
    intro o ho
    have : o.id ∈ xs.map (fun o => o.id) := List.mem_map.2 ⟨o, ho, rfl⟩
    rw [hids, List.mem_range] at this
    omega
  have hnd : (xs.map (fun o => o.id)).Nodup := by rw [hids]; exact List.nodup_range
  obtain ⟨hord, hbef⟩ := Props.C39_compare xs hid
  have hord' : OrderOn outlierCompare (xs.map upScore) := by
    constructor
    · intro a ha b hb
      obtain ⟨a, ha', rfl⟩ := List.mem_map.1 ha
      obtain ⟨b, hb', rfl⟩ := List.mem_map.1 hb
      exact hord.swap a ha' b hb'
    · intro a ha b hb c hc
      obtain ⟨a, ha', rfl⟩ := List.mem_map.1 ha
      obtain ⟨b, hb', rfl⟩ := List.mem_map.1 hb
      obtain ⟨c, hc', rfl⟩ := List.mem_map.1 hc
      exact hord.trans a ha' b hb' c hc'
  obtain ⟨p1, s1⟩ := hq _ _ hord
  obtain ⟨p2, s2⟩ := hq' _ _ hord'
  generalize q' outlierCompare (xs.map upScore) = zs at p2 s2
  have hz : zs = (zs.map downScore).map upScore := by
    rw [List.map_map]
    conv_lhs => rw [← List.map_id zs]
    refine List.map_congr_left fun z hz => ?_
    obtain ⟨x, _, rfl⟩ := List.mem_map.1 (p2.mem_iff.1 hz)
    rfl
  generalize zs.map downScore = us at hz
  subst hz
  have pu : us.Perm xs := by
    have h := p2.map downScore
    rw [List.map_map, List.map_map] at h
    have e : downScore ∘ upScore = id := rfl
    rwa [e, List.map_id, List.map_id] at h
  have su : us.Pairwise (fun a b => outlierCompare a b ≤ 0) := List.pairwise_map.1 s2
  have he : us = q outlierCompare xs := by
    refine List.Perm.eq_of_pairwise (fun a b ha hb h1 h2 => ?_) su s1 (pu.trans p1.symm)
    have ha' := pu.mem_iff.1 ha
    have hb' := p1.mem_iff.1 hb
    by_contra hne
    have hids : a.id ≠ b.id := fun h => hne (List.inj_on_of_nodup_map hnd ha' hb' h)
    rcases Outlier.before_total a b hids with h | h
    · have := (hord.swap a ha' b hb').1 ((hbef a ha' b hb').2 h); omega
    · have := (hord.swap b hb' a ha').1 ((hbef b hb' a ha').2 h); omega
  rw [← he]
  exact up_rel fun x hx => h0 x (pu.mem_iff.1 hx)

theorem alike_num : Alike IsNum := by
  constructor <;> · rintro a a' b b' ⟨rfl, _⟩ ⟨rfl, _⟩; rfl

theorem ar_num : ArRel IsNum IsNum Eq numArith fpArith := by
  refine ⟨zero_isNum, max_isNum, rfl, ?_⟩
  rintro k a _ w _ b b' rfl ⟨rfl, _⟩ hb
  have e : b' = b.map .num := by
    cases b <;> cases b'
    · rfl
    · exact False.elim hb
    · exact False.elim hb
    · exact congrArg some hb.1
  rw [e]
  rfl

theorem env_num {n : Nat} (hn : n ≤ 2 ^ 31) {q : (OScore (Num754 binary64) (Num754 binary64) → OScore (Num754 binary64) (Num754 binary64) → Int) → List (OScore (Num754 binary64) (Num754 binary64)) → List (OScore (Num754 binary64) (Num754 binary64))}
    {q' : (OScore Dbl (Num754 binary64) → OScore Dbl (Num754 binary64) → Int) → List (OScore Dbl (Num754 binary64)) → List (OScore Dbl (Num754 binary64))} (hq : SortsAscending q) (hq' : SortsAscending q') :
    EnvRel n (fun _ => True) IsNum IsNum Eq (numEnv q) (fpEnv doubleOps q') where
  ar := ar_num
  alike := alike_num
  sub := id
  top h _ := h
  add := by rintro a _ b _ rfl rfl; rfl
  le := by rintro a _ b _ rfl rfl; rfl
  zero := zero_isNum
  scoreZero := rfl
  ratio := by rintro a _ b _ ⟨rfl, _⟩ ⟨rfl, _⟩ _; rfl
  sort := sort_num hn hq hq'

/-- The two models of runs on finite `double` data agree, outcomes other than results included. -/
theorem fresh_num {q : (OScore (Num754 binary64) (Num754 binary64) → OScore (Num754 binary64) (Num754 binary64) → Int) → List (OScore (Num754 binary64) (Num754 binary64)) → List (OScore (Num754 binary64) (Num754 binary64))}
    {q' : (OScore Dbl (Num754 binary64) → OScore Dbl (Num754 binary64) → Int) → List (OScore Dbl (Num754 binary64)) → List (OScore Dbl (Num754 binary64))} (hq : SortsAscending q) (hq' : SortsAscending q')
    (par : Api.Par) (m : Nat) (data : List (Fin754 binary64)) (rows cols : Nat) (hn : rows ≤ 2 ^ 31) :
    ORel (ObjRel IsNum IsNum Eq) (Api.fresh (numEnv q) par m data rows cols true) (Api.fresh (fpEnv doubleOps q') par m (data.map Fp.fin) rows cols true) := by
  refine fresh_rel (env_num hn hq hq') par m data _ cols cols (fun p _ => ?_) (fun dis _ => ?_)
  · exact ORel.mono (sum_num data cols p.1 p.2 cols 0 zero_isNum) fun _ _ h => sqrt_num h
  · exact fun _ _ _ _ => trivial

end Verif.Param
