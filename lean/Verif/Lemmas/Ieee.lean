import Verif.Lemmas.CutSpec
import Mathlib.Order.WithBot
/-
Helper lemmas: NaN on top of the numbers.
-/
namespace Verif.Cut
open Spec Relation
variable {D V S T : Type}

/-- NaN as a top element. -/
def up : Ieee V → WithTop V
  | .nan => ⊤
  | .num v => (v : WithTop V)

theorem up_inj : Function.Injective (up : Ieee V → WithTop V) := by
  intro a b h
  cases a <;> cases b <;> simp_all [up]

/-- The linear order with NaN on top of the numbers. -/
abbrev nanTop [LinearOrder V] : LinearOrder (Ieee V) := LinearOrder.lift' up up_inj

theorem nan_lt [LinearOrder V] (a b : Ieee V) : nanTop.lt a b ↔ up a < up b := Iff.rfl

theorem nan_le [LinearOrder V] (a b : Ieee V) : nanTop.le a b ↔ up a ≤ up b := Iff.rfl

theorem le_num [LinearOrder V] {y dmax : Ieee V} (h : ∃ v, dmax = .num v) (hy : nanTop.le y dmax) : ∃ b, y = .num b := by
  obtain ⟨v, rfl⟩ := h
  cases y with
  | nan =>
    rw [nan_le] at hy
    simp [up] at hy
  | num b => exact ⟨b, rfl⟩

/-- The comparisons of IEEE 754 agree with that order when the bound is a number. -/
def ieee [LinearOrder V] {dmax : Ieee V} (h : ∃ v, dmax = .num v) : @Cmp (Ieee V) nanTop dmax :=
  @Cmp.mk (Ieee V) nanTop dmax inferInstance
    (fun x y hy => by
      obtain ⟨b, rfl⟩ := le_num h hy
      rw [Bool.eq_iff_iff, decide_eq_true_iff, nan_lt]
      cases x <;> simp [CCmp.lt, up])
    (fun x y hy => by
      obtain ⟨b, rfl⟩ := le_num h hy
      rw [Bool.eq_iff_iff, decide_eq_true_iff, nan_le]
      cases x <;> simp [CCmp.le, up])
    (fun x y hx => by
      obtain ⟨b, rfl⟩ := le_num h hx
      rw [Bool.eq_iff_iff, @decide_eq_true_iff _ (_)]
      cases y <;> simp [CCmp.eq])

theorem notBelow_iff [LinearOrder V] {dmax : Ieee V} (h : ∃ v, dmax = .num v) (x : Ieee V) : NotBelow dmax x ↔ nanTop.le dmax x := by
  obtain ⟨v, rfl⟩ := h
  unfold NotBelow
  rw [nan_le]
  cases x <;> simp [CCmp.lt, up]

theorem le_iff [LinearOrder V] {x dmax : Ieee V} (h : ∃ v, dmax = .num v) : CCmp.le x dmax = true ↔ nanTop.le x dmax := by
  obtain ⟨v, rfl⟩ := h
  rw [nan_le]
  cases x <;> simp [CCmp.le, up]

theorem lt_iff [LinearOrder V] {x dmax : Ieee V} (h : ∃ v, dmax = .num v) : CCmp.lt x dmax = true ↔ nanTop.lt x dmax := by
  obtain ⟨v, rfl⟩ := h
  rw [nan_lt]
  cases x <;> simp [CCmp.lt, up]

/-- Runs on two data sets whose distances differ where they are not below `D_MAX` only. -/
theorem any_pair [LinearOrder V] [CCmp S] [LinearOrder T] {env : Api.Env D (Ieee V) S T} (hd : ∃ v, env.ar.dmax = .num v) {data data' : List D} {rows cols cols' : Nat}
    {f f' : Nat → Nat → Ieee V} (h : Readable env data rows cols f) (h' : Readable env data' rows cols' f')
    (hs : ∀ i j, i < j → j < rows → env.dops.sqrt (f i j) = env.dops.sqrt (f' i j) ∨ (NotBelow env.ar.dmax (env.dops.sqrt (f i j)) ∧ NotBelow env.ar.dmax (env.dops.sqrt (f' i j))))
    (hq : SortsAscending env.qsort) (hrows : 1 ≤ rows) :
    ∃ (C C' : Nat → Distance (Ieee V)) (core : Nat → Nat → Ieee V) (O : Nat → Run.Full (Ieee V) S T), ∀ m, 2 ≤ m →
      (∀ i j, i < rows → j < rows → (C m).get env.ar.zeroW i j = .ok (distOf env.dops f i j)) ∧
      (∀ i j, i < rows → j < rows → (C' m).get env.ar.zeroW i j = .ok (distOf env.dops f' i j)) ∧
      (∀ i, i < rows → (C m).coreDistances[i]? = some (some (core m i)) ∧ (C' m).coreDistances[i]? = some (some (core m i)) ∧ CCmp.le (core m i) env.ar.dmax = true ∧
        (CCmp.lt (core m i) env.ar.dmax = true ↔ AtLeast m (fun j => j < rows ∧ CCmp.lt (distOf env.dops f' i j) env.ar.dmax = true))) ∧
      Sound env.ar rows m (distOf env.dops f') (core m) (O m) ∧
      (∀ par, Complete rows rows par →
        (5 ≤ rows → Api.fresh env par m data rows cols true = .ok ⟨m, rows, C m, O m⟩) ∧
        (5 ≤ rows → Api.fresh env par m data' rows cols' true = .ok ⟨m, rows, C' m, O m⟩) ∧
        (∀ m', 2 ≤ m' → Api.rerun env par m ⟨m', rows, C m', O m'⟩ = .ok ⟨m, rows, C m, O m⟩) ∧
        ∀ m', 2 ≤ m' → Api.rerun env par m ⟨m', rows, C' m', O m'⟩ = .ok ⟨m, rows, C' m, O m⟩) := by
  obtain ⟨C, C', core, O, key⟩ := @api_cut D (Ieee V) S T nanTop _ _ env (ieee hd) data data' rows cols cols' f f' h h' (fun i j hi hj => by
    rcases hs i j hi hj with e | ⟨e1, e2⟩
    · exact .inl e
    · exact .inr ⟨(notBelow_iff hd _).1 e1, (notBelow_iff hd _).1 e2⟩) hq hrows
  have hfew := h.few
  refine ⟨C, C', core, O, fun m hm => ?_⟩
  obtain ⟨k1, k2, k3, k4⟩ := key m hm
  refine ⟨k1, k2, fun i hi => ⟨(k3 i hi).1, (k3 i hi).2.1, (le_iff hd).2 (k3 i hi).2.2.1, ?_⟩, ?_, fun par hp => ?_⟩
  · rw [lt_iff hd, (k3 i hi).2.2.2]
    have : (fun j => j < rows ∧ nanTop.lt (distOf env.dops f' i j) env.ar.dmax) = (fun j => j < rows ∧ CCmp.lt (distOf env.dops f' i j) env.ar.dmax = true) := by
      funext j
      rw [lt_iff hd]
    exact iff_of_eq (congrArg (AtLeast m) this)
  · obtain ⟨e, _⟩ := k4 ⟨Distance.pairs rows, List.range rows, Props.seqSchedule, List.range rows⟩ ⟨.refl _, .refl _, Props.seqSchedule_complete, .refl _⟩
    exact @full_sound (Ieee V) S T nanTop _ _ env.qsort env.ar (ieee hd) env.smax env.oops m (C' m) rows (distOf env.dops f') (core m) hq hm hrows (by omega)
      (fun i j hi hj _ => k2 i j hi hj) (Props.distOf_symm _ _) (fun i hi => (k3 i hi).2.1) (fun i hi => (k3 i hi).2.2.1) _ _ Props.seqSchedule_complete (.refl _) _ e
  · obtain ⟨_, a1, a2, a3, a4⟩ := k4 par hp
    exact ⟨a1, a2, a3, a4⟩

end Verif.Cut
