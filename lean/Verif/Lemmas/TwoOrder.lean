import Verif.Lemmas.ParamRun
import Verif.Lemmas.Fresh
import Verif.Lemmas.TwoFresh
import Verif.Spec.Order
/-
Two runs on data whose distances compare alike.
-/
namespace Verif.Param
open Verif Spec
variable {D D' W W' S S' T T' : Type}

/-- `R` relates the distances of two runs and respects the order. -/
structure Fits [LinearOrder W] [LinearOrder W'] (rows : Nat) (d : Nat → Nat → W) (d' : Nat → Nat → W') (dmax : W) (dmax' : W') (R : W → W' → Prop) : Prop where
  dist : ∀ i j, i < rows → j < rows → R (d i j) (d' i j)
  small : ∀ {a a'}, R a a' → a < dmax ∧ a' < dmax'
  lt : ∀ {a a' b b'}, R a a' → R b b' → (a < b ↔ a' < b')

/-- `R`, or both are `D_MAX`. -/
def OrMax (R : W → W' → Prop) (dmax : W) (dmax' : W') (a : W) (a' : W') : Prop := R a a' ∨ (a = dmax ∧ a' = dmax')

theorem orMax_alike [LinearOrder W] [LinearOrder W'] {rows : Nat} {d : Nat → Nat → W} {d' : Nat → Nat → W'} {dmax : W} {dmax' : W'} {R : W → W' → Prop} (h : Fits rows d d' dmax dmax' R) :
    Alike (OrMax R dmax dmax') := by
  have hlt : ∀ {a a' b b'}, OrMax R dmax dmax' a a' → OrMax R dmax dmax' b b' → (a < b ↔ a' < b') := by
    rintro a a' b b' (ha | ⟨rfl, rfl⟩) (hb | ⟨rfl, rfl⟩)
    · exact h.lt ha hb
    · exact iff_of_true (h.small ha).1 (h.small ha).2
    · exact iff_of_false (h.small hb).1.not_gt (h.small hb).2.not_gt
    · exact iff_of_false (lt_irrefl _) (lt_irrefl _)
  have hle : ∀ {a a' b b'}, OrMax R dmax dmax' a a' → OrMax R dmax dmax' b b' → (a ≤ b ↔ a' ≤ b') := by
    intro a a' b b' ha hb
    rw [← not_lt, ← not_lt, hlt hb ha]
  refine ⟨fun ha hb => ?_, fun ha hb => ?_, fun ha hb => ?_⟩
  · exact decide_eq_decide.2 (hlt ha hb)
  · exact decide_eq_decide.2 (hle ha hb)
  · refine decide_eq_decide.2 ?_
    rw [le_antisymm_iff, le_antisymm_iff, hle ha hb, hle hb ha]

/-- What is common to the two runs up to the core distances. -/
theorem fresh_order [LinearOrder W] [LinearOrder W'] [CCmp S] [CCmp S'] [LinearOrder T] [LinearOrder T'] {env : Api.Env D W S T} {env' : Api.Env D' W' S' T'} (hq : SortsAscending env.qsort)
    (hq' : SortsAscending env'.qsort) {data : List D} {data' : List D'} {rows cols cols' : Nat} {f : Nat → Nat → W} {f' : Nat → Nat → W'} (h : Supported env data rows cols f)
    (h' : Supported env' data' rows cols' f') (h5 : 5 ≤ rows) {m : Nat} (hm : 2 ≤ m) (hmr : m ≤ rows) {R : W → W' → Prop}
    (hR : Fits rows (distOf env.dops f) (distOf env'.dops f') env.ar.dmax env'.ar.dmax R) :
    ∃ (obj : Api.Obj W S T) (obj' : Api.Obj W' S' T'),
      (∀ par, Complete rows rows par → Api.fresh env par m data rows cols true = .ok obj ∧ Api.fresh env' par m data' rows cols' true = .ok obj') ∧
      DRel (OrMax R env.ar.dmax env'.ar.dmax) obj.dis obj'.dis ∧ Short (· ≠ env.ar.dmax) env.ar obj.dis rows ∧
      (∀ i, i < rows → ∃ c c', obj.dis.coreDistances[i]? = some (some c) ∧ obj'.dis.coreDistances[i]? = some (some c') ∧ R c c') := by
  have hfew := h.few
  obtain ⟨obj, core, _, _, hf, r1, r2, hget, hc, hmax, _, _, _, _, _, hfull⟩ := Props.stages hq h h5 hm hmr
  obtain ⟨obj', core', _, _, hf', r1', r2', hget', hc', hmax', _, _, _, _, _, hfull'⟩ := Props.stages hq' h' h5 hm hmr
  have hp : Complete rows rows ⟨Distance.pairs rows, List.range rows, Props.seqSchedule, List.range rows⟩ := ⟨.refl _, .refl _, Props.seqSchedule_complete, .refl _⟩
  obtain ⟨_, e1, _⟩ := Props.fresh_inv (by omega) (hf _ hp)
  obtain ⟨_, e1', _⟩ := Props.fresh_inv (by omega) (hf' _ hp)
  have hz : R env.dops.zero env'.dops.zero := by
    have := hR.dist 0 0 (by omega) (by omega)
    simpa [distOf] using this
  have hd := distance_rel (data := data) (data' := data') (ops := env.dops) (ops' := env'.dops) (orMax_alike hR) (.inl hz) (.inr ⟨rfl, rfl⟩) (Distance.pairs rows) (List.range rows) rows cols cols' (m - 1) (by
    rintro ⟨i, j⟩ hij
    have hij' : i < j ∧ j < rows := by
      simp only [Distance.pairs, List.mem_flatMap, List.mem_map, List.mem_filter, List.mem_range, decide_eq_true_eq] at hij
      obtain ⟨a, _, b, ⟨h1, h2⟩, h3⟩ := hij
      cases h3
      exact ⟨h2, h1⟩
    unfold SumRel
    rw [Props.sqSum_iff.2 (h.sum i j hij'.1 hij'.2), Props.sqSum_iff.2 (h'.sum i j hij'.1 hij'.2)]
    refine .ok (.inl ?_)
    have := hR.dist i j (by omega) hij'.2
    unfold distOf at this
    rwa [if_pos hij'.1, if_pos hij'.1] at this)
  rw [e1, e1'] at hd
  cases hd with
  | ok hd =>
    refine ⟨obj, obj', fun par hp => ⟨hf par hp, hf' par hp⟩, hd, ?_, ?_⟩
    · intro g hg w hw
      obtain ⟨g0, g1, a1, a2, _, _, _, a3⟩ := Run.sorted_mst env.ar.zeroW env.ar.dmax obj.dis rows (by omega) (distOf env.dops f) core (fun i j a b _ => by rw [← h.zero]; exact hget i j a b)
        (Props.distOf_symm _ _) (fun i hi => (hc i hi).1) hmax
      rw [a1, Outcome.ok_bind, a2] at hg
      cases hg
      rcases (a3 w).1 hw with ⟨i, hi, rfl⟩ | ⟨i, j, hi, hj, hij, rfl, _⟩
      · obtain ⟨j, hj, hij⟩ : ∃ j, j < rows ∧ i ≠ j := by
          rcases Nat.eq_zero_or_pos i with e | e
          · exact ⟨1, by omega, by omega⟩
          · exact ⟨0, by omega, by omega⟩
        refine ne_of_lt (lt_of_le_of_lt ?_ (hmax i j hi hj hij))
        simp [mutualReach]
      · exact (hmax i j hi hj hij).ne
    · intro i hi
      have h1 := hd.cores.get i
      rw [(hc i hi).1, (hc' i hi).1] at h1
      refine ⟨_, _, (hc i hi).1, (hc' i hi).1, ?_⟩
      have h2 : OrMax R env.ar.dmax env'.ar.dmax (core i) (core' i) := h1
      rcases h2 with h2 | ⟨h2, _⟩
      · exact h2
      · obtain ⟨j, hj, hij⟩ : ∃ j, j < rows ∧ i ≠ j := by
          rcases Nat.eq_zero_or_pos i with e | e
          · exact ⟨1, by omega, by omega⟩
          · exact ⟨0, by omega, by omega⟩
        have := hmax i j hi hj hij
        simp [mutualReach, h2] at this

end Verif.Param
