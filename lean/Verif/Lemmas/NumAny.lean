import Verif.Lemmas.OutAny
import Verif.Lemmas.CutApi
import Verif.Props.StabRun
import Verif.Props.RaceAny
/-
Helper lemmas: runs on arbitrary finite `double` data.
-/
namespace Verif.Props
open Verif Verif.Spec Verif.Binary64

theorem num_readable (qsort : (OScore (Num754 binary64) (Num754 binary64) → OScore (Num754 binary64) (Num754 binary64) → Int) → List (OScore (Num754 binary64) (Num754 binary64)) → List (OScore (Num754 binary64) (Num754 binary64)))
    (data : List (Fin754 binary64)) (rows cols : Nat) (hr : rows ≤ 65536) (hdata : rows * cols ≤ data.length) : Readable (numEnv qsort) data rows cols (numSq data cols) where
  few := hr
  zero := rfl
  sum i j hij hj := by
    have hlt : ∀ {x k}, x < rows → k < cols → x * cols + k < data.length := by
      intro x k hx hk
      calc x * cols + k < x * cols + cols := by omega
        _ = (x + 1) * cols := by rw [Nat.add_mul, Nat.one_mul]
        _ ≤ rows * cols := Nat.mul_le_mul_right _ hx
        _ ≤ _ := hdata
    refine ⟨_, by rw [List.length_map, List.length_range], rfl, fun k d hd => ?_⟩
    rw [List.getElem?_map] at hd
    by_cases hk : k < cols
    · have e1 := List.getElem?_eq_getElem (hlt (hij.trans hj) hk)
      have e2 := List.getElem?_eq_getElem (hlt hj hk)
      rw [List.getElem?_range hk, Option.map_some, e1, e2] at hd
      refine ⟨_, _, e1, e2, ?_⟩
      change some ((Fp.fin _).sub (Fp.fin _)).toNum = some d at hd
      exact congrArg Outcome.ok (Option.some.inj hd)
    · rw [List.getElem?_eq_none (by rw [List.length_range]; omega)] at hd
      cases hd

/-- A run on data that can be read. -/
theorem run_any {D W S T : Type} [LinearOrder W] [CCmp S] [LinearOrder T] (env : Api.Env D W S T) (hq : SortsAscending env.qsort) {data : List D} {rows cols : Nat} {f : Nat → Nat → W}
    (h : Readable env data rows cols f) (h5 : 5 ≤ rows) (m : Nat) (hm : 2 ≤ m) :
    ∃ (obj : Api.Obj W S T) (core : Nat → W), (∀ par, Complete rows rows par → Api.fresh env par m data rows cols true = .ok obj) ∧ obj.dis.rows = rows ∧
      (∀ i j, i < rows → j < rows → obj.dis.get env.ar.zeroW i j = .ok (distOf env.dops f i j)) ∧
      (∀ i, i < rows → obj.dis.coreDistances[i]? = some (some (core i)) ∧ core i ≤ env.ar.dmax ∧ Distance.coreOf env.ar.zeroW env.ar.dmax obj.dis i = .ok (core i)) ∧
      ∀ (sch : Run.Schedule) (order : List Nat), sch.Complete → order.Perm (List.range rows) → Run.full env.qsort env.ar env.smax env.oops sch order m obj.dis rows = .ok obj.results := by
  obtain ⟨C, a1, a2, a3⟩ := Cut.compute_any (⟨inferInstance, fun _ _ _ => rfl, fun _ _ _ => rfl, fun _ _ _ => rfl⟩ : Cut.Cmp env.ar.dmax) h
  have hfew := h.few
  have hall : ∀ m, ∃ out : Run.Full W S T, 2 ≤ m → ∀ (sch : Run.Schedule) (order : List Nat), sch.Complete → order.Perm (List.range rows) →
      Run.full env.qsort env.ar env.smax env.oops sch order m (C (m - 1)) rows = .ok out := by
    intro m
    have key : ∀ m, 2 ≤ m → ∃ out : Run.Full W S T, ∀ (sch : Run.Schedule) (order : List Nat), sch.Complete → order.Perm (List.range rows) →
        Run.full env.qsort env.ar env.smax env.oops sch order m (C (m - 1)) rows = .ok out := by
      intro m hm
      obtain ⟨_, _, r3, core, hcore⟩ := a3 (m - 1)
      obtain ⟨out, _, _, _, _, _, _, _, _, _, _, e, _⟩ := Run.full_any env.qsort env.ar env.smax env.oops m (C (m - 1)) rows (distOf env.dops f) core hq hm (by omega) (by omega)
        (fun i j hi hj _ => r3 i j hi hj) (distOf_symm _ _) (fun i hi => (hcore i hi).1) (fun i hi => (hcore i hi).2.1)
      exact ⟨out, e⟩
    by_cases hm : 2 ≤ m
    · obtain ⟨out, e⟩ := key m hm
      exact ⟨out, fun _ => e⟩
    · obtain ⟨out, e⟩ := key 2 (by omega)
      exact ⟨out, fun a => absurd a hm⟩
  choose O hO using hall
  obtain ⟨r1, _, r3, core, hcore⟩ := a3 (m - 1)
  exact ⟨⟨m, rows, C (m - 1), O m⟩, core, fun par hp => (Cut.api_one (env := env) (fun nn o co ho hco => (a1 nn o co ho hco).1) a2 hO hm hp).1 h5, r1, r3, hcore, hO m hm⟩

/-- The same with several threads: an interleaving can only lose clusters. -/
theorem race_run {D W S T : Type} [LinearOrder W] [CCmp S] [LinearOrder T] (env : Api.Env D W S T) (hq : SortsAscending env.qsort) {data : List D} {rows cols : Nat} {f : Nat → Nat → W}
    (h : Readable env data rows cols f) (h5 : 5 ≤ rows) (m : Nat) (hm : 2 ≤ m) :
    ∃ obj : Api.Obj W S T, (∀ par, Complete rows rows par → Api.fresh env par m data rows cols true = .ok obj) ∧
      ∀ th, Interleaves th → ∃ obj' lost, Spares obj.results.clusters lost ∧ SameButLost lost obj obj' ∧
        ∀ par, Complete rows rows par → Race.fresh th env par m data rows cols true = .ok obj' := by
  have hfew := h.few
  obtain ⟨obj, core, hfresh, _, hget, hcore, hfull⟩ := run_any env hq h h5 m hm
  refine ⟨obj, hfresh, fun th hth => ?_⟩
  have hinv : ∀ par, Complete rows rows par → Distance.compute env.dops env.ar.dmax par.pairs par.cores data rows cols (subIndex m 1) = .ok obj.dis ∧
      (∃ l : AList Nat, AList.init (Api.csize rows) = .ok l) ∧ (∃ t : HTable.Table Int, HTable.init (Api.csize rows) .int .ptr = .ok t) ∧
      (∃ t : HTable.Table Int, HTable.init (Api.csize rows) .long .ptr = .ok t) ∧ obj.minPoints = m ∧ obj.numPoints = rows := by
    intro par hp
    have e := hfresh par hp
    rw [Api.fresh, Api.initObj, if_pos (by omega), Outcome.ok_bind, Api.run] at e
    obtain ⟨dis, e1, e⟩ := Outcome.bind_eq_ok.1 e
    obtain ⟨_, e3, e⟩ := Outcome.bind_eq_ok.1 e
    obtain ⟨_, e4, e⟩ := Outcome.bind_eq_ok.1 e
    unfold Api.doRun at e
    obtain ⟨_, e5, e⟩ := Outcome.bind_eq_ok.1 e
    obtain ⟨out, e2, e⟩ := Outcome.bind_eq_ok.1 e
    have e := Outcome.ok.inj e
    subst e
    exact ⟨e1, ⟨_, e3⟩, ⟨_, e4⟩, ⟨_, e5⟩, rfl, rfl⟩
  have hP : ∀ (lost : Nat → Bool) (sch : Run.Schedule), sch.Complete →
      Sel.prominent (Race.forget lost obj.results.clusters) obj.results.hierarchy rows sch.group sch.steps = .ok (obj.results.labels.map fun l => if lost l then 0 else l) := fun lost sch hsch =>
    Race.prominent_lost env.qsort env.ar env.smax env.oops m obj.dis rows (distOf env.dops f) core hq hm (by omega) (by omega)
      (fun i j hi hj _ => hget i j hi hj) (distOf_symm _ _) (fun i hi => (hcore i hi).1) (fun i hi => (hcore i hi).2.1) (hfull _ _ seqSchedule_complete (.refl _)) lost sch hsch
  obtain ⟨f1, _⟩ := Race.full_lost_cmp env.qsort env.ar env.smax env.oops hfull hP
  have hds : Api.datasetSize rows cols true = rows := by simp [Api.datasetSize]
  obtain ⟨lost, a, b⟩ := f1 th hth
  obtain ⟨_, _, _, _, em, en⟩ := hinv ⟨Distance.pairs rows, List.range rows, seqSchedule, List.range rows⟩ ⟨.refl _, .refl _, seqSchedule_complete, .refl _⟩
  refine ⟨⟨m, rows, obj.dis, Race.lose lost obj.results⟩, lost, a, ?_, fun par hp => ?_⟩
  · have := Race.lose_same lost m rows obj.dis obj.results
    obtain ⟨m', n', dis, r⟩ := obj
    dsimp only at em en this ⊢
    subst em en
    exact this
  · obtain ⟨e1, ⟨_, e2⟩, ⟨_, e3⟩, ⟨_, e4⟩, _⟩ := hinv par hp
    unfold Race.fresh
    rw [Api.initObj, if_pos (by omega), Outcome.ok_bind, e1, Outcome.ok_bind, hds, e2, Outcome.ok_bind, e3, Outcome.ok_bind]
    unfold Race.doRun
    rw [e4, Outcome.ok_bind, b _ _ hp.sch hp.scores, Outcome.ok_bind]
    rfl

/-- A level of such a run: `D_MAX`, or not above `2 ^ 1000`. -/
def Level (w : Num754 binary64) : Prop := w = numArith.dmax ∨ Usual w

theorem dmax_fin : ∃ x : Fin754 binary64, numArith.dmax = .fin x ∧ (2 : ℚ) ^ (1000 : ℤ) < x.1 := by
  obtain ⟨v, e, hv⟩ := fp_max
  refine ⟨v, ?_, ?_⟩
  · show Fp.max.toNum = _
    rw [e]; rfl
  · rw [hv]
    decide +kernel

theorem usual_zero : Usual numArith.zeroW := ⟨_, num_zero, .inl rfl, (two_zpow_pos _).le⟩

/-- Distances up to `D_MAX`. -/
theorem dist_usual (data : List (Fin754 binary64)) (cols i j : Nat) (h : distOf numOps (numSq data cols) i j ≤ numArith.dmax) : Usual (distOf numOps (numSq data cols) i j) := by
  have key : ∀ x, numOps.sqrt x ≤ numArith.dmax → Usual (numOps.sqrt x) := by
    intro x hx
    rcases sqrt_weight x with ⟨y, h1, h2⟩ | h
    · exact ⟨y, h1, h2, sqrt_le h1⟩
    · obtain ⟨v, e, _⟩ := dmax_fin
      rw [h, e] at hx
      exact absurd (le_antisymm hx (num_le_pinf _)) (by intro h; cases h)
  unfold distOf at h ⊢
  split
  · rename_i h1
    rw [if_pos h1] at h
    exact key _ h
  · rename_i h1
    rw [if_neg h1] at h
    split
    · exact usual_zero
    · rename_i h2
      rw [if_neg h2] at h
      exact key _ h

/-- Core distances. -/
theorem core_level {data : List (Fin754 binary64)} {rows cols : Nat} {dis : Distance (Num754 binary64)} {core : Nat → Num754 binary64} (r1 : dis.rows = rows)
    (hget : ∀ i j, i < rows → j < rows → dis.get numArith.zeroW i j = .ok (distOf numOps (numSq data cols) i j)) {i : Nat} (hi : i < rows)
    (hle : core i ≤ numArith.dmax) (hcore : Distance.coreOf numArith.zeroW numArith.dmax dis i = .ok (core i)) : Level (core i) := by
  obtain ⟨x, hx, h1⟩ := Distance.coreOf_safe (zero := numArith.zeroW) (dmax := numArith.dmax) (dis := dis) (i := i) (d := fun j => distOf numOps (numSq data cols) i j) (by
    intro j hj; rw [r1] at hj; exact hget i j hi hj)
  rw [hx] at hcore
  obtain rfl := Outcome.ok.inj hcore
  rcases h1 with h1 | ⟨j, hj, h1⟩
  · exact .inl h1
  · rw [h1] at hle ⊢
    exact .inr (dist_usual data cols i j hle)

theorem reach_level {data : List (Fin754 binary64)} {rows cols : Nat} {core : Nat → Num754 binary64} (hc : ∀ i, i < rows → Level (core i)) {i j : Nat} (hi : i < rows) (hj : j < rows)
    (h : mutualReach (distOf numOps (numSq data cols)) core i j ≤ numArith.dmax) : Level (mutualReach (distOf numOps (numSq data cols)) core i j) := by
  unfold mutualReach at h ⊢
  rw [max_le_iff, max_le_iff] at h
  rcases max_choice (max (distOf numOps (numSq data cols) i j) (core i)) (core j) with h1 | h1 <;> rw [h1]
  · rcases max_choice (distOf numOps (numSq data cols) i j) (core i) with h2 | h2 <;> rw [h2]
    · exact .inr (dist_usual data cols i j h.1.1)
    · exact hc i hi
  · exact hc j hj

/-- The stabilities of any run on finite `double`s. -/
theorem stabilities_any (qsort : (OScore (Num754 binary64) (Num754 binary64) → OScore (Num754 binary64) (Num754 binary64) → Int) →
      List (OScore (Num754 binary64) (Num754 binary64)) → List (OScore (Num754 binary64) (Num754 binary64))) (hq : SortsAscending qsort)
    (data : List (Fin754 binary64)) (rows cols : Nat) (hr : rows ≤ 65536) (hdata : rows * cols ≤ data.length) (h5 : 5 ≤ rows) (m : Nat) (hm : 2 ≤ m) :
    ∃ obj : Api.Obj (Num754 binary64) Dbl (Num754 binary64), (∀ par, Complete rows rows par → Api.fresh (numEnv qsort) par m data rows cols true = .ok obj) ∧
      Stabilities obj.results.hierarchy obj.results.clusters ∧ obj.results.infinite = false := by
  obtain ⟨obj, core, hf, r1, hget, hcore, hfull⟩ := run_any (numEnv qsort) hq (num_readable qsort data rows cols hr hdata) h5 m hm
  obtain ⟨e1, _⟩ := full_hierarchy (hfull seqSchedule (List.range rows) seqSchedule_complete (.refl _))
  have hcl : ∀ i, i < rows → Level (core i) := fun i hi => core_level r1 hget hi (hcore i hi).2.1 (hcore i hi).2.2
  obtain ⟨k1, k2⟩ := out_any numArith Fp.max seqSchedule seqSchedule_complete m hm obj.dis rows (by omega) (by omega) (distOf numOps (numSq data cols)) core
    (fun i j hi hj _ => hget i j hi hj) (distOf_symm _ _) (fun i hi => (hcore i hi).1) (fun i hi => (hcore i hi).2.1) (Wt := Level) (.inl rfl)
    (fun i j hi hj => reach_level hcl hi hj) hcl e1
  obtain ⟨v, ev, hv⟩ := dmax_fin
  have hother : ∀ (l : Nat) (c : Cl (Num754 binary64) Dbl), obj.results.clusters[l]? = some (some c) → l ≠ 1 →
        ∃ (b : Fin754 binary64) (members : List Nat) (leave : Nat → Fin754 binary64), c.birth = some (.fin b) ∧ 0 < b.1 ∧ Lives obj.results.hierarchy l members leave ∧
          (∀ p ∈ members, 0 ≤ (leave p).1 ∧ (leave p).1 < b.1) ∧ Stability b members leave c.stability ∧ CCmp.eq c.stability Fp.max = false := by
    intro l c hc hl
    obtain ⟨b, members, leave, es, t1, hb, hbd, t3, t4, t5, t6, t7, t8, t9, t10⟩ := (k1 l c hc).1 hl
    obtain ⟨β, rfl, hβ⟩ : ∃ β : Fin754 binary64, b = .fin β ∧ (β.1 = 0 ∨ (2 : ℚ) ^ (-537 : ℤ) ≤ β.1) := by
      rcases hb with hb | ⟨β, h1, h2, _⟩
      · exact ⟨v, hb.trans ev, .inr (le_trans (zpow_le_zpow_right₀ (by norm_num) (by norm_num)) hv.le)⟩
      · exact ⟨β, h1, h2⟩
    have hlv : ∀ p, ∃ x : Fin754 binary64, p ∈ members → leave p = .fin x ∧ ((x.1 = 0 ∨ (2 : ℚ) ^ (-537 : ℤ) ≤ x.1) ∧ x.1 ≤ 2 ^ (1000 : ℤ)) ∧ x.1 < β.1 := by
      intro p
      by_cases hp : p ∈ members
      · obtain ⟨_, u2, hu⟩ := t7 p hp
        rcases hu with hu | ⟨x, u3, u4⟩
        · rw [hu] at u2
          exact absurd u2 (not_lt.2 hbd)
        · rw [u3, num_fin_lt] at u2
          exact ⟨x, fun _ => ⟨u3, u4, u2⟩⟩
      · exact ⟨β, fun h => absurd h hp⟩
    choose lv hlv using hlv
    have hmap : members.map (fun p => (leave p, some (Num754.fin β))) = members.map (fun p => (Num754.fin (lv p), some (Num754.fin β))) :=
      List.map_congr_left fun p hp => by rw [(hlv p hp).1]
    rw [hmap] at t10
    obtain ⟨s1, s2⟩ := stability_of hβ t3 (by omega) (fun p hp => ⟨(hlv p hp).2.2, (hlv p hp).2.1⟩) t9 t10
    have hnn : ∀ p ∈ members, 0 ≤ (lv p).1 ∧ (lv p).1 < β.1 := by
      intro p hp
      refine ⟨?_, (hlv p hp).2.2⟩
      rcases (hlv p hp).2.1.1 with h | h
      · exact h.symm.le
      · exact (two_zpow_pos _).le.trans h
    obtain ⟨p, hp⟩ := List.exists_mem_of_ne_nil _ t3
    refine ⟨β, members, lv, t1, lt_of_le_of_lt (hnn p hp).1 (hnn p hp).2, ⟨t3, t4, t6, fun p hp => ?_⟩, hnn, by rw [t8]; exact s1, by rw [t8]; exact s2⟩
    rw [← (hlv p hp).1]
    exact (t7 p hp).1
  have hroot : ∀ c : Cl (Num754 binary64) Dbl, obj.results.clusters[1]? = some (some c) → c.birth = none ∧ (c.stability = Fp.of 0 ∨ c.stability = .nan) := by
    intro c hc
    obtain ⟨es, _, t2, t3⟩ := (k1 1 c hc).2 rfl
    refine ⟨t2, ?_⟩
    rw [t3, root_stability]
    split
    · exact .inl rfl
    · exact .inr rfl
  refine ⟨obj, hf, ⟨hroot, fun l c hc hl => ?_⟩, ?_⟩
  · obtain ⟨b, members, leave, u1, u2, u3, u4, u5, _⟩ := hother l c hc hl
    exact ⟨b, members, leave, u1, u2, u3, u4, u5⟩
  · rw [Bool.eq_false_iff]
    intro ht
    obtain ⟨l, c, hc, he⟩ := k2.1 ht
    by_cases hl : l = 1
    · subst hl
      rcases (hroot c hc).2 with h | h <;> rw [h] at he
      · exact absurd he (by decide +kernel)
      · exact absurd he (by decide +kernel)
    · obtain ⟨_, _, _, _, _, _, _, _, h⟩ := hother l c hc hl
      rw [h] at he
      cases he

end Verif.Props
