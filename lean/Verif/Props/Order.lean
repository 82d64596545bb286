import Verif.Lemmas.TwoOrder
import Verif.Props.Rearrange
/-
C62: only the order of the distances matters.
-/
namespace Verif.Props
open Spec Param
variable {D D' W W' S S' T T' : Type}

/-! ### Propagation keeps the tree -/

/-- The parts of a cluster that propagation does not change. -/
structure Frame (c c' : Cl W S) : Prop where
  label : c.label = c'.label
  birth : c.birth = c'.birth
  death : c.death = c'.death
  offset : c.offset = c'.offset
  parent : c.parent = c'.parent
  hasChildren : c.hasChildren = c'.hasChildren
  stability : c.stability = c'.stability

theorem Frame.refl (c : Cl W S) : Frame c c := ⟨rfl, rfl, rfl, rfl, rfl, rfl, rfl⟩

theorem Frame.trans {a b c : Cl W S} (h : Frame a b) (h' : Frame b c) : Frame a c :=
  ⟨h.label.trans h'.label, h.birth.trans h'.birth, h.death.trans h'.death, h.offset.trans h'.offset, h.parent.trans h'.parent, h.hasChildren.trans h'.hasChildren, h.stability.trans h'.stability⟩

/-- The same clusters up to what propagation changes. -/
def Frames (cs cs' : List (Option (Cl W S))) : Prop := LRel (OptRel Frame) cs cs'

theorem frames_refl : ∀ (cs : List (Option (Cl W S))), Frames cs cs
  | [] => .nil
  | none :: r => .cons trivial (frames_refl r)
  | some c :: r => .cons (Frame.refl c) (frames_refl r)

theorem frames_trans {a b c : List (Option (Cl W S))} (h : Frames a b) (h' : Frames b c) : Frames a c := by
  unfold Frames at *
  induction h generalizing c with
  | nil => cases h'; exact .nil
  | @cons x y _ _ h _ ih =>
    cases h' with
    | @cons _ z _ _ h' t' =>
      refine .cons ?_ (ih t')
      cases x <;> cases y <;> cases z
      · trivial
      · exact False.elim h'
      · exact False.elim h
      · exact False.elim h
      · exact False.elim h
      · exact False.elim h
      · exact False.elim h'
      · exact Frame.trans h h'

theorem frames_wr {cs cs' : List (Option (Cl W S))} {i : Nat} {c c' : Cl W S} (hg : getCl cs i = .ok c) (hf : Frame c c') (hw : wr cs i (some c') = .ok cs') : Frames cs cs' := by
  have hc : cs[i]? = some (some c) := by
    unfold getCl rd at hg
    cases hx : cs[i]? with
    | none => simp [hx, bind, Outcome.bind] at hg
    | some x =>
      cases x with
      | none => simp [hx, bind, Outcome.bind] at hg
      | some c0 => simp only [hx, Outcome.ok_bind] at hg; cases hg; rfl
  have hi : i < cs.length := (List.getElem?_eq_some_iff.1 hc).1
  rw [wr_ok hi] at hw
  cases hw
  clear hg
  induction cs generalizing i with
  | nil => simp at hc
  | cons x r ih =>
    cases i with
    | zero =>
      simp only [List.getElem?_cons_zero, Option.some.injEq] at hc
      subst hc
      exact .cons hf (frames_refl r)
    | succ i =>
      simp only [List.getElem?_cons_succ] at hc
      refine .cons ?_ (ih hc (by simpa using hi))
      cases x
      · trivial
      · exact Frame.refl _

theorem propagate_frame [CCmp W] [CCmp S] {ar : Arith W S} {cs cs' : List (Option (Cl W S))} {x : Nat} (h : Sel.propagate ar cs x = .ok cs') : Frames cs cs' := by
  unfold Sel.propagate at h
  obtain ⟨c, e1, h⟩ := Outcome.bind_eq_ok.1 h
  cases hp : c.parent with
  | none =>
    rw [hp] at h
    cases h
    exact frames_refl _
  | some q =>
    rw [hp] at h
    obtain ⟨cs1, e2, h⟩ := Outcome.bind_eq_ok.1 h
    obtain ⟨p, e3, h⟩ := Outcome.bind_eq_ok.1 h
    refine frames_trans (frames_wr (c' := c.ownLowest ar) e1 ⟨rfl, rfl, rfl, rfl, rfl, rfl, rfl⟩ e2) (frames_wr e3 ?_ h)
    unfold Cl.choose Cl.passSelf Cl.passDesc Cl.passLowest
    repeat' split
    all_goals exact ⟨rfl, rfl, rfl, rfl, rfl, rfl, rfl⟩

theorem examine_frame [CCmp W] [CCmp S] {ar : Arith W S} {smax : S} : ∀ (fuel : Nat) {s s' : Sel.St W S}, Sel.examine ar smax fuel s = .ok s' → Frames s.clusters s'.clusters := by
  intro fuel
  induction fuel with
  | zero =>
    intro s s' h
    unfold Sel.examine at h
    split at h
    · cases h; exact frames_refl _
    · exact absurd h (by simp)
  | succ fuel ih =>
    intro s s' h
    unfold Sel.examine at h
    cases hx : s.ex.getLast? with
    | none => rw [hx] at h; cases h; exact frames_refl _
    | some x =>
      rw [hx] at h
      obtain ⟨cs, e1, h⟩ := Outcome.bind_eq_ok.1 h
      obtain ⟨c, e2, h⟩ := Outcome.bind_eq_ok.1 h
      obtain ⟨⟨ex, added⟩, e3, h⟩ := Outcome.bind_eq_ok.1 h
      exact frames_trans (propagate_frame e1) (ih h)

theorem doRun_frame [CCmp W] [CCmp S] {ar : Arith W S} {smax : S} {sch : Run.Schedule} {m : Nat} {dis : Distance W} {n : Nat} {out : Run.Out W S} (h : Run.doRun ar smax sch m dis n = .ok out) :
    ∃ res, Run.hierarchy ar m dis n = .ok res ∧ res.hierarchy = out.hierarchy ∧ res.noise = out.noise ∧ res.last = out.last ∧ Frames res.clusters out.clusters := by
  unfold Run.doRun at h
  obtain ⟨g, a1, h⟩ := Outcome.bind_eq_ok.1 h
  obtain ⟨g', a2, h⟩ := Outcome.bind_eq_ok.1 h
  unfold Run.fromTree at h
  obtain ⟨res, b1, h⟩ := Outcome.bind_eq_ok.1 h
  obtain ⟨s, b2, h⟩ := Outcome.bind_eq_ok.1 h
  obtain ⟨l, b3, h⟩ := Outcome.bind_eq_ok.1 h
  cases h
  refine ⟨res, by rw [Run.hierarchy, a1, Outcome.ok_bind, a2]; exact b1, rfl, rfl, rfl, ?_⟩
  unfold Sel.propagateTree at b2
  obtain ⟨⟨ex, added⟩, _, b2⟩ := Outcome.bind_eq_ok.1 b2
  exact examine_frame _ b2

/-! ### C62 -/

theorem lines_alike {P : W → W' → Prop} {H : Lines W} {H' : Lines W'} (h : LRel (LineRel P) H H') : LinesAlike P H H' := by
  refine ⟨h.length, fun k x x' e e' => ?_⟩
  have := h.get k
  rw [e, e'] at this
  exact this

/-- The clusters of two hierarchies as they are after propagation. -/
theorem clusters_alike {R R1 : W → W' → Prop} {Q : S → S' → Prop} {cs : List (Option (Cl W S))} {cs' : List (Option (Cl W' S'))} (h : LRel (OptRel (ClRel R R1 Q)) cs cs') : ClustersAlike R cs cs' := by
  refine ⟨h.length, fun l => ⟨fun c e => ?_, fun c' e => ?_⟩⟩
  · have h1 := h.get l
    rw [e] at h1
    cases e' : cs'[l]? with
    | none => rw [e'] at h1; exact False.elim h1
    | some x =>
      rw [e'] at h1
      cases x with
      | none => exact False.elim h1
      | some c' =>
        have h2 : ClRel R R1 Q c c' := h1
        refine ⟨c', rfl, h2.label, h2.parent, h2.hasChildren, h2.offset, ?_, h2.death⟩
        have := h2.birth
        cases hb : c.birth <;> cases hb' : c'.birth <;> rw [hb, hb'] at this
        · exact .inl ⟨rfl, rfl⟩
        · exact False.elim this
        · exact False.elim this
        · exact .inr ⟨_, _, rfl, rfl, this⟩
  · have h1 := h.get l
    rw [e] at h1
    cases e' : cs[l]? with
    | none => rw [e'] at h1; exact False.elim h1
    | some x =>
      rw [e'] at h1
      cases x with
      | none => exact False.elim h1
      | some c => exact ⟨c, rfl⟩

theorem alike_frames {R : W → W' → Prop} {cs ds : List (Option (Cl W S))} {cs' ds' : List (Option (Cl W' S'))} (h : ClustersAlike R cs cs') (hf : Frames cs ds) (hf' : Frames cs' ds') : ClustersAlike R ds ds' := by
  have back : ∀ {V V' : Type} {a b : List (Option (Cl V V'))}, Frames a b → ∀ (l : Nat) (c : Cl V V'), b[l]? = some (some c) → ∃ c0, a[l]? = some (some c0) ∧ Frame c0 c := by
    intro V V' a b hab l c e
    have h1 := hab.get l
    rw [e] at h1
    cases e' : a[l]? with
    | none => rw [e'] at h1; exact False.elim h1
    | some x =>
      rw [e'] at h1
      cases x with
      | none => exact False.elim h1
      | some c0 => exact ⟨c0, rfl, h1⟩
  have forth : ∀ {V V' : Type} {a b : List (Option (Cl V V'))}, Frames a b → ∀ (l : Nat) (c : Cl V V'), a[l]? = some (some c) → ∃ c1, b[l]? = some (some c1) ∧ Frame c c1 := by
    intro V V' a b hab l c e
    have h1 := hab.get l
    rw [e] at h1
    cases e' : b[l]? with
    | none => rw [e'] at h1; exact False.elim h1
    | some x =>
      rw [e'] at h1
      cases x with
      | none => exact False.elim h1
      | some c0 => exact ⟨c0, rfl, h1⟩
  refine ⟨by rw [← hf.length, ← hf'.length]; exact h.1, fun l => ⟨fun c e => ?_, fun c' e => ?_⟩⟩
  · obtain ⟨c0, e0, f0⟩ := back hf l c e
    obtain ⟨c1, e1, s⟩ := (h.2 l).1 c0 e0
    obtain ⟨c2, e2, f2⟩ := forth hf' l c1 e1
    exact ⟨c2, e2, f0.label ▸ f2.label ▸ s.label, f0.parent ▸ f2.parent ▸ s.parent, f0.hasChildren ▸ f2.hasChildren ▸ s.hasChildren, f0.offset ▸ f2.offset ▸ s.offset,
      f0.birth ▸ f2.birth ▸ s.birth, f0.death ▸ f2.death ▸ s.death⟩
  · obtain ⟨c0, e0, _⟩ := back hf' l c' e
    obtain ⟨c1, e1⟩ := (h.2 l).2 c0 e0
    obtain ⟨c2, e2, _⟩ := forth hf l c1 e1
    exact ⟨c2, e2⟩

/-- **C62, only the order of the distances matters**. Two data sets, possibly of different types and with different arithmetic, have the same number of rows and their distances compare alike. Then the hierarchies are
    the same line by line, with the same numbers for the same clusters in the same tree; levels and core distances are distances between the same points. No assumption on ties. -/
theorem C62_order [LinearOrder W] [LinearOrder W'] [CCmp S] [CCmp S'] [LinearOrder T] [LinearOrder T'] (env : Api.Env D W S T) (env' : Api.Env D' W' S' T') (hq : SortsAscending env.qsort)
    (hq' : SortsAscending env'.qsort) (data : List D) (data' : List D') (rows cols cols' : Nat) (f : Nat → Nat → W) (f' : Nat → Nat → W') (h : Supported env data rows cols f)
    (h' : Supported env' data' rows cols' f') (h5 : 5 ≤ rows) (m : Nat) (hm : 2 ≤ m) (hmr : m ≤ rows) (ho : SameOrder rows (distOf env.dops f) (distOf env'.dops f')) :
    ∃ (obj : Api.Obj W S T) (obj' : Api.Obj W' S' T'),
      (∀ par, Complete rows rows par → Api.fresh env par m data rows cols true = .ok obj ∧ Api.fresh env' par m data' rows cols' true = .ok obj') ∧
      (∀ i, i < rows → ∃ c c', obj.dis.coreDistances[i]? = some (some c) ∧ obj'.dis.coreDistances[i]? = some (some c') ∧ SamePair rows (distOf env.dops f) (distOf env'.dops f') c c') ∧
      LinesAlike (SamePair rows (distOf env.dops f) (distOf env'.dops f')) obj.results.hierarchy obj'.results.hierarchy ∧
      ClustersAlike (SamePair rows (distOf env.dops f) (distOf env'.dops f')) obj.results.clusters obj'.results.clusters := by
  have hfit : Fits rows (distOf env.dops f) (distOf env'.dops f') env.ar.dmax env'.ar.dmax (SamePair rows (distOf env.dops f) (distOf env'.dops f')) := by
    refine ⟨fun i j hi hj => ⟨i, j, hi, hj, rfl, rfl⟩, ?_, ?_⟩
    · rintro _ _ ⟨i, j, hi, hj, rfl, rfl⟩
      exact ⟨Corr.supported_lt h hi hj, Corr.supported_lt h' hi hj⟩
    · rintro _ _ _ _ ⟨i, j, hi, hj, rfl, rfl⟩ ⟨k, l, hk, hl, rfl, rfl⟩
      exact ho i j k l hi hj hk hl
  have hfew := h.few
  obtain ⟨obj, obj', hf, hd, hs, hcore⟩ := fresh_order hq hq' h h' h5 hm hmr hfit
  refine ⟨obj, obj', hf, hcore, ?_⟩
  have hp : Complete rows rows ⟨Distance.pairs rows, List.range rows, Props.seqSchedule, List.range rows⟩ := ⟨.refl _, .refl _, Props.seqSchedule_complete, .refl _⟩
  obtain ⟨_, _, e1, _⟩ := fresh_inv (by omega) (hf _ hp).1
  obtain ⟨_, _, e1', _⟩ := fresh_inv (by omega) (hf _ hp).2
  obtain ⟨res, a1, a2, _, _, a3⟩ := doRun_frame (full_hierarchy e1).1
  obtain ⟨res', a1', a2', _, _, a3'⟩ := doRun_frame (full_hierarchy e1').1
  have hz : SamePair rows (distOf env.dops f) (distOf env'.dops f') env.ar.zeroW env'.ar.zeroW := ⟨0, 0, by omega, by omega, by simp [distOf, h.zero], by simp [distOf, h'.zero]⟩
  have hr := hierarchy_rel (Q := fun _ _ => True) (ar := env.ar) (ar' := env'.ar) (R := SamePair rows (distOf env.dops f) (distOf env'.dops f')) (R1 := OrMax (SamePair rows (distOf env.dops f) (distOf env'.dops f')) env.ar.dmax env'.ar.dmax)
    ⟨hz, .inr ⟨rfl, rfl⟩, trivial, fun _ {_ _ _ _ _ _} _ _ _ => trivial⟩ (orMax_alike hfit) .inl (fun h hne => h.resolve_right fun e => hne e.1) m hd rows hs
  rw [a1, a1'] at hr
  cases hr with
  | ok hr =>
    rw [← a2, ← a2']
    exact ⟨lines_alike hr.hierarchy, alike_frames (clusters_alike hr.clusters) a3 a3'⟩

/-- Other points on a line whose distances compare like those of `linePts`. -/
theorem linePts3_supported : Supported lineEnv [0, 10, 1, 13, 4] 5 1 (lineSq [0, 10, 1, 13, 4]) where
  few := by omega
  zero := rfl
  zero_lt := by decide
  sum i j hij hj := sqSum_iff.1 <| (by decide +kernel : ∀ j, j < 5 → ∀ i, i < j → Distance.sumFrom lineEnv.dops [0, 10, 1, 13, 4] 1 i j 1 0 lineEnv.dops.zero = .ok (lineSq [0, 10, 1, 13, 4] i j)) j hj i hij
  lt i j hij hj := (by decide +kernel : ∀ j, j < 5 → ∀ i, i < j → lineEnv.dops.sqrt (lineSq [0, 10, 1, 13, 4] i j) < lineEnv.ar.dmax) j hj i hij

example := C62_order lineEnv lineEnv (isort_sorts _) (isort_sorts _) linePts [0, 10, 1, 13, 4] 5 1 1 _ _ linePts_supported linePts3_supported (by omega) 2 (by omega) (by omega)
  (fun i j k l hi hj hk hl => (by decide +kernel : ∀ i, i < 5 → ∀ j, j < 5 → ∀ k, k < 5 → ∀ l, l < 5 →
    (distOf lineEnv.dops (lineSq linePts) i j < distOf lineEnv.dops (lineSq linePts) k l ↔
      distOf lineEnv.dops (lineSq [0, 10, 1, 13, 4]) i j < distOf lineEnv.dops (lineSq [0, 10, 1, 13, 4]) k l)) i hi j hj k hk l hl)

/-- The levels of these points, while those of `linePts` are 4, 2, 1 and 0. -/
example : (Api.fresh lineEnv (backPar 5 5) 2 [0, 10, 1, 13, 4] 5 1 true >>= fun o => .ok (o.results.hierarchy.map (fun x => (x.1, x.2.1)), o.results.clusters.length)) =
    .ok ([(1, 6), (2, 3), (3, 1), (0, 0)], 4) := by decide +kernel

end Verif.Props
