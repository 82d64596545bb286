import Verif.Spec.Python
import Verif.Props.Api
import Verif.Props.ClusterMap
/-
Lemmas about the Python binding.
-/
namespace Verif.Props
open Spec Py
variable {D W S T : Type}

theorem toIndex_nat {m : Nat} (h : m < 4294967296) : toIndex (m : Int) = m := by
  unfold toIndex; omega

theorem asInt_some {v : Int} (h : -2147483648 ≤ v ∧ v < 2147483648) : asInt (some v) = some v := by
  have : fitsInt v = true := by simp only [fitsInt, Bool.and_eq_true, decide_eq_true_eq]; exact h
  simp only [asInt, Option.filter_some, this, if_true]

theorem asInt_none {v : Int} (h : v < -2147483648 ∨ 2147483648 ≤ v) : asInt (some v) = none := by
  have : fitsInt v = false := by
    cases e : fitsInt v with
    | false => rfl
    | true => simp only [fitsInt, Bool.and_eq_true, decide_eq_true_eq] at e; omega
  simp only [asInt, Option.filter_some, this]
  rfl

theorem asInts_some {v w : Int} (h : -2147483648 ≤ v ∧ v < 2147483648) (h' : -2147483648 ≤ w ∧ w < 2147483648) : asInts (some (v, w)) = some (v, w) := by
  have e : fitsInt v = true := by simp only [fitsInt, Bool.and_eq_true, decide_eq_true_eq]; exact h
  have e' : fitsInt w = true := by simp only [fitsInt, Bool.and_eq_true, decide_eq_true_eq]; exact h'
  simp only [asInts, Option.filter_some, e, e', Bool.and_self, if_true]

theorem HasDims.rows {a : Arr D} {r c r' c' : Nat} (h : HasDims a r c) (h' : HasDims a r' c') : r = r' := by
  rcases h with ⟨h, _⟩ | ⟨h, _⟩ <;> rcases h' with ⟨h', _⟩ | ⟨h', _⟩ <;> rw [h] at h' <;> simp at h' <;> tauto

theorem HasDims.cols {a : Arr D} {r c r' c' : Nat} (h : HasDims a r c) (h' : HasDims a r' c') : c = c' := by
  rcases h with ⟨h, e⟩ | ⟨h, _⟩ <;> rcases h' with ⟨h', e'⟩ | ⟨h', _⟩ <;> rw [h] at h' <;> simp at h'
  · rw [e, e']
  · exact h'.2

theorem HasDims.dims {a : Arr D} {r c : Nat} (h : HasDims a r c) (hr : r < 4294967296) : dims a.shape = .ok (r, c) := by
  rcases h with ⟨h, e⟩ | ⟨h, e⟩ <;> rw [h, Py.dims]
  · rw [Nat.mod_eq_of_lt hr, e]
  · rw [Nat.mod_eq_of_lt hr, Nat.mod_eq_of_lt e]

/-- The objects after runs and reruns on one data set. -/
theorem answers [LinearOrder W] [CCmp S] [LinearOrder T] {env : Api.Env D W S T} {data : List D} {rows cols : Nat} {f : Nat → Nat → W} (h : Supported env data rows cols f)
    (hq : SortsAscending env.qsort) (h5 : 5 ≤ rows) :
    ∃ A : Nat → Api.Obj W S T, ∀ m, 2 ≤ m → m ≤ rows → (A m).minPoints = m ∧ (A m).results.labels.length = rows ∧
      ∀ par, Complete rows rows par → Api.run env par m data rows cols true = .ok (A m) ∧ Api.fresh env par m data rows cols true = .ok (A m) ∧
        ∀ m', 2 ≤ m' → m' ≤ rows → Api.rerun env par m (A m') = .ok (A m) := by
  obtain ⟨C, core, O, key⟩ := api_rep h hq (by omega)
  refine ⟨fun m => ⟨m, rows, C m, O m⟩, fun m h2 hm => ?_⟩
  have hfresh : ∀ par, Complete rows rows par → Api.fresh env par m data rows cols true = .ok ⟨m, rows, C m, O m⟩ := by
    intro par hp
    rw [Api.fresh, Api.initObj, if_pos (by omega), Outcome.ok_bind]
    exact ((key m (by omega) hm).2.2.2 par hp).2.2.2.1 h5
  refine ⟨rfl, ?_, fun par hp => ⟨((key m (by omega) hm).2.2.2 par hp).2.2.2.1 h5, hfresh par hp, fun m' h2' hm' =>
    ((key m (by omega) hm).2.2.2 par hp).2.2.2.2 m' (by omega) hm'⟩⟩
  obtain ⟨obj, _, e, _, _, _, _, _, ⟨_, _, _, _, l, _⟩, _⟩ := C55_run_partial env hq data rows cols f h h5 m h2 hm
  have := (hfresh _ (backPar_complete rows rows)).symm.trans (e _ (backPar_complete rows rows))
  cases this
  exact l

/-! ### States that programs reach -/

/-- Hierarchy tables have numbers that were given out, and that of `scan` was not released. -/
structure Tidy (st : State W S T) : Prop where
  old : ∀ t ∈ st.released, t < st.tables
  cur : ∀ o t, st.scan = .ready o t → t < st.tables ∧ t ∉ st.released

theorem Tidy.set {st : State W S T} (h : Tidy st) (id : Nat) (p : Option PyObj) : Tidy (st.set id p) := ⟨h.old, h.cur⟩

theorem Tidy.clean {st st1 : State W S T} (h : Tidy st) (e : cleanScan st = .ok st1) : Tidy st1 := by
  unfold cleanScan at e
  cases hs : st.scan with
  | null => rw [hs] at e; cases e
  | new m => rw [hs] at e; cases e
  | cleaned m => rw [hs] at e; cases e; exact h
  | ready o t =>
    rw [hs] at e; cases e
    refine ⟨fun x hx => ?_, nofun⟩
    rcases List.mem_cons.1 hx with rfl | hx
    · exact (h.cur o _ hs).1
    · exact h.old x hx

theorem Tidy.dealloc {st st1 : State W S T} (h : Tidy st) {id : Nat} {p : PyObj} (e : dealloc id p st = .ok st1) : Tidy st1 := by
  unfold Py.dealloc at e
  obtain ⟨s, e1, e⟩ := Outcome.bind_eq_ok.mp e
  obtain ⟨_, _, e⟩ := Outcome.bind_eq_ok.mp e
  obtain ⟨_, _, e⟩ := Outcome.bind_eq_ok.mp e
  obtain ⟨_, _, e⟩ := Outcome.bind_eq_ok.mp e
  cases e
  exact (h.clean e1).set _ _

/-- A new hierarchy table. -/
theorem Tidy.fresh {st : State W S T} (h : Tidy st) (o : Api.Obj W S T) : Tidy { st with scan := .ready o st.tables, tables := st.tables + 1 } :=
  ⟨fun t ht => Nat.lt_succ_of_lt (h.old t ht), fun _ _ e => by cases e; exact ⟨Nat.lt_succ_self _, fun ht => Nat.lt_irrefl _ (h.old _ ht)⟩⟩

theorem Tidy.rerun {st : State W S T} (h : Tidy st) {o : Api.Obj W S T} {t : Nat} (hs : st.scan = .ready o t) (o' : Api.Obj W S T) :
    Tidy { st with scan := .ready o' st.tables, tables := st.tables + 1, released := t :: st.released } := by
  have hc := h.cur o t hs
  refine ⟨fun x hx => ?_, fun _ _ e => ?_⟩
  · rcases List.mem_cons.1 hx with rfl | hx
    · exact Nat.lt_succ_of_lt hc.1
    · exact Nat.lt_succ_of_lt (h.old x hx)
  · cases e
    refine ⟨Nat.lt_succ_self _, fun ht => ?_⟩
    rcases List.mem_cons.1 ht with e | ht
    · exact absurd hc.1 (by omega)
    · exact Nat.lt_irrefl _ (h.old _ ht)

theorem withObj_ok {id : Nat} {st : State W S T} {k : PyObj → Outcome (Reply × State W S T)} {r : Reply × State W S T} (e : withObj id st k = .ok r) :
    (st.objs id = none ∧ r = (.exn, st)) ∨ ∃ p, st.objs id = some p ∧ k p = .ok r := by
  unfold withObj at e
  cases hp : st.objs id with
  | none => rw [hp] at e; exact .inl ⟨rfl, (Outcome.ok.inj e).symm⟩
  | some p => rw [hp] at e; exact .inr ⟨p, rfl, e⟩

theorem tidy_step [CCmp W] [CCmp S] [CCmp T] {env : Api.Env D W S T} {st st1 : State W S T} (h : Tidy st) {c : Call D} {r : Reply} (e : step env st c = .ok (r, st1)) : Tidy st1 := by
  cases c with
  | construct id arg =>
    simp only [step, withNew] at e
    cases hp : st.objs id with
    | some p => rw [hp] at e; cases e; exact h
    | none =>
      rw [hp] at e
      cases arg with
      | none =>
        obtain ⟨s, e1, e⟩ := Outcome.bind_eq_ok.mp e
        cases e
        exact h.dealloc e1
      | some v =>
        simp only [construct] at e
        split at e
        · obtain ⟨s, e1, e⟩ := Outcome.bind_eq_ok.mp e
          cases e
          exact h.dealloc e1
        · cases e
          exact ⟨h.old, nofun⟩
  | run id par a =>
    rcases withObj_ok e with ⟨_, e⟩ | ⟨p, _, e⟩
    · cases e; exact h
    · simp only [Py.run] at e
      split at e
      · obtain ⟨x, _, e⟩ := Outcome.bind_eq_ok.mp e
        obtain ⟨m, _, e⟩ := Outcome.bind_eq_ok.mp e
        obtain ⟨o, _, e⟩ := Outcome.bind_eq_ok.mp e
        obtain ⟨l, _, e⟩ := Outcome.bind_eq_ok.mp e
        cases e
        exact (h.fresh o).set _ _
      · cases e; exact h
  | rerun id par arg =>
    rcases withObj_ok e with ⟨_, e⟩ | ⟨p, _, e⟩
    · cases e; exact h
    · simp only [Py.rerun] at e
      obtain ⟨l, _, e⟩ := Outcome.bind_eq_ok.mp e
      cases ha : asInt arg with
      | none => rw [ha] at e; cases e; exact h.set _ _
      | some v =>
        rw [ha] at e
        simp only at e
        split at e
        · cases e; exact h.set _ _
        · obtain ⟨⟨o, s⟩, e1, e⟩ := Outcome.bind_eq_ok.mp e
          obtain ⟨l, _, e⟩ := Outcome.bind_eq_ok.mp e
          cases e
          refine Tidy.set ?_ _ _
          unfold rerunScan at e1
          cases hs : st.scan with
          | null => rw [hs] at e1; cases e1
          | new m => rw [hs] at e1; cases e1
          | cleaned m => rw [hs] at e1; cases e1
          | ready o0 t =>
            rw [hs] at e1
            obtain ⟨o', _, e1⟩ := Outcome.bind_eq_ok.mp e1
            cases e1
            exact h.rerun hs _
  | getClusterMap id arg =>
    rcases withObj_ok e with ⟨_, e⟩ | ⟨p, _, e⟩
    · cases e; exact h
    · simp only [Py.getClusterMap] at e
      obtain ⟨l, _, e⟩ := Outcome.bind_eq_ok.mp e
      cases ha : asInts arg with
      | none => rw [ha] at e; cases e; exact h.set _ _
      | some v =>
        rw [ha] at e
        obtain ⟨m, _, e⟩ := Outcome.bind_eq_ok.mp e
        cases e; exact h.set _ _
  | getHierarchies id =>
    rcases withObj_ok e with ⟨_, e⟩ | ⟨p, _, e⟩
    · cases e; exact h
    · obtain ⟨l, _, e⟩ := Outcome.bind_eq_ok.mp e
      obtain ⟨m, _, e⟩ := Outcome.bind_eq_ok.mp e
      cases e; exact h.set _ _
  | labels id =>
    rcases withObj_ok e with ⟨_, e⟩ | ⟨p, _, e⟩
    · cases e; exact h
    · obtain ⟨l, _, e⟩ := Outcome.bind_eq_ok.mp e
      cases e; exact h
  | clusterMap id =>
    rcases withObj_ok e with ⟨_, e⟩ | ⟨p, _, e⟩
    · cases e; exact h
    · obtain ⟨l, _, e⟩ := Outcome.bind_eq_ok.mp e
      cases e; exact h
  | hierarchy id =>
    rcases withObj_ok e with ⟨_, e⟩ | ⟨p, _, e⟩
    · cases e; exact h
    · obtain ⟨l, _, e⟩ := Outcome.bind_eq_ok.mp e
      cases e; exact h
  | delete id =>
    rcases withObj_ok e with ⟨_, e⟩ | ⟨p, _, e⟩
    · cases e; exact h
    · obtain ⟨l, e1, e⟩ := Outcome.bind_eq_ok.mp e
      cases e; exact h.dealloc e1

theorem tidy_session [CCmp W] [CCmp S] [CCmp T] {env : Api.Env D W S T} : ∀ {cs : List (Call D)} {st st1 : State W S T} {r : List Reply}, Tidy st →
    session env cs st = .ok (r, st1) → Tidy st1
  | [], st, st1, r, h, e => by cases e; exact h
  | c :: cs, st, st1, r, h, e => by
    obtain ⟨⟨x, s⟩, e1, e⟩ := Outcome.bind_eq_ok.mp e
    obtain ⟨⟨xs, s2⟩, e2, e⟩ := Outcome.bind_eq_ok.mp e
    cases e
    exact tidy_session (tidy_step h e1) e2

theorem tidy_start : Tidy (start : State W S T) := ⟨nofun, nofun⟩

theorem session_append [CCmp W] [CCmp S] [CCmp T] {env : Api.Env D W S T} : ∀ (cs ds : List (Call D)) (st : State W S T),
    session env (cs ++ ds) st = session env cs st >>= fun x => session env ds x.2 >>= fun y => .ok (x.1 ++ y.1, y.2)
  | [], ds, st => by
    show session env ds st = session env ds st >>= fun y => .ok ([] ++ y.1, y.2)
    cases session env ds st <;> rfl
  | c :: cs, ds, st => by
    show (step env st c >>= fun x => session env (cs ++ ds) x.2 >>= fun y => .ok (x.1 :: y.1, y.2)) =
      (step env st c >>= fun x => session env cs x.2 >>= fun y => .ok (x.1 :: y.1, y.2)) >>= _
    cases hx : step env st c with
    | ok x =>
      simp only [Outcome.ok_bind]
      rw [session_append cs ds x.2]
      cases session env cs x.2 with
      | ok y =>
        simp only [Outcome.ok_bind]
        cases session env ds y.2 <;> rfl
      | _ => rfl
    | _ => rfl

theorem session_cons [CCmp W] [CCmp S] [CCmp T] {env : Api.Env D W S T} {c : Call D} {cs : List (Call D)} {st st1 st2 : State W S T} {x : Reply} {xs : List Reply}
    (h1 : step env st c = .ok (x, st1)) (h2 : session env cs st1 = .ok (xs, st2)) : session env (c :: cs) st = .ok (x :: xs, st2) := by
  show (step env st c >>= fun x => session env cs x.2 >>= fun y => .ok (x.1 :: y.1, y.2)) = _
  rw [h1, Outcome.ok_bind, h2]; rfl

/-! ### One object on its own -/

/-- `scan` holds what the object `id` was asked for last, and the object holds the labels. -/
structure Alone [CCmp W] [CCmp S] [CCmp T] (env : Api.Env D W S T) (id : Nat) (j : Job D) (o : Api.Obj W S T) (st : State W S T) : Prop where
  tidy : Tidy st
  scan : ∃ t, st.scan = .ready o t
  obj : ∃ p, st.objs id = some p ∧ p.labels = some (o.results.labels, 2) ∧ p.rows = o.results.labels.length ∧ (∀ x k, p.clusterMap = some (x, k) → 0 < k) ∧
    ∀ x k, p.hierarchy = some (x, k) → 0 < k

theorem decref_pos {α : Type} {r : Ref α} (h : ∀ x k, r = some (x, k) → 0 < k) : ∃ r', decref r = .ok r' := by
  match r with
  | none => exact ⟨_, rfl⟩
  | some (a, 0) => exact absurd (h a 0 rfl) (by omega)
  | some (a, k + 1) => exact ⟨_, rfl⟩

theorem set_objs (st : State W S T) (id : Nat) (p : Option PyObj) : (st.set id p).objs id = p := if_pos rfl

theorem set_set (st : State W S T) (id : Nat) (p q : Option PyObj) : (st.set id p).set id q = st.set id q := by
  unfold State.set
  congr 1
  funext i
  by_cases h : i = id
  · rw [if_pos h, if_pos h]
  · rw [if_neg h, if_neg h]; exact if_neg h

theorem getLabels_all (l : List Nat) : getLabels l.length l = .ok l := by rw [getLabels, if_pos (Nat.le_refl _), List.take_length]

/-- The object of a job, and how runs and reruns lead to it. -/
theorem fit_answer [LinearOrder W] [CCmp S] [LinearOrder T] {env : Api.Env D W S T} (hq : SortsAscending env.qsort) {a : Arr D} {m : Nat} (h : Fit env a m) :
    ∃ (A : Nat → Api.Obj W S T) (rows cols : Nat), dims a.shape = .ok (rows, cols) ∧ HasDims a rows cols ∧ rows < 2147483648 ∧ m ≤ rows ∧
      ∀ m, 2 ≤ m → m ≤ rows → Answer env m a (A m) ∧ (A m).minPoints = m ∧ (A m).results.labels.length = rows ∧ ∀ par, Complete rows rows par →
        Api.run env par m a.data rows cols true = .ok (A m) ∧ ∀ m', 2 ≤ m' → m' ≤ rows → Api.rerun env par m (A m') = .ok (A m) := by
  obtain ⟨rows, cols, f, hd, hs, h5, hm⟩ := h.dims
  obtain ⟨A, hA⟩ := answers hs hq h5
  have := hs.few
  refine ⟨A, rows, cols, HasDims.dims hd (by omega), hd, by omega, hm, fun m h2 hm => ?_⟩
  obtain ⟨a1, a2, a3⟩ := hA m h2 hm
  exact ⟨⟨rows, cols, hd, fun par hp => (a3 par hp).2.1⟩, a1, a2, fun par hp => ⟨(a3 par hp).1, (a3 par hp).2.2⟩⟩

theorem answer_unique [LinearOrder W] [CCmp S] [LinearOrder T] {env : Api.Env D W S T} {a : Arr D} {m : Nat} {o o' : Api.Obj W S T} (h : Answer env m a o) (h' : Answer env m a o') :
    o = o' := by
  obtain ⟨r, c, h1, h2⟩ := h
  obtain ⟨r', c', h1', h2'⟩ := h'
  cases HasDims.rows h1 h1'
  cases HasDims.cols h1 h1'
  exact Outcome.ok.inj ((h2 _ (backPar_complete r r)).symm.trans (h2' _ (backPar_complete r r)))

/-- A run, whatever the state, with the minPoints of `scan`. -/
theorem run_step [LinearOrder W] [CCmp S] [LinearOrder T] {env : Api.Env D W S T} (hq : SortsAscending env.qsort) {st : State W S T} (ht : Tidy st) {id : Nat} {p : PyObj}
    (hp : st.objs id = some p) {m : Nat} (hm : scanMinPoints st.scan = .ok m) {a : Arr D} (ha : Fit env a m) {par : Api.Par} (hpar : CompleteFor a par) :
    ∃ o st1, Answer env m a o ∧ o.minPoints = m ∧ step env st (.run id par a) = .ok (.code 0, st1) ∧ Tidy st1 ∧ (∃ t, st1.scan = .ready o t) ∧
      st1.objs id = some { p with rows := o.results.labels.length, cols := (match dims a.shape with | .ok x => x.2 | _ => 0), labels := some (o.results.labels, 2) } ∧
      ∀ i, i ≠ id → st1.objs i = st.objs i := by
  obtain ⟨A, rows, cols, e1, hd, _, hmr, hA⟩ := fit_answer hq ha
  obtain ⟨h1, h2, h3, h4⟩ := hA m ha.min hmr
  refine ⟨A m, _, h1, h2, ?_, (ht.fresh (A m)).set id _, ⟨_, rfl⟩, set_objs _ _ _, fun i hi => if_neg hi⟩
  simp only [step, withObj, hp, Py.run, ha.type, if_true, e1, Outcome.ok_bind, hm, (h4 par (hpar _ _ hd)).1, h3]
  have := getLabels_all (A m).results.labels
  rw [h3] at this
  rw [this]; rfl

/-- What the calls of one use do. -/
theorem use_step [LinearOrder W] [CCmp S] [LinearOrder T] {env : Api.Env D W S T} (hq : SortsAscending env.qsort) {st : State W S T} {id : Nat} {j : Job D} {o : Api.Obj W S T}
    (h : Alone env id j o st) (hj : Fit env j.a j.m) (ho : Answer env j.m j.a o) {u : Use D} (hu : Allowed env j u) :
    ∃ o' r st1, session env (u.calls id) st = .ok (r, st1) ∧ Alone env id (j.after u) o' st1 ∧ Fit env (j.after u).a (j.after u).m ∧ Answer env (j.after u).m (j.after u).a o' ∧
      RightReply o' u r := by
  obtain ⟨ht, ⟨t, hs⟩, p, hp, hl, hr, hcm, hh⟩ := h
  obtain ⟨A, rows, cols, e1, hd, hlt, hmr, hA⟩ := fit_answer hq hj
  obtain ⟨a1, a2, a3, a4⟩ := hA j.m hj.min hmr
  obtain rfl := answer_unique a1 ho
  cases u with
  | run par a =>
    obtain ⟨o', st1, b1, b2, b3, b4, b5, b6, _⟩ := run_step hq ht hp (by rw [hs, scanMinPoints, a2]) hu.1 hu.2
    refine ⟨o', _, st1, session_cons b3 rfl, ⟨b4, b5, _, b6, rfl, rfl, hcm, hh⟩, hu.1, b1, rfl⟩
  | rerun par m =>
    obtain ⟨_, _, _, hd', _, _, hm⟩ := hu.1.dims
    cases HasDims.rows hd hd'
    obtain ⟨c1, c2, c3, c4⟩ := hA m hu.1.min hm
    refine ⟨A m, _, _, session_cons ?_ rfl, ⟨(ht.rerun hs (A m)).set id _, ⟨_, rfl⟩, { p with minPoints := m, labels := some ((A m).results.labels, 2) }, set_objs _ _ _, rfl, ?_, hcm, hh⟩, hu.1, c1, rfl⟩
    · have h2 := hu.1.min
      have hg := getLabels_all (A m).results.labels
      rw [c3] at hg
      simp only [step, withObj, hp, Py.rerun, hl, decref, Outcome.ok_bind, asInt_some (show -2147483648 ≤ (m : Int) ∧ (m : Int) < 2147483648 by omega), toIndex_nat (show m < 4294967296 by omega), if_neg (show ¬ m < 2 by omega), rerunGo, rerunScan, hs,
        (c4 par (hu.2 _ _ hd)).2 j.m hj.min hmr, Outcome.pure_eq, hr, a3, hg]
    · show p.rows = _
      rw [hr, a3, c3]
  | labels =>
    refine ⟨A j.m, _, st, session_cons (st1 := st) ?_ rfl, ⟨ht, ⟨t, hs⟩, p, hp, hl, hr, hcm, hh⟩, hj, ho, rfl⟩
    simp only [step, withObj, hp, hl, readRef, Outcome.ok_bind]
    rfl
  | clusterMap b e =>
    have he := hu.2 _ _ hd
    obtain ⟨m, m1, _, m2⟩ := C41_map_partial (A j.m).results.labels b e (by omega) (.inl hu.1)
    obtain ⟨x, hx⟩ := decref_pos hcm
    have hb := hu.1
    refine ⟨A j.m, _, _, session_cons (st1 := st.set id (some { p with clusterMap := some (m, 1) })) (x := .clusterMap m) ?_ (session_cons (x := .clusterMap m) ?_ rfl),
      ⟨ht.set _ _, ⟨t, hs⟩, { p with clusterMap := some (m, 1) }, set_objs _ _ _, hl, hr, fun _ _ e => by cases e; exact Nat.one_pos, hh⟩, hj, ho, m, ?_, rfl⟩
    · simp only [step, withObj, hp, getClusterMap, hx, Outcome.ok_bind, asInts_some (show -2147483648 ≤ (b : Int) ∧ (b : Int) < 2147483648 by omega)
        (show -2147483648 ≤ (e : Int) ∧ (e : Int) < 2147483648 by omega), toIndex_nat (show b < 4294967296 by omega), toIndex_nat (show e < 4294967296 by omega), scanMap, hs, m1]
      rfl
    · simp only [step, withObj, set_objs, readRef, Outcome.ok_bind]; rfl
    · rwa [Nat.max_eq_right (by omega)] at m2
  | hierarchy =>
    obtain ⟨x, hx⟩ := decref_pos hh
    refine ⟨A j.m, _, _, session_cons (st1 := st.set id (some { p with hierarchy := some ((t, levels (A j.m)), 2) })) (x := .code 1) ?_
      (session_cons (x := .hierarchy (levels (A j.m))) ?_ rfl), ⟨ht.set _ _, ⟨t, hs⟩, { p with hierarchy := some ((t, levels (A j.m)), 2) }, set_objs _ _ _, hl, hr, hcm, fun _ _ e => by cases e; exact Nat.two_pos⟩, hj, ho, rfl⟩
    · simp only [step, withObj, hp, getHierarchies, hx, Outcome.ok_bind, scanTable, hs]; rfl
    · simp only [step, withObj, set_objs, readRef]
      show (readLevels st.released (t, levels (A j.m)) >>= fun r => _) = _
      rw [readLevels, if_neg (ht.cur _ _ hs).2]; rfl

theorem uses_step [LinearOrder W] [CCmp S] [LinearOrder T] {env : Api.Env D W S T} (hq : SortsAscending env.qsort) {id : Nat} : ∀ {us : List (Use D)} {st : State W S T} {j : Job D}
    {o : Api.Obj W S T}, Alone env id j o st → Fit env j.a j.m → Answer env j.m j.a o → AllAllowed env j us →
    ∃ j' o' r st1, session env (us.flatMap (Use.calls id)) st = .ok (r, st1) ∧ Alone env id j' o' st1 ∧ RightReplies env j us r
  | [], st, j, o, h, hj, ho, hu => ⟨j, o, [], st, rfl, h, rfl⟩
  | u :: us, st, j, o, h, hj, ho, hu => by
    obtain ⟨o1, r1, s1, e1, b1, b2, b3, b4⟩ := use_step hq h hj ho hu.1
    obtain ⟨j2, o2, r2, s2, e2, c1, c2⟩ := uses_step hq b1 b2 b3 hu.2
    refine ⟨j2, o2, r1 ++ r2, s2, ?_, c1, o1, r1, r2, b3, b4, c2, rfl⟩
    rw [List.flatMap_cons, session_append, e1, Outcome.ok_bind, e2]; rfl

end Verif.Props
