import Verif.Lemmas.Python
/-
C65, C66, C67: the objects of the Python binding.
-/
namespace Verif.Props
open Spec Py
variable {D W S T : Type}

/-! ### C65 -/

/-- Construct an object and run it, in any state a program can reach. -/
theorem construct_run [LinearOrder W] [CCmp S] [LinearOrder T] {env : Api.Env D W S T} (hq : SortsAscending env.qsort) {st : State W S T} (ht : Tidy st) {id : Nat}
    (hid : st.objs id = none) {m : Nat} {a : Arr D} (ha : Fit env a m) {par : Api.Par} (hpar : CompleteFor a par) :
    ∃ o st2, session env [.construct id (some m), .run id par a] st = .ok ([.done, .code 0], st2) ∧ Answer env m a o ∧ Alone env id ⟨m, a⟩ o st2 := by
  obtain ⟨rows, _, _, _, hs, _, hm⟩ := ha.dims
  have h16 := hs.few
  have h2 := ha.min
  have e1 : step env st (.construct id (some m)) = .ok (.done, { st with scan := .new m }.set id (some { blank with minPoints := m })) := by
    simp only [step, withNew, hid, construct, toIndex_nat (show m < 4294967296 by omega), if_neg (show ¬ m < 2 by omega)]
  obtain ⟨o, st2, b1, b2, b3, b4, b5, b6, _⟩ := run_step (p := { blank with minPoints := m }) hq (tidy_step ht e1) (set_objs _ _ _) rfl ha hpar
  exact ⟨o, st2, session_cons e1 (session_cons b3 rfl), b1, b4, b5, _, b6, rfl, rfl, nofun, nofun⟩

/-- **C65, the part that holds.** Whatever a program did before (`pre`, with any objects): if it then constructs an object and until its deletion uses no other one, every reply is right:
    labels, cluster maps and hierarchies are those that the C library computes for the minPoints and the array of the object's last run and rerun. Nothing is undefined.
    Missing: programs that use two objects at the same time (`C65_violated`, `C65_last_object_wins`, `C65_rebind_violated`, `C65_delete_violated`). -/
theorem C65_alone_partial [LinearOrder W] [CCmp S] [LinearOrder T] (env : Api.Env D W S T) (hq : SortsAscending env.qsort) (pre : List (Call D)) (rs : List Reply) (st : State W S T)
    (hpre : session env pre start = .ok (rs, st)) (id : Nat) (hid : st.objs id = none) (m : Nat) (a : Arr D) (ha : Fit env a m) (par : Api.Par) (hpar : CompleteFor a par)
    (us : List (Use D)) (hus : AllAllowed env ⟨m, a⟩ us) :
    ∃ r st', session env (pre ++ ([.construct id (some m), .run id par a] ++ us.flatMap (Use.calls id) ++ [.delete id])) start = .ok (rs ++ ([.done, .code 0] ++ r ++ [.done]), st') ∧
      RightReplies env ⟨m, a⟩ us r := by
  obtain ⟨o, st2, e1, ho, h2⟩ := construct_run hq (tidy_session tidy_start hpre) hid ha hpar
  obtain ⟨j, o', r, st3, e2, ⟨_, ⟨t, hs⟩, p, hp, hl, _, hc, hh⟩, hr⟩ := uses_step hq h2 ha ho hus
  obtain ⟨x, hx⟩ := decref_pos hc
  obtain ⟨y, hy⟩ := decref_pos hh
  obtain ⟨st4, e3⟩ : ∃ st4, session env [.delete id] st3 = .ok ([.done], st4) := by
    refine ⟨{ st3 with scan := .cleaned o'.minPoints, released := t :: st3.released }.set id none, session_cons ?_ rfl⟩
    have hz : decref p.labels = .ok (some (o'.results.labels, 1)) := by rw [hl]; rfl
    simp only [step, withObj, hp, dealloc, cleanScan, hs, Outcome.ok_bind, hz, hx, hy]
    rfl
  refine ⟨r, st4, ?_, hr⟩
  rw [session_append, hpre, Outcome.ok_bind, session_append, session_append, e1, Outcome.ok_bind, e2, Outcome.ok_bind, Outcome.ok_bind, e3, Outcome.ok_bind, Outcome.ok_bind]

/-- How objects influence one another: a run of any object uses the minPoints of the object that was constructed last. -/
theorem C65_last_object_wins [LinearOrder W] [CCmp S] [LinearOrder T] (env : Api.Env D W S T) (hq : SortsAscending env.qsort) (pre : List (Call D)) (rs : List Reply) (st : State W S T)
    (hpre : session env pre start = .ok (rs, st)) (x y : Nat) (p : PyObj) (hx : st.objs x = some p) (hy : st.objs y = none) (m : Nat) (a : Arr D) (ha : Fit env a m) (par : Api.Par)
    (hpar : CompleteFor a par) :
    ∃ o st', Answer env m a o ∧ session env (pre ++ [.construct y (some m), .run x par a, .labels x]) start = .ok (rs ++ [.done, .code 0, .labels o.results.labels], st') := by
  obtain ⟨rows, _, _, _, hs, _, hm⟩ := ha.dims
  have h16 := hs.few
  have h2 := ha.min
  have hxy : x ≠ y := fun h => by rw [h, hy] at hx; cases hx
  have e1 : step env st (.construct y (some m)) = .ok (.done, { st with scan := .new m }.set y (some { blank with minPoints := m })) := by
    simp only [step, withNew, hy, construct, toIndex_nat (show m < 4294967296 by omega), if_neg (show ¬ m < 2 by omega)]
  obtain ⟨o, st2, b1, b2, b3, b4, b5, b6, _⟩ := run_step (p := p) hq (tidy_step (tidy_session tidy_start hpre) e1) ((if_neg hxy).trans hx) rfl ha hpar
  refine ⟨o, st2, b1, ?_⟩
  rw [session_append, hpre, Outcome.ok_bind, session_cons e1 (session_cons b3 (session_cons (x := .labels o.results.labels) (st1 := st2) ?_ rfl)), Outcome.ok_bind]
  simp only [step, withObj, b6, readRef, Outcome.ok_bind]
  rfl

/-- The array `[0, 7, 1, 9, 3]`. -/
def lineArr : Arr Rat := ⟨true, [5], linePts⟩

theorem lineArr_fit {m : Nat} (h2 : 2 ≤ m) (h5 : m ≤ 5) : Fit lineEnv lineArr m := ⟨rfl, h2, 5, 1, _, .inl ⟨rfl, rfl⟩, linePts_supported, Nat.le_refl 5, h5⟩

theorem lineArr_complete : CompleteFor lineArr (backPar 5 5) := fun rows cols h => by
  cases HasDims.rows h (.inl ⟨rfl, rfl⟩ : HasDims lineArr 5 1)
  exact backPar_complete 5 5

/-- **C65 is violated**: the object made with minPoints 2 gives other labels when a second object, made with minPoints 3, exists. -/
theorem C65_violated : ∃ st st', session lineEnv [.construct 0 (some 2), .run 0 (backPar 5 5) lineArr, .labels 0] start = .ok ([.done, .code 0, .labels [3, 2, 3, 2, 3]], st) ∧
    session lineEnv [.construct 0 (some 2), .construct 1 (some 3), .run 0 (backPar 5 5) lineArr, .labels 0] start = .ok ([.done, .done, .code 0, .labels [0, 0, 0, 0, 0]], st') := by
  have e1 : (Api.fresh lineEnv (backPar 5 5) 2 linePts 5 1 true >>= fun o => .ok o.results.labels) = .ok [3, 2, 3, 2, 3] := by decide +kernel
  have e2 : (Api.fresh lineEnv (backPar 5 5) 3 linePts 5 1 true >>= fun o => .ok o.results.labels) = .ok [0, 0, 0, 0, 0] := by decide +kernel
  have val : ∀ {m : Nat} {o : Api.Obj Rat Rat Rat} {l : List Nat}, Answer lineEnv m lineArr o → (Api.fresh lineEnv (backPar 5 5) m linePts 5 1 true >>= fun o => .ok o.results.labels) = .ok l →
      o.results.labels = l := by
    intro m o l h e
    obtain ⟨r, c, h1, h2⟩ := h
    cases HasDims.rows h1 (.inl ⟨rfl, rfl⟩ : HasDims lineArr 5 1)
    cases HasDims.cols h1 (.inl ⟨rfl, rfl⟩ : HasDims lineArr 5 1)
    have : Api.fresh lineEnv (backPar 5 5) m linePts 5 1 true = .ok o := h2 _ (backPar_complete 5 5)
    rw [this] at e
    exact Outcome.ok.inj e
  obtain ⟨o, st2, b1, b2, b3, b4, p, hp, hl, _⟩ := construct_run (isort_sorts _) tidy_start (id := 0) rfl (lineArr_fit (Nat.le_refl 2) (by omega)) lineArr_complete
  obtain ⟨o', st3, c1, c2⟩ := C65_last_object_wins lineEnv (isort_sorts _) [.construct 0 (some 2)] [.done] _ rfl 0 1 _ rfl rfl 3 lineArr (lineArr_fit (by omega) (by omega)) _ lineArr_complete
  replace b1 : session lineEnv [.construct 0 (some 2), .run 0 (backPar 5 5) lineArr] start = .ok ([.done, .code 0], st2) := b1
  refine ⟨st2, st3, ?_, ?_⟩
  · have := session_append (env := lineEnv) [.construct 0 (some 2), .run 0 (backPar 5 5) lineArr] [.labels 0] start
    refine this.trans ?_
    rw [b1, Outcome.ok_bind, session_cons (x := .labels o.results.labels) (st1 := st2) ?_ rfl, Outcome.ok_bind, val b2 e1]
    · rfl
    · simp only [step, withObj, hp, hl, readRef, Outcome.ok_bind]
      rfl
  · rw [val c1 e2] at c2
    exact c2

/-- Nor may a variable be bound to a new object (`s = PyHdbscan(2); ...; s = PyHdbscan(3)`): deleting the old object cleans the struct of the new one, which holds
    indeterminate pointers. In every state, for all arguments. -/
theorem C65_rebind_violated [CCmp W] [CCmp S] [CCmp T] (env : Api.Env D W S T) (st : State W S T) (x y : Nat) (p : PyObj) (hx : st.objs x = some p) (hy : st.objs y = none) (v : Int)
    (hv : 2 ≤ toIndex v) : (session env [.construct y (some v), .delete x] st).IsUB := by
  have hxy : x ≠ y := fun h => by rw [h, hy] at hx; cases hx
  have e1 : step env st (.construct y (some v)) = .ok (.done, { st with scan := .new (toIndex v) }.set y (some { blank with minPoints := toIndex v })) := by
    simp only [step, withNew, hy, construct, if_neg (Nat.not_lt.2 hv)]
  have e2 : ∀ s : State W S T, s.scan = .new (toIndex v) → s.objs x = some p → step env s (.delete x) = .ub "read of an indeterminate pointer" := by
    intro s h1 h2
    simp only [step, withObj, h2, dealloc, cleanScan, h1]
    rfl
  refine ⟨"read of an indeterminate pointer", ?_⟩
  show (step env st _ >>= fun z => session env _ z.2 >>= fun w => .ok (z.1 :: w.1, w.2)) = _
  rw [e1, Outcome.ok_bind]
  show ((step env _ _ >>= fun z => session env _ z.2 >>= fun w => .ok (z.1 :: w.1, w.2)) >>= _) = _
  rw [e2 _ rfl ((if_neg hxy).trans hx)]
  rfl

theorem cleanScan_cases (st : State W S T) : (cleanScan st).IsUB ∨ ∃ m st1, cleanScan st = .ok st1 ∧ st1.scan = .cleaned m ∧ st1.objs = st.objs := by
  unfold cleanScan
  cases hs : st.scan with
  | null => exact .inl ⟨_, rfl⟩
  | new m => exact .inl ⟨_, rfl⟩
  | cleaned m => exact .inr ⟨m, st, rfl, hs, rfl⟩
  | ready o t => exact .inr ⟨_, _, rfl, rfl, rfl⟩

theorem decref_cases {α : Type} (r : Ref α) : (decref r).IsUB ∨ ∃ r', decref r = .ok r' := by
  match r with
  | none => exact .inr ⟨_, rfl⟩
  | some (a, 0) => exact .inl ⟨_, rfl⟩
  | some (a, k + 1) => exact .inr ⟨_, rfl⟩

theorem dealloc_cases (id : Nat) (p : PyObj) (st : State W S T) : (dealloc id p st).IsUB ∨ ∃ m st1, dealloc id p st = .ok st1 ∧ st1.scan = .cleaned m ∧ ∀ i, i ≠ id → st1.objs i = st.objs i := by
  unfold dealloc
  rcases cleanScan_cases st with ⟨w, h⟩ | ⟨m, st1, h, hs, ho⟩
  · exact .inl ⟨w, by rw [h]; rfl⟩
  · rw [h, Outcome.ok_bind]
    rcases decref_cases p.labels with ⟨w, h⟩ | ⟨_, h⟩
    · exact .inl ⟨w, by rw [h]; rfl⟩
    · rw [h, Outcome.ok_bind]
      rcases decref_cases p.clusterMap with ⟨w, h⟩ | ⟨_, h⟩
      · exact .inl ⟨w, by rw [h]; rfl⟩
      · rw [h, Outcome.ok_bind]
        rcases decref_cases p.hierarchy with ⟨w, h⟩ | ⟨_, h⟩
        · exact .inl ⟨w, by rw [h]; rfl⟩
        · rw [h, Outcome.ok_bind]
          exact .inr ⟨m, _, rfl, hs, fun i hi => (if_neg hi).trans (by rw [ho])⟩

theorem rerun_cleaned [CCmp W] [CCmp S] [CCmp T] (env : Api.Env D W S T) {st : State W S T} {m : Nat} (hs : st.scan = .cleaned m) {id : Nat} {p : PyObj} (hp : st.objs id = some p)
    (par : Api.Par) {v : Int} (hv : ¬ RefusedRerun (some v)) : (step env st (.rerun id par (some v))).IsUB := by
  have hv1 : -2147483648 ≤ v ∧ v < 2147483648 := by simp only [RefusedRerun] at hv; omega
  have hv2 : 2 ≤ toIndex v := by simp only [RefusedRerun] at hv; unfold toIndex; omega
  simp only [step, withObj, hp, Py.rerun, asInt_some hv1]
  rcases decref_cases p.labels with ⟨w, h⟩ | ⟨_, h⟩
  · exact ⟨w, by rw [h]; rfl⟩
  · rw [h, Outcome.ok_bind]
    exact ⟨_, by simp only [if_neg (Nat.not_lt.2 hv2), rerunGo, rerunScan, hs]; rfl⟩

/-- Deleting an object takes the data of the other objects with it: a rerun of any other one is undefined. In every state, for all arguments. -/
theorem C65_delete_violated [CCmp W] [CCmp S] [CCmp T] (env : Api.Env D W S T) (st : State W S T) (x y : Nat) (hxy : x ≠ y) (p q : PyObj) (hx : st.objs x = some p) (hy : st.objs y = some q)
    (par : Api.Par) (v : Int) (hv : ¬ RefusedRerun (some v)) : (session env [.delete y, .rerun x par (some v)] st).IsUB := by
  rcases dealloc_cases y q st with ⟨w, h⟩ | ⟨m, st1, h, hs, ho⟩
  · refine ⟨w, ?_⟩
    show (step env st _ >>= fun z => session env _ z.2 >>= fun w => .ok (z.1 :: w.1, w.2)) = _
    simp only [step, withObj, hy, h]
    rfl
  · obtain ⟨w, hw⟩ := rerun_cleaned env hs ((ho x hxy).trans hx) par hv
    refine ⟨w, ?_⟩
    show (step env st _ >>= fun z => session env _ z.2 >>= fun w => .ok (z.1 :: w.1, w.2)) = _
    have e1 : step env st (.delete y) = .ok (.done, st1) := by simp only [step, withObj, hy, h]; rfl
    rw [e1, Outcome.ok_bind]
    show ((step env _ _ >>= fun z => session env _ z.2 >>= fun w => .ok (z.1 :: w.1, w.2)) >>= _) = _
    rw [hw]
    rfl

/-- A program before the object, two runs, a rerun and reads of everything. -/
example (pre : List (Call Rat)) (rs : List Reply) (st : State Rat Rat Rat) (hpre : session lineEnv pre start = .ok (rs, st)) (id : Nat) (hid : st.objs id = none) :=
  C65_alone_partial lineEnv (isort_sorts _) pre rs st hpre id hid 2 lineArr (lineArr_fit (by omega) (by omega)) (backPar 5 5) lineArr_complete
    [.labels, .clusterMap 0 5, .hierarchy, .rerun (backPar 5 5) 3, .labels, .run (backPar 5 5) lineArr, .hierarchy, .labels]
    ⟨trivial, ⟨by omega, fun _ _ h => (HasDims.rows h (.inl ⟨rfl, rfl⟩ : HasDims lineArr 5 1)).symm ▸ Nat.le_refl 5⟩, trivial, ⟨lineArr_fit (by omega) (by omega), lineArr_complete⟩, trivial,
      ⟨lineArr_fit (by decide) (by decide), lineArr_complete⟩, trivial, trivial, trivial⟩

/-- Rebinding and deletion in a program that has made two objects. -/
example : ∃ st : State Rat Rat Rat, session lineEnv [.construct 0 (some 2), .construct 1 (some 3)] start = .ok ([.done, .done], st) ∧
    (session lineEnv [.construct 2 (some 4), .delete 0] st).IsUB ∧ (session lineEnv [.delete 1, .rerun 0 (backPar 5 5) (some 3)] st).IsUB :=
  ⟨_, rfl, C65_rebind_violated lineEnv _ 0 2 _ rfl rfl 4 (by decide), C65_delete_violated lineEnv _ 0 1 (by decide) _ _ rfl rfl _ 3 (by simp only [RefusedRerun]; omega)⟩

/-! ### C66 -/

theorem session_ub [CCmp W] [CCmp S] [CCmp T] {env : Api.Env D W S T} {c : Call D} {cs : List (Call D)} {st : State W S T} (h : (step env st c).IsUB) : (session env (c :: cs) st).IsUB := by
  obtain ⟨w, h⟩ := h
  refine ⟨w, ?_⟩
  show (step env st _ >>= fun z => session env _ z.2 >>= fun w => .ok (z.1 :: w.1, w.2)) = _
  rw [h]; rfl

theorem session_ok_ub [CCmp W] [CCmp S] [CCmp T] {env : Api.Env D W S T} {c : Call D} {cs : List (Call D)} {st st1 : State W S T} {r : Reply} (h : step env st c = .ok (r, st1))
    (h2 : (session env cs st1).IsUB) : (session env (c :: cs) st).IsUB := by
  obtain ⟨w, h2⟩ := h2
  refine ⟨w, ?_⟩
  show (step env st _ >>= fun z => session env _ z.2 >>= fun w => .ok (z.1 :: w.1, w.2)) = _
  rw [h, Outcome.ok_bind, h2]; rfl

theorem append_ub [CCmp W] [CCmp S] [CCmp T] {env : Api.Env D W S T} {cs ds : List (Call D)} {st st1 : State W S T} {r : List Reply} (h : session env cs st = .ok (r, st1))
    (h2 : (session env ds st1).IsUB) : (session env (cs ++ ds) st).IsUB := by
  obtain ⟨w, h2⟩ := h2
  exact ⟨w, by rw [session_append, h, Outcome.ok_bind, h2]; rfl⟩

/-- A refused rerun. -/
theorem rerun_refused [CCmp W] [CCmp S] [CCmp T] (env : Api.Env D W S T) {st : State W S T} {id : Nat} {p : PyObj} (hp : st.objs id = some p) {l : List Nat} {k : Nat}
    (hl : p.labels = some (l, k + 1)) (par : Api.Par) {arg : Option Int} (hr : RefusedRerun arg) :
    ∃ n, step env st (.rerun id par arg) = .ok (.exn, st.set id (some { p with labels := some (l, k), minPoints := n })) := by
  cases arg with
  | none => exact ⟨p.minPoints, by simp only [step, withObj, hp, Py.rerun, hl, decref, Outcome.ok_bind]; rfl⟩
  | some v =>
    by_cases hv : -2147483648 ≤ v ∧ v < 2147483648
    · have h2 : toIndex v < 2 := by simp only [RefusedRerun] at hr; unfold toIndex; omega
      exact ⟨toIndex v, by simp only [step, withObj, hp, Py.rerun, hl, decref, Outcome.ok_bind, asInt_some hv, if_pos h2]⟩
    · exact ⟨p.minPoints, by simp only [step, withObj, hp, Py.rerun, hl, decref, Outcome.ok_bind, asInt_none (show v < -2147483648 ∨ 2147483648 ≤ v by omega)]⟩

/-- A refused construction: it deallocates. -/
theorem construct_refused [CCmp W] [CCmp S] [CCmp T] (env : Api.Env D W S T) {st : State W S T} {id : Nat} (hid : st.objs id = none) {arg : Option Int} (hr : Refused arg) :
    ∃ p, step env st (.construct id arg) = (dealloc id p st >>= fun s => .ok (.exn, s)) := by
  cases arg with
  | none => exact ⟨blank, by simp only [step, withNew, hid, construct]; rfl⟩
  | some v => exact ⟨{ blank with minPoints := toIndex v }, by simp only [step, withNew, hid, construct, if_pos (show toIndex v < 2 from hr)]; rfl⟩

/-- **C66, the part that holds.** After any uses of an object (the only one in use, as in C65), a refused run changes nothing, and one refused rerun leaves the labels readable and a later rerun right.
    Missing: a second refused rerun (`C66_rerun_violated`), refused constructions (`C66_construct_violated`), refused `getClusterMap` (`C66_map_violated`). -/
theorem C66_refused_partial [LinearOrder W] [CCmp S] [LinearOrder T] (env : Api.Env D W S T) (hq : SortsAscending env.qsort) (pre : List (Call D)) (rs : List Reply) (st : State W S T)
    (hpre : session env pre start = .ok (rs, st)) (id : Nat) (hid : st.objs id = none) (m : Nat) (a : Arr D) (ha : Fit env a m) (par : Api.Par) (hpar : CompleteFor a par)
    (us : List (Use D)) (hus : AllAllowed env ⟨m, a⟩ us) :
    ∃ r st1, session env (pre ++ ([.construct id (some m), .run id par a] ++ us.flatMap (Use.calls id))) start = .ok (r, st1) ∧
      (∀ (b : Arr D) par', b.typeOk = false → step env st1 (.run id par' b) = .ok (.exn, st1)) ∧
      ∀ (arg : Option Int) par', RefusedRerun arg → ∃ st2, step env st1 (.rerun id par' arg) = .ok (.exn, st2) ∧
        (∃ l, step env st1 (.labels id) = .ok (.labels l, st1) ∧ step env st2 (.labels id) = .ok (.labels l, st2)) ∧
        ∀ (m' : Nat) par'', 2 ≤ m' → m' < 2147483648 → step env st2 (.rerun id par'' (some m')) = step env st1 (.rerun id par'' (some m')) := by
  obtain ⟨o, st2, e1, ho, h2⟩ := construct_run hq (tidy_session tidy_start hpre) hid ha hpar
  obtain ⟨j, o', r, st3, e2, ⟨_, ⟨t, hs⟩, p, hp, hl, _, hc, hh⟩, hr⟩ := uses_step hq h2 ha ho hus
  refine ⟨rs ++ ([.done, .code 0] ++ r), st3, ?_, fun b par' hb => ?_, fun arg par' harg => ?_⟩
  · rw [session_append, hpre, Outcome.ok_bind, session_append, e1, Outcome.ok_bind, e2, Outcome.ok_bind, Outcome.ok_bind]
  · simp only [step, withObj, hp, Py.run, hb]
    rfl
  · obtain ⟨n, e⟩ := rerun_refused env hp hl par' harg
    refine ⟨_, e, ⟨o'.results.labels, ?_, ?_⟩, fun m' par'' h2 hm => ?_⟩
    · simp only [step, withObj, hp, hl, readRef, Outcome.ok_bind]; rfl
    · simp only [step, withObj, set_objs, readRef, Outcome.ok_bind]; rfl
    · simp only [step, withObj, set_objs, hp, hl, Py.rerun, decref, Outcome.ok_bind, asInt_some (show -2147483648 ≤ (m' : Int) ∧ (m' : Int) < 2147483648 by omega),
        toIndex_nat (show m' < 4294967296 by omega), if_neg (Nat.not_lt.2 h2), rerunGo, rerunScan]
      rw [show (st3.set id (some { p with labels := some (o'.results.labels, 1), minPoints := n })).scan = st3.scan from rfl, hs]
      cases hrr : Api.rerun env par'' m' o' with
      | ok x =>
        simp only [hrr, Outcome.ok_bind, Outcome.pure_eq]
        cases hg : getLabels p.rows x.results.labels with
        | ok l => simp only [Outcome.ok_bind]; exact congrArg (fun s => Outcome.ok (Reply.code 0, s)) (set_set { st3 with scan := .ready x st3.tables, tables := st3.tables + 1, released := t :: st3.released } id _ _)
        | _ => rfl
      | ub w => simp only [hrr, Outcome.ub_bind]
      | abort w => simp only [hrr, Outcome.abort_bind]
      | diverge => simp only [hrr, Outcome.diverge_bind]

/-- **C66 is violated**: after two refused reruns the labels that the object still refers to are released, and reading them is undefined; whatever was done before. -/
theorem C66_rerun_violated [LinearOrder W] [CCmp S] [LinearOrder T] (env : Api.Env D W S T) (hq : SortsAscending env.qsort) (pre : List (Call D)) (rs : List Reply) (st : State W S T)
    (hpre : session env pre start = .ok (rs, st)) (id : Nat) (hid : st.objs id = none) (m : Nat) (a : Arr D) (ha : Fit env a m) (par : Api.Par) (hpar : CompleteFor a par)
    (us : List (Use D)) (hus : AllAllowed env ⟨m, a⟩ us) (x y : Option Int) (hx : RefusedRerun x) (hy : RefusedRerun y) (par' par'' : Api.Par) :
    (session env (pre ++ ([.construct id (some m), .run id par a] ++ us.flatMap (Use.calls id) ++ [.rerun id par' x, .rerun id par'' y, .labels id])) start).IsUB := by
  obtain ⟨o, st2, e1, ho, h2⟩ := construct_run hq (tidy_session tidy_start hpre) hid ha hpar
  obtain ⟨j, o', r, st3, e2, ⟨_, ⟨t, hs⟩, p, hp, hl, _, hc, hh⟩, hr⟩ := uses_step hq h2 ha ho hus
  obtain ⟨n, f1⟩ := rerun_refused env hp hl par' hx
  obtain ⟨n', f2⟩ := rerun_refused env (set_objs st3 id (some { p with labels := some (o'.results.labels, 1), minPoints := n })) rfl par'' hy
  rw [← List.append_assoc, ← List.append_assoc]
  refine append_ub (r := rs ++ [.done, .code 0] ++ r) (st1 := st3) ?_ (session_ok_ub f1 (session_ok_ub f2 (session_ub ⟨"use of a released object", ?_⟩)))
  · rw [session_append, session_append, hpre, Outcome.ok_bind, e1, Outcome.ok_bind, Outcome.ok_bind, e2, Outcome.ok_bind]
  · simp only [step, withObj, set_objs, readRef]; rfl

/-- A `getClusterMap` with wrong arguments releases the dictionary that the object still refers to. -/
theorem C66_map_violated [CCmp W] [CCmp S] [CCmp T] (env : Api.Env D W S T) (st st1 : State W S T) (id : Nat) (b e : Int) (mp : KMap (List Nat))
    (h : step env st (.getClusterMap id (some (b, e))) = .ok (.clusterMap mp, st1)) : (session env [.getClusterMap id none, .clusterMap id] st1).IsUB := by
  rcases withObj_ok h with ⟨_, h⟩ | ⟨p, hp, h⟩
  · cases h
  · obtain ⟨x, _, h⟩ := Outcome.bind_eq_ok.mp h
    cases ha : asInts (some (b, e)) with
    | none => rw [ha] at h; cases h
    | some v =>
    rw [ha] at h
    obtain ⟨y, _, h⟩ := Outcome.bind_eq_ok.mp h
    cases h
    refine session_ok_ub (r := .exn) (st1 := st.set id (some { p with clusterMap := some (mp, 0) })) ?_ (session_ub ⟨"use of a released object", ?_⟩)
    · simp only [step, withObj, set_objs, getClusterMap, show asInts none = none from rfl, decref, Outcome.ok_bind]
      exact congrArg (fun s => Outcome.ok (Reply.exn, s)) (set_set st id _ _)
    · simp only [step, withObj, set_objs, readRef]; rfl

/-- A refused construction (`PyHdbscan(1)`) is undefined if it is the first one, and otherwise destroys what the other objects have: a rerun of any of them is undefined. -/
theorem C66_construct_violated [CCmp W] [CCmp S] [CCmp T] (env : Api.Env D W S T) (id : Nat) (arg : Option Int) (hr : Refused arg) :
    (session env [.construct id arg] start).IsUB ∧
    ∀ (st : State W S T) (x : Nat) (p : PyObj) (par : Api.Par) (v : Int), st.objs id = none → st.objs x = some p → ¬ RefusedRerun (some v) →
      (session env [.construct id arg, .rerun x par (some v)] st).IsUB := by
  constructor
  · obtain ⟨p, h⟩ := construct_refused env (st := (start : State W S T)) (id := id) rfl hr
    refine session_ub ⟨"null pointer", ?_⟩
    rw [h]; rfl
  · intro st x p par v h1 h2 hv
    obtain ⟨q, h⟩ := construct_refused env h1 hr
    rcases dealloc_cases id q st with ⟨w, hd⟩ | ⟨m, st1, hd, hs, ho⟩
    · exact session_ub ⟨w, by rw [h, hd]; rfl⟩
    · have hxi : x ≠ id := fun e => by rw [e, h1] at h2; cases h2
      exact session_ok_ub (by rw [h, hd]; rfl) (session_ub (rerun_cleaned env hs ((ho x hxi).trans h2) par hv))

example := C66_refused_partial lineEnv (isort_sorts _) [] [] start rfl 0 rfl 2 lineArr (lineArr_fit (by omega) (by omega)) (backPar 5 5) lineArr_complete
  [.rerun (backPar 5 5) 3, .labels] ⟨⟨lineArr_fit (by omega) (by omega), lineArr_complete⟩, trivial, trivial⟩
example := C66_rerun_violated lineEnv (isort_sorts _) [] [] start rfl 0 rfl 2 lineArr (lineArr_fit (by omega) (by omega)) (backPar 5 5) lineArr_complete
  [.rerun (backPar 5 5) 3, .labels] ⟨⟨lineArr_fit (by omega) (by omega), lineArr_complete⟩, trivial, trivial⟩ (some 1) (some 3000000000) (.inr (.inr (.inr rfl))) (.inr (.inl (by decide))) (backPar 5 5) (backPar 5 5)
example := C66_construct_violated lineEnv 3 (some 1) (show toIndex 1 < 2 by decide)
/-- A cluster map, then wrong arguments: all calls but the last one return. -/
example : (session lineEnv [.construct 0 (some 2), .run 0 (backPar 5 5) lineArr, .getClusterMap 0 (some (0, 5)), .getClusterMap 0 none] start >>= fun x => .ok x.1) =
    .ok [.done, .code 0, .clusterMap [(2, [1, 3]), (3, [0, 2, 4])], .exn] := by decide +kernel

/-! ### C67 -/

/-- Calls that keep a hierarchy. -/
theorem keeps_step [CCmp W] [CCmp S] [CCmp T] {env : Api.Env D W S T} {st st1 : State W S T} {id : Nat} {p : PyObj} (hp : st.objs id = some p) {c : Call D} (hc : Keeps id c) {r : Reply}
    (e : step env st c = .ok (r, st1)) : st1.released = st.released ∧ ∃ q, st1.objs id = some q ∧ q.hierarchy = p.hierarchy := by
  have set' : ∀ (s : State W S T) (i : Nat) (q : PyObj), s.released = st.released → s.objs = st.objs → (i = id → q.hierarchy = p.hierarchy) →
      (s.set i (some q)).released = st.released ∧ ∃ q', (s.set i (some q)).objs id = some q' ∧ q'.hierarchy = p.hierarchy := by
    intro s i q h1 h2 h3
    refine ⟨h1, ?_⟩
    by_cases h : id = i
    · exact ⟨q, if_pos h, h3 h.symm⟩
    · exact ⟨p, (if_neg h).trans (by rw [h2, hp]), rfl⟩
  have same : ∀ {i : Nat} {q : PyObj}, st.objs i = some q → i = id → q.hierarchy = p.hierarchy := by
    intro i q h1 h2
    rw [h2, hp] at h1; cases h1; rfl
  cases c with
  | construct i arg =>
    simp only [step, withNew] at e
    cases hi : st.objs i with
    | some q => rw [hi] at e; cases e; exact ⟨rfl, p, hp, rfl⟩
    | none =>
      rw [hi] at e
      cases arg with
      | none => exact absurd trivial hc
      | some v =>
        simp only [construct, if_neg (show ¬ toIndex v < 2 from hc)] at e
        cases e
        exact set' _ _ _ rfl rfl fun h => by rw [h, hp] at hi; cases hi
  | run i par a =>
    rcases withObj_ok e with ⟨_, e⟩ | ⟨q, hq, e⟩
    · cases e; exact ⟨rfl, p, hp, rfl⟩
    · simp only [Py.run] at e
      split at e
      · obtain ⟨x, _, e⟩ := Outcome.bind_eq_ok.mp e
        obtain ⟨m, _, e⟩ := Outcome.bind_eq_ok.mp e
        obtain ⟨o, _, e⟩ := Outcome.bind_eq_ok.mp e
        obtain ⟨l, _, e⟩ := Outcome.bind_eq_ok.mp e
        cases e
        exact set' _ _ _ rfl rfl (fun h => (same hq h : _ = _))
      · cases e; exact ⟨rfl, p, hp, rfl⟩
  | rerun i par arg => exact hc.elim
  | getClusterMap i arg =>
    rcases withObj_ok e with ⟨_, e⟩ | ⟨q, hq, e⟩
    · cases e; exact ⟨rfl, p, hp, rfl⟩
    · simp only [Py.getClusterMap] at e
      obtain ⟨l, _, e⟩ := Outcome.bind_eq_ok.mp e
      cases ha : asInts arg with
      | none => rw [ha] at e; cases e; exact set' _ _ _ rfl rfl (fun h => (same hq h : _ = _))
      | some v =>
        rw [ha] at e
        obtain ⟨m, _, e⟩ := Outcome.bind_eq_ok.mp e
        cases e; exact set' _ _ _ rfl rfl (fun h => (same hq h : _ = _))
  | getHierarchies i =>
    rcases withObj_ok e with ⟨_, e⟩ | ⟨q, hq, e⟩
    · cases e; exact ⟨rfl, p, hp, rfl⟩
    · obtain ⟨l, _, e⟩ := Outcome.bind_eq_ok.mp e
      obtain ⟨m, _, e⟩ := Outcome.bind_eq_ok.mp e
      cases e; exact set' _ _ _ rfl rfl (fun h => absurd h hc)
  | labels i =>
    rcases withObj_ok e with ⟨_, e⟩ | ⟨q, hq, e⟩
    · cases e; exact ⟨rfl, p, hp, rfl⟩
    · obtain ⟨l, _, e⟩ := Outcome.bind_eq_ok.mp e
      cases e; exact ⟨rfl, p, hp, rfl⟩
  | clusterMap i =>
    rcases withObj_ok e with ⟨_, e⟩ | ⟨q, hq, e⟩
    · cases e; exact ⟨rfl, p, hp, rfl⟩
    · obtain ⟨l, _, e⟩ := Outcome.bind_eq_ok.mp e
      cases e; exact ⟨rfl, p, hp, rfl⟩
  | hierarchy i =>
    rcases withObj_ok e with ⟨_, e⟩ | ⟨q, hq, e⟩
    · cases e; exact ⟨rfl, p, hp, rfl⟩
    · obtain ⟨l, _, e⟩ := Outcome.bind_eq_ok.mp e
      cases e; exact ⟨rfl, p, hp, rfl⟩
  | delete i => exact hc.elim

theorem keeps_session [CCmp W] [CCmp S] [CCmp T] {env : Api.Env D W S T} {id : Nat} : ∀ {cs : List (Call D)} {st st1 : State W S T} {p : PyObj} {r : List Reply}, st.objs id = some p →
    (∀ c ∈ cs, Keeps id c) → session env cs st = .ok (r, st1) → st1.released = st.released ∧ ∃ q, st1.objs id = some q ∧ q.hierarchy = p.hierarchy
  | [], st, st1, p, r, hp, hc, e => by cases e; exact ⟨rfl, p, hp, rfl⟩
  | c :: cs, st, st1, p, r, hp, hc, e => by
    obtain ⟨⟨x, s⟩, e1, e⟩ := Outcome.bind_eq_ok.mp e
    obtain ⟨⟨xs, s2⟩, e2, e⟩ := Outcome.bind_eq_ok.mp e
    cases e
    obtain ⟨h1, q, h2, h3⟩ := keeps_step hp (hc c (by simp)) e1
    obtain ⟨h4, q', h5, h6⟩ := keeps_session h2 (fun c h => hc c (by simp [h])) e2
    exact ⟨h4.trans h1, q', h5, h6.trans h3⟩

/-- **C67, the part that holds.** The arrays that `getHierarchies` stored in an object keep their contents - the lines of the hierarchy - during all calls, on this and on other objects, other than
    reruns, deletions and refused constructions, even if the array is clustered anew.
    Missing: reruns (`C67_violated`), deletions and refused constructions, which release the memory. -/
theorem C67_keeps_partial [CCmp W] [CCmp S] [CCmp T] (env : Api.Env D W S T) (pre : List (Call D)) (rs : List Reply) (st st1 : State W S T) (hpre : session env pre start = .ok (rs, st))
    (id : Nat) (e : step env st (.getHierarchies id) = .ok (.code 1, st1)) (cs : List (Call D)) (hcs : ∀ c ∈ cs, Keeps id c) (rs' : List Reply) (st2 : State W S T)
    (e2 : session env cs st1 = .ok (rs', st2)) :
    ∃ h, step env st1 (.hierarchy id) = .ok (.hierarchy h, st1) ∧ step env st2 (.hierarchy id) = .ok (.hierarchy h, st2) := by
  have ht := tidy_session tidy_start hpre
  rcases withObj_ok e with ⟨_, e⟩ | ⟨p, hp, e⟩
  · cases e
  · obtain ⟨x, _, e⟩ := Outcome.bind_eq_ok.mp e
    obtain ⟨⟨t, h⟩, hx, e⟩ := Outcome.bind_eq_ok.mp e
    cases e
    have hnew : t ∉ st.released := by
      cases hs : st.scan with
      | null => rw [hs] at hx; cases hx
      | new m => rw [hs] at hx; cases hx
      | cleaned m => rw [hs] at hx; cases hx
      | ready o t' => rw [hs] at hx; cases hx; exact (ht.cur _ _ hs).2
    obtain ⟨h4, q, h5, h6⟩ := keeps_session (set_objs st id (some { p with hierarchy := some ((t, h), 2) })) hcs e2
    refine ⟨h, ?_, ?_⟩
    · simp only [step, withObj, set_objs, readRef]
      show (readLevels st.released (t, h) >>= fun r => _) = _
      rw [readLevels, if_neg hnew]; rfl
    · simp only [step, withObj, h5, h6, readRef, h4]
      show (readLevels st.released (t, h) >>= fun r => _) = _
      rw [readLevels, if_neg hnew]; rfl

/-- **C67 is violated** by every rerun: the memory that the arrays look into is released. -/
theorem C67_violated [CCmp W] [CCmp S] [CCmp T] (env : Api.Env D W S T) (st st1 st2 : State W S T) (id : Nat) (par : Api.Par) (v : Int)
    (e : step env st (.getHierarchies id) = .ok (.code 1, st1)) (e2 : step env st1 (.rerun id par (some v)) = .ok (.code 0, st2)) : (step env st2 (.hierarchy id)).IsUB := by
  rcases withObj_ok e with ⟨_, e⟩ | ⟨p, hp, e⟩
  · cases e
  · obtain ⟨x, _, e⟩ := Outcome.bind_eq_ok.mp e
    obtain ⟨⟨t, h⟩, hx, e⟩ := Outcome.bind_eq_ok.mp e
    cases e
    simp only [step, withObj, set_objs, Py.rerun] at e2
    obtain ⟨l, _, e2⟩ := Outcome.bind_eq_ok.mp e2
    cases ha : asInt (some v) with
    | none => rw [ha] at e2; cases e2
    | some v' =>
    rw [ha] at e2
    simp only at e2
    split at e2
    · cases e2
    · obtain ⟨⟨o, s⟩, e3, e2⟩ := Outcome.bind_eq_ok.mp e2
      obtain ⟨l', _, e2⟩ := Outcome.bind_eq_ok.mp e2
      cases e2
      unfold rerunScan at e3
      change (match st.scan with | .null => _ | .new _ => _ | .cleaned _ => _ | .ready o t => _) = _ at e3
      cases hs : st.scan with
      | null => rw [hs] at e3; cases e3
      | new m => rw [hs] at e3; cases e3
      | cleaned m => rw [hs] at e3; cases e3
      | ready o0 t0 =>
        rw [hs] at e3 hx
        cases hx
        obtain ⟨o', _, e3⟩ := Outcome.bind_eq_ok.mp e3
        cases e3
        refine ⟨"use of released memory", ?_⟩
        simp only [step, withObj, set_objs, readRef]
        show (readLevels (t :: st.released) (t, _) >>= fun r => _) = _
        rw [readLevels, if_pos (by simp)]; rfl

/-- The hierarchy of the five points, read again after a second run; and a rerun after it. -/
example : (session lineEnv [.construct 0 (some 2), .run 0 (backPar 5 5) lineArr, .getHierarchies 0, .run 0 (backPar 5 5) lineArr, .labels 0, .hierarchy 0] start >>= fun x => .ok x.1) =
    .ok [.done, .code 0, .code 1, .code 0, .labels [3, 2, 3, 2, 3], .hierarchy [(1, [1, 1, 1, 1, 1]), (2, [3, 2, 3, 2, 3]), (3, [3, 0, 3, 0, 0]), (0, [0, 0, 0, 0, 0])]] := by decide +kernel
example : (session lineEnv [.construct 0 (some 2), .run 0 (backPar 5 5) lineArr, .getHierarchies 0, .rerun 0 (backPar 5 5) (some 3)] start >>= fun x => .ok x.1) =
    .ok [.done, .code 0, .code 1, .code 0] := by decide +kernel

end Verif.Props
