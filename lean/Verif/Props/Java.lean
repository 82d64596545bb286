import Verif.Lemmas.Java
import Verif.Props.Python
/-
C80, C81, C82: the objects of the Java binding.
-/
namespace Verif.Props
open Spec Java
variable {D W S T : Type}

/-! ### C80 -/

/-- **C80, the part that holds.** A program constructs any number of objects, and uses `run` and `reRun` only of the object that it constructed last (arguments within the limits of
    the library): nothing is undefined, and whenever any object, new or old, is asked for its labels or its cluster map, these are those that the C library computes for the minPoints of the object's own
    construction or last `reRun` and for the rows of its own last `run`; before that they are null.
    Missing: programs that run an object after constructing another one (`C80_violated`, `C80_other_data`, `C80_rerun_violated`), and platforms on which `delete` of an array does
    something else than to release it (`C81_delete_violated`). -/
theorem C80_latest_partial [LinearOrder W] [CCmp S] [LinearOrder T] (env : Api.Env D W S T) (hq : SortsAscending env.qsort) (pl : Platform) (hpl : pl.deleteReleases = true)
    (us : List (JUse D)) (hu : JAllWithin env Book.empty us) (hl : AllLatestOnly Book.empty us) :
    ∃ r st, session pl env (us.map JUse.call) start = .ok (r, st) ∧ JRights env Book.empty us r := java_uses hq hpl booked_start hu hl

/-- The rows `0`, `7`, `1`, `9`, `3`. -/
def lineRows : List (List Rat) := [[0], [7], [1], [9], [3]]

theorem lineRows_fit {m : Nat} (h2 : 2 ≤ m) (h5 : m ≤ 5) : JFit lineEnv lineRows m where
  min := h2
  enough := h5
  five := Nat.le_refl 5
  rows := ⟨1, lineSq linePts, by simp [lineRows], by simp [lineRows], linePts_supported⟩

theorem lineRows_complete : Complete lineRows.length lineRows.length (backPar 5 5) := backPar_complete 5 5

theorem lineRows_labels {m : Nat} {o : Api.Obj Rat Rat Rat} {l : List Nat} (h : JAnswer lineEnv m lineRows o)
    (e : (Api.fresh lineEnv (backPar 5 5) m linePts 5 1 true >>= fun o => .ok o.results.labels) = .ok l) : o.results.labels = l := by
  obtain ⟨c, h1, h2⟩ := h
  cases (h1 [0] (by simp [lineRows]))
  have : Api.fresh lineEnv (backPar 5 5) m linePts 5 1 true = .ok o := h2 _ lineRows_complete
  rw [this] at e
  exact Outcome.ok.inj e

theorem line_two : (Api.fresh lineEnv (backPar 5 5) 2 linePts 5 1 true >>= fun o => .ok o.results.labels) = .ok [3, 2, 3, 2, 3] := by decide +kernel

theorem line_three : (Api.fresh lineEnv (backPar 5 5) 3 linePts 5 1 true >>= fun o => .ok o.results.labels) = .ok [0, 0, 0, 0, 0] := by decide +kernel

/-- A program as in `C80_latest_partial`: two objects, a run and a rerun, and the first one read after the second one was run. -/
example : ∃ us : List (JUse Rat), us.length = 8 ∧ JAllWithin lineEnv Book.empty us ∧ AllLatestOnly Book.empty us := by
  refine ⟨[.construct 0 2, .run 0 (backPar 5 5) lineRows, .reRun 0 (backPar 5 5) 3, .construct 1 2, .getLabels 1, .run 1 (backPar 5 5) lineRows, .getLabels 0, .getClusterMap 1], rfl, ?_, ?_⟩
  · refine ⟨⟨rfl, by omega, by omega⟩, ⟨2, none, rfl, lineRows_fit (by omega) (by omega), lineRows_complete⟩, ⟨2, lineRows, rfl, lineRows_fit (by omega) (by omega), lineRows_complete⟩,
      ⟨rfl, by omega, by omega⟩, by simp [JWithin, Book.after, Book.put, Book.empty], ⟨2, none, rfl, lineRows_fit (by omega) (by omega), lineRows_complete⟩, ?_, ?_, trivial⟩ <;>
      simp [JWithin, Book.after, Book.put, Book.empty]
  · exact ⟨trivial, rfl, rfl, trivial, trivial, rfl, trivial, trivial, trivial⟩

theorem java_construct [CCmp W] [CCmp S] [CCmp T] (pl : Platform) (env : Api.Env D W S T) {st : State W S T} {id : Nat} (h : st.objs id = none) {m : Nat} (h2 : 2 ≤ m) (hm : m < 4294967296) :
    step pl env st (.construct id m) = .ok (.done, { st with scan := .fresh m (leftover st.scan) }.set id none) := by
  simp only [step, withNew, h, construct, toIndex_nat hm, Api.initObj, if_pos (show 1 < m by omega), Outcome.ok_bind]
  rfl

theorem java_read [CCmp W] [CCmp S] [CCmp T] (pl : Platform) (env : Api.Env D W S T) (st : State W S T) (id : Nat) (p : JObj) :
    session pl env [.getLabels id] (st.set id p) = .ok ([.labels p], st.set id p) := by
  refine java_session_cons (st1 := st.set id p) ?_ rfl
  simp only [step, withObj, java_set]

/-- How objects influence one another: a run of any object uses the minPoints of the object that was constructed last. In every state. -/
theorem C80_last_object_wins [LinearOrder W] [CCmp S] [LinearOrder T] (env : Api.Env D W S T) (hq : SortsAscending env.qsort) (pl : Platform) (hpl : pl.deleteReleases = true) (st : State W S T)
    (x y : Nat) (p : JObj) (hx : st.objs x = some p) (hy : st.objs y = none) (m : Nat) (ds : List (List D)) (h : JFit env ds m) (par : Api.Par) (hpar : Complete ds.length ds.length par) :
    ∃ o st', JAnswer env m ds o ∧ session pl env [.construct y m, .run x par (javaArr ds), .getLabels x] st = .ok ([.done, .done, .labels (some (javaLabels o))], st') := by
  have hxy : x ≠ y := fun h => by rw [h, hy] at hx; cases hx
  obtain ⟨_, _, _, _, hsup⟩ := h.rows
  have hfew := hsup.few
  have he := h.enough
  have e1 := java_construct pl env hy h.min (by omega)
  have hx' : ({ st with scan := .fresh m (leftover st.scan) }.set y none : State W S T).objs x = some p := (if_neg hxy).trans hx
  obtain ⟨o, o1, o2, o3⟩ := java_run hq hpl hx' (ds := ds) (by exact h) hpar
  refine ⟨o, _, o1, java_session_cons e1 (java_session_cons o3 (java_read _ _ _ _ _))⟩

/-- And `reRun` of any object clusters the rows that were run last, whichever object ran them, and the object that asks reports the labels as its own. -/
theorem C80_other_data [LinearOrder W] [CCmp S] [LinearOrder T] (env : Api.Env D W S T) (hq : SortsAscending env.qsort) (pl : Platform) (hpl : pl.deleteReleases = true) (st : State W S T)
    (x y : Nat) (p q : JObj) (hx : st.objs x = some p) (hy : st.objs y = some q) (m : Nat) (ds : List (List D)) (h : JFit env ds (scanMinPoints st.scan)) (hm : JFit env ds m) (par : Api.Par)
    (hpar : Complete ds.length ds.length par) :
    ∃ o st', JAnswer env m ds o ∧ session pl env [.run y par (javaArr ds), .reRun x par m, .getLabels x] st = .ok ([.done, .done, .labels (some (javaLabels o))], st') := by
  obtain ⟨o, o1, o2, o3⟩ := java_run hq hpl hy h hpar
  have : ∃ p', ({ st with scan := .ready o }.set y (some (javaLabels o)) : State W S T).objs x = some p' := by
    by_cases hxy : x = y
    · exact ⟨_, if_pos hxy⟩
    · exact ⟨p, (if_neg hxy).trans hx⟩
  obtain ⟨p', hp'⟩ := this
  obtain ⟨o', b1, b2, b3⟩ := java_reRun (pl := pl) hq hp' h hm o1 (by rfl) hpar
  refine ⟨o', _, b1, java_session_cons o3 (java_session_cons b3 (java_read _ _ _ _ _))⟩

/-- **C80 is violated**: all arguments are within the limits, but the object made with minPoints 2 gives the labels for minPoints 3, because another object was made in between. -/
theorem C80_violated : ¬ ∀ us : List (JUse Rat), JAllWithin lineEnv Book.empty us → ∃ r st, session ⟨true⟩ lineEnv (us.map JUse.call) start = .ok (r, st) ∧ JRights lineEnv Book.empty us r := by
  intro h
  obtain ⟨r, st, e, hr⟩ := h [.construct 0 2, .construct 1 3, .run 0 (backPar 5 5) lineRows, .getLabels 0]
    ⟨⟨rfl, by omega, by omega⟩, ⟨rfl, by omega, by omega⟩, ⟨2, none, rfl, lineRows_fit (by omega) (by omega), lineRows_complete⟩, by simp [JWithin, Book.after, Book.put, Book.empty], trivial⟩
  obtain ⟨_, _, rfl, ⟨_, _, rfl, ⟨_, _, rfl, ⟨x, _, hx, rfl, rfl⟩, rfl⟩, rfl⟩, rfl⟩ := hr
  have e0 : step ⟨true⟩ lineEnv start (.construct 0 ((2 : Nat) : Int)) = .ok (.done, _) := java_construct _ lineEnv rfl (by omega) (by omega)
  obtain ⟨o, st', ho, e'⟩ := C80_last_object_wins lineEnv (isort_sorts _) ⟨true⟩ rfl (({ start with scan := .fresh 2 none } : State Rat Rat Rat).set 0 none) 0 1 none rfl rfl 3 lineRows
    (lineRows_fit (by omega) (by omega)) (backPar 5 5) lineRows_complete
  have := (java_session_cons e0 e').symm.trans e
  simp only [Outcome.ok.injEq, Prod.mk.injEq, List.cons.injEq, true_and, and_true] at this
  obtain ⟨rfl, rfl⟩ := this
  rcases hx with ⟨m, h1, h2⟩ | ⟨m, ds, o', h1, h2, h3⟩
  · cases h1
  · have : (2, some lineRows) = (m, some ds) := Option.some.inj h1
    cases this
    simp only [Reply.labels.injEq, Option.some.injEq, javaLabels, lineRows_labels ho line_three, lineRows_labels h2 line_two] at h3
    exact absurd h3 (by decide)

/-- The other way round: `reRun` of an object that was run, after another one was constructed, follows a null pointer. For all data and all arguments. -/
theorem C80_rerun_violated [LinearOrder W] [CCmp S] [LinearOrder T] (env : Api.Env D W S T) (hq : SortsAscending env.qsort) (pl : Platform) (hpl : pl.deleteReleases = true) (st : State W S T)
    (x y : Nat) (p : JObj) (hx : st.objs x = some p) (hy : st.objs y = none) (m m' : Nat) (ds : List (List D)) (h : JFit env ds (scanMinPoints st.scan)) (hm : JFit env ds m) (h2 : 2 ≤ m')
    (h2' : m' < 4294967296) (par : Api.Par) (hpar : Complete ds.length ds.length par) :
    (session pl env [.run x par (javaArr ds), .construct y m', .reRun x par m] st).IsUB := by
  obtain ⟨A, cols, hd, hlt, hA⟩ := jfit_answer hq h
  obtain ⟨o, o1, o2, o3⟩ := java_run hq hpl hx h hpar
  obtain ⟨a1, _, a3, _⟩ := hA _ h.min h.enough
  cases JAnswer.unique (jfit_ne h) a1 o1
  obtain ⟨_, _, _, _, _, b6⟩ := hA m hm.min hm.enough
  have hxy : x ≠ y := fun h => by rw [h, hy] at hx; cases hx
  generalize hst1 : ({ st with scan := .ready (A (scanMinPoints st.scan)) }.set x (some (javaLabels (A (scanMinPoints st.scan)))) : State W S T) = st1 at o3
  have hs1 : st1.scan = .ready (A (scanMinPoints st.scan)) := by rw [← hst1]; rfl
  have hy1 : st1.objs y = none := by rw [← hst1]; exact (if_neg (Ne.symm hxy)).trans hy
  have hx1 : st1.objs x = some (some (javaLabels (A (scanMinPoints st.scan)))) := by rw [← hst1]; exact java_set _ _ _
  have e2 := java_construct pl env hy1 h2 h2'
  refine ⟨"null pointer", ?_⟩
  show (step pl env st _ >>= fun z => session pl env _ z.2 >>= fun w => .ok (z.1 :: w.1, w.2)) = _
  rw [o3, Outcome.ok_bind]
  show ((step pl env st1 _ >>= fun z => session pl env _ z.2 >>= fun w => .ok (z.1 :: w.1, w.2)) >>= _) = _
  rw [e2, Outcome.ok_bind]
  have e3 : step pl env ({ st1 with scan := .fresh m' (leftover st1.scan) }.set y none) (.reRun x par m) = .ub "null pointer" := by
    obtain ⟨_, _, _, _, hsup⟩ := h.rows
    have hfew := hsup.few
    have he := hm.enough
    have hx2 : ({ st1 with scan := .fresh m' (leftover st1.scan) }.set y none : State W S T).objs x = some (some (javaLabels (A (scanMinPoints st.scan)))) := (if_neg hxy).trans hx1
    have hr := (b6 par hpar).2 _ h.min h.enough
    have hm2 := hm.min
    simp only [Api.rerun, if_neg (show m ≠ 0 by omega)] at hr
    obtain ⟨dis', r1, hr⟩ := Outcome.bind_eq_ok.mp hr
    obtain ⟨t, r2, hr⟩ := Outcome.bind_eq_ok.mp hr
    obtain ⟨f, r3, hr⟩ := Outcome.bind_eq_ok.mp hr
    obtain ⟨f1, r4, _⟩ := Outcome.bind_eq_ok.mp r3
    obtain ⟨g, r5, r4⟩ := Outcome.bind_eq_ok.mp r4
    obtain ⟨g', r6, _⟩ := Outcome.bind_eq_ok.mp r4
    have hs2 : ({ st1 with scan := .fresh m' (leftover st1.scan) }.set y none : State W S T).scan = .fresh m' (some ((A (scanMinPoints st.scan)).dis, (A (scanMinPoints st.scan)).numPoints)) := by
      rw [hs1]; rfl
    simp only [step, withObj, hx2, Java.reRun, hs2, rerunScan, toIndex_nat (show m < 4294967296 by omega), rerunFresh, if_neg (show m ≠ 0 by omega), r1, Outcome.ok_bind, r2, r5, r6]
    rfl
  show ((((step pl env _ (Call.reRun x par m)) >>= _) >>= _) >>= _) = _
  rw [e3]
  rfl

/-! ### C81 -/

/-- **C81, the part that holds**: programs with arguments within the limits, and `run` and `reRun` only of the object constructed last, complete.
    Missing: everything below. -/
theorem C81_within_partial [LinearOrder W] [CCmp S] [LinearOrder T] (env : Api.Env D W S T) (hq : SortsAscending env.qsort) (pl : Platform) (hpl : pl.deleteReleases = true)
    (us : List (JUse D)) (hu : JAllWithin env Book.empty us) (hl : AllLatestOnly Book.empty us) : (session pl env (us.map JUse.call) start).Returns :=
  let ⟨_, _, e, _⟩ := java_uses hq hpl booked_start hu hl
  ⟨_, e⟩

/-- Reading is harmless in every state, and so is `cleanHdbscan`, which cleans nothing. -/
theorem C81_reading [CCmp W] [CCmp S] [CCmp T] (pl : Platform) (env : Api.Env D W S T) (st : State W S T) (id : Nat) (c : Call D) (hc : c = .getLabels id ∨ c = .getClusterMap id ∨ c = .cleanHdbscan id) :
    ∃ r, step pl env st c = .ok (r, st) := by
  rcases hc with rfl | rfl | rfl
  · cases h : st.objs id <;> exact ⟨_, by simp only [step, withObj, h]; rfl⟩
  · cases h : st.objs id <;> exact ⟨_, by simp only [step, withObj, h]; rfl⟩
  · exact ⟨_, rfl⟩

/-- **C81 is violated** by `new Hdbscan(0)` and `new Hdbscan(1)`: the process ends, in every state. -/
theorem C81_construct_violated [CCmp W] [CCmp S] [CCmp T] (pl : Platform) (env : Api.Env D W S T) (st : State W S T) (id : Nat) (h : st.objs id = none) (arg : Int) (ha : arg = 0 ∨ arg = 1) :
    (step pl env st (.construct id arg : Call D)).Aborts := by
  refine ⟨"minPoints > 1", ?_⟩
  rcases ha with rfl | rfl <;> simp only [step, withNew, h, construct] <;> rfl

/-- It is violated by null, by an array without rows and by an array whose first row is null. -/
theorem C81_null_violated [CCmp W] [CCmp S] [CCmp T] (pl : Platform) (env : Api.Env D W S T) (st : State W S T) (id : Nat) (p : JObj) (h : st.objs id = some p) (par : Api.Par) (a : Java.Arr D)
    (ha : a = none ∨ a = some [] ∨ ∃ rs, a = some (none :: rs)) : (step pl env st (.run id par a)).IsUB := by
  refine ⟨"GetArrayLength of null", ?_⟩
  rcases ha with rfl | rfl | ⟨rs, rfl⟩ <;> simp only [step, withObj, h, Java.run]

theorem readRows_bad {cols : Nat} : ∀ {rs : List (Option (List D))}, (∃ r ∈ rs, r = none ∨ ∃ l, r = some l ∧ l.length < cols) → (readRows cols rs).IsUB
  | [], ⟨_, h, _⟩ => by cases h
  | none :: rs, _ => ⟨_, rfl⟩
  | some l :: rs, ⟨r, hr, hb⟩ => by
    by_cases hl : cols ≤ l.length
    · obtain ⟨w, hw⟩ := readRows_bad (cols := cols) (rs := rs) (by
        rcases List.mem_cons.1 hr with rfl | hr
        · rcases hb with h | ⟨l', h, h'⟩
          · cases h
          · cases h; exact absurd hl (Nat.not_le.2 h')
        · exact ⟨r, hr, hb⟩)
      exact ⟨w, by simp only [readRows, if_pos hl, hw]; rfl⟩
    · exact ⟨_, by simp only [readRows, if_neg hl]; rfl⟩

/-- It is violated by every array with a row that is null or shorter than the first row: it is read behind its end. -/
theorem C81_ragged_violated [CCmp W] [CCmp S] [CCmp T] (pl : Platform) (env : Api.Env D W S T) (st : State W S T) (id : Nat) (p : JObj) (h : st.objs id = some p) (par : Api.Par)
    (r : List D) (rs : List (Option (List D))) (hr : ∃ x ∈ rs, x = none ∨ ∃ l, x = some l ∧ l.length < r.length) : (step pl env st (.run id par (some (some r :: rs)))).IsUB := by
  by_cases ho : 2147483648 ≤ (rs.length + 1) * r.length
  · exact ⟨_, by simp only [step, withObj, h, Java.run, if_pos ho]; rfl⟩
  · obtain ⟨x, hx, hb⟩ := hr
    obtain ⟨w, hw⟩ := readRows_bad (cols := r.length) (rs := some r :: rs) ⟨x, List.mem_cons_of_mem _ hx, hb⟩
    exact ⟨w, by simp only [step, withObj, h, Java.run, if_neg ho, hw]; rfl⟩

/-- It is violated by `reRun` of an object before the first run of a program. -/
theorem C81_rerun_violated [CCmp W] [CCmp S] [CCmp T] (pl : Platform) (env : Api.Env D W S T) (m : Nat) (h2 : 2 ≤ m) (hm : m < 4294967296) (par : Api.Par) (arg : Int) :
    (session pl env [.construct 0 m, .reRun 0 par arg] (start : State W S T)).IsUB := by
  have e1 : step pl env start (.construct 0 (m : Int)) = .ok (.done, _) := java_construct pl env (st := (start : State W S T)) rfl h2 hm
  refine ⟨"array of length 0", ?_⟩
  show (step pl env start _ >>= fun z => session pl env _ z.2 >>= fun w => .ok (z.1 :: w.1, w.2)) = _
  rw [e1, Outcome.ok_bind]
  have e2 : step pl env (State.set ⟨.fresh m none, fun _ => none⟩ 0 none : State W S T) (.reRun 0 par arg) = .ub "array of length 0" := by
    have : ∀ k : Nat, (rerunZero k : Outcome (Api.Obj W S T)) = .ub "array of length 0" := by
      intro k
      unfold rerunZero
      split
      · rfl
      · have : (HTable.init (Api.csize 0) .long .ptr : Outcome (HTable.Table Int)).Returns := ⟨_, rfl⟩
        obtain ⟨t, ht⟩ := this
        rw [ht, Outcome.ok_bind]
    simp only [step, withObj, java_set, Java.reRun]
    show (rerunZero _ >>= _) = _
    rw [this]; rfl
  show ((step pl env (State.set ⟨.fresh m none, fun _ => none⟩ 0 none : State W S T) (Call.reRun 0 par arg) >>= _) >>= _) = _
  rw [e2]; rfl

/-- It is violated by data sets of fewer than 5 rows: the process ends. -/
theorem C81_small_violated [LinearOrder W] [CCmp S] [CCmp T] (pl : Platform) (env : Api.Env D W S T) (st : State W S T) (id : Nat) (p : JObj) (h : st.objs id = some p)
    (h2 : 2 ≤ scanMinPoints st.scan) (par : Api.Par) (ds : List (List D)) (cols : Nat) (f : Nat → Nat → W) (hne : ds ≠ []) (hd : ∀ r ∈ ds, r.length = cols) (hlt : ds.length * cols < 2147483648)
    (hs : Supported env ds.flatten ds.length cols f) (h5 : ds.length < 5) (hpar : Complete ds.length ds.length par) : (step pl env st (.run id par (javaArr ds))).Aborts := by
  have hrows := readRows_all hd
  obtain ⟨w, hw⟩ := C51_violated env ds.flatten ds.length cols f hs h5 _ h2 par hpar
  rw [Api.fresh, Api.initObj, if_pos (show 1 < scanMinPoints st.scan by omega), Outcome.ok_bind] at hw
  match ds, hne, hd, hlt, hrows, hw with
  | r :: rs, _, hd, hlt, hrows, hw =>
    have hr : r.length = cols := hd r List.mem_cons_self
    simp only [List.length_cons] at hlt hw
    rw [List.map_cons] at hrows
    refine ⟨w, ?_⟩
    simp only [step, withObj, h, javaArr, List.map_cons, Java.run, List.length_map, hr, if_neg (Nat.not_le.2 hlt), hrows, Outcome.ok_bind, hw]
    rfl

/-- And by every run at all, where `delete` of an array is not the same as `delete[]`: the C++ standard does not define it. -/
theorem C81_delete_violated [CCmp W] [CCmp S] [CCmp T] (env : Api.Env D W S T) (st : State W S T) (id : Nat) (p : JObj) (h : st.objs id = some p) (par : Api.Par) (a : Java.Arr D) :
    ¬ (step ⟨false⟩ env st (.run id par a)).Returns := by
  rintro ⟨v, hv⟩
  simp only [step, withObj, h] at hv
  unfold Java.run at hv
  split at hv
  · cases hv
  · cases hv
  · cases hv
  · split at hv
    · cases hv
    · obtain ⟨_, _, hv⟩ := Outcome.bind_eq_ok.mp hv
      obtain ⟨_, _, hv⟩ := Outcome.bind_eq_ok.mp hv
      obtain ⟨_, hd, _⟩ := Outcome.bind_eq_ok.mp hv
      cases hd

/-- Rows longer than the first one are no error either: what is behind the length of the first row is ignored. -/
theorem C81_long_rows [CCmp W] [CCmp S] [CCmp T] (pl : Platform) (env : Api.Env D W S T) (st : State W S T) (id : Nat) (par : Api.Par) (r : List D) (rs : List (List D))
    (h : ∀ x ∈ rs, r.length ≤ x.length) : step pl env st (.run id par (javaArr (r :: rs))) = step pl env st (.run id par (javaArr (r :: rs.map (·.take r.length)))) := by
  have key : ∀ (k : Nat) (l : List (List D)), (∀ x ∈ l, k ≤ x.length) → readRows k (l.map some) = readRows k ((l.map (·.take k)).map some) := by
    intro k l
    induction l with
    | nil => intro _; rfl
    | cons x xs ih =>
      intro h
      have hx := h x List.mem_cons_self
      simp only [List.map_cons, readRows, if_pos hx, List.length_take, Nat.min_eq_left hx, Nat.le_refl, if_true, ih fun y hy => h y (List.mem_cons_of_mem _ hy), List.take_take, Nat.min_self]
  have e : readRows r.length (some r :: rs.map some) = readRows r.length (some r :: (rs.map (·.take r.length)).map some) := by
    simp only [readRows, Nat.le_refl, if_true, key _ rs h]
  simp only [step, javaArr, List.map_cons, Java.run, List.length_map, e]

/-- The rows `[0]`, `[7, 5]`, `[1]`, `[9]`, `[3]`: an error that no exception reports. -/
example : (∀ x ∈ ([[7, 5], [1], [9], [3]] : List (List Rat)), [(0 : Rat)].length ≤ x.length) ∧ [(0 : Rat)] :: ([[7, 5], [1], [9], [3]].map (·.take 1)) = lineRows := by
  exact ⟨by simp, rfl⟩

/-! ### C82 -/

/-- **C82.** `getClusterMap` returns null before the first run; after it, the table has exactly the labels that occur as keys, each with the list of all points that carry it, in
    ascending order. For every array of labels. -/
theorem C82_cluster_map (labels : Option (List Int)) :
    (clusterMap labels = none ↔ labels = none ∨ labels = some []) ∧ ∀ l, labels = some l → l ≠ [] → ∃ t, clusterMap labels = some t ∧ IsTable l t := by
  refine ⟨?_, ?_⟩
  · match labels with
    | none => simp [clusterMap]
    | some [] => simp [clusterMap]
    | some (_ :: _) => simp [clusterMap]
  · rintro l rfl hl
    exact clusterMap_table hl

/-- And every point is in exactly one list of the table. -/
theorem C82_partition (l : List Int) (t : Table) (h : IsTable l t) (i : Nat) (hi : i < l.length) : ∃! k, ∃ pts, t.get k = some pts ∧ i ∈ pts := by
  have hm : ∀ k, i ∈ indicesOf l k ↔ l[i]? = some k := fun k => by simp [indicesOf, hi]
  refine ⟨l[i], ?_, ?_⟩
  · have : i ∈ indicesOf l l[i] := (hm _).2 (List.getElem?_eq_getElem hi)
    exact ⟨_, (h.lists _ _).2 ⟨rfl, List.ne_nil_of_mem this⟩, this⟩
  · rintro k ⟨pts, h1, h2⟩
    rw [((h.lists _ _).1 h1).1, hm, List.getElem?_eq_getElem hi] at h2
    exact (Option.some.inj h2).symm

example : ∃ t, clusterMap (some [3, 2, 3, 2, 3]) = some t ∧ t.get 3 = some [0, 2, 4] ∧ t.get 2 = some [1, 3] ∧ t.get 0 = none := ⟨_, rfl, by decide, by decide, by decide⟩

end Verif.Props
