import Verif.Spec.Java
import Verif.Lemmas.Python
import Verif.Props.Size
/-
Lemmas about the Java binding.
-/
namespace Verif.Props
open Spec Java
variable {D W S T : Type}

/-! ### The cluster map -/

theorem indicesOf_snoc (done : List Int) (x k : Int) : indicesOf (done ++ [x]) k = if x = k then indicesOf done k ++ [done.length] else indicesOf done k := by
  have h : (List.range done.length).filter (fun i => decide ((done ++ [x])[i]? = some k)) = indicesOf done k := by
    refine List.filter_congr fun i hi => ?_
    rw [List.getElem?_append_left (List.mem_range.1 hi)]
  rw [indicesOf, List.length_append, List.length_singleton, List.range_succ, List.filter_append, h]
  simp only [List.filter_cons, List.filter_nil, List.getElem?_concat_length, Option.some.injEq, decide_eq_true_eq]
  split <;> simp

theorem get_cons (e : Int × List Nat) (t : Table) (k : Int) : Table.get (e :: t) k = if e.1 = k then some e.2 else t.get k := by
  simp only [Table.get, List.find?_cons]
  by_cases h : e.1 = k <;> simp [h]

theorem get_add (k : Int) (i : Nat) : ∀ (t : Table) (k' : Int), (t.add k i).get k' = if k = k' then (t.get k').map (· ++ [i]) else t.get k'
  | [], k' => by simp [Table.add, Table.get]
  | e :: t, k' => by
    have ih := get_add k i t k'
    show Table.get (_ :: Table.add t k i) k' = _
    rw [get_cons, get_cons, ih]
    beta_reduce
    by_cases h1 : e.1 = k
    · rw [if_pos h1]
      by_cases h2 : e.1 = k'
      · rw [if_pos h2, if_pos h2, if_pos (h1.symm.trans h2)]; rfl
      · rw [if_neg h2, if_neg h2]
    · rw [if_neg h1]
      by_cases h2 : e.1 = k'
      · rw [if_pos h2, if_pos h2, if_neg (fun h => h1 (h2.trans h.symm))]
      · rw [if_neg h2, if_neg h2]

theorem get_none {t : Table} {k : Int} (h : t.get k = none) : k ∉ t.map (·.1) := by
  simp only [Table.get, Option.map_eq_none_iff, List.find?_eq_none, decide_eq_true_eq] at h
  intro hm
  obtain ⟨e, he, rfl⟩ := List.mem_map.1 hm
  exact h e he rfl

theorem put_table {done : List Int} {t : Table} (h : IsTable done t) (x : Int) : IsTable (done ++ [x]) (t.put x done.length) := by
  unfold Table.put
  cases hg : t.get x with
  | none =>
    have he : indicesOf done x = [] := by
      by_contra hne
      rw [(h.lists x _).2 ⟨rfl, hne⟩] at hg; cases hg
    refine ⟨List.nodup_cons.2 ⟨get_none hg, h.once⟩, fun k l => ?_⟩
    rw [get_cons, indicesOf_snoc]
    by_cases hk : x = k
    · subst hk
      simp only [if_pos, he, List.nil_append, Option.some.injEq]
      constructor
      · rintro rfl; exact ⟨rfl, by simp⟩
      · exact fun h => h.1.symm
    · simp only [if_neg hk]
      exact h.lists k l
  | some l0 =>
    have h0 := (h.lists x l0).1 hg
    refine ⟨?_, fun k l => ?_⟩
    · have : (t.add x done.length).map (·.1) = t.map (·.1) := by
        rw [Table.add, List.map_map]
        refine List.map_congr_left fun e _ => ?_
        simp only [Function.comp]; split <;> rfl
      simp only [this]; exact h.once
    · simp only [get_add, indicesOf_snoc]
      by_cases hk : x = k
      · subst hk
        simp only [if_pos, hg, Option.map_some, Option.some.injEq, ← h0.1]
        constructor
        · rintro rfl; exact ⟨rfl, by simp⟩
        · exact fun h => h.1.symm
      · simp only [if_neg hk]
        exact h.lists k l

theorem mapLoop_table : ∀ (r done : List Int) (t : Table), IsTable done t → IsTable (done ++ r) (mapLoop r done.length t)
  | [], done, t, h => by simpa [mapLoop] using h
  | x :: r, done, t, h => by
    have := mapLoop_table r (done ++ [x]) (t.put x done.length) (put_table h x)
    rw [List.length_append, List.length_singleton, List.append_assoc] at this
    exact this

theorem clusterMap_table {l : List Int} (h : l ≠ []) : ∃ t, clusterMap (some l) = some t ∧ IsTable l t := by
  match l, h with
  | k :: r, _ =>
    refine ⟨_, rfl, ?_⟩
    exact mapLoop_table (k :: r) [] [] ⟨List.nodup_nil, fun k l => by simp [Table.get, indicesOf]⟩

/-! ### Runs -/

theorem toInt_small : ∀ {l : List Nat}, (∀ x ∈ l, x < 2147483648) → l.map toInt = l.map (fun (x : Nat) => (x : Int)) := by
  intro l h
  exact List.map_congr_left fun x hx => if_pos (h x hx)

theorem readRows_all {cols : Nat} : ∀ {ds : List (List D)}, (∀ r ∈ ds, r.length = cols) → readRows cols (ds.map some) = .ok ds.flatten
  | [], _ => rfl
  | r :: rs, h => by
    have h1 := h r List.mem_cons_self
    simp only [List.map_cons, readRows, h1, Nat.le_refl, if_true, readRows_all (fun x hx => h x (List.mem_cons_of_mem _ hx)), Outcome.ok_bind]
    rw [← h1, List.take_length]; rfl

/-- The object for some rows, and how runs and reruns lead to it. -/
theorem jfit_answer [LinearOrder W] [CCmp S] [LinearOrder T] {env : Api.Env D W S T} (hq : SortsAscending env.qsort) {ds : List (List D)} {m0 : Nat} (h : JFit env ds m0) :
    ∃ (A : Nat → Api.Obj W S T) (cols : Nat), (∀ r ∈ ds, r.length = cols) ∧ ds.length * cols < 2147483648 ∧
      ∀ m, 2 ≤ m → m ≤ ds.length → JAnswer env m ds (A m) ∧ (A m).minPoints = m ∧ (A m).numPoints = ds.length ∧ (A m).results.labels.length = ds.length ∧
        (∀ l ∈ (A m).results.labels, l < 2147483648) ∧ ∀ par, Complete ds.length ds.length par →
        Api.run env par m ds.flatten ds.length cols true = .ok (A m) ∧ ∀ m', 2 ≤ m' → m' ≤ ds.length → Api.rerun env par m (A m') = .ok (A m) := by
  obtain ⟨cols, f, hd, hlt, hs⟩ := h.rows
  obtain ⟨A, hA⟩ := answers hs hq h.five
  have hfew := hs.few
  refine ⟨A, cols, hd, hlt, fun m h2 hm => ?_⟩
  obtain ⟨a1, a2, a3⟩ := hA m h2 hm
  obtain ⟨o1, _, e1, _, hn, _⟩ := C55_run_partial env hq _ _ cols f hs h.five m h2 hm
  obtain ⟨o2, e2, _, hc, _, hl⟩ := C64_size env hq _ _ cols f hs h.five m h2 hm
  have p := backPar_complete ds.length ds.length
  cases ((a3 _ p).2.1).symm.trans (e1 _ p)
  cases ((a3 _ p).2.1).symm.trans (e2 _ p)
  refine ⟨⟨cols, hd, fun par hp => (a3 par hp).2.1⟩, a1, hn, a2, fun l hmem => ?_, fun par hp => ⟨(a3 par hp).1, (a3 par hp).2.2⟩⟩
  have := hl l hmem
  have : (A m).results.clusters.length * 2 ≤ (A m).results.clusters.length * m := Nat.mul_le_mul_left _ h2
  omega

theorem JAnswer.unique [LinearOrder W] [CCmp S] [LinearOrder T] {env : Api.Env D W S T} {ds : List (List D)} {m : Nat} {o o' : Api.Obj W S T} (h5 : ds ≠ []) (h : JAnswer env m ds o)
    (h' : JAnswer env m ds o') : o = o' := by
  obtain ⟨c, h1, h2⟩ := h
  obtain ⟨c', h1', h2'⟩ := h'
  obtain ⟨r, hr⟩ := List.exists_mem_of_ne_nil _ h5
  cases (h1 r hr).symm.trans (h1' r hr)
  exact Outcome.ok.inj ((h2 _ (backPar_complete _ _)).symm.trans (h2' _ (backPar_complete _ _)))

theorem jfit_ne [LinearOrder W] {env : Api.Env D W S T} {ds : List (List D)} {m : Nat} (h : JFit env ds m) : ds ≠ [] := by
  rintro rfl
  exact absurd h.five (by simp)

theorem getLabels_java (l : List Nat) (h : ∀ x ∈ l, x < 2147483648) : Java.getLabels l l.length = .ok (l.map (fun (x : Nat) => (x : Int))) := by
  rw [Java.getLabels, if_pos (Nat.le_refl _), List.take_length, toInt_small h]

/-- What `run` does with rows that fit, in every state. -/
theorem java_run [LinearOrder W] [CCmp S] [LinearOrder T] {env : Api.Env D W S T} (hq : SortsAscending env.qsort) {pl : Platform} (hpl : pl.deleteReleases = true) {st : State W S T} {id : Nat}
    {p : JObj} (hp : st.objs id = some p) {ds : List (List D)} (h : JFit env ds (scanMinPoints st.scan)) {par : Api.Par} (hpar : Complete ds.length ds.length par) :
    ∃ o, JAnswer env (scanMinPoints st.scan) ds o ∧ o.minPoints = scanMinPoints st.scan ∧
      step pl env st (.run id par (javaArr ds)) = .ok (.done, { st with scan := .ready o }.set id (some (javaLabels o))) := by
  obtain ⟨A, cols, hd, hlt, hA⟩ := jfit_answer hq h
  obtain ⟨a1, a2, a3, a4, a5, a6⟩ := hA _ h.min h.enough
  refine ⟨_, a1, a2, ?_⟩
  have hrows := readRows_all hd
  have hl := getLabels_java _ a5
  rw [a4] at hl
  match ds, jfit_ne h, hd, hlt, hrows, hpar, a6, hl with
  | r :: rs, _, hd, hlt, hrows, hpar, a6, hl =>
    have hr : r.length = cols := hd r List.mem_cons_self
    simp only [List.length_cons] at hlt a6 hpar hl
    rw [List.map_cons] at hrows
    simp only [step, withObj, hp, javaArr, List.map_cons, Java.run, List.length_map, hr, if_neg (Nat.not_le.2 hlt), hrows, Outcome.ok_bind, (a6 par hpar).1, deleteArray, hpl, if_true, hl]
    rfl

/-- What `reRun` does when `scan` holds the results for rows that fit. -/
theorem java_reRun [LinearOrder W] [CCmp S] [LinearOrder T] {env : Api.Env D W S T} (hq : SortsAscending env.qsort) {pl : Platform} {st : State W S T} {id : Nat} {p : JObj}
    (hp : st.objs id = some p) {ds : List (List D)} {m m' : Nat} (h' : JFit env ds m') (h : JFit env ds m) {o' : Api.Obj W S T} (ho : JAnswer env m' ds o') (hs : st.scan = .ready o')
    {par : Api.Par} (hpar : Complete ds.length ds.length par) :
    ∃ o, JAnswer env m ds o ∧ o.minPoints = m ∧ step pl env st (.reRun id par m) = .ok (.done, { st with scan := .ready o }.set id (some (javaLabels o))) := by
  obtain ⟨A, cols, hd, hlt, hA⟩ := jfit_answer hq h
  obtain ⟨a1, a2, a3, a4, a5, a6⟩ := hA _ h.min h.enough
  obtain ⟨b1, _⟩ := hA _ h'.min h'.enough
  cases JAnswer.unique (jfit_ne h) b1 ho
  refine ⟨_, a1, a2, ?_⟩
  obtain ⟨_, _, _, _, hsup⟩ := h.rows
  have hfew := hsup.few
  have he := h.enough
  have hl := getLabels_java _ a5
  rw [a4] at hl
  simp only [step, withObj, hp, Java.reRun, hs, rerunScan, toIndex_nat (show m < 4294967296 by omega), (a6 par hpar).2 m' h'.min h'.enough, Outcome.ok_bind, a3, hl]
  rfl

/-! ### Programs -/

theorem java_session_cons [CCmp W] [CCmp S] [CCmp T] {pl : Platform} {env : Api.Env D W S T} {c : Call D} {cs : List (Call D)} {st st1 st2 : State W S T} {x : Reply} {xs : List Reply}
    (h1 : step pl env st c = .ok (x, st1)) (h2 : session pl env cs st1 = .ok (xs, st2)) : session pl env (c :: cs) st = .ok (x :: xs, st2) := by
  show (step pl env st c >>= fun x => session pl env cs x.2 >>= fun y => .ok (x.1 :: y.1, y.2)) = _
  rw [h1, Outcome.ok_bind, h2]; rfl

/-- Every object holds the labels of what it was asked for, and `scan` what the latest one was asked for. -/
structure Booked [LinearOrder W] [CCmp S] [LinearOrder T] (env : Api.Env D W S T) (b : Book D) (st : State W S T) : Prop where
  objs : ∀ i, match b.own i with
    | none => st.objs i = none
    | some (_, none) => st.objs i = some none
    | some (m, some ds) => JFit env ds m ∧ ∃ o, JAnswer env m ds o ∧ st.objs i = some (some (javaLabels o))
  scan : ∀ i, b.latest = some i → ∀ m d, b.own i = some (m, d) → scanMinPoints st.scan = m ∧ ∀ ds, d = some ds → ∃ o, JAnswer env m ds o ∧ st.scan = .ready o

theorem Booked.held [LinearOrder W] [CCmp S] [LinearOrder T] {env : Api.Env D W S T} {b : Book D} {st : State W S T} (h : Booked env b st) {i : Nat} {j : Nat × Option (List (List D))}
    (hi : b.own i = some j) : ∃ p, st.objs i = some p := by
  have := h.objs i
  rw [hi] at this
  match j, this with
  | (_, none), h => exact ⟨_, h⟩
  | (_, some _), ⟨_, _, _, h⟩ => exact ⟨_, h⟩

theorem java_set (st : State W S T) (id : Nat) (p : JObj) : (st.set id p).objs id = some p := if_pos rfl

/-- New labels for the latest object. -/
theorem Booked.update [LinearOrder W] [CCmp S] [LinearOrder T] {env : Api.Env D W S T} {b : Book D} {st : State W S T} (h : Booked env b st) {id : Nat} (hid : b.latest = some id) {m : Nat}
    {ds : List (List D)} (hf : JFit env ds m) {o : Api.Obj W S T} (ho : JAnswer env m ds o) (hm : o.minPoints = m) :
    Booked env (b.put id (m, some ds)) ({ st with scan := .ready o }.set id (some (javaLabels o))) := by
  refine ⟨fun i => ?_, fun i hi m' d hd => ?_⟩
  · by_cases hi : i = id
    · subst hi
      simp only [Book.put, if_true]
      exact ⟨hf, o, ho, java_set _ _ _⟩
    · have := h.objs i
      simp only [Book.put, if_neg hi, State.set]
      exact this
  · have hi' : some id = some i := hid.symm.trans hi
    cases hi'
    simp only [Book.put, if_true, Option.some.injEq, Prod.mk.injEq] at hd
    obtain ⟨rfl, rfl⟩ := hd
    exact ⟨hm, fun _ e => by cases e; exact ⟨o, ho, rfl⟩⟩

theorem java_step [LinearOrder W] [CCmp S] [LinearOrder T] {env : Api.Env D W S T} (hq : SortsAscending env.qsort) {pl : Platform} (hpl : pl.deleteReleases = true) {b : Book D}
    {st : State W S T} (h : Booked env b st) {u : JUse D} (hu : JWithin env b u) (hl : LatestOnly b u) :
    ∃ x st1, step pl env st u.call = .ok (x, st1) ∧ JRight env b u x ∧ Booked env (b.after u) st1 := by
  cases u with
  | construct id m =>
    obtain ⟨h1, h2, h3⟩ := hu
    have hn := h.objs id
    rw [h1] at hn
    refine ⟨.done, { st with scan := .fresh m (leftover st.scan) }.set id none, ?_, rfl, ⟨fun i => ?_, fun i hi m' d hd => ?_⟩⟩
    rotate_left
    · by_cases hi : i = id
      · subst hi
        simp only [Book.after, Book.put, if_true]
        exact java_set { st with scan := .fresh m (leftover st.scan) } i none
      · have := h.objs i
        simp only [Book.after, Book.put, if_neg hi, State.set]
        exact this
    · cases hi
      simp only [Book.after, Book.put, if_true, Option.some.injEq, Prod.mk.injEq] at hd
      obtain ⟨rfl, rfl⟩ := hd
      exact ⟨rfl, nofun⟩
    · simp only [JUse.call, step, withNew, hn, construct, toIndex_nat (show m < 4294967296 by omega), Api.initObj, if_pos (show 1 < m by omega), Outcome.ok_bind]
      rfl
  | run id par ds =>
    obtain ⟨m, d, h1, h2, h3⟩ := hu
    obtain ⟨p, hp⟩ := h.held h1
    have hs := (h.scan id hl m d h1).1
    rw [← hs] at h2
    obtain ⟨o, o1, o2, o3⟩ := java_run hq hpl hp h2 h3
    refine ⟨_, _, o3, rfl, ?_⟩
    rw [hs] at h2 o1 o2
    simp only [Book.after, h1]
    exact h.update hl h2 o1 o2
  | reRun id par m =>
    obtain ⟨m', ds, h1, h2, h3⟩ := hu
    obtain ⟨p, hp⟩ := h.held h1
    obtain ⟨o', c1, c2⟩ := (h.scan id hl m' _ h1).2 ds rfl
    have hf : JFit env ds m' := by
      have := h.objs id
      rw [h1] at this
      exact this.1
    obtain ⟨o, o1, o2, o3⟩ := java_reRun (pl := pl) hq hp hf h2 c1 c2 h3
    refine ⟨_, _, o3, rfl, ?_⟩
    simp only [Book.after, h1]
    exact h.update hl h2 o1 o2
  | getLabels id =>
    have := h.objs id
    match hb : b.own id, this with
    | none, _ => exact absurd hb hu
    | some (m, none), e => exact ⟨_, st, by simp only [JUse.call, step, withObj, e], .inl ⟨m, hb, rfl⟩, h⟩
    | some (m, some ds), ⟨_, o, e1, e2⟩ => exact ⟨_, st, by simp only [JUse.call, step, withObj, e2], .inr ⟨m, ds, o, hb, e1, rfl⟩, h⟩
  | getClusterMap id =>
    have := h.objs id
    match hb : b.own id, this with
    | none, _ => exact absurd hb hu
    | some (m, none), e => exact ⟨_, st, by simp only [JUse.call, step, withObj, e]; rfl, .inl ⟨m, hb, rfl⟩, h⟩
    | some (m, some ds), ⟨hf, o, e1, e2⟩ =>
      have hne : javaLabels o ≠ [] := by
        obtain ⟨A, cols, hd, _, hA⟩ := jfit_answer hq hf
        obtain ⟨a1, _, _, a4, _⟩ := hA m hf.min hf.enough
        cases JAnswer.unique (jfit_ne hf) a1 e1
        intro h0
        have := congrArg List.length h0
        rw [javaLabels, List.length_map, a4] at this
        have h5 := hf.five
        simp at this
        rw [this] at h5
        exact absurd h5 (by simp)
      obtain ⟨t, t1, t2⟩ := clusterMap_table hne
      exact ⟨_, st, by simp only [JUse.call, step, withObj, e2, t1], .inr ⟨m, ds, o, t, hb, e1, t2, rfl⟩, h⟩

theorem java_uses [LinearOrder W] [CCmp S] [LinearOrder T] {env : Api.Env D W S T} (hq : SortsAscending env.qsort) {pl : Platform} (hpl : pl.deleteReleases = true) : ∀ {us : List (JUse D)}
    {b : Book D} {st : State W S T}, Booked env b st → JAllWithin env b us → AllLatestOnly b us →
    ∃ r st', session pl env (us.map JUse.call) st = .ok (r, st') ∧ JRights env b us r
  | [], b, st, _, _, _ => ⟨[], st, rfl, rfl⟩
  | u :: us, b, st, h, hu, hl => by
    obtain ⟨x, st1, e1, h1, h2⟩ := java_step hq hpl h hu.1 hl.1
    obtain ⟨r, st2, e2, h3⟩ := java_uses hq hpl h2 hu.2 hl.2
    exact ⟨x :: r, st2, java_session_cons e1 e2, x, r, h1, h3, rfl⟩

theorem booked_start [LinearOrder W] [CCmp S] [LinearOrder T] {env : Api.Env D W S T} : Booked env Book.empty (start : State W S T) := ⟨fun _ => rfl, nofun⟩

end Verif.Props
