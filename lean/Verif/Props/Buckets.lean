import Verif.Lemmas.Buckets
import Verif.Props.HTable
/-
Property C07, second part: exactly which removals from a hash table lose other keys.
-/
namespace Verif.Props
open Spec HTable
variable {K : Type}

/-- Safe histories keep the table a faithful image of the map (helper). -/
theorem run_safe [DecidableEq K] {cmp : K → K → Int} (hc : LawfulCmp cmp) {hash : K → Nat} (ops : List (MapOp K)) :
    ∀ {t : Table K} {ch m ks st}, HTable.Rep cmp hash t false ch m ks → Agrees t ch st → SafeHistory hash st ops →
      (∀ op ∈ ops, opSized (getHtypeSize t.dtype) op) → getHtypeSize t.ktype = getHtypeSize t.dtype →
      ∃ t' ch' ks', HTable.run cmp hash t ops = .ok ((mapRun m ops).1, t') ∧ HTable.Rep cmp hash t' false ch' (mapRun m ops).2 ks' ∧
        Agrees t' ch' (bucketsAfter hash st ops) ∧ t'.dtype = t.dtype ∧ t'.ktype = t.ktype := by
  induction ops with
  | nil => intro t ch m ks st h ha _ _ _; exact ⟨t, ch, ks, rfl, h, ha, rfl, rfl⟩
  | cons op ops ih =>
    intro t ch m ks st h ha hs hsz hkd
    have hsz0 := hsz op (by simp)
    have hsz' : ∀ o ∈ ops, opSized (getHtypeSize t.dtype) o := fun o ho => hsz o (by simp [ho])
    cases op with
    | insert k v =>
      obtain ⟨t1, ch1, e1, h1, ha1, hd, hk⟩ := insert_agrees hc h ha k v hsz0
      obtain ⟨t2, ch2, ks2, e2, h2, ha2, hd2, hk2⟩ := ih h1 ha1 hs (by rw [hd]; exact hsz') (by rw [hd, hk]; exact hkd)
      refine ⟨t2, ch2, ks2, ?_, h2, ha2, hd2.trans hd, hk2.trans hk⟩
      simp only [HTable.run, HTable.step, e1, Outcome.ok_bind, Outcome.pure_eq, e2, mapRun, mapStep]
      cases m k <;> rfl
    | lookup k buf =>
      have e1 := lookup_rep hc h k buf hsz0
      obtain ⟨t2, ch2, ks2, e2, h2, ha2, hd2, hk2⟩ := ih h ha hs hsz' hkd
      refine ⟨t2, ch2, ks2, ?_, h2, ha2, hd2, hk2⟩
      simp only [HTable.run, HTable.step, e1, Outcome.ok_bind, Outcome.pure_eq, e2, mapRun, mapStep]
      cases m k <;> rfl
    | remove k buf =>
      rcases remove_agrees hc h ha k buf hs.1 with ⟨hm, e1, ha1⟩ | ⟨v, t1, ch1, hm, e1, h1, ha1, hd, hk⟩
      · have hmm : (fun x => if x = k then none else m x) = m := by
          funext x
          by_cases hx : x = k
          · simp [hx, hm]
          · simp [hx]
        obtain ⟨t2, ch2, ks2, e2, h2, ha2, hd2, hk2⟩ := ih h ha1 hs.2 hsz' hkd
        refine ⟨t2, ch2, ks2, ?_, ?_, ha2, hd2, hk2⟩
        · simp only [HTable.run, HTable.step, e1, Outcome.ok_bind, Outcome.pure_eq, e2, mapRun, mapStep, hm, hmm]
        · simp only [mapRun, mapStep, hmm]; exact h2
      · have hvl : v.length = getHtypeSize t.dtype := by
          obtain ⟨a, ha⟩ := (h.abs k v).mp hm
          exact h.chains.len _ _ ha
        obtain ⟨t2, ch2, ks2, e2, h2, ha2, hd2, hk2⟩ := ih h1 ha1 hs.2 (by rw [hd]; exact hsz') (by rw [hd, hk]; exact hkd)
        refine ⟨t2, ch2, ks2, ?_, h2, ha2, hd2.trans hd, hk2.trans hk⟩
        rw [hkd, memcpy_full hsz0 hvl] at e1
        simp only [HTable.run, HTable.step, e1, Outcome.ok_bind, Outcome.pure_eq, e2, mapRun, mapStep, hm]

/-- The fresh table (helper). -/
theorem rep_fresh_agrees (cmp : K → K → Int) (hash : K → Nat) (kt dt : HType) (n : Nat) (hn : 0 < n) (hh : ∀ k, hash k < n) :
    ∃ t : Table K, initSize n kt dt = .ok t ∧ HTable.Rep cmp hash t false (fun _ => []) (fun _ => none) [] ∧ Agrees t (fun _ => []) (fun _ => []) ∧
      t.dtype = dt ∧ t.ktype = kt := by
  obtain ⟨t, e, h, hd, hk⟩ := rep_fresh cmp hash kt dt n hn hh
  exact ⟨t, e, { h with chains := h.chains.weaken }, fun _ _ => trivial, hd, hk⟩

/-- **C07, the part that holds, exactly.** A history of insertions, lookups and removals in which no key is removed whose link to the next newer key of its bucket was lost
    (by removing that newer key), except as the newest of its bucket, gives back exactly what the ideal map gives back, call by call. Key and value types have the same size
    here, see C08. Missing, and false: all other histories, see `C07_lost_keys_violated`. -/
theorem C07_safe_history_partial [DecidableEq K] {cmp : K → K → Int} (hc : LawfulCmp cmp) (hash : K → Nat) (kt dt : HType) (hkd : getHtypeSize kt = getHtypeSize dt)
    (buckets : Nat) (hb : 0 < buckets) (hh : ∀ k, hash k < buckets) (ops : List (MapOp K)) (hs : SafeHistory hash (fun _ => []) ops)
    (hsz : ∀ op ∈ ops, opSized (getHtypeSize dt) op) :
    ∃ t t' : Table K, initSize buckets kt dt = .ok t ∧ HTable.run cmp hash t ops = .ok ((mapRun (fun _ => none) ops).1, t') := by
  obtain ⟨t, e, h, ha, hd, hk⟩ := rep_fresh_agrees cmp hash kt dt buckets hb hh
  obtain ⟨t', _, _, e', _⟩ := run_safe hc ops h ha hs (by rw [hd]; exact hsz) (by rw [hd, hk]; exact hkd)
  exact ⟨t, t', e, e'⟩

/-- Four keys in one bucket; three of them are removed, from the oldest to the newest, then one more is put in and the last of the first four is removed. -/
def exSafe : List (MapOp Int) :=
  [.insert 1 [1, 0, 0, 0], .insert 2 [2, 0, 0, 0], .insert 3 [3, 0, 0, 0], .insert 4 [4, 0, 0, 0], .remove 1 [0, 0, 0, 0], .remove 3 [0, 0, 0, 0], .lookup 2 [0, 0, 0, 0],
   .remove 4 [0, 0, 0, 0], .insert 5 [5, 0, 0, 0], .remove 2 [0, 0, 0, 0], .lookup 5 [0, 0, 0, 0]]

example : SafeHistory (fun _ : Int => 0) (fun _ => []) exSafe := by
  simp only [exSafe, SafeHistory, Loses]
  decide

/-- **C07 is violated by every other history**: after a safe history, remove a key whose link was lost and that is not the newest of its bucket. The call reports success
    and hands back the value, but every newer key of the bucket, although it was never removed, is not found any more. -/
theorem C07_lost_keys_violated [DecidableEq K] {cmp : K → K → Int} (hc : LawfulCmp cmp) (hash : K → Nat) (kt dt : HType) (hkd : getHtypeSize kt = getHtypeSize dt)
    (buckets : Nat) (hb : 0 < buckets) (hh : ∀ k, hash k < buckets) (ops : List (MapOp K)) (hs : SafeHistory hash (fun _ => []) ops)
    (hsz : ∀ op ∈ ops, opSized (getHtypeSize dt) op) (k : K) (buf : Bytes) (hbuf : buf.length = getHtypeSize dt) (hk : Loses hash (bucketsAfter hash (fun _ => []) ops) k) :
    ∃ (t t' t'' : Table K) (v : Bytes), initSize buckets kt dt = .ok t ∧ HTable.run cmp hash t ops = .ok ((mapRun (fun _ => none) ops).1, t') ∧
      (mapRun (fun _ => none) ops).2 k = some v ∧ HTable.remove cmp hash t' k buf = .ok (1, v, t'') ∧ (∃ x, NewerInBucket hash (bucketsAfter hash (fun _ => []) ops) x k) ∧
      ∀ x, NewerInBucket hash (bucketsAfter hash (fun _ => []) ops) x k → x ≠ k ∧ ((mapRun (fun _ => none) ops).2 x).isSome ∧
        ∀ b, HTable.lookup cmp hash t'' x b = .ok (0, b) := by
  obtain ⟨t, e, h, ha, hd, hkt⟩ := rep_fresh_agrees cmp hash kt dt buckets hb hh
  obtain ⟨t', ch', ks', e', h', ha', hd', hkt'⟩ := run_safe hc ops h ha hs (by rw [hd]; exact hsz) (by rw [hd, hkt]; exact hkd)
  obtain ⟨v, t'', hm, er, hl⟩ := remove_loses hc h' ha' k buf hk
  have hvl : v.length = getHtypeSize dt := by
    obtain ⟨a, ha⟩ := (h'.abs k v).mp hm
    have := h'.chains.len _ _ ha
    rw [hd', hd] at this
    exact this
  rw [hkt', hkt, hkd, memcpy_full hbuf hvl] at er
  refine ⟨t, t', t'', v, e, e', hm, er, ?_, fun x hx => ⟨?_, hl x hx⟩⟩
  · unfold Loses at hk
    cases hq : bucketsAfter hash (fun _ => []) ops (hash k) with
    | nil => rw [hq] at hk; simp at hk
    | cons y q =>
      rw [hq, List.tail_cons] at hk
      obtain ⟨l, r, hlr⟩ := List.append_of_mem hk
      exact ⟨y.1, y :: l, r, true, by rw [hq, hlr]; rfl, by simp⟩
  · rintro rfl
    obtain ⟨l, r, c, hq, hx⟩ := hx
    have hnd := h'.chains.key_nodup (hash x)
    rw [← prevs_keys (ha' _ (h'.chains.hash_lt x)), hq, List.map_append, List.map_cons, List.nodup_append] at hnd
    exact hnd.2.2 _ hx _ (by simp) rfl

/-- The shortest such history: put in three keys of one bucket and remove the second. Removing the first one now loses the third. -/
example : SafeHistory (fun _ : Int => 0) (fun _ => []) [.insert 1 [1, 0, 0, 0], .insert 2 [2, 0, 0, 0], .insert 3 [3, 0, 0, 0], .remove 2 [0, 0, 0, 0]] ∧
    Loses (fun _ : Int => 0) (bucketsAfter (fun _ => 0) (fun _ => []) [.insert 1 [1, 0, 0, 0], .insert 2 [2, 0, 0, 0], .insert 3 [3, 0, 0, 0], .remove 2 [0, 0, 0, 0]]) 1 ∧
    NewerInBucket (fun _ : Int => 0) (bucketsAfter (fun _ => 0) (fun _ => []) [.insert 1 [1, 0, 0, 0], .insert 2 [2, 0, 0, 0], .insert 3 [3, 0, 0, 0], .remove 2 [0, 0, 0, 0]]) 3 1 := by
  refine ⟨?_, ?_, [(3, false)], [], true, by decide, by decide⟩
  · simp only [SafeHistory, Loses]
    decide
  · simp only [Loses]
    decide

theorem safeHistory_append [DecidableEq K] (hash : K → Nat) (p q : List (MapOp K)) : ∀ st, SafeHistory hash st (p ++ q) ↔
    SafeHistory hash st p ∧ SafeHistory hash (bucketsAfter hash st p) q := by
  induction p with
  | nil => intro st; simp [SafeHistory, bucketsAfter]
  | cons op p ih =>
    intro st
    cases op <;> simp only [List.cons_append, SafeHistory, ih, bucketsAfter, List.foldl_cons]
    tauto

theorem first_lossy [DecidableEq K] (hash : K → Nat) (ops : List (MapOp K)) : ∀ st, ¬ SafeHistory hash st ops →
    ∃ p k b q, ops = p ++ .remove k b :: q ∧ SafeHistory hash st p ∧ Loses hash (bucketsAfter hash st p) k := by
  induction ops with
  | nil => intro st h; exact absurd trivial h
  | cons op ops ih =>
    intro st h
    cases op with
    | remove k b =>
      by_cases hw : Loses hash st k
      · exact ⟨[], k, b, ops, rfl, trivial, hw⟩
      · obtain ⟨p, k', b', q, rfl, h1, h2⟩ := ih _ (fun hg => h ⟨hw, hg⟩)
        exact ⟨.remove k b :: p, k', b', q, rfl, ⟨hw, h1⟩, h2⟩
    | insert k v =>
      obtain ⟨p, k', b', q, rfl, h1, h2⟩ := ih _ (fun hg => h hg)
      exact ⟨.insert k v :: p, k', b', q, rfl, h1, h2⟩
    | lookup k b =>
      obtain ⟨p, k', b', q, rfl, h1, h2⟩ := ih _ (fun hg => h hg)
      exact ⟨.lookup k b :: p, k', b', q, rfl, h1, h2⟩

theorem htable_run_append (cmp : K → K → Int) (hash : K → Nat) (p q : List (MapOp K)) : ∀ t : Table K,
    HTable.run cmp hash t (p ++ q) = (HTable.run cmp hash t p >>= fun a => HTable.run cmp hash a.2 q >>= fun b => pure (a.1 ++ b.1, b.2)) := by
  induction p with
  | nil =>
    intro t
    simp only [List.nil_append, HTable.run, Outcome.ok_bind]
    cases HTable.run cmp hash t q <;> rfl
  | cons op p ih =>
    intro t
    simp only [List.cons_append, HTable.run]
    cases HTable.step cmp hash t op with
    | ok a =>
      simp only [Outcome.ok_bind, ih]
      cases HTable.run cmp hash a.2 p with
      | ok b =>
        simp only [Outcome.ok_bind, Outcome.pure_eq]
        cases HTable.run cmp hash b.2 q <;> rfl
      | _ => rfl
    | _ => rfl

theorem mapRun_append [DecidableEq K] (p q : List (MapOp K)) : ∀ m,
    mapRun m (p ++ q) = ((mapRun m p).1 ++ (mapRun (mapRun m p).2 q).1, (mapRun (mapRun m p).2 q).2) := by
  induction p with
  | nil => intro m; simp [mapRun]
  | cons op p ih =>
    intro m
    simp only [List.cons_append, mapRun, ih]

/-- **The boundary of C07 is exact**: a history is safe if and only if, stopped after any number of its calls, the table has answered, and goes on to answer to the lookup of
    any key, like the ideal map. -/
theorem C07_exact_partial [DecidableEq K] {cmp : K → K → Int} (hc : LawfulCmp cmp) (hash : K → Nat) (kt dt : HType) (hkd : getHtypeSize kt = getHtypeSize dt)
    (buckets : Nat) (hb : 0 < buckets) (hh : ∀ k, hash k < buckets) (ops : List (MapOp K)) (hsz : ∀ op ∈ ops, opSized (getHtypeSize dt) op) :
    SafeHistory hash (fun _ => []) ops ↔
      ∀ p, p <+: ops → ∀ x b, b.length = getHtypeSize dt → ∃ t t' : Table K, initSize buckets kt dt = .ok t ∧
        HTable.run cmp hash t (p ++ [.lookup x b]) = .ok ((mapRun (fun _ => none) (p ++ [.lookup x b])).1, t') := by
  constructor
  · rintro h p ⟨q, rfl⟩ x b hbl
    refine C07_safe_history_partial hc hash kt dt hkd buckets hb hh _ ((safeHistory_append hash _ _ _).mpr ⟨((safeHistory_append hash _ _ _).mp h).1, trivial⟩) ?_
    intro op hop
    rcases List.mem_append.mp hop with hop | hop
    · exact hsz op (by simp [hop])
    · rw [List.mem_singleton.mp hop]; exact hbl
  · intro h
    by_contra hbad
    obtain ⟨p, k, b, q, rfl, hp, hl⟩ := first_lossy hash ops _ hbad
    have hbl : b.length = getHtypeSize dt := hsz (.remove k b) (by simp)
    obtain ⟨t, t', t'', v, e, e', hv, er, ⟨x, hx⟩, hall⟩ := C07_lost_keys_violated hc hash kt dt hkd buckets hb hh p hp (fun op hop => hsz op (by simp [hop])) k b hbl hl
    obtain ⟨hxk, hxs, hxl⟩ := hall x hx
    obtain ⟨t1, t2, e1, e2⟩ := h (p ++ [.remove k b]) ⟨q, by simp⟩ x b hbl
    rw [e] at e1
    obtain rfl := Outcome.ok.inj e1
    rw [List.append_assoc, htable_run_append, e', mapRun_append] at e2
    simp only [Outcome.ok_bind, List.singleton_append, HTable.run, HTable.step, er, hxl b, Outcome.pure_eq, Outcome.ok.injEq, Prod.mk.injEq, mapRun] at e2
    have := (List.append_cancel_left_eq _ _ _).mp e2.1
    rw [List.cons.injEq, List.cons.injEq] at this
    have h1 := this.2.1
    obtain ⟨w, hw⟩ := Option.isSome_iff_exists.mp hxs
    simp [mapStep, hxk, hw] at h1

end Verif.Props
