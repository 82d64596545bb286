import Verif.Props.Buckets
/-
Properties C09 and C10, second part: the size, the key list and clearing after histories with removals, and using a cleared table.
-/
namespace Verif.Props
open Spec HTable
variable {K : Type}

/-- **C09 after removals.** After any safe history of insertions, lookups and removals (see C07), the keys set lists, strictly increasing, exactly the keys the map has; the size is
    their number; `hashtable_empty` says whether there are none. Missing, and false: histories that are not safe, and clears followed by insertions. -/
theorem C09_after_removals_partial [DecidableEq K] {cmp : K → K → Int} (hc : LawfulCmp cmp) (hash : K → Nat) (kt dt : HType) (hkd : getHtypeSize kt = getHtypeSize dt)
    (buckets : Nat) (hb : 0 < buckets) (hh : ∀ k, hash k < buckets) (ops : List (MapOp K)) (hs : SafeHistory hash (fun _ => []) ops)
    (hsz : ∀ op ∈ ops, opSized (getHtypeSize dt) op) :
    ∃ (t t' : Table K) (rs : List MapRet) (ks : List K), initSize buckets kt dt = .ok t ∧ HTable.run cmp hash t ops = .ok (rs, t') ∧
      t'.keys.contents = ks.map (fun k => .ok (some k)) ∧ ks.Pairwise (fun a b => cmp a b < 0) ∧
      (∀ k, k ∈ ks ↔ (mapRun (fun _ => none) ops).2 k ≠ none) ∧
      hsize t' = ks.length ∧ (empty t' = true ↔ ∀ k, (mapRun (fun _ => none) ops).2 k = none) := by
  obtain ⟨t, e, h, ha, hd, hkt⟩ := rep_fresh_agrees cmp hash kt dt buckets hb hh
  obtain ⟨t', ch', ks', e', h', _, _, _⟩ := run_safe hc ops h ha hs (by rw [hd]; exact hsz) (by rw [hd, hkt]; exact hkd)
  refine ⟨t, t', _, ks', e, e', rep_contents h'.ksrep, h'.sorted, ?_, h'.ksrep.size, ?_⟩
  · intro k; rw [h'.mem, Option.isSome_iff_ne_none]
  · simp only [empty, decide_eq_true_eq, h'.size, List.length_eq_zero_iff]
    constructor
    · intro hz k
      have := h'.mem k
      rw [hz] at this
      cases hm : (mapRun (fun _ => none) ops).2 k with
      | none => rfl
      | some v => rw [hm] at this; simp at this
    · intro hall
      apply List.eq_nil_iff_forall_not_mem.mpr
      intro k hk
      have := (h'.mem k).mp hk
      rw [hall k] at this
      simp at this

/-- The history of C07 with four keys in one bucket: at the end only key 5 is left. -/
example : SafeHistory (fun _ : Int => 0) (fun _ => []) exSafe ∧ (mapRun (fun _ => none) exSafe).2 5 = some [5, 0, 0, 0] ∧ (mapRun (fun _ => none) exSafe).2 2 = none := by
  refine ⟨?_, by decide, by decide⟩
  simp only [exSafe, SafeHistory, Loses]
  decide

/-- Clearing a table that is a faithful image of a map (helper). -/
theorem clear_of_rep [DecidableEq K] {cmp : K → K → Int} (hc : LawfulCmp cmp) {hash : K → Nat} {t' : Table K} {s ch' m ks'} (h' : HTable.Rep cmp hash t' s ch' m ks') (kd : Bool) :
    ∃ (t'' : Table K) (evs : List (Event K)), HTable.clear hash kd true t' = .ok (evs, t'') ∧ (destroyedValues evs).Perm (ks'.map (fun k => (m k).getD [])) ∧
      Chains hash t'' s (fun _ => []) ∧ t''.keys = SetT.clear t'.keys ∧ t''.size = 0 ∧ t''.dtype = t'.dtype ∧
      (kd = true → (destroyedKeys evs).Perm (ks'.map (firstOfBucket hash ks'))) := by
  have hnd := SetT.strictSorted_nodup hc h'.sorted
  obtain ⟨evs, t2, e2, hperm, hch, hk2, hd2, _, hkeys⟩ := clearLoop_rep hash kd ks' hnd (fun k => (m k).getD []) (s := s)
    ks'.length 0 h'.chains h'.ksrep (by omega)
    (by
      intro b it hit
      have hb' := h'.chains.key_hash b it hit
      have hms : m it.2.1 = some it.2.2 := (h'.abs _ _).mpr ⟨it.1, by rw [hb']; exact hit⟩
      refine ⟨?_, by rw [hms]; rfl⟩
      rw [List.drop_zero, h'.mem, hms]; rfl)
    (by
      intro key hkey hne
      rw [List.drop_zero, h'.mem] at hkey
      cases hmk : m key with
      | none => rw [hmk] at hkey; simp at hkey
      | some v =>
        obtain ⟨a, ha⟩ := (h'.abs _ _).mp hmk
        exact ⟨_, ha, rfl⟩)
  have hpend : pending hash ch' ks' = ks' := by
    unfold pending
    rw [List.filter_eq_self]
    intro k hk
    rw [h'.mem] at hk
    cases hmk : m k with
    | none => rw [hmk] at hk; simp at hk
    | some v =>
      obtain ⟨a, ha⟩ := (h'.abs _ _).mp hmk
      simpa using List.ne_nil_of_mem ha
  rw [List.drop_zero, hpend] at hperm
  rw [List.drop_zero, hpend] at hkeys
  refine ⟨{ t2 with keys := SetT.clear t2.keys, size := 0 }, evs, ?_, hperm, chains_of_eq hch rfl rfl rfl rfl, by rw [hk2], rfl, hd2, hkeys⟩
  simp only [HTable.clear, h'.ksrep.size, e2, Outcome.ok_bind]; rfl

/-- **C10 after removals.** Clearing a table reached by any safe history of insertions, lookups and removals calls the value destructor exactly once for the value of every key
    that is left, and for no value of a removed key; afterwards the table is empty. Missing, and false: histories that are not safe, and key destructors. -/
theorem C10_after_removals_partial [DecidableEq K] {cmp : K → K → Int} (hc : LawfulCmp cmp) (hash : K → Nat) (kt dt : HType) (hkd : getHtypeSize kt = getHtypeSize dt)
    (buckets : Nat) (hb : 0 < buckets) (hh : ∀ k, hash k < buckets) (ops : List (MapOp K)) (kd : Bool) (hs : SafeHistory hash (fun _ => []) ops)
    (hsz : ∀ op ∈ ops, opSized (getHtypeSize dt) op) :
    ∃ (t t' t'' : Table K) (rs : List MapRet) (evs : List (Event K)) (ks : List K), initSize buckets kt dt = .ok t ∧
      HTable.run cmp hash t ops = .ok (rs, t') ∧ HTable.clear hash kd true t' = .ok (evs, t'') ∧
      ks.Nodup ∧ (∀ k, k ∈ ks ↔ (mapRun (fun _ => none) ops).2 k ≠ none) ∧
      (destroyedValues evs).Perm (ks.map (fun k => ((mapRun (fun _ => none) ops).2 k).getD [])) ∧
      hsize t'' = 0 ∧ empty t'' = true ∧ (∀ k buf, HTable.lookup cmp hash t'' k buf = .ok (0, buf)) := by
  obtain ⟨t, e, h, ha, hd, hkt⟩ := rep_fresh_agrees cmp hash kt dt buckets hb hh
  obtain ⟨t', ch', ks', e', h', _, _, _⟩ := run_safe hc ops h ha hs (by rw [hd]; exact hsz) (by rw [hd, hkt]; exact hkd)
  obtain ⟨t'', evs, e2, hperm, hch, hk, hz, _, _⟩ := clear_of_rep hc h' kd
  refine ⟨t, t', t'', _, evs, ks', e, e', e2, SetT.strictSorted_nodup hc h'.sorted, ?_, hperm, by rw [hsize, hk]; rfl, by simp [empty, hz], ?_⟩
  · intro k; rw [h'.mem, Option.isSome_iff_ne_none]
  · intro k buf
    unfold HTable.lookup
    rcases lookupEntry_rep hc hch k with ⟨e3, _⟩ | ⟨a, v, _, hmem⟩
    · rw [e3]; rfl
    · simp at hmem

/-- **C10 for keys, exactly.** With a key destructor, clearing a table reached by any safe history calls it once for every key, but not with that key: with the smallest key of
    its bucket. So every key is destroyed exactly once if and only if no two keys fall into the same bucket. -/
theorem C10_keys_exact_partial [DecidableEq K] {cmp : K → K → Int} (hc : LawfulCmp cmp) (hash : K → Nat) (kt dt : HType) (hkd : getHtypeSize kt = getHtypeSize dt)
    (buckets : Nat) (hb : 0 < buckets) (hh : ∀ k, hash k < buckets) (ops : List (MapOp K)) (hs : SafeHistory hash (fun _ => []) ops)
    (hsz : ∀ op ∈ ops, opSized (getHtypeSize dt) op) :
    ∃ (t t' t'' : Table K) (rs : List MapRet) (evs : List (Event K)) (ks : List K), initSize buckets kt dt = .ok t ∧
      HTable.run cmp hash t ops = .ok (rs, t') ∧ HTable.clear hash true true t' = .ok (evs, t'') ∧
      ks.Pairwise (fun a b => cmp a b < 0) ∧ (∀ k, k ∈ ks ↔ (mapRun (fun _ => none) ops).2 k ≠ none) ∧
      (destroyedKeys evs).Perm (ks.map (firstOfBucket hash ks)) ∧
      ((destroyedKeys evs).Perm ks ↔ ∀ a ∈ ks, ∀ b ∈ ks, hash a = hash b → a = b) := by
  obtain ⟨t, e, h, ha, hd, hkt⟩ := rep_fresh_agrees cmp hash kt dt buckets hb hh
  obtain ⟨t', ch', ks', e', h', _, _, _⟩ := run_safe hc ops h ha hs (by rw [hd]; exact hsz) (by rw [hd, hkt]; exact hkd)
  obtain ⟨t'', evs, e2, _, _, _, _, _, hkeys⟩ := clear_of_rep hc h' true
  have hkeys := hkeys rfl
  have hnd := SetT.strictSorted_nodup hc h'.sorted
  have hfst : ∀ k ∈ ks', hash (firstOfBucket hash ks' k) = hash k ∧ firstOfBucket hash ks' k ∈ ks' := by
    intro k hk
    unfold firstOfBucket
    cases hf : ks'.find? (fun x => decide (hash x = hash k)) with
    | none =>
      have := List.find?_eq_none.mp hf k hk
      simp at this
    | some y =>
      have h1 := List.find?_some hf
      exact ⟨by simpa using h1, List.mem_of_find?_eq_some hf⟩
  refine ⟨t, t', t'', _, evs, ks', e, e', e2, h'.sorted, ?_, hkeys, ?_⟩
  · intro k; rw [h'.mem, Option.isSome_iff_ne_none]
  · constructor
    · intro hp a ha' b hb' hab
      have hinj : (ks'.map (firstOfBucket hash ks')).Nodup := (hkeys.symm.trans hp).nodup_iff.mpr hnd
      have := List.inj_on_of_nodup_map hinj ha' hb'
      apply this
      unfold firstOfBucket
      rw [hab]
      cases hf : ks'.find? (fun x => decide (hash x = hash b)) with
      | none =>
        have := List.find?_eq_none.mp hf b hb'
        simp at this
      | some y => rfl
    · intro hinj
      have : ks'.map (firstOfBucket hash ks') = ks' := by
        conv_rhs => rw [← List.map_id ks']
        refine List.map_congr_left (fun k hk => ?_)
        exact hinj _ (hfst k hk).2 _ hk (hfst k hk).1
      rw [this] at hkeys
      exact hkeys

/-- The theorem at work: with the keys 1, 2 and 5 in two buckets the destructor gets 1 twice, 2 once and 5 never. -/
example : firstOfBucket (fun k : Int => (k % 2).toNat) [1, 2, 5] 5 = 1 ∧ [1, 2, 5].map (firstOfBucket (fun k : Int => (k % 2).toNat) [1, 2, 5]) = [1, 2, 1] ∧
    SafeHistory (fun k : Int => (k % 2).toNat) (fun _ => []) [.insert 1 [1, 0, 0, 0], .insert 5 [5, 0, 0, 0], .insert 4 [4, 0, 0, 0], .insert 2 [2, 0, 0, 0], .remove 4 [0, 0, 0, 0]] := by
  refine ⟨by decide, by decide, ?_⟩
  simp only [SafeHistory, Loses]
  decide

/-! ### The cleared table -/

theorem ensureRoom_cap {α : Type} {l l' : AList α} (e : l.ensureRoom = .ok l') : l.maxSize ≤ l'.maxSize := by
  unfold AList.ensureRoom at e
  split at e
  · unfold AList.grow highestPowerof2 at e
    by_cases h0 : l.maxSize * 2 = 0
    · rw [if_pos h0] at e; cases e
    · rw [if_neg h0] at e
      simp only [Outcome.ok_bind, Outcome.pure_eq, Outcome.ok.injEq] at e
      rw [← e]
      have := AList.log2_lt (l.maxSize * 2) (by omega)
      simp only
      omega
  · rw [← Outcome.ok.inj e]

theorem insertAt_cap {α : Type} {l l' : AList α} {x : α} {pos : Nat} (e : l.insertAt x pos = .ok l') : l.maxSize ≤ l'.maxSize := by
  unfold AList.insertAt at e
  obtain ⟨l1, e1, e⟩ := Outcome.bind_eq_ok.mp e
  obtain ⟨l2, e2, e⟩ := Outcome.bind_eq_ok.mp e
  have h1 := ensureRoom_cap e1
  unfold AList.shiftRight at e2
  split_ifs at e2
  rw [← Outcome.ok.inj e2] at e
  unfold AList.insertionHelper at e
  split at e
  · rw [← Outcome.ok.inj e]; exact h1
  · cases e

theorem setInsert_cap {cmp : K → K → Int} {s s' : AList K} {x : K} {r : Int} (e : SetT.insert cmp s x = .ok (r, s')) : s.maxSize ≤ s'.maxSize := by
  have fin : ∀ low, (s.insertAt x low >>= fun s' => (pure ((1 : Int), s') : Outcome _)) = .ok (r, s') → s.maxSize ≤ s'.maxSize := by
    intro low e
    obtain ⟨s1, e1, e⟩ := Outcome.bind_eq_ok.mp e
    simp only [Outcome.pure_eq, Outcome.ok.injEq, Prod.mk.injEq] at e
    rw [← e.2]
    exact insertAt_cap e1
  unfold SetT.insert at e
  by_cases hs : s.size > 0
  · simp only [hs, if_true] at e
    obtain ⟨p, _, e⟩ := Outcome.bind_eq_ok.mp e
    cases p with
    | none =>
      simp only [Outcome.pure_eq, Outcome.ok.injEq, Prod.mk.injEq] at e
      rw [e.2]
    | some low => exact fin low e
  · simp only [hs, if_false] at e
    exact fin 0 e

theorem setRemove_cap {cmp : K → K → Int} {s s' : AList K} {x : K} {r : Int} (e : SetT.remove cmp s x = .ok (r, s')) : s'.maxSize = s.maxSize := by
  unfold SetT.remove at e
  obtain ⟨d, _, e⟩ := Outcome.bind_eq_ok.mp e
  by_cases hd : d < 0
  · rw [if_pos hd] at e
    simp only [Outcome.pure_eq, Outcome.ok.injEq, Prod.mk.injEq] at e
    rw [e.2]
  · rw [if_neg hd] at e
    obtain ⟨⟨o, s1⟩, e1, e⟩ := Outcome.bind_eq_ok.mp e
    simp only [Outcome.pure_eq, Outcome.ok.injEq, Prod.mk.injEq] at e
    rw [← e.2]
    unfold AList.removeAt at e1
    by_cases h1 : d.toNat ≥ s.size
    · rw [if_pos h1] at e1
      simp only [Outcome.ok.injEq, Prod.mk.injEq] at e1
      rw [e1.2]
    · rw [if_neg h1] at e1
      obtain ⟨y, _, e1⟩ := Outcome.bind_eq_ok.mp e1
      by_cases h2 : s.size - d.toNat - 1 > 0 ∧ s.buf.length < s.size
      · rw [if_pos h2] at e1; cases e1
      rw [if_neg h2] at e1
      simp only [Outcome.pure_eq, Outcome.ok.injEq, Prod.mk.injEq] at e1
      rw [← e1.2]

theorem hookFront_keys {t t' : Table K} {b a : Nat} (e : hookFront t b a = .ok t') : t'.keys = t.keys := by
  unfold hookFront at e
  obtain ⟨p, _, e⟩ := Outcome.bind_eq_ok.mp e
  cases p with
  | none =>
    obtain ⟨tbl, _, e⟩ := Outcome.bind_eq_ok.mp e
    rw [← Outcome.ok.inj e]
  | some c =>
    obtain ⟨e1, _, e⟩ := Outcome.bind_eq_ok.mp e
    obtain ⟨f, _, e⟩ := Outcome.bind_eq_ok.mp e
    obtain ⟨tbl, _, e⟩ := Outcome.bind_eq_ok.mp e
    rw [← Outcome.ok.inj e]
    rfl

theorem unhookPrev_keys {t t' : Table K} {b a : Nat} (e : HTable.unhookPrev t b a = .ok t') : t'.keys = t.keys := by
  unfold HTable.unhookPrev at e
  obtain ⟨en, _, e⟩ := Outcome.bind_eq_ok.mp e
  cases hp : en.prev with
  | some p =>
    rw [hp] at e
    obtain ⟨f, _, e⟩ := Outcome.bind_eq_ok.mp e
    obtain ⟨e1, _, e⟩ := Outcome.bind_eq_ok.mp e
    rw [← Outcome.ok.inj e]
    rfl
  | none =>
    rw [hp] at e
    obtain ⟨tbl, _, e⟩ := Outcome.bind_eq_ok.mp e
    cases hn : en.next with
    | some n =>
      rw [hn] at e
      obtain ⟨f, _, e⟩ := Outcome.bind_eq_ok.mp e
      rw [← Outcome.ok.inj e]
      rfl
    | none =>
      rw [hn] at e
      rw [← Outcome.ok.inj e]

theorem unhookNext_keys {t t' : Table K} {a : Nat} (e : HTable.unhookNext t a = .ok t') : t'.keys = t.keys := by
  unfold HTable.unhookNext at e
  obtain ⟨en, _, e⟩ := Outcome.bind_eq_ok.mp e
  cases hn : en.next with
  | some n =>
    rw [hn] at e
    obtain ⟨f, _, e⟩ := Outcome.bind_eq_ok.mp e
    obtain ⟨e1, _, e⟩ := Outcome.bind_eq_ok.mp e
    rw [← Outcome.ok.inj e]
    rfl
  | none =>
    rw [hn] at e
    cases hp : en.prev with
    | some p =>
      rw [hp] at e
      obtain ⟨f, _, e⟩ := Outcome.bind_eq_ok.mp e
      rw [← Outcome.ok.inj e]
      rfl
    | none =>
      rw [hp] at e
      rw [← Outcome.ok.inj e]

theorem step_cap {cmp : K → K → Int} {hash : K → Nat} {t t' : Table K} {op : MapOp K} {r : MapRet} (e : HTable.step cmp hash t op = .ok (r, t')) :
    t.keys.maxSize ≤ t'.keys.maxSize := by
  cases op with
  | lookup k b =>
    unfold HTable.step at e
    obtain ⟨⟨x, y⟩, _, e⟩ := Outcome.bind_eq_ok.mp e
    rw [← (Prod.mk.inj (Outcome.ok.inj e)).2]
  | insert k v =>
    unfold HTable.step at e
    obtain ⟨⟨x, y, t1⟩, e1, e⟩ := Outcome.bind_eq_ok.mp e
    rw [← (Prod.mk.inj (Outcome.ok.inj e)).2]
    unfold HTable.insert at e1
    obtain ⟨p, _, e1⟩ := Outcome.bind_eq_ok.mp e1
    cases p with
    | none =>
      obtain ⟨⟨a, t2⟩, e2, e1⟩ := Outcome.bind_eq_ok.mp e1
      obtain ⟨t3, e3, e1⟩ := Outcome.bind_eq_ok.mp e1
      obtain ⟨⟨z, ks⟩, e4, e1⟩ := Outcome.bind_eq_ok.mp e1
      simp only [Outcome.pure_eq, Outcome.ok.injEq, Prod.mk.injEq] at e1
      rw [← e1.2.2]
      have h4 := setInsert_cap e4
      rw [hookFront_keys e3] at h4
      unfold setEntry at e2
      obtain ⟨data, _, e2⟩ := Outcome.bind_eq_ok.mp e2
      rw [← (Prod.mk.inj (Outcome.ok.inj e2)).2] at h4
      exact h4
    | some a =>
      obtain ⟨en, _, e1⟩ := Outcome.bind_eq_ok.mp e1
      obtain ⟨tmp, _, e1⟩ := Outcome.bind_eq_ok.mp e1
      obtain ⟨data, _, e1⟩ := Outcome.bind_eq_ok.mp e1
      obtain ⟨v', _, e1⟩ := Outcome.bind_eq_ok.mp e1
      simp only [Outcome.pure_eq, Outcome.ok.injEq, Prod.mk.injEq] at e1
      rw [← e1.2.2]
      exact Nat.le_refl _
  | remove k b =>
    unfold HTable.step at e
    obtain ⟨⟨x, y, t1⟩, e1, e⟩ := Outcome.bind_eq_ok.mp e
    rw [← (Prod.mk.inj (Outcome.ok.inj e)).2]
    unfold HTable.remove at e1
    split at e1
    · simp only [Outcome.ok.injEq, Prod.mk.injEq] at e1
      rw [e1.2.2]
    · obtain ⟨p, _, e1⟩ := Outcome.bind_eq_ok.mp e1
      cases p with
      | none =>
        simp only [Outcome.pure_eq, Outcome.ok.injEq, Prod.mk.injEq] at e1
        rw [e1.2.2]
      | some a =>
        obtain ⟨t2, e2, e1⟩ := Outcome.bind_eq_ok.mp e1
        obtain ⟨t3, e3, e1⟩ := Outcome.bind_eq_ok.mp e1
        obtain ⟨⟨buf, t4⟩, e4, e1⟩ := Outcome.bind_eq_ok.mp e1
        obtain ⟨⟨z, ks⟩, e5, e1⟩ := Outcome.bind_eq_ok.mp e1
        simp only [Outcome.pure_eq, Outcome.ok.injEq, Prod.mk.injEq] at e1
        rw [← e1.2.2]
        have h5 := setRemove_cap e5
        unfold entryDestroy at e4
        obtain ⟨en, _, e4⟩ := Outcome.bind_eq_ok.mp e4
        obtain ⟨b', _, e4⟩ := Outcome.bind_eq_ok.mp e4
        rw [← (Prod.mk.inj (Outcome.ok.inj e4)).2] at h5
        simp only [HTable.free, unhookNext_keys e3, unhookPrev_keys e2] at h5
        exact Nat.le_of_eq h5.symm

theorem run_cap {cmp : K → K → Int} {hash : K → Nat} (ops : List (MapOp K)) : ∀ {t t' : Table K} {rs}, HTable.run cmp hash t ops = .ok (rs, t') →
    t.keys.maxSize ≤ t'.keys.maxSize := by
  induction ops with
  | nil => intro t t' rs e; rw [← (Prod.mk.inj (Outcome.ok.inj e)).2]
  | cons op ops ih =>
    intro t t' rs e
    unfold HTable.run at e
    obtain ⟨⟨r, t1⟩, e1, e⟩ := Outcome.bind_eq_ok.mp e
    obtain ⟨⟨rs', t2⟩, e2, e⟩ := Outcome.bind_eq_ok.mp e
    rw [← (Prod.mk.inj (Outcome.ok.inj e)).2]
    exact (step_cap e1).trans (ih e2)

/-- The second element of a cleared set of recorded capacity at least 2 goes outside its allocation (helper). -/
theorem cleared_set_insert {cmp : K → K → Int} (hc : LawfulCmp cmp) {s : AList K} (hb : s.buf.length = 1) (hz : s.size = 0) (hm : 2 ≤ s.maxSize) (x y : K) (hxy : x ≠ y) :
    ∃ s', SetT.insert cmp s x = .ok (1, s') ∧ ∃ w, SetT.insert cmp s' y = .ub w := by
  obtain ⟨buf, size, cap⟩ := s
  simp only at hb hz hm
  subst hz
  obtain ⟨o, rfl⟩ := List.length_eq_one_iff.mp hb
  have h0 : ¬ 0 = cap := by omega
  have h1 : ¬ 1 = cap := by omega
  refine ⟨⟨[some x], 1, cap⟩, ?_, ?_⟩
  · simp [SetT.insert, AList.insertAt, AList.ensureRoom, AList.shiftRight, AList.insertionHelper, h0]
  · have hne : cmp x y ≠ 0 := fun h => hxy ((hc.eq_iff _ _).mp h)
    by_cases hlt : cmp x y < 0
    · refine ⟨"write outside the allocation", ?_⟩
      simp [SetT.insert, SetT.insertPos, AList.readSlot, hlt, AList.insertAt, AList.ensureRoom, AList.shiftRight, AList.insertionHelper, h1]
    · have hgt : cmp x y > 0 := by omega
      refine ⟨"memmove outside the allocation", ?_⟩
      simp [SetT.insert, SetT.insertPos, AList.readSlot, hlt, hgt, AList.insertAt, AList.ensureRoom, AList.shiftRight, h1]

/-- **C09 is violated by every use after a clear**: take any safe history, clear the table, then insert any two different keys: the second insertion goes outside the memory of
    the keys set. -/
theorem C09_every_use_after_clear_violated [DecidableEq K] {cmp : K → K → Int} (hc : LawfulCmp cmp) (hash : K → Nat) (kt dt : HType) (hkd : getHtypeSize kt = getHtypeSize dt)
    (buckets : Nat) (hb : 0 < buckets) (hh : ∀ k, hash k < buckets) (ops : List (MapOp K)) (kd : Bool) (hs : SafeHistory hash (fun _ => []) ops)
    (hsz : ∀ op ∈ ops, opSized (getHtypeSize dt) op) (k₁ k₂ : K) (hk : k₁ ≠ k₂) (v₁ v₂ : Bytes) (hv₁ : v₁.length = getHtypeSize dt) (hv₂ : v₂.length = getHtypeSize dt) :
    ∃ (t t' t'' t₃ : Table K) (rs : List MapRet) (evs : List (Event K)), initSize buckets kt dt = .ok t ∧ HTable.run cmp hash t ops = .ok (rs, t') ∧
      HTable.clear hash kd true t' = .ok (evs, t'') ∧ HTable.insert cmp hash t'' k₁ v₁ = .ok (1, v₁, t₃) ∧ (HTable.insert cmp hash t₃ k₂ v₂).IsUB := by
  obtain ⟨t, e, h, ha, hd, hkt⟩ := rep_fresh_agrees cmp hash kt dt buckets hb hh
  obtain ⟨t', ch', ks', e', h', _, hd', _⟩ := run_safe hc ops h ha hs (by rw [hd]; exact hsz) (by rw [hd, hkt]; exact hkd)
  obtain ⟨t'', evs, e2, _, hch, hkeys, _, hd'', _⟩ := clear_of_rep hc h' kd
  have hcap : 2 ≤ t'.keys.maxSize := by
    refine le_trans ?_ (run_cap ops e')
    unfold initSize at e
    obtain ⟨ks0, ek, e⟩ := Outcome.bind_eq_ok.mp e
    have hk0 : ks0.maxSize = 2 := by
      simp only [SetT.init, AList.init] at ek
      rw [if_pos (by omega)] at ek
      rw [← Outcome.ok.inj ek]
    rw [← Outcome.ok.inj e]
    exact Nat.le_of_eq hk0.symm
  obtain ⟨s', es1, w, es2⟩ := cleared_set_insert hc (s := t''.keys)
    (by
      rw [hkeys]
      simp only [SetT.clear, AList.clear, if_true, List.length_take, List.length_append, List.length_replicate]
      omega)
    (by rw [hkeys]; rfl) (by rw [hkeys]; exact hcap) k₁ k₂ hk
  rcases lookupEntry_rep hc hch k₁ with ⟨el, hn⟩ | ⟨a, v, _, hmem⟩
  swap
  · simp at hmem
  obtain ⟨t1, t2, e3, e4, hch2, hk2, hs2, hd2, _⟩ := hookNew_rep hch k₁ v₁ (by rw [hd'', hd', hd]; exact hv₁) hn
  have hins : HTable.insert cmp hash t'' k₁ v₁ = .ok (1, v₁, { t2 with size := t2.size + 1, keys := s' }) := by
    unfold HTable.insert
    rw [el]
    simp only [Outcome.ok_bind, e3, e4, hk2, es1]
    rfl
  refine ⟨t, t', t'', { t2 with size := t2.size + 1, keys := s' }, _, evs, e, e', e2, hins, w, ?_⟩
  have hch3 : Chains hash ({ t2 with size := t2.size + 1, keys := s' } : Table K) false (fun x => if x = hash k₁ then (t''.fresh, k₁, v₁) :: [] else []) :=
    chains_of_eq hch2 rfl rfl rfl rfl
  rcases lookupEntry_rep hc hch3 k₂ with ⟨el2, hn2⟩ | ⟨a, v, _, hmem⟩
  swap
  · split at hmem
    · simp only [List.mem_singleton, Prod.mk.injEq] at hmem
      exact absurd hmem.2.1.symm hk
    · simp at hmem
  obtain ⟨t5, t6, e5, e6, _, hk6, _⟩ := hookNew_rep hch3 k₂ v₂ (by show _ = getHtypeSize t2.dtype; rw [hd2, hd'', hd', hd]; exact hv₂) hn2
  unfold HTable.insert
  rw [el2]
  simp only [Outcome.ok_bind, e5, e6, hk6, es2]
  rfl

/-! ### C08 -/

/-- **C08 is violated for every pair of types of different sizes**: whatever was inserted and looked up before, removing a key that is there copies as many bytes as the *key* type
    has. If the value type is larger, the rest of the value does not arrive and the end of the caller's buffer stays as it was; if it is smaller, the copy leaves both blocks. -/
theorem C08_other_sizes_violated [DecidableEq K] {cmp : K → K → Int} (hc : LawfulCmp cmp) (hash : K → Nat) (kt dt : HType)
    (buckets : Nat) (hb : 0 < buckets) (hh : ∀ k, hash k < buckets) (ops : List (MapOp K))
    (hnr : ∀ op ∈ ops, isRemove op = false) (hsz : ∀ op ∈ ops, opSized (getHtypeSize dt) op)
    (k : K) (v : Bytes) (hk : (mapRun (fun _ => none) ops).2 k = some v) (buf : Bytes) (hbuf : buf.length = getHtypeSize dt) :
    ∃ (t t' : Table K) (rs : List MapRet), initSize buckets kt dt = .ok t ∧ HTable.run cmp hash t ops = .ok (rs, t') ∧
      (getHtypeSize kt < getHtypeSize dt → ∃ t'' b, HTable.remove cmp hash t' k buf = .ok (1, b, t'') ∧ b.length = buf.length ∧
        ∀ i < getHtypeSize dt, b[i]? = if i < getHtypeSize kt then v[i]? else buf[i]?) ∧
      (getHtypeSize dt < getHtypeSize kt → (HTable.remove cmp hash t' k buf).IsUB) := by
  obtain ⟨t, e, h, hd, hkt⟩ := rep_fresh cmp hash kt dt buckets hb hh
  obtain ⟨t', ch', ks', e', h', hd', hkt'⟩ := run_noRemove hc ops h hnr (by rw [hd]; exact hsz)
  rcases remove_rep hc h' k buf with ⟨hm, _⟩ | ⟨w, t2, ch2, s2, hm, e2, _⟩
  · rw [hk] at hm; simp at hm
  · rw [hk] at hm
    simp only [Option.some.injEq] at hm
    subst hm
    have hvl : v.length = getHtypeSize dt := by
      obtain ⟨a, ha⟩ := (h'.abs k v).mp hk
      have := h'.chains.len _ _ ha
      rw [hd', hd] at this
      exact this
    rw [hkt', hkt] at e2
    refine ⟨t, t', _, e, e', fun hlt => ⟨t2, v.take (getHtypeSize kt) ++ buf.drop (getHtypeSize kt), ?_, ?_, ?_⟩, fun hlt => ⟨"memcpy outside a block", ?_⟩⟩
    · rw [e2, memcpy, if_pos ⟨by omega, by omega⟩]; rfl
    · rw [List.length_append, List.length_take, List.length_drop]; omega
    · intro i hi
      by_cases hik : i < getHtypeSize kt
      · rw [if_pos hik, List.getElem?_append_left (by rw [List.length_take]; omega), List.getElem?_take_of_lt hik]
      · rw [if_neg hik, List.getElem?_append_right (by rw [List.length_take]; omega), List.length_take, List.getElem?_drop]
        congr 1
        omega
    · rw [e2, memcpy, if_neg (by omega)]; rfl

/-- Types of both kinds. -/
example : getHtypeSize .int < getHtypeSize .double ∧ getHtypeSize .short < getHtypeSize .long := by decide

end Verif.Props
