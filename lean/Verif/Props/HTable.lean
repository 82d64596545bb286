import Verif.Model.Histories
import Verif.Lemmas.HTable
import Verif.Lemmas.Primes
import Verif.Props.Collections
import Mathlib.Data.List.Dedup
/-
Properties C06-C13: the hash table and the prime numbers behind its bucket count.
-/
namespace Verif.Props
open Spec HTable
variable {K : Type}

/-- A fresh table represents the empty map (helper). -/
theorem rep_fresh (cmp : K → K → Int) (hash : K → Nat) (kt dt : HType) (n : Nat) (hn : 0 < n)
    (hh : ∀ k, hash k < n) :
    ∃ t : Table K, initSize n kt dt = .ok t ∧ HTable.Rep cmp hash t true (fun _ => []) (fun _ => none) [] ∧
      t.dtype = dt ∧ t.ktype = kt := by
  obtain ⟨ks, e, hr, _⟩ := AList.rep_init (α := K) (n := 2) (by omega)
  refine ⟨{ ktype := kt, dtype := dt, table := List.replicate n none, size := 0, keys := ks, collisions := 0,
            heap := fun _ => none, fresh := 0 }, ?_, ⟨⟨?_, ?_, ?_, ?_, ?_, ?_, ?_, ?_⟩, ?_, hr, List.Pairwise.nil, ?_, rfl⟩, rfl, rfl⟩
  · have : n ≠ 0 := by omega
    simp only [initSize, SetT.init, e, Outcome.ok_bind, this, if_false]
    rfl
  · intro b hb
    simp only [List.length_replicate] at hb
    exact ⟨none, none, by simp [hb], ⟨rfl, rfl⟩⟩
  all_goals simp
  exact hh

/-- Histories without removal keep the table a faithful image of the map (helper). -/
theorem run_noRemove [DecidableEq K] {cmp : K → K → Int} (hc : LawfulCmp cmp) {hash : K → Nat} (ops : List (MapOp K)) :
    ∀ {t : Table K} {s ch m ks}, HTable.Rep cmp hash t s ch m ks → (∀ op ∈ ops, isRemove op = false) →
      (∀ op ∈ ops, opSized (getHtypeSize t.dtype) op) →
      ∃ t' ch' ks', HTable.run cmp hash t ops = .ok ((mapRun m ops).1, t') ∧
        HTable.Rep cmp hash t' s ch' (mapRun m ops).2 ks' ∧ t'.dtype = t.dtype ∧ t'.ktype = t.ktype := by
  induction ops with
  | nil => intro t s ch m ks h _ _; exact ⟨t, ch, ks, rfl, h, rfl, rfl⟩
  | cons op ops ih =>
    intro t s ch m ks h hnr hsz
    have hsz0 := hsz op (by simp)
    cases op with
    | insert k v =>
      obtain ⟨t1, ch1, e1, h1, hd, hk, _⟩ := insert_rep hc h k v hsz0
      obtain ⟨t2, ch2, ks2, e2, h2, hd2, hk2⟩ := ih h1 (fun op hop => hnr op (by simp [hop]))
        (fun op hop => by rw [hd]; exact hsz op (by simp [hop]))
      refine ⟨t2, ch2, ks2, ?_, h2, hd2.trans hd, hk2.trans hk⟩
      simp only [HTable.run, HTable.step, e1, Outcome.ok_bind, Outcome.pure_eq, e2, mapRun, mapStep]
      cases m k <;> rfl
    | lookup k buf =>
      have e1 := lookup_rep hc h k buf hsz0
      obtain ⟨t2, ch2, ks2, e2, h2, hd2, hk2⟩ := ih h (fun op hop => hnr op (by simp [hop]))
        (fun op hop => hsz op (by simp [hop]))
      refine ⟨t2, ch2, ks2, ?_, h2, hd2, hk2⟩
      simp only [HTable.run, HTable.step, e1, Outcome.ok_bind, Outcome.pure_eq, e2, mapRun, mapStep]
      cases m k <;> rfl
    | remove k buf => have := hnr (.remove k buf) (by simp); simp [isRemove] at this

/-- **C06.** Any history of insertions and lookups on a fresh table never goes wrong, whatever collides, and every call
    gives back what the ideal finite map gives back. -/
theorem C06_hashtable_is_map [DecidableEq K] {cmp : K → K → Int} (hc : LawfulCmp cmp) (hash : K → Nat) (kt dt : HType)
    (buckets : Nat) (hb : 0 < buckets) (hh : ∀ k, hash k < buckets) (ops : List (MapOp K))
    (hnr : ∀ op ∈ ops, isRemove op = false) (hsz : ∀ op ∈ ops, opSized (getHtypeSize dt) op) :
    ∃ t t' : Table K, initSize buckets kt dt = .ok t ∧
      HTable.run cmp hash t ops = .ok ((mapRun (fun _ => none) ops).1, t') := by
  obtain ⟨t, e, h, hd, hk⟩ := rep_fresh cmp hash kt dt buckets hb hh
  obtain ⟨t', ch', ks', e', h', _⟩ := run_noRemove hc ops h hnr (by rw [hd]; exact hsz)
  exact ⟨t, t', e, e'⟩

/-- Example: three keys in two buckets (so two collide), one replaced. The bucket is the key's value modulo 2. -/
def exHash (k : Int) : Nat := (k % 2).toNat

def exMapOps : List (MapOp Int) :=
  [.insert 1 [10, 0, 0, 0], .insert 3 [30, 0, 0, 0], .insert 2 [20, 0, 0, 0], .insert 1 [11, 0, 0, 0],
   .lookup 3 [9, 9, 9, 9], .lookup 1 [9, 9, 9, 9], .lookup 5 [9, 9, 9, 9]]

example : LawfulCmp intCompare ∧ (∀ k, exHash k < 2) ∧ (∀ op ∈ exMapOps, isRemove op = false) ∧
    (∀ op ∈ exMapOps, opSized (getHtypeSize .int) op) ∧
    (mapRun (fun _ => none) exMapOps).1 =
      [(1, [10, 0, 0, 0]), (1, [30, 0, 0, 0]), (1, [20, 0, 0, 0]), (-1, [10, 0, 0, 0]),
       (1, [30, 0, 0, 0]), (1, [11, 0, 0, 0]), (0, [9, 9, 9, 9])] := by
  refine ⟨intCompare_lawful, fun k => by unfold exHash; omega, ?_, ?_, by decide⟩
  · decide
  · intro op hop
    simp only [exMapOps, List.mem_cons, List.not_mem_nil, or_false] at hop
    rcases hop with rfl | rfl | rfl | rfl | rfl | rfl | rfl <;> rfl

/-! ### C07 -/

/-- **C07 is violated.** Keys 1, 2, 3 in one bucket (chain 3, 2, 1). Removing 2 and then 1 loses key 3, although every
    call reports success. -/
theorem C07_remove_loses_other_key_violated :
    ((do let t ← initSize (K := Int) 1 .int .int
         HTable.run intCompare (fun _ => 0) t
           [.insert 1 [1, 0, 0, 0], .insert 2 [2, 0, 0, 0], .insert 3 [3, 0, 0, 0],
            .remove 2 [0, 0, 0, 0], .remove 1 [0, 0, 0, 0], .lookup 3 [0, 0, 0, 0]]) >>= fun (rs, _) => Outcome.ok rs) =
      .ok [(1, [1, 0, 0, 0]), (1, [2, 0, 0, 0]), (1, [3, 0, 0, 0]),
           (1, [2, 0, 0, 0]), (1, [1, 0, 0, 0]), (0, [0, 0, 0, 0])] ∧
    (mapRun (fun _ => none) [.insert (1 : Int) [1, 0, 0, 0], .insert 2 [2, 0, 0, 0], .insert 3 [3, 0, 0, 0],
            .remove 2 [0, 0, 0, 0], .remove 1 [0, 0, 0, 0], .lookup 3 [0, 0, 0, 0]]).1.getLast? = some (1, [3, 0, 0, 0]) := by
  decide

/-- Removal from a table whose back pointers are intact is exact, and they stay intact when no more than two keys
    share the bucket (helper). -/
theorem run_twoPerBucket [DecidableEq K] {cmp : K → K → Int} (hc : LawfulCmp cmp) {hash : K → Nat} (S : List K)
    (hS : ∀ b, ((S.filter (fun k => hash k = b)).dedup).length ≤ 2) (ops : List (MapOp K)) :
    ∀ {t : Table K} {ch m ks}, HTable.Rep cmp hash t true ch m ks → (∀ op ∈ ops, opKey op ∈ S) →
      (∀ b, ∀ k ∈ (ch b).map (·.2.1), k ∈ S) →
      (∀ op ∈ ops, opSized (getHtypeSize t.dtype) op) → getHtypeSize t.ktype = getHtypeSize t.dtype →
      ∃ t' ch' ks', HTable.run cmp hash t ops = .ok ((mapRun m ops).1, t') ∧
        HTable.Rep cmp hash t' true ch' (mapRun m ops).2 ks' ∧ t'.dtype = t.dtype ∧ t'.ktype = t.ktype := by
  induction ops with
  | nil => intro t ch m ks h _ _ _ _; exact ⟨t, ch, ks, rfl, h, rfl, rfl⟩
  | cons op ops ih =>
    intro t ch m ks h hop hchS hsz hkd
    have hsz0 := hsz op (by simp)
    have hop0 := hop op (by simp)
    have hop' : ∀ o ∈ ops, opKey o ∈ S := fun o ho => hop o (by simp [ho])
    have hsz' : ∀ o ∈ ops, opSized (getHtypeSize t.dtype) o := fun o ho => hsz o (by simp [ho])
    cases op with
    | insert k v =>
      obtain ⟨t1, ch1, e1, h1, hd, hk, hsub⟩ := insert_rep hc h k v hsz0
      obtain ⟨t2, ch2, ks2, e2, h2, hd2, hk2⟩ := ih h1 hop'
        (fun b k' hk' => by
          rcases hsub b k' hk' with rfl | h3
          · exact hop0
          · exact hchS b k' h3)
        (by rw [hd]; exact hsz') (by rw [hd, hk]; exact hkd)
      refine ⟨t2, ch2, ks2, ?_, h2, hd2.trans hd, hk2.trans hk⟩
      simp only [HTable.run, HTable.step, e1, Outcome.ok_bind, Outcome.pure_eq, e2, mapRun, mapStep]
      cases m k <;> rfl
    | lookup k buf =>
      have e1 := lookup_rep hc h k buf hsz0
      obtain ⟨t2, ch2, ks2, e2, h2, hd2, hk2⟩ := ih h hop' hchS hsz' hkd
      refine ⟨t2, ch2, ks2, ?_, h2, hd2, hk2⟩
      simp only [HTable.run, HTable.step, e1, Outcome.ok_bind, Outcome.pure_eq, e2, mapRun, mapStep]
      cases m k <;> rfl
    | remove k buf =>
      rcases remove_rep hc h k buf with ⟨hm, e1⟩ | ⟨v, t1, ch1, s1, hm, e1, h1, hd, hk, hsub, hstrong⟩
      · have hmm : (fun x => if x = k then none else m x) = m := by
          funext x
          by_cases hx : x = k
          · simp [hx, hm]
          · simp [hx]
        obtain ⟨t2, ch2, ks2, e2, h2, hd2, hk2⟩ := ih h hop' hchS hsz' hkd
        refine ⟨t2, ch2, ks2, ?_, ?_, hd2, hk2⟩
        · simp only [HTable.run, HTable.step, e1, Outcome.ok_bind, Outcome.pure_eq, e2, mapRun, mapStep, hm, hmm]
        · simp only [mapRun, mapStep, hmm]; exact h2
      · have hlen : (ch (hash k)).length ≤ 2 := by
          have hsubp : List.Subperm ((ch (hash k)).map (·.2.1)) ((S.filter (fun x => hash x = hash k)).dedup) := by
            apply List.subperm_of_subset (h.chains.key_nodup _)
            intro x hx
            rw [List.mem_dedup, List.mem_filter]
            refine ⟨hchS _ x hx, ?_⟩
            obtain ⟨i, hi, rfl⟩ := List.mem_map.mp hx
            simpa using h.chains.key_hash _ i hi
          have := hsubp.length_le
          rw [List.length_map] at this
          exact this.trans (hS _)
        have hs1 := hstrong hlen
        subst hs1
        have hvl : v.length = getHtypeSize t.dtype := by
          obtain ⟨a, ha⟩ := (h.abs k v).mp hm
          exact h.chains.len _ _ ha
        obtain ⟨t2, ch2, ks2, e2, h2, hd2, hk2⟩ := ih h1 hop'
          (fun b k' hk' => hchS b k' ((hsub b).subset hk')) (by rw [hd]; exact hsz') (by rw [hd, hk]; exact hkd)
        refine ⟨t2, ch2, ks2, ?_, h2, hd2.trans hd, hk2.trans hk⟩
        rw [hkd, memcpy_full hsz0 hvl] at e1
        simp only [HTable.run, HTable.step, e1, Outcome.ok_bind, Outcome.pure_eq, e2, mapRun, mapStep, hm]

/-- **C07, the part that holds.** If at most two different keys of the whole history share a bucket, every history of
    insertions, lookups and removals gives back exactly what the ideal map gives back; in particular a removal affects
    one key only. (Missing, and false: three or more keys in one bucket.) Key and value types have the same size here,
    see C08. -/
theorem C07_remove_exact_partial [DecidableEq K] {cmp : K → K → Int} (hc : LawfulCmp cmp) (hash : K → Nat) (kt dt : HType)
    (hkd : getHtypeSize kt = getHtypeSize dt)
    (buckets : Nat) (hb : 0 < buckets) (hh : ∀ k, hash k < buckets) (ops : List (MapOp K))
    (htwo : ∀ b, (((ops.map opKey).filter (fun k => hash k = b)).dedup).length ≤ 2)
    (hsz : ∀ op ∈ ops, opSized (getHtypeSize dt) op) :
    ∃ t t' : Table K, initSize buckets kt dt = .ok t ∧
      HTable.run cmp hash t ops = .ok ((mapRun (fun _ => none) ops).1, t') := by
  obtain ⟨t, e, h, hd, hk⟩ := rep_fresh cmp hash kt dt buckets hb hh
  obtain ⟨t', _, _, e', _⟩ := run_twoPerBucket hc (ops.map opKey) htwo ops h
    (fun op hop => List.mem_map.mpr ⟨op, hop, rfl⟩) (by simp) (by rw [hd]; exact hsz) (by rw [hd, hk]; exact hkd)
  exact ⟨t, t', e, e'⟩

/-- Two keys share bucket 1, one is alone in bucket 0. -/
example : ∀ b, ((([.insert 1 [], .insert 3 [], .insert 2 [], .remove 3 [], .lookup 1 [], .remove 1 []] : List (MapOp Int)).map
    opKey).filter (fun k => exHash k = b)).dedup.length ≤ 2 := by
  intro b
  match b with
  | 0 => decide
  | 1 => decide
  | b + 2 =>
    have : ∀ k : Int, exHash k ≠ b + 2 := fun k => by unfold exHash; omega
    simp [this]

/-- **C07, a second part that holds.** The first removal after any history of insertions and lookups is exact, whatever
    collides: afterwards any insertions and lookups still behave like the ideal map. -/
theorem C07_first_remove_exact_partial [DecidableEq K] {cmp : K → K → Int} (hc : LawfulCmp cmp) (hash : K → Nat)
    (kt dt : HType) (hkd : getHtypeSize kt = getHtypeSize dt)
    (buckets : Nat) (hb : 0 < buckets) (hh : ∀ k, hash k < buckets) (before after : List (MapOp K)) (k : K) (buf : Bytes)
    (hnr : ∀ op ∈ before ++ after, isRemove op = false)
    (hsz : ∀ op ∈ before ++ .remove k buf :: after, opSized (getHtypeSize dt) op) :
    ∃ t t' : Table K, initSize buckets kt dt = .ok t ∧
      HTable.run cmp hash t (before ++ .remove k buf :: after) =
        .ok ((mapRun (fun _ => none) (before ++ .remove k buf :: after)).1, t') := by
  have runapp : ∀ (l1 l2 : List (MapOp K)) (t : Table K), HTable.run cmp hash t (l1 ++ l2) =
      (HTable.run cmp hash t l1 >>= fun (r1, t1) => HTable.run cmp hash t1 l2 >>= fun (r2, t2) => .ok (r1 ++ r2, t2)) := by
    intro l1
    induction l1 with
    | nil =>
      intro l2 t
      simp only [List.nil_append, HTable.run, Outcome.ok_bind]
      cases HTable.run cmp hash t l2 <;> rfl
    | cons op l1 ih =>
      intro l2 t
      simp only [List.cons_append, HTable.run]
      cases HTable.step cmp hash t op with
      | ok p =>
        obtain ⟨r, t1⟩ := p
        simp only [Outcome.ok_bind, ih]
        cases HTable.run cmp hash t1 l1 with
        | ok p2 =>
          obtain ⟨r2, t2⟩ := p2
          simp only [Outcome.ok_bind, Outcome.pure_eq]
          cases HTable.run cmp hash t2 l2 <;> rfl
        | ub w => rfl
        | abort w => rfl
        | diverge => rfl
      | ub w => rfl
      | abort w => rfl
      | diverge => rfl
  have mapapp : ∀ (l1 l2 : List (MapOp K)) (m : K → Option Bytes), mapRun m (l1 ++ l2) =
      ((mapRun m l1).1 ++ (mapRun (mapRun m l1).2 l2).1, (mapRun (mapRun m l1).2 l2).2) := by
    intro l1
    induction l1 with
    | nil => intro l2 m; simp [mapRun]
    | cons op l1 ih => intro l2 m; simp [mapRun, ih]
  obtain ⟨t, e, h, hd, hk⟩ := rep_fresh cmp hash kt dt buckets hb hh
  obtain ⟨t1, ch1, ks1, e1, h1, hd1, hk1⟩ := run_noRemove hc before h (fun op hop => hnr op (by simp [hop]))
    (fun op hop => by rw [hd]; exact hsz op (by simp [hop]))
  have hbuf : buf.length = getHtypeSize dt := hsz (.remove k buf) (by simp)
  have hafter : ∀ op ∈ after, opSized (getHtypeSize dt) op := fun op hop => hsz op (by simp [hop])
  have hafter' : ∀ op ∈ after, isRemove op = false := fun op hop => hnr op (by simp [hop])
  set m1 := (mapRun (fun _ => none) before).2 with hm1
  rcases remove_rep hc h1 k buf with ⟨hm, e2⟩ | ⟨v, t2, ch2, s2, hm, e2, h2, hd2, hk2, _, _⟩
  · have hmm : (fun x => if x = k then none else m1 x) = m1 := by
      funext x
      by_cases hx : x = k
      · simp [hx, hm]
      · simp [hx]
    obtain ⟨t3, ch3, ks3, e3, h3, _⟩ := run_noRemove hc after h1 hafter' (by rw [hd1, hd]; exact hafter)
    refine ⟨t, t3, e, ?_⟩
    rw [runapp, mapapp, e1]
    simp only [Outcome.ok_bind, HTable.run, HTable.step, e2, e3, ← hm1, mapRun, mapStep, hm, hmm, Outcome.pure_eq]
  · have hvl : v.length = getHtypeSize dt := by
      obtain ⟨a, ha⟩ := (h1.abs k v).mp hm
      have := h1.chains.len _ _ ha
      rw [hd1, hd] at this
      exact this
    obtain ⟨t3, ch3, ks3, e3, h3, _⟩ := run_noRemove hc after h2 hafter' (by rw [hd2, hd1, hd]; exact hafter)
    refine ⟨t, t3, e, ?_⟩
    rw [hk1, hk, hkd, memcpy_full hbuf hvl] at e2
    rw [runapp, mapapp, e1]
    simp only [Outcome.ok_bind, HTable.run, HTable.step, e2, e3, ← hm1, mapRun, mapStep, hm, Outcome.pure_eq]

/-! ### C08 -/

/-- **C08 is violated** when the value type is larger than the key type: only a prefix of the value arrives
    (`hashtable_remove` copies as many bytes as the *key* has). -/
theorem C08_remove_truncates_violated :
    ((do let t ← initSize (K := Int) 1 .int .long
         HTable.run intCompare (fun _ => 0) t
           [.insert 1 [1, 2, 3, 4, 5, 6, 7, 8], .remove 1 [0, 0, 0, 0, 0, 0, 0, 0]]) >>= fun (rs, _) => Outcome.ok rs) =
      .ok [(1, [1, 2, 3, 4, 5, 6, 7, 8]), (1, [1, 2, 3, 4, 0, 0, 0, 0])] := by
  decide

/-- **C08 is violated** when the value type is smaller than the key type: the copy runs outside both blocks. -/
theorem C08_remove_overruns_violated :
    ((do let t ← initSize (K := Int) 1 .long .int
         HTable.run intCompare (fun _ => 0) t
           [.insert 1 [1, 2, 3, 4], .remove 1 [0, 0, 0, 0]]) >>= fun (rs, _) => Outcome.ok rs) =
      .ub "memcpy outside a block" := by
  decide

/-- **C08, the part that holds.** With key and value types of the same size, the first removal after any history of
    insertions and lookups hands back exactly the stored value, all bytes of it. (Missing, and false: types of
    different sizes.) -/
theorem C08_remove_hands_back_partial [DecidableEq K] {cmp : K → K → Int} (hc : LawfulCmp cmp) (hash : K → Nat)
    (kt dt : HType) (hkd : getHtypeSize kt = getHtypeSize dt)
    (buckets : Nat) (hb : 0 < buckets) (hh : ∀ k, hash k < buckets) (ops : List (MapOp K))
    (hnr : ∀ op ∈ ops, isRemove op = false) (hsz : ∀ op ∈ ops, opSized (getHtypeSize dt) op)
    (k : K) (v : Bytes) (hk : (mapRun (fun _ => none) ops).2 k = some v) (buf : Bytes) (hbuf : buf.length = getHtypeSize dt) :
    ∃ (t t' t'' : Table K) (rs : List MapRet), initSize buckets kt dt = .ok t ∧ HTable.run cmp hash t ops = .ok (rs, t') ∧
      HTable.remove cmp hash t' k buf = .ok (1, v, t'') := by
  obtain ⟨t, e, h, hd, hkt⟩ := rep_fresh cmp hash kt dt buckets hb hh
  obtain ⟨t', ch', ks', e', h', hd', hkt'⟩ := run_noRemove hc ops h hnr (by rw [hd]; exact hsz)
  rcases remove_rep hc h' k buf with ⟨hm, _⟩ | ⟨w, t2, ch2, s2, hm, e2, _⟩
  · rw [hk] at hm; simp at hm
  · rw [hk] at hm
    simp only [Option.some.injEq] at hm
    subst hm
    have hvl : v.length = getHtypeSize dt := by
      obtain ⟨a, ha⟩ := (h'.abs k v).mp hk
      have := h'.chains.len _ _ ha
      rw [hd', hd] at this
      exact this
    rw [hkt', hkt, hkd, memcpy_full hbuf hvl] at e2
    exact ⟨t, t', t2, _, e, e', e2⟩

example : (mapRun (fun _ => none) exMapOps).2 3 = some [30, 0, 0, 0] ∧ getHtypeSize .int = getHtypeSize .int := by decide

/-! ### C09 -/

/-- **C09, the part that holds.** After any history of insertions and lookups, the keys set lists, strictly increasing,
    exactly the keys the map has; the size is their number; `hashtable_empty` says whether there are none. Clearing
    such a table gives size 0 and `empty`. (Missing, and false: using the table again after a clear, see below.) -/
theorem C09_size_and_keys_partial [DecidableEq K] {cmp : K → K → Int} (hc : LawfulCmp cmp) (hash : K → Nat) (kt dt : HType)
    (buckets : Nat) (hb : 0 < buckets) (hh : ∀ k, hash k < buckets) (ops : List (MapOp K))
    (hnr : ∀ op ∈ ops, isRemove op = false) (hsz : ∀ op ∈ ops, opSized (getHtypeSize dt) op) :
    ∃ (t t' : Table K) (rs : List MapRet) (ks : List K), initSize buckets kt dt = .ok t ∧
      HTable.run cmp hash t ops = .ok (rs, t') ∧
      t'.keys.contents = ks.map (fun k => .ok (some k)) ∧ ks.Pairwise (fun a b => cmp a b < 0) ∧
      (∀ k, k ∈ ks ↔ (mapRun (fun _ => none) ops).2 k ≠ none) ∧
      hsize t' = ks.length ∧ (empty t' = true ↔ ∀ k, (mapRun (fun _ => none) ops).2 k = none) := by
  obtain ⟨t, e, h, hd, hkt⟩ := rep_fresh cmp hash kt dt buckets hb hh
  obtain ⟨t', ch', ks', e', h', hd', hkt'⟩ := run_noRemove hc ops h hnr (by rw [hd]; exact hsz)
  refine ⟨t, t', _, ks', e, e', rep_contents h'.ksrep, h'.sorted, ?_, h'.ksrep.size, ?_⟩
  · intro k; rw [h'.mem, Option.isSome_iff_ne_none]
  · simp only [empty, decide_eq_true_eq, h'.size, List.length_eq_zero_iff]
    constructor
    · intro hz k
      have := h'.mem k
      rw [hz] at this
      cases hm : (mapRun (fun _ => none) ops).2 k with
      | none => rfl
      | some v => rw [hm] at this; simp at this
    · intro hall
      apply List.eq_nil_iff_forall_not_mem.mpr
      intro k hk
      have := (h'.mem k).mp hk
      rw [hall k] at this
      simp at this

/-- **C09 is violated after a clear**: a cleared table that gets two keys again writes outside its keys set. -/
theorem C09_use_after_clear_violated :
    ((do let t ← initSize (K := Int) 3 .int .int
         let (_, t) ← HTable.run intCompare (fun k => (k % 3).toNat) t [.insert 1 [1, 0, 0, 0], .insert 2 [2, 0, 0, 0]]
         let (_, t) ← HTable.clear (fun k : Int => (k % 3).toNat) false false t
         HTable.run intCompare (fun k => (k % 3).toNat) t [.insert 1 [1, 0, 0, 0], .insert 2 [2, 0, 0, 0]]) >>=
       fun (rs, _) => Outcome.ok rs) = .ub "write outside the allocation" := by
  decide

/-! ### C10 -/

/-- **C10, the part that holds.** Clearing a table reached by any history of insertions and lookups never goes wrong,
    calls the value destructor exactly once for the value of every key (as a multiset, so no value is destroyed twice
    or forgotten, whatever collides), and afterwards the table is empty: no key is found, the size is 0. (Missing, and
    false: keys are destroyed exactly once when a key destructor is given.) -/
theorem C10_clear_destroys_values_once_partial [DecidableEq K] {cmp : K → K → Int} (hc : LawfulCmp cmp) (hash : K → Nat)
    (kt dt : HType) (buckets : Nat) (hb : 0 < buckets) (hh : ∀ k, hash k < buckets) (ops : List (MapOp K)) (kd : Bool)
    (hnr : ∀ op ∈ ops, isRemove op = false) (hsz : ∀ op ∈ ops, opSized (getHtypeSize dt) op) :
    ∃ (t t' t'' : Table K) (rs : List MapRet) (evs : List (Event K)) (ks : List K), initSize buckets kt dt = .ok t ∧
      HTable.run cmp hash t ops = .ok (rs, t') ∧ HTable.clear hash kd true t' = .ok (evs, t'') ∧
      ks.Nodup ∧ (∀ k, k ∈ ks ↔ (mapRun (fun _ => none) ops).2 k ≠ none) ∧
      (destroyedValues evs).Perm (ks.map (fun k => ((mapRun (fun _ => none) ops).2 k).getD [])) ∧
      hsize t'' = 0 ∧ empty t'' = true ∧ (∀ k buf, HTable.lookup cmp hash t'' k buf = .ok (0, buf)) := by
  obtain ⟨t, e, h, hd, hkt⟩ := rep_fresh cmp hash kt dt buckets hb hh
  obtain ⟨t', ch', ks', e', h', hd', hkt'⟩ := run_noRemove hc ops h hnr (by rw [hd]; exact hsz)
  set m := (mapRun (fun _ => none) ops).2 with hm
  have hnd := SetT.strictSorted_nodup hc h'.sorted
  obtain ⟨evs, t2, e2, hperm, hch, hk2, _, _⟩ := clearLoop_rep hash kd ks' hnd (fun k => (m k).getD []) (s := true)
    ks'.length 0 h'.chains h'.ksrep (by omega)
    (by
      intro b it hit
      have hb' := h'.chains.key_hash b it hit
      have hms : m it.2.1 = some it.2.2 := (h'.abs _ _).mpr ⟨it.1, by rw [hb']; exact hit⟩
      refine ⟨?_, by rw [hms]; rfl⟩
      rw [List.drop_zero, h'.mem, hms]; rfl)
    (by
      intro key hkey hne
      rw [List.drop_zero, h'.mem] at hkey
      cases hmk : m key with
      | none => rw [hmk] at hkey; simp at hkey
      | some v =>
        obtain ⟨a, ha⟩ := (h'.abs _ _).mp hmk
        exact ⟨_, ha, rfl⟩)
  refine ⟨t, t', { t2 with keys := SetT.clear t2.keys, size := 0 }, _, evs, ks', e, e', ?_, hnd, ?_, ?_, rfl, rfl, ?_⟩
  · simp only [HTable.clear, h'.ksrep.size, e2, Outcome.ok_bind]; rfl
  · intro k; rw [h'.mem, Option.isSome_iff_ne_none]
  · rw [List.drop_zero] at hperm
    have : pending hash ch' ks' = ks' := by
      unfold pending
      rw [List.filter_eq_self]
      intro k hk
      rw [h'.mem] at hk
      cases hmk : m k with
      | none => rw [hmk] at hk; simp at hk
      | some v =>
        obtain ⟨a, ha⟩ := (h'.abs _ _).mp hmk
        simpa using List.ne_nil_of_mem ha
    rw [this] at hperm
    exact hperm
  · intro k buf
    have hch' : Chains hash { t2 with keys := SetT.clear t2.keys, size := 0 } true (fun _ => []) :=
      chains_of_eq hch rfl rfl rfl rfl
    unfold HTable.lookup
    rcases lookupEntry_rep hc hch' k with ⟨e3, _⟩ | ⟨a, v, _, hmem⟩
    · rw [e3]; rfl
    · simp at hmem

/-- **C10 is violated for keys**: with two colliding keys, the key destructor is called twice with the same key (a
    double free for heap-allocated keys) and never with the other one. -/
theorem C10_clear_destroys_keys_violated :
    ((do let t ← initSize (K := Int) 1 .int .int
         let (_, t) ← HTable.run intCompare (fun _ => 0) t [.insert 1 [1, 0, 0, 0], .insert 2 [2, 0, 0, 0]]
         HTable.clear (fun _ => 0) true false t) >>= fun (evs, _) => Outcome.ok (destroyedKeys evs)) = .ok [1, 1] := by
  decide

/-! ### C12, C13 -/

/-- **C12, the part that holds.** For every argument the search stays inside the table and terminates. Up to 3 the
    result is 3. Above 3 the result is either 0 or the largest prime smaller than the argument. For arguments below
    1214 that are not prime themselves it is the latter. (Missing, and false: some prime arguments and 1214 to 1217, see `C12_wrong_exactly`.) -/
theorem C12_find_prime_partial (num : Int) :
    ∃ r, findPrimeLessThan num = .ok r ∧ (num ≤ 3 → r = 3) ∧
      (3 < num → r = 0 ∨ ∃ p : Nat, r = p ∧ p.Prime ∧ r < num ∧ ∀ q : Nat, q.Prime → (q : Int) < num → (q : Int) ≤ r) ∧
      (3 < num → num < 1214 → ¬ num.toNat.Prime → r ≠ 0) := by
  have hl := primeInit_length
  by_cases h3 : num ≤ 3
  · refine ⟨3, ?_, fun _ => rfl, fun h => by omega, fun h => by omega⟩
    unfold findPrimeLessThan
    rw [binarySearchPrimes, primeAt_zero]
    simp [h3]
  · have h3 : 3 < num := by omega
    obtain ⟨r, e, hr⟩ := bsp_sound h3 201 0 199 (by omega) (by omega)
    have e' : findPrimeLessThan num = .ok r := e
    refine ⟨r, e', fun h => by omega, fun _ => ?_, fun _ hlt hnp => ?_⟩
    · rcases hr with h0 | ⟨m, hm, rfl, h1, h2⟩
      · exact Or.inl h0
      · right
        obtain ⟨p, hp, hpp, hp2, hp3⟩ := primeInit_mem.mp (List.getElem_mem (l := primeInit) (n := m) (by omega))
        refine ⟨p, hp, hpp, h1, fun q hq hqn => ?_⟩
        by_cases hq2 : q = 2
        · have : (2 : Int) < primeInit[m] := by rw [hp]; exact_mod_cast hp2
          subst hq2; push_cast; omega
        · have hq2' : 2 < q := by have := hq.two_le; omega
          have hle : (q : Int) ≤ 1217 := by
            have := primeInit_le (i := m + 1) (j := 197) (by omega) (by omega)
            rw [primeInit_197] at this; omega
          have hqm : (q : Int) ∈ primeInit := primeInit_mem.mpr ⟨q, rfl, hq, hq2', by exact_mod_cast hle⟩
          obtain ⟨j, hj, hje⟩ := List.getElem_of_mem hqm
          by_cases hjm : j ≤ m
          · rw [← hje]; exact primeInit_le hjm (by omega)
          · have := primeInit_le (i := m + 1) (j := j) (by omega) hj
            omega
    · -- not a prime, below 1214: there is a neighbour pair
      have hex : ∃ j : Nat, ∃ h : j < primeInit.length, num ≤ primeInit[j] :=
        ⟨196, by omega, by rw [primeInit_196]; omega⟩
      obtain ⟨hjl, hj2⟩ := Nat.find_spec hex
      have hmin := fun k (hk : k < Nat.find hex) => Nat.find_min hex hk
      have hle196 : Nat.find hex ≤ 196 := Nat.find_min' hex ⟨by omega, by rw [primeInit_196]; omega⟩
      generalize Nat.find hex = j at hjl hj2 hmin hle196
      have hj0 : j ≠ 0 := by
        rintro rfl
        rw [primeInit_zero] at hj2; omega
      obtain ⟨i, rfl⟩ : ∃ i, j = i + 1 := ⟨j - 1, by omega⟩
      have h1 : primeInit[i] < num := by
        have := hmin i (by omega)
        push Not at this
        exact this (by omega)
      have h2 : num < primeInit[i + 1] := by
        rcases lt_or_eq_of_le hj2 with h | h
        · exact h
        · exfalso
          obtain ⟨p, hp, hpp, _⟩ := primeInit_mem.mp (List.getElem_mem (l := primeInit) (n := i + 1) (by omega))
          apply hnp
          rw [h, hp]; simpa using hpp
      have e2 := bsp_complete h3 (j := i) hle196 h1 h2 201 0 199 (by omega) (by omega) (by omega) (by omega)
      have : r = primeInit[i] := by
        rw [show binarySearchPrimes 201 ((0 : Nat) : Int) ((199 : Nat) : Int) num = .ok r from e] at e2
        simpa using e2
      obtain ⟨p, hp, hpp, _⟩ := primeInit_mem.mp (List.getElem_mem (l := primeInit) (n := i) (by omega))
      rw [this, hp]
      have := hpp.pos
      omega

/-- The primes whose search misses them. -/
def missedPrimes : List Int := [5, 13, 23, 37, 47, 61, 73, 83, 97, 107, 127, 139, 157, 173, 191, 199, 223, 229, 241, 263, 277, 293, 313, 337, 353, 367, 379, 397, 419, 433, 449, 463,
  487, 503, 521, 541, 563, 577, 599, 613, 631, 647, 661, 677, 691, 719, 739, 757, 773, 809, 823, 839, 857, 863, 883, 911, 937, 953, 977, 997, 1019, 1031,
  1039, 1061, 1087, 1097, 1109, 1123, 1153, 1181, 1201]

/-- **C12, exactly.** Above 3 the answer 0, and so a wrong one, is given for these 71 primes and for everything from 1214 on; all other answers are right
    (`C12_find_prime_partial`). -/
theorem C12_wrong_exactly (num : Int) (h3 : 3 < num) : findPrimeLessThan num = .ok 0 ↔ 1214 ≤ num ∨ num ∈ missedPrimes := by
  have small : ∀ n : Nat, n < 1218 → 3 < n → (findPrimeLessThan (n : Int) = .ok 0 ↔ 1214 ≤ (n : Int) ∨ (n : Int) ∈ missedPrimes) := by
    decide +kernel
  by_cases hn : num < 1218
  · obtain ⟨n, rfl⟩ := Int.eq_ofNat_of_zero_le (a := num) (by omega)
    exact small n (by omega) (by omega)
  · refine ⟨fun _ => Or.inl (by omega), fun _ => ?_⟩
    have hl := primeInit_length
    obtain ⟨r, e, hr⟩ := bsp_sound h3 201 0 199 (by omega) (by omega)
    have e' : findPrimeLessThan num = .ok r := e
    rcases hr with h0 | ⟨m, hm, rfl, h1, h2⟩
    · rw [e', h0]
    · exfalso
      have := primeInit_le (i := m + 1) (j := 197) (by omega) (by omega)
      rw [primeInit_197] at this
      omega

/-- **C12 is violated**: 5 and 1214 have smaller tabulated primes (3 and 1213), but 0 is returned. -/
theorem C12_find_prime_violated :
    findPrimeLessThan 5 = .ok 0 ∧ (3 : Int) ∈ primes ∧ findPrimeLessThan 1214 = .ok 0 ∧ (1213 : Int) ∈ primes := by
  decide +kernel

/-- **C13 is violated everywhere**: `get_prime` returns its argument plus one, whatever it is. -/
theorem C13_get_prime_is_successor (min : Int) (h1 : -1 ≤ min) (h2 : min < 2 ^ 31 - 1) : getPrime min = .ok (min + 1) := by
  unfold getPrime
  rw [if_neg (by omega)]
  obtain ⟨n, hn⟩ : ∃ n, (-min).toNat + 2 = n + 1 := ⟨_, rfl⟩
  rw [hn, getPrimeOuter, getPrimeInner, if_neg (by omega)]
  rfl

/-- So it returns a number that is not prime: `get_prime(7)` is 8. -/
theorem C13_get_prime_violated : getPrime 7 = .ok 8 ∧ ¬ Nat.Prime 8 := by
  refine ⟨C13_get_prime_is_successor 7 (by omega) (by omega), ?_⟩
  decide

/-- **C13, the part that holds.** The result is larger than a non-negative argument, and it is a prime whenever the next
    number is one. (Missing, and false: it is always a prime.) -/
theorem C13_get_prime_partial (min : Int) (h1 : -1 ≤ min) (h2 : min < 2 ^ 31 - 1) (hp : (min + 1).toNat.Prime) :
    ∃ r, getPrime min = .ok r ∧ min < r ∧ r.toNat.Prime :=
  ⟨min + 1, C13_get_prime_is_successor min h1 h2, by omega, hp⟩

example : (10 + 1 : Int).toNat.Prime := by decide

/-! ### C11 -/

/-- **C11.** For every requested bucket count the table gets at least one bucket, and every integer key and every
    string key hashes to one of them. -/
theorem C11_buckets_and_hashes (buckets : Nat) (kt dt : HType) :
    ∃ t : Table K, HTable.init buckets kt dt = .ok t ∧ 0 < t.table.length ∧
      (∀ k : Int, ∃ i, intHash k t.table.length = .ok i ∧ i < t.table.length) ∧
      (∀ s : List (BitVec 32), ∃ i, strHash s t.table.length = .ok i ∧ i < t.table.length) := by
  obtain ⟨r, e, _⟩ := C12_find_prime_partial (asInt32 buckets)
  obtain ⟨ks, ek, _⟩ := AList.rep_init (α := K) (n := 2) (by omega)
  refine ⟨{ ktype := kt, dtype := dt, table := List.replicate (if toSizeT r = 0 then 37 else toSizeT r) none, size := 0,
            keys := ks, collisions := 0, heap := fun _ => none, fresh := 0 }, ?_, ?_, ?_, ?_⟩
  · simp only [HTable.init, e, Outcome.ok_bind, initSize, SetT.init, ek]; rfl
  all_goals
    have hpos : 0 < (if toSizeT r = 0 then 37 else toSizeT r) := by split <;> omega
    simp only [List.length_replicate]
    generalize (if toSizeT r = 0 then 37 else toSizeT r) = n at hpos
  · exact hpos
  · intro k
    refine ⟨toSizeT k % n, ?_, Nat.mod_lt _ hpos⟩
    unfold intHash; rw [if_neg (by omega)]
  · intro s
    refine ⟨(s.foldl strHashStep 0#32).toNat % n, ?_, Nat.mod_lt _ hpos⟩
    unfold strHash; rw [if_neg (by omega)]

end Verif.Props
