import Verif.Lemmas.HTableMem
import Verif.Props.Cleared
/-
Property C118: a hash table gives back the memory of all its entries.
-/
namespace Verif.Props
open Spec HTable
variable {K : Type}

/-- **The size is the number of entries**: after any history of calls that did not stop the program, whatever the comparison and the hash function do and whatever types the keys
    and values have, as many entries are allocated as the table counts. In particular a removal gives back one entry, and replacing a value allocates none. -/
theorem C118_size (cmp : K → K → Int) (hash : K → Nat) (kt dt : HType) (buckets : Nat) (ops : List (MapOp K)) (t t' : Table K) (rs : List MapRet)
    (h0 : initSize buckets kt dt = .ok t) (h : HTable.run cmp hash t ops = .ok (rs, t')) : EntriesLeft t'.heap t'.size :=
  (counted_run ops (counted_init h0) h).left

/-- A history that loses key 3 (C07) and replaces the value of key 4: two entries are counted. -/
example : ∃ t t' rs, initSize (K := Int) 1 .int .int = .ok t ∧
    HTable.run intCompare (fun _ => 0) t [.insert 1 [1, 0, 0, 0], .insert 2 [2, 0, 0, 0], .insert 3 [3, 0, 0, 0], .remove 2 [0, 0, 0, 0], .remove 1 [0, 0, 0, 0],
      .insert 4 [4, 0, 0, 0], .insert 4 [5, 0, 0, 0], .lookup 3 [0, 0, 0, 0]] = .ok (rs, t') ∧ t'.size = 2 ∧ rs.drop 6 = [(-1, [4, 0, 0, 0]), (0, [0, 0, 0, 0])] :=
  ⟨_, _, _, rfl, rfl, by decide, by decide⟩

/-- **C118 for safe histories** (those that behave like the ideal map, C07): `hashtable_destroy` meets no undefined behaviour, with or without destructors, and gives back every
    entry. Missing, and false: the other histories, see `C118_lost_violated`. -/
theorem C118_destroy_partial [DecidableEq K] {cmp : K → K → Int} (hc : LawfulCmp cmp) (hash : K → Nat) (kt dt : HType) (hkd : getHtypeSize kt = getHtypeSize dt)
    (buckets : Nat) (hb : 0 < buckets) (hh : ∀ k, hash k < buckets) (ops : List (MapOp K)) (hs : SafeHistory hash (fun _ => []) ops)
    (hsz : ∀ op ∈ ops, opSized (getHtypeSize dt) op) (kd vd : Bool) :
    ∃ (t t' : Table K) (rs : List MapRet) (evs : List (Event K)) (heap : Nat → Option (Entry K)), initSize buckets kt dt = .ok t ∧
      HTable.run cmp hash t ops = .ok (rs, t') ∧ HTable.destroy hash kd vd t' = .ok (evs, heap) ∧ ∀ a, heap a = none := by
  obtain ⟨t, e, h, ha, hd, hkt⟩ := rep_fresh_agrees cmp hash kt dt buckets hb hh
  obtain ⟨t', ch', ks', e', h', _, _, _⟩ := run_safe hc ops h ha hs (by rw [hd]; exact hsz) (by rw [hd, hkt]; exact hkd)
  have hk := hooked_of_counted h' (SetT.strictSorted_nodup hc h'.sorted) (counted_run ops (counted_init e) e')
  obtain ⟨evs, heap, e2, h1, h2⟩ := destroy_heap (hash := hash) kd vd h'.chains h'.ksrep (by
    intro b it hit
    have hb' := h'.chains.key_hash b it hit
    rw [h'.mem, (h'.abs it.2.1 it.2.2).mpr ⟨it.1, by rw [hb']; exact hit⟩]
    rfl)
  refine ⟨t, t', _, evs, heap, e, e', e2, fun a => ?_⟩
  by_cases hx : Hooked ch' a
  · exact h1 a hx
  · rw [h2 a hx]
    by_contra hne
    exact hx ((hk a).mp hne)

/-- The history of C07 with four keys in one bucket and four removals; five entries were allocated in all. -/
example : ∃ t t' rs evs heap, initSize (K := Int) 1 .int .int = .ok t ∧ HTable.run intCompare (fun _ => 0) t exSafe = .ok (rs, t') ∧
    HTable.destroy (fun _ => 0) false false t' = .ok (evs, heap) ∧ t'.size = 1 ∧ t'.fresh = 5 ∧ t'.heap 4 ≠ none ∧ heap 4 = none :=
  ⟨_, _, _, _, _, rfl, rfl, rfl, by decide, by decide, by decide, by decide⟩

/-- **C118 is violated by every removal that loses keys**: after a safe history, remove a key whose link was lost and that is not the newest of its bucket (C07). Destroying the
    table then leaves exactly the entries of the newer keys of that bucket allocated, for ever; there is at least one. -/
theorem C118_lost_violated [DecidableEq K] {cmp : K → K → Int} (hc : LawfulCmp cmp) (hash : K → Nat) (kt dt : HType) (hkd : getHtypeSize kt = getHtypeSize dt)
    (buckets : Nat) (hb : 0 < buckets) (hh : ∀ k, hash k < buckets) (ops : List (MapOp K)) (hs : SafeHistory hash (fun _ => []) ops)
    (hsz : ∀ op ∈ ops, opSized (getHtypeSize dt) op) (k : K) (buf : Bytes) (hbuf : buf.length = getHtypeSize dt) (newer older : Bucket K)
    (hk : bucketsAfter hash (fun _ => []) ops (hash k) = newer ++ (k, true) :: older) (hne : newer ≠ []) (kd vd : Bool) :
    ∃ (t t' : Table K) (rs : List MapRet) (evs : List (Event K)) (heap : Nat → Option (Entry K)), initSize buckets kt dt = .ok t ∧
      HTable.run cmp hash t (ops ++ [.remove k buf]) = .ok (rs, t') ∧ HTable.destroy hash kd vd t' = .ok (evs, heap) ∧
      EntriesLeft heap newer.length ∧ 0 < newer.length := by
  obtain ⟨t, e, h, ha, hd, hkt⟩ := rep_fresh_agrees cmp hash kt dt buckets hb hh
  obtain ⟨t', ch', ks', e', h', ha', hd', hkt'⟩ := run_safe hc ops h ha hs (by rw [hd]; exact hsz) (by rw [hd, hkt]; exact hkd)
  have hdom := hooked_of_counted h' (SetT.strictSorted_nodup hc h'.sorted) (counted_run ops (counted_init e) e')
  obtain ⟨v, t'', pre, a, post, hm, er, hch, hlen, hchains, hkeys, hheap⟩ := remove_cuts hc h' ha' k buf hk
  have hvl : v.length = getHtypeSize dt := by
    obtain ⟨a, ha⟩ := (h'.abs k v).mp hm
    have := h'.chains.len _ _ ha
    rw [hd', hd] at this
    exact this
  rw [hkt', hkt, hkd, memcpy_full hbuf hvl, Outcome.ok_bind] at er
  have hknd := h'.chains.key_nodup (hash k)
  have hand := h'.chains.addr_nodup (hash k)
  rw [hch, List.map_append, List.map_cons, List.nodup_append, List.nodup_cons] at hknd hand
  have hsub : ∀ b, ∀ it ∈ (if b = hash k then post else ch' b), it ∈ ch' b ∧ it.2.1 ≠ k := by
    intro b it hit
    by_cases hbk : b = hash k
    · rw [if_pos hbk] at hit
      refine ⟨by rw [hbk, hch]; simp [hit], fun hek => hknd.2.1.1 (List.mem_map.mpr ⟨it, hit, hek⟩)⟩
    · rw [if_neg hbk] at hit
      refine ⟨hit, fun hek => hbk ?_⟩
      rw [← h'.chains.key_hash b it hit, hek]
  obtain ⟨evs, heap, e2, h1, h2⟩ := destroy_heap (hash := hash) kd vd hchains hkeys (by
    intro b it hit
    obtain ⟨hin, hnk⟩ := hsub b it hit
    have hb' := h'.chains.key_hash b it hin
    refine List.mem_filter.mpr ⟨?_, by simpa using hnk⟩
    rw [h'.mem, (h'.abs it.2.1 it.2.2).mpr ⟨it.1, by rw [hb']; exact hin⟩]
    rfl)
  refine ⟨t, t'', (mapRun (fun _ => none) ops).1 ++ [(1, v)], evs, heap, e, ?_, e2, ⟨(pre.map (·.1)).toFinset, ?_, ?_⟩, List.length_pos_iff.mpr hne⟩
  · rw [htable_run_append, e']
    simp [HTable.run, HTable.step, er]
  · intro x
    rw [List.mem_toFinset]
    constructor
    · intro hx
      obtain ⟨it, hit, rfl⟩ := List.mem_map.mp hx
      have hin : it ∈ ch' (hash k) := by rw [hch]; simp [hit]
      have hnot : ¬ Hooked (fun c => if c = hash k then post else ch' c) it.1 := by
        rintro ⟨b, it', hit', heq⟩
        have hbk := h'.chains.addr_inj _ _ _ _ (hsub b it' hit').1 hin heq
        simp only [hbk, if_true] at hit'
        exact hand.2.2 _ hx _ (List.mem_cons_of_mem _ (List.mem_map.mpr ⟨it', hit', rfl⟩)) heq.symm
      rw [h2 _ hnot, Ne, hheap, not_or]
      refine ⟨fun heq => hand.2.2 _ hx a (by simp) heq, (hdom _).mpr ⟨_, it, hin, rfl⟩⟩
    · intro hx
      have hnot : ¬ Hooked (fun c => if c = hash k then post else ch' c) x := fun hk => hx (h1 x hk)
      rw [h2 x hnot, Ne, hheap, not_or] at hx
      obtain ⟨b, it, hit, rfl⟩ := (hdom x).mp hx.2
      by_cases hbk : b = hash k
      · rw [hbk, hch, List.mem_append, List.mem_cons] at hit
        rcases hit with hit | rfl | hit
        · exact List.mem_map.mpr ⟨it, hit, rfl⟩
        · exact absurd rfl hx.1
        · exact absurd ⟨hash k, it, by simpa using hit, rfl⟩ hnot
      · exact absurd ⟨b, it, by simpa [hbk] using hit, rfl⟩ hnot
  · rw [List.toFinset_card_of_nodup hand.1, List.length_map, hlen]

/-- Three keys of one bucket, the second removed: removing the first leaks the entry of the third. -/
example : SafeHistory (fun _ : Int => 0) (fun _ => []) [.insert 1 [1, 0, 0, 0], .insert 2 [2, 0, 0, 0], .insert 3 [3, 0, 0, 0], .remove 2 [0, 0, 0, 0]] ∧
    bucketsAfter (fun _ : Int => 0) (fun _ => []) [.insert 1 [1, 0, 0, 0], .insert 2 [2, 0, 0, 0], .insert 3 [3, 0, 0, 0], .remove 2 [0, 0, 0, 0]] 0 =
      [(3, false)] ++ (1, true) :: [] := by
  refine ⟨?_, by decide⟩
  simp only [SafeHistory, Loses]
  decide

/-- **The boundary is exact**: a history is safe if and only if, stopped after any number of its calls, the table can be destroyed without leaving an entry. -/
theorem C118_exact_partial [DecidableEq K] {cmp : K → K → Int} (hc : LawfulCmp cmp) (hash : K → Nat) (kt dt : HType) (hkd : getHtypeSize kt = getHtypeSize dt)
    (buckets : Nat) (hb : 0 < buckets) (hh : ∀ k, hash k < buckets) (ops : List (MapOp K)) (hsz : ∀ op ∈ ops, opSized (getHtypeSize dt) op) (kd vd : Bool) :
    SafeHistory hash (fun _ => []) ops ↔
      ∀ p, p <+: ops → ∃ (t t' : Table K) (rs : List MapRet) (evs : List (Event K)) (heap : Nat → Option (Entry K)), initSize buckets kt dt = .ok t ∧
        HTable.run cmp hash t p = .ok (rs, t') ∧ HTable.destroy hash kd vd t' = .ok (evs, heap) ∧ ∀ a, heap a = none := by
  constructor
  · rintro h p ⟨q, rfl⟩
    exact C118_destroy_partial hc hash kt dt hkd buckets hb hh p ((safeHistory_append hash _ _ _).mp h).1 (fun op hop => hsz op (by simp [hop])) kd vd
  · intro h
    by_contra hbad
    obtain ⟨p, k, b, q, rfl, hp, hl⟩ := first_lossy hash ops _ hbad
    have hbl : b.length = getHtypeSize dt := hsz (.remove k b) (by simp)
    obtain ⟨newer, older, hst, hne⟩ : ∃ newer older, bucketsAfter hash (fun _ => []) p (hash k) = newer ++ (k, true) :: older ∧ newer ≠ [] := by
      unfold Loses at hl
      cases hq : bucketsAfter hash (fun _ => []) p (hash k) with
      | nil => rw [hq] at hl; simp at hl
      | cons y q =>
        rw [hq, List.tail_cons] at hl
        obtain ⟨l, r, hlr⟩ := List.append_of_mem hl
        exact ⟨y :: l, r, by rw [hlr]; rfl, by simp⟩
    obtain ⟨t, t', rs, evs, heap, e1, e2, e3, ⟨D, hD, hcard⟩, hpos⟩ :=
      C118_lost_violated hc hash kt dt hkd buckets hb hh p hp (fun op hop => hsz op (by simp [hop])) k b hbl newer older hst hne kd vd
    obtain ⟨u, u', rs', evs', heap', f1, f2, f3, f4⟩ := h (p ++ [.remove k b]) ⟨q, by simp⟩
    rw [e1] at f1
    obtain rfl := Outcome.ok.inj f1
    rw [e2] at f2
    obtain ⟨-, rfl⟩ := Prod.mk.inj (Outcome.ok.inj f2)
    rw [e3] at f3
    obtain ⟨-, rfl⟩ := Prod.mk.inj (Outcome.ok.inj f3)
    obtain ⟨x, hx⟩ := Finset.card_pos.mp (hcard ▸ hpos)
    exact (hD x).mp hx (f4 x)

end Verif.Props
