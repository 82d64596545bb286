import Verif.Lemmas.LossyMap
import Verif.Props.HTableMem
/-
Properties C07, third part, and C118, second part: hash tables under every history of calls.
-/
namespace Verif.Props
open Spec HTable
variable {K : Type}

theorem lossy_fresh (cmp : K → K → Int) (hash : K → Nat) (kt dt : HType) (n : Nat) (hn : 0 < n) (hh : ∀ k, hash k < n) :
    ∃ t : Table K, initSize n kt dt = .ok t ∧ Lossy cmp hash t (fun _ => []) LossyMap.empty ∧ t.dtype = dt ∧ t.ktype = kt := by
  obtain ⟨t, e, h, ha, hd, hkt⟩ := rep_fresh_agrees cmp hash kt dt n hn hh
  exact ⟨t, e, ⟨t.keys, t.size, [], [], h, ha, h.ksrep, List.Pairwise.nil, by simp, h.size⟩, hd, hkt⟩

/-- **What a hash table does, whatever is asked of it.** Every history of insertions, lookups and removals is free of undefined behaviour, and gives back, call by call, exactly
    what the map that loses keys (`LossyMap`) gives back: an ideal map, but for removals of keys whose link was lost, which take all newer keys of the bucket along. Key and
    value types have the same size here, see C08. -/
theorem C07_every_history [DecidableEq K] {cmp : K → K → Int} (hc : LawfulCmp cmp) (hash : K → Nat) (kt dt : HType) (hkd : getHtypeSize kt = getHtypeSize dt)
    (buckets : Nat) (hb : 0 < buckets) (hh : ∀ k, hash k < buckets) (ops : List (MapOp K)) (hsz : ∀ op ∈ ops, opSized (getHtypeSize dt) op) :
    ∃ t t' : Table K, initSize buckets kt dt = .ok t ∧ HTable.run cmp hash t ops = .ok ((LossyMap.empty.run hash ops).1, t') := by
  obtain ⟨t, e, h, hd, hk⟩ := lossy_fresh cmp hash kt dt buckets hb hh
  obtain ⟨t', _, e', _⟩ := lossy_run hc ops h (by rw [hd]; exact hsz) (by rw [hd, hk]; exact hkd)
  exact ⟨t, t', e, e'⟩

/-- Six keys of one bucket; keys 5 and 3 are removed, then 2, which loses 4 and 6; then the lost key 6 is put in again, the others are asked for, and 4 is not there to be removed. -/
def exLossy : List (MapOp Int) :=
  [.insert 1 [1, 0, 0, 0], .insert 2 [2, 0, 0, 0], .insert 3 [3, 0, 0, 0], .insert 4 [4, 0, 0, 0], .insert 5 [5, 0, 0, 0], .insert 6 [6, 0, 0, 0],
   .remove 5 [0, 0, 0, 0], .remove 3 [0, 0, 0, 0], .remove 2 [0, 0, 0, 0], .lookup 6 [0, 0, 0, 0], .lookup 4 [0, 0, 0, 0], .insert 6 [7, 0, 0, 0], .lookup 6 [0, 0, 0, 0],
   .lookup 1 [0, 0, 0, 0], .remove 4 [0, 0, 0, 0]]

example : ((LossyMap.empty.run (fun _ : Int => 0) exLossy).1.drop 8) =
      [(1, [2, 0, 0, 0]), (0, [0, 0, 0, 0]), (0, [0, 0, 0, 0]), (1, [7, 0, 0, 0]), (1, [7, 0, 0, 0]), (1, [1, 0, 0, 0]), (0, [0, 0, 0, 0])] ∧
    (LossyMap.empty.run (fun _ : Int => 0) exLossy).2.lost = 2 := by decide

/-- **What stays allocated, after every history.** `hashtable_destroy` is free of undefined behaviour after every history, with or without destructors; it leaves exactly as many
    entries allocated as keys were lost; and that is none if and only if the history is safe. -/
theorem C118_every_history [DecidableEq K] {cmp : K → K → Int} (hc : LawfulCmp cmp) (hash : K → Nat) (kt dt : HType) (hkd : getHtypeSize kt = getHtypeSize dt)
    (buckets : Nat) (hb : 0 < buckets) (hh : ∀ k, hash k < buckets) (ops : List (MapOp K)) (hsz : ∀ op ∈ ops, opSized (getHtypeSize dt) op) (kd vd : Bool) :
    ∃ (t t' : Table K) (evs : List (Event K)) (heap : Nat → Option (Entry K)), initSize buckets kt dt = .ok t ∧
      HTable.run cmp hash t ops = .ok ((LossyMap.empty.run hash ops).1, t') ∧ HTable.destroy hash kd vd t' = .ok (evs, heap) ∧
      EntriesLeft heap (LossyMap.empty.run hash ops).2.lost ∧ ((LossyMap.empty.run hash ops).2.lost = 0 ↔ SafeHistory hash (fun _ => []) ops) := by
  obtain ⟨t, e, h, hd, hk⟩ := lossy_fresh cmp hash kt dt buckets hb hh
  obtain ⟨t', ch', e', h'⟩ := lossy_run hc ops h (by rw [hd]; exact hsz) (by rw [hd, hk]; exact hkd)
  have hiff := lost_iff hc ops h (by rw [hd]; exact hsz) (by rw [hd, hk]; exact hkd)
  obtain ⟨D, hD, hcard⟩ := (counted_run ops (counted_init e) e').left
  obtain ⟨kl0, n0, ks0, ks, hr, _, hks, _, hsub, hsize⟩ := h'
  obtain ⟨H, hH, hHcard, hHheap⟩ := hooked_of_lossy hr (SetT.strictSorted_nodup hc hr.sorted)
  have hchains : Chains hash t' false ch' := chains_of_eq hr.chains rfl rfl rfl rfl
  obtain ⟨evs, heap, e2, h1, h2⟩ := destroy_heap (hash := hash) kd vd hchains hks (by
    intro b it hit
    have hb' := hr.chains.key_hash b it hit
    apply hsub
    rw [hr.mem, (hr.abs it.2.1 it.2.2).mpr ⟨it.1, by rw [hb']; exact hit⟩]
    rfl)
  refine ⟨t, t', evs, heap, e, e', e2, ⟨D \ H, ?_, ?_⟩, hiff⟩
  · intro a
    rw [Finset.mem_sdiff, hD, hH]
    by_cases hx : Hooked ch' a
    · simp [hx, h1 a hx]
    · simp [hx, h2 a hx]
  · rw [Finset.card_sdiff_of_subset (fun x hx => (hD x).mpr (hHheap x hx)), hcard, hHcard, hsize]
    omega

/-- The history above: destroying the table leaves the two entries that were lost. -/
example : ∃ t t' rs evs heap, initSize (K := Int) 1 .int .int = .ok t ∧ HTable.run intCompare (fun _ => 0) t exLossy = .ok (rs, t') ∧
    HTable.destroy (fun _ => 0) false false t' = .ok (evs, heap) ∧ t'.size = 4 ∧ (List.range 7).filter (fun a => (heap a).isSome) = [3, 5] :=
  ⟨_, _, _, _, _, rfl, rfl, rfl, by decide, by decide⟩

end Verif.Props
