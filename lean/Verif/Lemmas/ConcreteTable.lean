import Verif.Model.Concrete
import Verif.Props.HTable
/-
Helper lemmas for the container-level model: a hash table from `long` keys to pointers is a finite map from numbers to addresses.
-/
namespace Verif.Conc
open Spec

theorem ptrBytes_length (a : Nat) : (ptrBytes a).length = 8 := by simp [ptrBytes]

theorem ptrOf_bytes {a : Nat} (h : a < 18446744073709551616) : ptrOf (ptrBytes a) = a := by
  have e : ptrBytes a = [UInt8.ofNat (a % 256), UInt8.ofNat (a / 256 % 256), UInt8.ofNat (a / 65536 % 256), UInt8.ofNat (a / 16777216 % 256),
      UInt8.ofNat (a / 4294967296 % 256), UInt8.ofNat (a / 1099511627776 % 256), UInt8.ofNat (a / 281474976710656 % 256),
      UInt8.ofNat (a / 72057594037927936 % 256)] := by
    simp [ptrBytes, List.range_succ]
  rw [e]
  simp only [ptrOf, List.foldr_cons, List.foldr_nil, UInt8.toNat_ofNat']
  omega

theorem hookFront_buckets {K : Type} {t t' : HTable.Table K} {b a : Nat} (e : HTable.hookFront t b a = .ok t') : t'.table.length = t.table.length := by
  unfold HTable.hookFront at e
  obtain ⟨p, _, e⟩ := Outcome.bind_eq_ok.1 e
  cases p with
  | none =>
    simp only at e
    obtain ⟨tbl, e1, e⟩ := Outcome.bind_eq_ok.1 e
    simp only [Outcome.pure_eq, Outcome.ok.injEq] at e
    subst e
    unfold wr at e1
    split at e1
    · cases e1; simp
    · simp at e1
  | some c =>
    simp only at e
    obtain ⟨x, _, e⟩ := Outcome.bind_eq_ok.1 e
    obtain ⟨y, _, e⟩ := Outcome.bind_eq_ok.1 e
    obtain ⟨tbl, e1, e⟩ := Outcome.bind_eq_ok.1 e
    simp only [Outcome.pure_eq, Outcome.ok.injEq] at e
    subst e
    unfold wr at e1
    split at e1
    · cases e1; simp [HTable.store]
    · simp at e1

theorem insert_buckets {K : Type} {cmp : K → K → Int} {hash : K → Nat} {t t' : HTable.Table K} {key : K} {v v' : Bytes} {r : Int}
    (e : HTable.insert cmp hash t key v = .ok (r, v', t')) : t'.table.length = t.table.length := by
  unfold HTable.insert at e
  obtain ⟨p, _, e⟩ := Outcome.bind_eq_ok.1 e
  cases p with
  | none =>
    simp only at e
    obtain ⟨⟨a, t1⟩, e1, e⟩ := Outcome.bind_eq_ok.1 e
    obtain ⟨t2, e2, e⟩ := Outcome.bind_eq_ok.1 e
    obtain ⟨⟨_, ks⟩, _, e⟩ := Outcome.bind_eq_ok.1 e
    simp only [Outcome.pure_eq, Outcome.ok.injEq, Prod.mk.injEq] at e
    obtain ⟨_, _, e⟩ := e
    subst e
    have h2 := hookFront_buckets e2
    unfold HTable.setEntry at e1
    obtain ⟨data, _, e1⟩ := Outcome.bind_eq_ok.1 e1
    simp only [Outcome.pure_eq, Outcome.ok.injEq, Prod.mk.injEq] at e1
    obtain ⟨_, e1⟩ := e1
    subst e1
    exact h2
  | some a =>
    simp only at e
    obtain ⟨x, _, e⟩ := Outcome.bind_eq_ok.1 e
    obtain ⟨y, _, e⟩ := Outcome.bind_eq_ok.1 e
    obtain ⟨z, _, e⟩ := Outcome.bind_eq_ok.1 e
    obtain ⟨u, _, e⟩ := Outcome.bind_eq_ok.1 e
    simp only [Outcome.pure_eq, Outcome.ok.injEq, Prod.mk.injEq] at e
    obtain ⟨_, _, e⟩ := e
    subst e
    rfl

/-- The hash table in memory is the finite map `m` from keys to addresses, and `ks` are its keys in increasing order. -/
def TRel (t : HTable.Table Int) (m : Int → Option Nat) (ks : List Int) : Prop :=
  ∃ s ch, HTable.Rep intCompare (longHash t) t s ch (fun k => (m k).map ptrBytes) ks ∧ t.dtype = .ptr

theorem TRel.insert {t : HTable.Table Int} {m : Int → Option Nat} {ks : List Int} (h : TRel t m ks) (key : Int) (a : Nat) :
    ∃ t', tableInsert t key a = .ok t' ∧ TRel t' (fun x => if x = key then some a else m x) (setInsert intCompare ks key) := by
  obtain ⟨s, ch, hr, hd⟩ := h
  have hv : (ptrBytes a).length = getHtypeSize t.dtype := by rw [ptrBytes_length, hd]; rfl
  obtain ⟨t', ch', e, hr', hd', _, _⟩ := HTable.insert_rep Props.intCompare_lawful hr key (ptrBytes a) hv
  have hl := insert_buckets e
  have hh : longHash t' = longHash t := by
    funext k
    unfold longHash
    rw [hl]
  refine ⟨t', by unfold tableInsert; rw [e]; rfl, s, ch', ?_, hd'.trans hd⟩
  rw [hh]
  have hm : (fun x => if x = key then some (ptrBytes a) else Option.map ptrBytes (m x)) = (fun k => Option.map ptrBytes (if k = key then some a else m k)) := by
    funext x
    by_cases hx : x = key
    · simp [hx]
    · simp [hx]
  rw [← hm]
  exact hr'

theorem TRel.lookup {t : HTable.Table Int} {m : Int → Option Nat} {ks : List Int} (h : TRel t m ks) (hb : ∀ k a, m k = some a → a < 18446744073709551616)
    (key : Int) : tableLookup t key = .ok (m key) := by
  obtain ⟨s, ch, hr, hd⟩ := h
  unfold tableLookup
  rw [HTable.lookup_rep Props.intCompare_lawful hr key (ptrBytes 0) (by rw [ptrBytes_length, hd]; rfl)]
  cases hm : m key with
  | none => simp
  | some a => simp [ptrOf_bytes (hb key a hm)]

theorem TRel.keys {t : HTable.Table Int} {m : Int → Option Nat} {ks : List Int} (h : TRel t m ks) : AList.Rep t.keys ks := by
  obtain ⟨s, ch, hr, _⟩ := h
  exact hr.ksrep

theorem TRel.mem {t : HTable.Table Int} {m : Int → Option Nat} {ks : List Int} (h : TRel t m ks) (k : Int) : k ∈ ks ↔ (m k).isSome := by
  obtain ⟨s, ch, hr, _⟩ := h
  rw [hr.mem k]
  simp

theorem TRel.nodup {t : HTable.Table Int} {m : Int → Option Nat} {ks : List Int} (h : TRel t m ks) : ks.Nodup := by
  obtain ⟨s, ch, hr, _⟩ := h
  exact SetT.strictSorted_nodup Props.intCompare_lawful hr.sorted

theorem table_init (buckets : Nat) : ∃ t : HTable.Table Int, HTable.init buckets .long .ptr = .ok t ∧ TRel t (fun _ => none) [] := by
  obtain ⟨r, e, _⟩ := Props.C12_find_prime_partial (asInt32 buckets)
  have hpos : 0 < (if toSizeT r = 0 then 37 else toSizeT r) := by split <;> omega
  obtain ⟨t, e1, hr, hd, _⟩ := Props.rep_fresh (K := Int) intCompare (fun k => toSizeT k % (if toSizeT r = 0 then 37 else toSizeT r)) .long .ptr
    (if toSizeT r = 0 then 37 else toSizeT r) hpos (fun k => Nat.mod_lt _ hpos)
  have e2 : HTable.initSize (toSizeT r) .long .ptr = .ok t := by
    rw [← e1]
    unfold HTable.initSize
    by_cases h0 : toSizeT r = 0
    · simp [h0]
    · simp [h0]
  have hl : t.table.length = (if toSizeT r = 0 then 37 else toSizeT r) := by
    unfold HTable.initSize at e1
    obtain ⟨ks, _, e3⟩ := Outcome.bind_eq_ok.1 e1
    simp only [Outcome.pure_eq, Outcome.ok.injEq] at e3
    subst e3
    simp only [List.length_replicate]
    rw [if_neg (by omega)]
  refine ⟨t, by unfold HTable.init; rw [e, Outcome.ok_bind, e2], true, fun _ => [], ?_, hd⟩
  have hh : longHash t = (fun k => toSizeT k % (if toSizeT r = 0 then 37 else toSizeT r)) := by
    funext k
    unfold longHash
    rw [hl]
  rw [hh]
  exact hr

end Verif.Conc
