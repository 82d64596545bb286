import Verif.Model.HTableDestroy
import Verif.Model.Histories
import Verif.Spec.HTableMem
import Verif.Lemmas.Buckets
/-
Lemmas for C118: counting the entries of a hash table.
-/
namespace Verif.HTable
open Spec
variable {K : Type}

/-- As many entries are allocated as the table counts. -/
structure Counted (t : Table K) : Prop where
  left : EntriesLeft t.heap t.size
  lt : ∀ a, t.fresh ≤ a → t.heap a = none

theorem entriesLeft_unique {heap : Nat → Option (Entry K)} {j k : Nat} (h : EntriesLeft heap j) (h' : EntriesLeft heap k) : j = k := by
  obtain ⟨D, hD, rfl⟩ := h
  obtain ⟨E, hE, rfl⟩ := h'
  rw [show D = E from Finset.ext fun a => (hD a).trans (hE a).symm]

/-- The same entries are allocated. -/
def SameDom (t t' : Table K) : Prop := (∀ a, t'.heap a = none ↔ t.heap a = none) ∧ t'.fresh = t.fresh ∧ t'.size = t.size

theorem SameDom.refl (t : Table K) : SameDom t t := ⟨fun _ => Iff.rfl, rfl, rfl⟩

theorem SameDom.trans {t t' t'' : Table K} (h : SameDom t t') (h' : SameDom t' t'') : SameDom t t'' :=
  ⟨fun a => (h'.1 a).trans (h.1 a), h'.2.1.trans h.2.1, h'.2.2.trans h.2.2⟩

theorem Counted.same {t t' : Table K} (h : Counted t) (hd : SameDom t t') : Counted t' := by
  obtain ⟨D, hD, hk⟩ := h.left
  obtain ⟨h1, h2, h3⟩ := hd
  refine ⟨⟨D, fun a => ?_, by rw [hk, h3]⟩, fun a ha => ?_⟩
  · rw [hD a, Ne, Ne, h1 a]
  · rw [h1 a]; exact h.lt a (by omega)

theorem deref_inv {t : Table K} {a e} (h : deref t a = .ok e) : t.heap a = some e := by
  unfold deref at h
  split at h
  · simp_all
  · simp at h

theorem sameDom_store {t : Table K} {a : Nat} {f : Entry K} (e : Entry K) (h : t.heap a = some f) : SameDom t (store t a e) := by
  refine ⟨fun x => ?_, rfl, rfl⟩
  by_cases hx : x = a <;> simp [store, hx, h]

theorem sameDom_table {t : Table K} (tbl : List (Option Nat)) : SameDom t { t with table := tbl } := ⟨fun _ => Iff.rfl, rfl, rfl⟩

theorem sameDom_hook {t t' : Table K} {b a : Nat} (e : hookFront t b a = .ok t') : SameDom t t' := by
  unfold hookFront at e
  obtain ⟨p, e1, e⟩ := Outcome.bind_eq_ok.mp e
  cases p with
  | none =>
    obtain ⟨tbl, e2, e⟩ := Outcome.bind_eq_ok.mp e
    obtain rfl := Outcome.ok.inj e
    exact sameDom_table tbl
  | some c =>
    obtain ⟨x, e2, e⟩ := Outcome.bind_eq_ok.mp e
    obtain ⟨f, e3, e⟩ := Outcome.bind_eq_ok.mp e
    obtain ⟨tbl, e4, e⟩ := Outcome.bind_eq_ok.mp e
    obtain rfl := Outcome.ok.inj e
    have h := (sameDom_store { x with next := some c } (deref_inv e2)).trans (sameDom_store { f with prev := some a } (deref_inv e3))
    exact ⟨h.1, h.2.1, h.2.2⟩

theorem sameDom_unhookPrev {t t' : Table K} {b a : Nat} (e : unhookPrev t b a = .ok t') : SameDom t t' := by
  unfold unhookPrev at e
  obtain ⟨x, e1, e⟩ := Outcome.bind_eq_ok.mp e
  cases hx : x.prev with
  | some p =>
    rw [hx] at e
    obtain ⟨f, e2, e⟩ := Outcome.bind_eq_ok.mp e
    obtain ⟨g, e3, e⟩ := Outcome.bind_eq_ok.mp e
    obtain rfl := Outcome.ok.inj e
    exact (sameDom_store _ (deref_inv e2)).trans (sameDom_store _ (deref_inv e3))
  | none =>
    rw [hx] at e
    obtain ⟨tbl, e2, e⟩ := Outcome.bind_eq_ok.mp e
    cases hn : x.next with
    | some n =>
      rw [hn] at e
      obtain ⟨f, e3, e⟩ := Outcome.bind_eq_ok.mp e
      obtain rfl := Outcome.ok.inj e
      exact (sameDom_table _).trans (sameDom_store _ (deref_inv e3))
    | none =>
      rw [hn] at e
      obtain rfl := Outcome.ok.inj e
      exact sameDom_table _

theorem sameDom_unhookNext {t t' : Table K} {a : Nat} (e : unhookNext t a = .ok t') : SameDom t t' := by
  unfold unhookNext at e
  obtain ⟨x, e1, e⟩ := Outcome.bind_eq_ok.mp e
  cases hn : x.next with
  | some n =>
    rw [hn] at e
    obtain ⟨f, e2, e⟩ := Outcome.bind_eq_ok.mp e
    obtain ⟨g, e3, e⟩ := Outcome.bind_eq_ok.mp e
    obtain rfl := Outcome.ok.inj e
    exact (sameDom_store _ (deref_inv e2)).trans (sameDom_store _ (deref_inv e3))
  | none =>
    rw [hn] at e
    cases hx : x.prev with
    | some p =>
      simp only [hx] at e
      obtain ⟨f, e2, e⟩ := Outcome.bind_eq_ok.mp e
      obtain rfl := Outcome.ok.inj e
      exact sameDom_store _ (deref_inv e2)
    | none =>
      simp only [hx] at e
      obtain rfl := Outcome.ok.inj e
      exact SameDom.refl _

theorem counted_insert {cmp : K → K → Int} {hash : K → Nat} {t t' : Table K} {key : K} {v w : Bytes} {r : Int} (h : Counted t)
    (e : insert cmp hash t key v = .ok (r, w, t')) : Counted t' := by
  unfold insert at e
  obtain ⟨p, e1, e⟩ := Outcome.bind_eq_ok.mp e
  cases p with
  | none =>
    obtain ⟨⟨a, t1⟩, e2, e⟩ := Outcome.bind_eq_ok.mp e
    obtain ⟨t2, e3, e⟩ := Outcome.bind_eq_ok.mp e
    obtain ⟨⟨x, ks⟩, e4, e⟩ := Outcome.bind_eq_ok.mp e
    obtain ⟨-, -, rfl⟩ : _ ∧ _ ∧ _ = t' := by simpa using e
    obtain ⟨d, e5, e2⟩ := Outcome.bind_eq_ok.mp e2
    obtain ⟨rfl, rfl⟩ := Prod.mk.inj (Outcome.ok.inj e2)
    obtain ⟨h1, h2, h3⟩ := sameDom_hook e3
    obtain ⟨D, hD, hk⟩ := h.left
    have hn : t.fresh ∉ D := by rw [hD]; simp [h.lt _ le_rfl]
    simp only [store] at h1 h2 h3
    refine ⟨⟨Insert.insert t.fresh D, fun a => ?_, by rw [Finset.card_insert_of_notMem hn, hk]; simp only [h3]⟩, fun a ha => ?_⟩
    · rw [Finset.mem_insert, hD, Ne, Ne, h1 a]
      by_cases ha : a = t.fresh <;> simp [ha]
    · simp only [h2] at ha
      rw [h1 a, if_neg (by omega)]
      exact h.lt a (by omega)
  | some a =>
    obtain ⟨x, e2, e⟩ := Outcome.bind_eq_ok.mp e
    obtain ⟨y, e3, e⟩ := Outcome.bind_eq_ok.mp e
    obtain ⟨z, e4, e⟩ := Outcome.bind_eq_ok.mp e
    obtain ⟨u, e5, e⟩ := Outcome.bind_eq_ok.mp e
    obtain ⟨-, -, rfl⟩ : _ ∧ _ ∧ _ = t' := by simpa using e
    exact h.same (sameDom_store _ (deref_inv e2))

theorem counted_remove {cmp : K → K → Int} {hash : K → Nat} {t t' : Table K} {key : K} {v w : Bytes} {r : Int} (h : Counted t)
    (e : remove cmp hash t key v = .ok (r, w, t')) : Counted t' := by
  unfold remove at e
  split_ifs at e with hz
  · obtain ⟨-, -, rfl⟩ : _ ∧ _ ∧ _ = t' := by simpa using e
    exact h
  obtain ⟨p, e1, e⟩ := Outcome.bind_eq_ok.mp e
  cases p with
  | none =>
    obtain ⟨-, -, rfl⟩ : _ ∧ _ ∧ _ = t' := by simpa using e
    exact h
  | some a =>
    obtain ⟨t1, e2, e⟩ := Outcome.bind_eq_ok.mp e
    obtain ⟨t2, e3, e⟩ := Outcome.bind_eq_ok.mp e
    obtain ⟨⟨b, t3⟩, e4, e⟩ := Outcome.bind_eq_ok.mp e
    obtain ⟨⟨x, ks⟩, e5, e⟩ := Outcome.bind_eq_ok.mp e
    obtain ⟨-, -, rfl⟩ : _ ∧ _ ∧ _ = t' := by simpa using e
    obtain ⟨f, e6, e4⟩ := Outcome.bind_eq_ok.mp e4
    obtain ⟨b', e7, e4⟩ := Outcome.bind_eq_ok.mp e4
    obtain ⟨-, rfl⟩ := Prod.mk.inj (Outcome.ok.inj e4)
    have h2 := h.same ((sameDom_unhookPrev e2).trans (sameDom_unhookNext e3))
    obtain ⟨D, hD, hk⟩ := h2.left
    have ha : a ∈ D := (hD a).mpr (by simp [deref_inv e6])
    refine ⟨⟨D.erase a, fun b => ?_, by rw [Finset.card_erase_of_mem ha, hk]; rfl⟩, fun b hb => ?_⟩
    · simp only [free, Finset.mem_erase, hD]
      by_cases hb : b = a <;> simp [hb]
    · simp only [free] at hb ⊢
      split_ifs
      · rfl
      · exact h2.lt b hb

theorem counted_run {cmp : K → K → Int} {hash : K → Nat} (ops : List (MapOp K)) : ∀ {t t' : Table K} {rs}, Counted t → HTable.run cmp hash t ops = .ok (rs, t') →
    Counted t' := by
  induction ops with
  | nil => intro t t' rs h e; obtain ⟨-, rfl⟩ := Prod.mk.inj (Outcome.ok.inj e); exact h
  | cons op ops ih =>
    intro t t' rs h e
    obtain ⟨⟨r, t1⟩, e1, e⟩ := Outcome.bind_eq_ok.mp e
    obtain ⟨⟨rs', t2⟩, e2, e⟩ := Outcome.bind_eq_ok.mp e
    obtain ⟨-, rfl⟩ := Prod.mk.inj (Outcome.ok.inj e)
    refine ih ?_ e2
    cases op with
    | insert k v =>
      obtain ⟨⟨r', b, t3⟩, e3, e1⟩ := Outcome.bind_eq_ok.mp e1
      obtain ⟨-, rfl⟩ := Prod.mk.inj (Outcome.ok.inj e1)
      exact counted_insert h e3
    | lookup k b =>
      obtain ⟨⟨r', b⟩, e3, e1⟩ := Outcome.bind_eq_ok.mp e1
      obtain ⟨-, rfl⟩ := Prod.mk.inj (Outcome.ok.inj e1)
      exact h
    | remove k b =>
      obtain ⟨⟨r', b, t3⟩, e3, e1⟩ := Outcome.bind_eq_ok.mp e1
      obtain ⟨-, rfl⟩ := Prod.mk.inj (Outcome.ok.inj e1)
      exact counted_remove h e3

theorem counted_init {n : Nat} {kt dt : HType} {t : Table K} (e : initSize n kt dt = .ok t) : Counted t := by
  unfold initSize at e
  obtain ⟨ks, e1, e⟩ := Outcome.bind_eq_ok.mp e
  obtain rfl := Outcome.ok.inj e
  exact ⟨⟨∅, by simp, rfl⟩, fun _ _ => rfl⟩

/-- The address is in one of the chains. -/
def Hooked (ch : Nat → List (Item K)) (x : Nat) : Prop := ∃ b, ∃ it ∈ ch b, it.1 = x

/-- A table that is a faithful image of a map has no entries but those in its chains. -/
theorem hooked_of_counted {cmp : K → K → Int} {hash : K → Nat} {t : Table K} {s ch m ks} (h : Rep cmp hash t s ch m ks) (hnd : ks.Nodup) (hc : Counted t) (x : Nat) :
    t.heap x ≠ none ↔ Hooked ch x := by
  classical
  have hit : ∀ k ∈ ks, ∃ it, it ∈ ch (hash k) ∧ it.2.1 = k := by
    intro k hk
    obtain ⟨v, hv⟩ := Option.isSome_iff_exists.mp ((h.mem k).mp hk)
    obtain ⟨a, ha⟩ := (h.abs _ _).mp hv
    exact ⟨_, ha, rfl⟩
  choose! f hf1 hf2 using hit
  have halloc : ∀ b, ∀ it ∈ ch b, t.heap it.1 ≠ none := by
    intro b it hit
    have hb : b < t.table.length := by rw [← h.chains.key_hash b it hit]; exact h.chains.hash_lt _
    obtain ⟨p, last, _, hl⟩ := h.chains.link b hb
    obtain ⟨l, r, hlr⟩ := List.append_of_mem hit
    rw [hlr] at hl
    obtain ⟨_, _, _, _, e, he, _⟩ := (lseg_append _ _).mp hl
    simp [he]
  obtain ⟨D, hD, hk⟩ := hc.left
  have hinj : Set.InjOn (fun k => (f k).1) (ks.toFinset : Set K) := by
    intro a ha b hb hab
    have ha : a ∈ ks := by simpa using ha
    have hb : b ∈ ks := by simpa using hb
    have hbk := h.chains.addr_inj _ _ _ _ (hf1 a ha) (hf1 b hb) hab
    have := List.inj_on_of_nodup_map (h.chains.addr_nodup (hash a)) (hf1 a ha) (by rw [hbk]; exact hf1 b hb) hab
    rw [← hf2 a ha, ← hf2 b hb, this]
  have hsub : ks.toFinset.image (fun k => (f k).1) ⊆ D := by
    intro y hy
    obtain ⟨k, hk, rfl⟩ := Finset.mem_image.mp hy
    exact (hD _).mpr (halloc _ _ (hf1 k (by simpa using hk)))
  have heq := Finset.eq_of_subset_of_card_le hsub (by
    rw [Finset.card_image_of_injOn hinj, List.toFinset_card_of_nodup hnd, hk, h.size])
  constructor
  · intro hx
    have hx := (hD x).mpr hx
    rw [← heq] at hx
    obtain ⟨k, hk, rfl⟩ := Finset.mem_image.mp hx
    exact ⟨_, _, hf1 k (by simpa using hk), rfl⟩
  · rintro ⟨b, it, hit, rfl⟩
    exact halloc b it hit

/-- What clearing leaves on the heap: what is not in a chain. -/
theorem clearLoop_heap (hash : K → Nat) (kd vd : Bool) (ks : List K) {s : Bool} :
    ∀ (k i : Nat) {t : Table K} {ch}, Chains hash t s ch → AList.Rep t.keys ks → k + i = ks.length → (∀ b, ∀ it ∈ ch b, it.2.1 ∈ ks.drop i) →
      ∃ evs t', clearLoop hash kd vd k i t = .ok (evs, t') ∧ (∀ x, Hooked ch x → t'.heap x = none) ∧ (∀ x, ¬ Hooked ch x → t'.heap x = t.heap x) := by
  intro k
  induction k with
  | zero =>
    intro i t ch hch hks hki hvals
    refine ⟨[], t, rfl, ?_, fun _ _ => rfl⟩
    rintro x ⟨b, it, hit, _⟩
    have := hvals b it hit
    rw [List.drop_of_length_le (by omega)] at this
    simp at this
  | succ k ih =>
    intro i t ch hch hks hki hvals
    have hi : i < ks.length := by omega
    have hdrop : ks.drop i = ks[i] :: ks.drop (i + 1) := List.drop_eq_getElem_cons hi
    set key := ks[i] with hkey
    obtain ⟨p, last, hp, hl⟩ := hch.link (hash key) (hch.hash_lt key)
    have ecl := clearChain_rep (t := { t with table := t.table.set (hash key) none }) (fuel := t.fresh + 1) key kd vd
      (ch (hash key)) (by have := hch.length_le (hash key); omega) (hch.addr_nodup _) (hch.len _) hl
    set t1 : Table K := { t with
      table := t.table.set (hash key) none
      heap := fun x => if x ∈ (ch (hash key)).map (·.1) then none else t.heap x } with ht1
    have hch1 : Chains hash t1 s (fun c => if c = hash key then [] else ch c) :=
      chains_clear hch rfl rfl rfl rfl
    have hvals1 : ∀ b, ∀ it ∈ (if b = hash key then [] else ch b), it.2.1 ∈ ks.drop (i + 1) := by
      intro b it hit
      by_cases hb : b = hash key
      · simp [hb] at hit
      · simp only [hb, if_false] at hit
        have h1 := hvals b it hit
        rw [hdrop, List.mem_cons] at h1
        rcases h1 with h1 | h1
        · exfalso; apply hb; rw [← hch.key_hash b it hit, h1]
        · exact h1
    obtain ⟨evs, t', e', ha, hb⟩ := ih (i + 1) hch1 hks (by omega) hvals1
    have hsplit : ∀ x, Hooked ch x ↔ x ∈ (ch (hash key)).map (·.1) ∨ Hooked (fun c => if c = hash key then [] else ch c) x := by
      intro x
      constructor
      · rintro ⟨b, it, hit, rfl⟩
        by_cases hbk : b = hash key
        · left; rw [← hbk]; exact List.mem_map.mpr ⟨it, hit, rfl⟩
        · right; exact ⟨b, it, by simpa [hbk] using hit, rfl⟩
      · rintro (hx | ⟨b, it, hit, rfl⟩)
        · obtain ⟨it, hit, rfl⟩ := List.mem_map.mp hx
          exact ⟨_, it, hit, rfl⟩
        · by_cases hbk : b = hash key
          · simp [hbk] at hit
          · exact ⟨b, it, by simpa [hbk] using hit, rfl⟩
    refine ⟨(ch (hash key)).flatMap (itemEvents key kd vd) ++ evs, t', ?_, ?_, ?_⟩
    · have hlt := hch.hash_lt key
      have hv : SetT.valueAt t.keys i = .ok (some key) := by
        rw [SetT.valueAt, AList.valueAt_rep hks, List.getElem?_eq_getElem hi]
      simp only [clearLoop, hv, Outcome.ok_bind, rd, hp, wr, hlt, if_true]
      rw [ecl]
      simp only [Outcome.ok_bind]
      rw [e']
      rfl
    · intro x hx
      by_cases h2 : Hooked (fun c => if c = hash key then [] else ch c) x
      · exact ha x h2
      · rw [hb x h2]
        have h1 := ((hsplit x).mp hx).resolve_right h2
        exact if_pos h1
    · intro x hx
      rw [hsplit, not_or] at hx
      rw [hb x hx.2]
      exact if_neg hx.1

theorem destroy_heap {hash : K → Nat} (kd vd : Bool) {ks : List K} {s : Bool} {t : Table K} {ch} (hch : Chains hash t s ch) (hks : AList.Rep t.keys ks)
    (hvals : ∀ b, ∀ it ∈ ch b, it.2.1 ∈ ks) :
    ∃ evs heap, destroy hash kd vd t = .ok (evs, heap) ∧ (∀ x, Hooked ch x → heap x = none) ∧ (∀ x, ¬ Hooked ch x → heap x = t.heap x) := by
  obtain ⟨evs, t', e, h1, h2⟩ := clearLoop_heap hash kd vd ks ks.length 0 hch hks (by omega) (by simpa using hvals)
  refine ⟨evs, t'.heap, ?_, h1, h2⟩
  simp only [destroy, clear, hks.size, e, Outcome.ok_bind]
  rfl

/-- A removal that loses keys: the chain of the bucket is cut, and the heap keeps all entries but the one of the key. -/
theorem remove_cuts [DecidableEq K] {cmp : K → K → Int} (hc : LawfulCmp cmp) {hash : K → Nat} {t : Table K} {ch m ks st}
    (h : Rep cmp hash t false ch m ks) (ha : Agrees t ch st) (key : K) (buf : Bytes) {l r : Bucket K} (hst : st (hash key) = l ++ (key, true) :: r) :
    ∃ v t' pre a post, m key = some v ∧ remove cmp hash t key buf = (memcpy buf v (getHtypeSize t.ktype) >>= fun b => .ok (1, b, t')) ∧
      ch (hash key) = pre ++ (a, key, v) :: post ∧ pre.length = l.length ∧ Chains hash t' false (fun c => if c = hash key then post else ch c) ∧
      AList.Rep t'.keys (ks.filter (fun y => y ≠ key)) ∧ (∀ x, t'.heap x = none ↔ x = a ∨ t.heap x = none) := by
  have hlt := h.chains.hash_lt key
  have hp := ha _ hlt
  have hkeys := prevs_keys hp
  rcases lookupEntry_rep hc h.chains key with ⟨e, hn⟩ | ⟨a, v, e, hm⟩
  · have hmem : key ∈ (ch (hash key)).map (·.2.1) := by rw [← hkeys, hst]; simp
    obtain ⟨i, hi, he⟩ := List.mem_map.mp hmem
    exact absurd he (hn i hi)
  have hms := h.unique hm
  obtain ⟨pre, post, hb⟩ := List.append_of_mem hm
  have hp' := hp
  rw [hb] at hp'
  obtain ⟨q1, c, q2, hq, hp1, ⟨en, hen, hepr⟩, hp2⟩ := prevs_split hp'
  simp only at hq hen hepr hp2
  have hknd := h.chains.key_nodup (hash key)
  rw [← hkeys] at hknd
  have hlen : q1.length = l.length := by
    have nd1 := hknd
    rw [hst, List.map_append, List.map_cons, List.nodup_append] at nd1
    have nd2 := hknd
    rw [hq, List.map_append, List.map_cons, List.nodup_append] at nd2
    have i1 : ((l ++ (key, true) :: r).map (·.1)).idxOf key = l.length := by
      rw [List.map_append, List.map_cons, List.idxOf_append_of_notMem (fun hi => nd1.2.2 _ hi _ (by simp) rfl)]
      simp
    have i2 : ((q1 ++ (key, c) :: q2).map (·.1)).idxOf key = q1.length := by
      rw [List.map_append, List.map_cons, List.idxOf_append_of_notMem (fun hi => nd2.2.2 _ hi _ (by simp) rfl)]
      simp
    rw [← i1, ← i2, ← hq, ← hst]
  have hq' := hq
  rw [hst] at hq'
  have hc1 : c = true := by
    have := (List.append_inj hq' hlen.symm).2
    simp at this
    exact this.1
  have hnone : en.prev = none := by rw [hepr, hc1]; simp
  obtain ⟨t1, t2, en', e1, e2, h1, h2, h3, h4, h5, h6, h7, h8, h9, h10⟩ := unhook_none h.chains hb hlt hen hnone
  have hkm : key ∈ ks := by rw [h.mem, hms]; rfl
  have hz : t.size ≠ 0 := by
    rw [h.size]
    intro h0
    rw [List.eq_nil_of_length_eq_zero h0] at hkm
    simp at hkm
  obtain ⟨ks', e3, hr, _⟩ := SetT.remove_rep hc h.ksrep h.sorted key
  have hpl : pre.length = l.length := by
    have := congrArg List.length (prevs_keys hp1)
    simp only [List.length_map] at this
    omega
  refine ⟨v, { free t2 a with size := t2.size - 1, keys := ks' }, pre, a, post, hms, ?_, hb, hpl, chains_of_eq h3 rfl rfl rfl rfl, hr, ?_⟩
  · unfold remove
    rw [if_neg hz, e]
    simp only [Outcome.ok_bind, e1, e2, entryDestroy, deref, h1, h2, h7]
    cases memcpy buf v (getHtypeSize t.ktype) with
    | ok b' =>
      simp only [Outcome.ok_bind, Outcome.pure_eq]
      have : (free t2 a).keys = t.keys := h4
      rw [this, e3]
      rfl
    | ub w => rfl
    | abort w => rfl
    | diverge => rfl
  · intro x
    have hd := (sameDom_unhookPrev e1).trans (sameDom_unhookNext e2)
    simp only [free]
    by_cases hx : x = a <;> simp [hx, hd.1 x]

end Verif.HTable
