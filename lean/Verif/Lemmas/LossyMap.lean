import Verif.Spec.LossyMap
import Verif.Lemmas.HTableMem
/-
Lemmas for the third part of C07: hash tables under every history. The keys set and the size may say more than the chains hold; the table with a keys set and a size that fit the
chains is compared with the real one.
-/
namespace Verif.HTable
open Spec
variable {K : Type}

/-- The same chains with another keys set and another size. -/
def wk (t : Table K) (ks : AList K) (n : Nat) : Table K := { t with keys := ks, size := n }

theorem walk_wk (cmp : K → K → Int) (t : Table K) (ks : AList K) (n : Nat) (key : K) : ∀ (fuel : Nat) (p : Option Nat),
    walk cmp (wk t ks n) key fuel p = walk cmp t key fuel p
  | 0, none => rfl
  | 0, some _ => rfl
  | fuel + 1, none => rfl
  | fuel + 1, some a => by
    have hd : deref (wk t ks n) a = deref t a := rfl
    simp only [walk, hd, walk_wk cmp t ks n key fuel]

theorem lookupEntry_wk (cmp : K → K → Int) (hash : K → Nat) (t : Table K) (ks : AList K) (n : Nat) (key : K) :
    lookupEntry cmp hash (wk t ks n) key = lookupEntry cmp hash t key := by
  have h : ∀ fuel p, walk cmp (wk t ks n) key fuel p = walk cmp t key fuel p := walk_wk cmp t ks n key
  unfold lookupEntry
  simp only [h]
  rfl

theorem hook_wk (t : Table K) (ks : AList K) (n b a : Nat) : hookFront (wk t ks n) b a = (hookFront t b a >>= fun u => .ok (wk u ks n)) := by
  have h1 : (wk t ks n).table = t.table := rfl
  have h2 : deref (wk t ks n) a = deref t a := rfl
  unfold hookFront
  rw [h1, h2]
  cases rd t.table b with
  | ok p =>
    cases p with
    | none =>
      simp only [Outcome.ok_bind]
      cases wr t.table b (some a) <;> rfl
    | some c =>
      simp only [Outcome.ok_bind]
      cases deref t a with
      | ok e =>
        simp only [Outcome.ok_bind]
        have h3 : deref (store (wk t ks n) a { e with next := some c }) c = deref (store t a { e with next := some c }) c := rfl
        rw [h3]
        cases deref (store t a { e with next := some c }) c with
        | ok f =>
          simp only [Outcome.ok_bind]
          have h4 : (store (store (wk t ks n) a { e with next := some c }) c { f with prev := some a }).table =
            (store (store t a { e with next := some c }) c { f with prev := some a }).table := rfl
          rw [h4]
          cases wr (store (store t a { e with next := some c }) c { f with prev := some a }).table b (some a) <;> rfl
        | _ => rfl
      | _ => rfl
  | _ => rfl

theorem unhookPrev_wk (t : Table K) (ks : AList K) (n b a : Nat) : unhookPrev (wk t ks n) b a = (unhookPrev t b a >>= fun u => .ok (wk u ks n)) := by
  have h1 : (wk t ks n).table = t.table := rfl
  have h2 : ∀ a, deref (wk t ks n) a = deref t a := fun _ => rfl
  unfold unhookPrev
  rw [h1, h2]
  cases deref t a with
  | ok e =>
    simp only [Outcome.ok_bind]
    cases e.prev with
    | some p =>
      simp only [h2]
      cases deref t p with
      | ok f =>
        simp only [Outcome.ok_bind]
        have h3 : deref (store (wk t ks n) p { f with next := e.next }) a = deref (store t p { f with next := e.next }) a := rfl
        rw [h3]
        cases deref (store t p { f with next := e.next }) a <;> rfl
      | _ => rfl
    | none =>
      simp only []
      cases wr t.table b e.next with
      | ok tbl =>
        simp only [Outcome.ok_bind]
        cases e.next with
        | some m =>
          simp only []
          have h3 : deref ({ (wk t ks n) with table := tbl }) m = deref { t with table := tbl } m := rfl
          rw [h3]
          cases deref { t with table := tbl } m <;> rfl
        | none => rfl
      | _ => rfl
  | _ => rfl

theorem unhookNext_wk (t : Table K) (ks : AList K) (n a : Nat) : unhookNext (wk t ks n) a = (unhookNext t a >>= fun u => .ok (wk u ks n)) := by
  have h2 : ∀ a, deref (wk t ks n) a = deref t a := fun _ => rfl
  unfold unhookNext
  rw [h2]
  cases deref t a with
  | ok e =>
    simp only [Outcome.ok_bind]
    cases e.next with
    | some p =>
      simp only [h2]
      cases deref t p with
      | ok f =>
        simp only [Outcome.ok_bind]
        have h3 : deref (store (wk t ks n) p { f with prev := e.prev }) a = deref (store t p { f with prev := e.prev }) a := rfl
        rw [h3]
        cases deref (store t p { f with prev := e.prev }) a <;> rfl
      | _ => rfl
    | none =>
      simp only []
      cases e.prev with
      | some p =>
        simp only [h2]
        cases deref t p <;> rfl
      | none => rfl
  | _ => rfl

theorem insert_wk {cmp : K → K → Int} {hash : K → Nat} {t t0' : Table K} {ks0 ks' : AList K} {n0 : Nat} {key : K} {v w : Bytes} {r x : Int}
    (hk : SetT.insert cmp t.keys key = .ok (x, ks')) (e : insert cmp hash (wk t ks0 n0) key v = .ok (r, w, t0')) :
    insert cmp hash t key v = .ok (r, w, wk t0' (if r = 1 then ks' else t.keys) (if r = 1 then t.size + 1 else t.size)) ∧
      t0'.size = if r = 1 then n0 + 1 else n0 := by
  unfold insert at e ⊢
  rw [lookupEntry_wk] at e
  obtain ⟨p, e1, e⟩ := Outcome.bind_eq_ok.mp e
  rw [e1]
  simp only [Outcome.ok_bind]
  cases p with
  | none =>
    obtain ⟨⟨a, t1⟩, e2, e⟩ := Outcome.bind_eq_ok.mp e
    obtain ⟨t2, e3, e⟩ := Outcome.bind_eq_ok.mp e
    obtain ⟨⟨y, ks⟩, e4, e⟩ := Outcome.bind_eq_ok.mp e
    obtain ⟨rfl, rfl, rfl⟩ : _ ∧ _ ∧ _ = t0' := by simpa using e
    obtain ⟨d, e5, e2⟩ := Outcome.bind_eq_ok.mp e2
    obtain ⟨rfl, rfl⟩ := Prod.mk.inj (Outcome.ok.inj e2)
    have e5' : memcpy (List.replicate (getHtypeSize t.dtype) 0) v (getHtypeSize t.dtype) = .ok d := e5
    have hs : ({ store (wk t ks0 n0) (wk t ks0 n0).fresh { key, data := d, next := none, prev := none } with fresh := (wk t ks0 n0).fresh + 1 } : Table K) =
      wk { store t t.fresh { key, data := d, next := none, prev := none } with fresh := t.fresh + 1 } ks0 n0 := rfl
    rw [hs, hook_wk] at e3
    obtain ⟨u, e6, e3⟩ := Outcome.bind_eq_ok.mp e3
    obtain rfl := Outcome.ok.inj e3
    have hu := sameDom_hook e6
    have huk : u.keys = t.keys := by
      unfold hookFront at e6
      obtain ⟨p, e1, e⟩ := Outcome.bind_eq_ok.mp e6
      cases p with
      | none =>
        obtain ⟨tbl, e2, e⟩ := Outcome.bind_eq_ok.mp e
        obtain rfl := Outcome.ok.inj e
        rfl
      | some c =>
        obtain ⟨x, e2, e⟩ := Outcome.bind_eq_ok.mp e
        obtain ⟨f, e3, e⟩ := Outcome.bind_eq_ok.mp e
        obtain ⟨tbl, e4, e⟩ := Outcome.bind_eq_ok.mp e
        obtain rfl := Outcome.ok.inj e
        rfl
    have hus : u.size = t.size := hu.2.2
    have e6' : hookFront { store t t.fresh { key, data := d, next := none, prev := none } with fresh := t.fresh + 1 } (hash key) t.fresh = .ok u := e6
    simp only [setEntry, e5', Outcome.ok_bind, Outcome.pure_eq, e6', huk, hk, hus]
    exact ⟨rfl, rfl⟩
  | some a =>
    obtain ⟨en, e2, e⟩ := Outcome.bind_eq_ok.mp e
    obtain ⟨y, e3, e⟩ := Outcome.bind_eq_ok.mp e
    obtain ⟨z, e4, e⟩ := Outcome.bind_eq_ok.mp e
    obtain ⟨u, e5, e⟩ := Outcome.bind_eq_ok.mp e
    obtain ⟨rfl, rfl, rfl⟩ : _ ∧ _ ∧ _ = t0' := by simpa using e
    have f2 : deref t a = .ok en := e2
    have f3 : memcpy (List.replicate (getHtypeSize t.dtype) 0) en.data (getHtypeSize t.dtype) = .ok y := e3
    have f4 : memcpy en.data v (getHtypeSize t.dtype) = .ok z := e4
    have f5 : memcpy v y (getHtypeSize t.dtype) = .ok u := e5
    simp only [f2, f3, f4, f5, Outcome.ok_bind, Outcome.pure_eq]
    exact ⟨rfl, rfl⟩

theorem unhook_keys {t t1 t2 : Table K} {b a : Nat} (e1 : unhookPrev t b a = .ok t1) (e2 : unhookNext t1 a = .ok t2) : t2.keys = t.keys ∧ t2.ktype = t.ktype := by
  have h := unhookPrev_wk t t.keys t.size b a
  have h1 : t1.keys = t.keys ∧ t1.ktype = t.ktype := by
    unfold unhookPrev at e1
    obtain ⟨x, _, e⟩ := Outcome.bind_eq_ok.mp e1
    cases hx : x.prev with
    | some p =>
      rw [hx] at e
      obtain ⟨f, _, e⟩ := Outcome.bind_eq_ok.mp e
      obtain ⟨g, _, e⟩ := Outcome.bind_eq_ok.mp e
      obtain rfl := Outcome.ok.inj e
      exact ⟨rfl, rfl⟩
    | none =>
      rw [hx] at e
      obtain ⟨tbl, _, e⟩ := Outcome.bind_eq_ok.mp e
      cases hn : x.next with
      | some n =>
        rw [hn] at e
        obtain ⟨f, _, e⟩ := Outcome.bind_eq_ok.mp e
        obtain rfl := Outcome.ok.inj e
        exact ⟨rfl, rfl⟩
      | none =>
        rw [hn] at e
        obtain rfl := Outcome.ok.inj e
        exact ⟨rfl, rfl⟩
  unfold unhookNext at e2
  obtain ⟨x, _, e⟩ := Outcome.bind_eq_ok.mp e2
  cases hn : x.next with
  | some n =>
    rw [hn] at e
    obtain ⟨f, _, e⟩ := Outcome.bind_eq_ok.mp e
    obtain ⟨g, _, e⟩ := Outcome.bind_eq_ok.mp e
    obtain rfl := Outcome.ok.inj e
    exact h1
  | none =>
    rw [hn] at e
    cases hx : x.prev with
    | some p =>
      simp only [hx] at e
      obtain ⟨f, _, e⟩ := Outcome.bind_eq_ok.mp e
      obtain rfl := Outcome.ok.inj e
      exact h1
    | none =>
      simp only [hx] at e
      obtain rfl := Outcome.ok.inj e
      exact h1

theorem remove_wk {cmp : K → K → Int} {hash : K → Nat} {t t0' : Table K} {ks0 ks' : AList K} {n0 : Nat} {key : K} {buf w : Bytes} {x : Int} (hz : t.size ≠ 0)
    (hk : SetT.remove cmp t.keys key = .ok (x, ks')) (e : remove cmp hash (wk t ks0 n0) key buf = .ok (1, w, t0')) :
    remove cmp hash t key buf = .ok (1, w, wk t0' ks' (t.size - 1)) ∧ t0'.size = n0 - 1 := by
  unfold remove at e ⊢
  have hs0 : (wk t ks0 n0).size = n0 := rfl
  rw [hs0] at e
  split_ifs at e with h0
  · simp at e
  rw [if_neg hz]
  rw [lookupEntry_wk] at e
  obtain ⟨p, e1, e⟩ := Outcome.bind_eq_ok.mp e
  rw [e1]
  simp only [Outcome.ok_bind]
  cases p with
  | none => simp at e
  | some a =>
    obtain ⟨t1, e2, e⟩ := Outcome.bind_eq_ok.mp e
    obtain ⟨t2, e3, e⟩ := Outcome.bind_eq_ok.mp e
    obtain ⟨⟨b, t3⟩, e4, e⟩ := Outcome.bind_eq_ok.mp e
    obtain ⟨⟨y, ks⟩, e5, e⟩ := Outcome.bind_eq_ok.mp e
    obtain ⟨rfl, rfl⟩ : _ ∧ _ = t0' := by simpa using e
    rw [unhookPrev_wk] at e2
    obtain ⟨u1, f1, e2⟩ := Outcome.bind_eq_ok.mp e2
    obtain rfl := Outcome.ok.inj e2
    rw [unhookNext_wk] at e3
    obtain ⟨u2, f2, e3⟩ := Outcome.bind_eq_ok.mp e3
    obtain rfl := Outcome.ok.inj e3
    obtain ⟨f, e6, e4⟩ := Outcome.bind_eq_ok.mp e4
    obtain ⟨b', e7, e4⟩ := Outcome.bind_eq_ok.mp e4
    obtain ⟨rfl, rfl⟩ := Prod.mk.inj (Outcome.ok.inj e4)
    have g6 : deref u2 a = .ok f := e6
    have g7 : memcpy buf f.data (getHtypeSize u2.ktype) = .ok b' := e7
    have hsz : u2.size = t.size := ((sameDom_unhookPrev f1).trans (sameDom_unhookNext f2)).2.2
    have hkk : (free u2 a).keys = t.keys := (unhook_keys f1 f2).1
    simp only [f1, f2, entryDestroy, g6, g7, Outcome.ok_bind, Outcome.pure_eq, hkk, hk]
    refine ⟨?_, rfl⟩
    show Outcome.ok (1, b', wk (free u2 a) ks' (u2.size - 1)) = _
    rw [hsz]
    rfl

/-- The account of a bucket, split at a key. -/
theorem bucket_split [DecidableEq K] {key : K} {c : Bool} {q1 q2 : Bucket K} (h : key ∉ q1.map (·.1)) :
    newerThan key (q1 ++ (key, c) :: q2) = q1.map (·.1) ∧ olderThan key (q1 ++ (key, c) :: q2) = q2 := by
  induction q1 with
  | nil => simp [newerThan, olderThan]
  | cons x q1 ih =>
    simp only [List.map_cons, List.mem_cons, not_or] at h
    obtain ⟨h1, h2⟩ := ih h.2
    have hx : x.1 ≠ key := fun e => h.1 e.symm
    constructor
    · simpa [newerThan, List.takeWhile_cons, hx] using h1
    · simpa [olderThan, List.dropWhile_cons, hx] using h2

/-- A removal that loses keys, with the accounts. -/
theorem remove_cuts_agrees [DecidableEq K] {cmp : K → K → Int} (hc : LawfulCmp cmp) {hash : K → Nat} {t : Table K} {ch m ks st}
    (h : Rep cmp hash t false ch m ks) (ha : Agrees t ch st) (key : K) (buf : Bytes) (hlose : Loses hash st key) :
    ∃ v t' pre a post, m key = some v ∧ remove cmp hash t key buf = (memcpy buf v (getHtypeSize t.ktype) >>= fun b => .ok (1, b, t')) ∧
      ch (hash key) = pre ++ (a, key, v) :: post ∧ pre.map (·.2.1) = newerThan key (st (hash key)) ∧
      Chains hash t' false (fun c => if c = hash key then post else ch c) ∧
      Agrees t' (fun c => if c = hash key then post else ch c) (fun b => if b = hash key then markFirst true (olderThan key (st b)) else st b) ∧
      t'.dtype = t.dtype ∧ t'.ktype = t.ktype := by
  have hlt := h.chains.hash_lt key
  have hp := ha _ hlt
  have hkeys := prevs_keys hp
  have hin : (key, true) ∈ st (hash key) := List.mem_of_mem_tail hlose
  rcases lookupEntry_rep hc h.chains key with ⟨e, hn⟩ | ⟨a, v, e, hm⟩
  · have hmem : key ∈ (ch (hash key)).map (·.2.1) := by
      rw [← hkeys]
      exact List.mem_map.mpr ⟨_, hin, rfl⟩
    obtain ⟨i, hi, he⟩ := List.mem_map.mp hmem
    exact absurd he (hn i hi)
  have hms := h.unique hm
  obtain ⟨pre, post, hb⟩ := List.append_of_mem hm
  have hp' := hp
  rw [hb] at hp'
  obtain ⟨q1, c, q2, hq, hp1, ⟨en, hen, hepr⟩, hp2⟩ := prevs_split hp'
  simp only at hq hen hepr hp2
  have hknd := h.chains.key_nodup (hash key)
  rw [← hkeys] at hknd
  have hc1 : c = true := by
    have h1 : (key, c) ∈ st (hash key) := by rw [hq]; simp
    have := List.inj_on_of_nodup_map hknd h1 hin rfl
    simpa using this
  have hkq : key ∉ q1.map (·.1) := by
    rw [hq, List.map_append, List.map_cons, List.nodup_append] at hknd
    exact fun hi => hknd.2.2 _ hi _ (by simp) rfl
  have hand := h.chains.addr_nodup (hash key)
  rw [hb, List.map_append, List.map_cons, List.nodup_append, List.nodup_cons] at hand
  have hpost_ne : ∀ i ∈ post, i.1 ≠ a := fun i hi he => hand.2.1.1 (List.mem_map.mpr ⟨i, hi, he⟩)
  have hout : ∀ c, c ≠ hash key → ∀ i ∈ ch c, i.1 ≠ a ∧ (∀ j ∈ post, i.1 ≠ j.1) := by
    intro c hcb i hi
    refine ⟨fun he => ?_, fun j hj he => ?_⟩
    · exact hcb (h.chains.addr_inj _ _ i (a, key, v) hi hm he)
    · exact hcb (h.chains.addr_inj _ _ i j hi (by rw [hb]; simp [hj]) he)
  have hnone : en.prev = none := by rw [hepr, hc1]; simp
  obtain ⟨t1, t2, en', e1, e2, h1, h2, h3, h4, h5, h6, h7, h8, h9, h10⟩ := unhook_none h.chains hb hlt hen hnone
  have hkm : key ∈ ks := by rw [h.mem, hms]; rfl
  have hz : t.size ≠ 0 := by
    rw [h.size]
    intro h0
    rw [List.eq_nil_of_length_eq_zero h0] at hkm
    simp at hkm
  obtain ⟨ks', e3, hr, _⟩ := SetT.remove_rep hc h.ksrep h.sorted key
  obtain ⟨hs1, hs2⟩ := bucket_split (c := c) (q2 := q2) hkq
  rw [← hq] at hs1 hs2
  refine ⟨v, { free t2 a with size := t2.size - 1, keys := ks' }, pre, a, post, hms, ?_, hb, ?_, chains_of_eq h3 rfl rfl rfl rfl, ?_, h6, h7⟩
  · unfold remove
    rw [if_neg hz, e]
    simp only [Outcome.ok_bind, e1, e2, entryDestroy, deref, h1, h2, h7]
    cases memcpy buf v (getHtypeSize t.ktype) with
    | ok b' =>
      simp only [Outcome.ok_bind, Outcome.pure_eq]
      have : (free t2 a).keys = t.keys := h4
      rw [this, e3]
      rfl
    | ub w => rfl
    | abort w => rfl
    | diverge => rfl
  · rw [hs1, prevs_keys hp1]
  · intro b hbl
    have hbl : b < t.table.length := by rw [← h9]; exact hbl
    show Prevs (free t2 a).heap none _ _
    by_cases hbk : b = hash key
    · subst hbk
      simp only [if_true, hs2]
      cases post with
      | nil =>
        cases q2 with
        | nil => trivial
        | cons _ _ => exact hp2.elim
      | cons n r =>
        cases q2 with
        | nil => exact hp2.elim
        | cons q q2 =>
          obtain ⟨k1, c1⟩ := q
          obtain ⟨x1, x2, x3⟩ := hp2
          obtain ⟨f, hf, hfp⟩ := h8 n r rfl
          refine ⟨x1, ⟨f, hf, by simpa using hfp⟩, prevs_congr ?_ x3⟩
          intro j hj g hg
          refine ⟨g, ?_, rfl⟩
          rw [h10 j.1 (hpost_ne j (by simp [hj])) (fun i r' hi => ?_)]
          · exact hg
          · cases hi
            have := hand.2.1.2
            rw [List.map_cons, List.nodup_cons] at this
            exact fun he => this.1 (List.mem_map.mpr ⟨j, hj, he⟩)
    · simp only [hbk, if_false]
      refine prevs_congr ?_ (ha b hbl)
      intro i hi g hg
      refine ⟨g, ?_, rfl⟩
      rw [h10 i.1 (hout b hbk i hi).1 (fun j r hj => (hout b hbk i hi).2 j (by rw [hj]; simp))]
      exact hg

/-- What holds under every history: the chains are a faithful image of the map, the account is right, the keys set has all keys of the chains (and may have more), and the size
    counts the lost keys too. -/
def Lossy (cmp : K → K → Int) (hash : K → Nat) (t : Table K) (ch : Nat → List (Item K)) (s : LossyMap K) : Prop :=
  ∃ kl0 n0 ks0 ks, Rep cmp hash (wk t kl0 n0) false ch s.map ks0 ∧ Agrees t ch s.account ∧ AList.Rep t.keys ks ∧ StrictSorted cmp ks ∧ (∀ k ∈ ks0, k ∈ ks) ∧
    t.size = ks0.length + s.lost

theorem lossy_insert [DecidableEq K] {cmp : K → K → Int} (hc : LawfulCmp cmp) {hash : K → Nat} {t : Table K} {ch} {s : LossyMap K} (h : Lossy cmp hash t ch s) (key : K)
    (v : Bytes) (hv : v.length = getHtypeSize t.dtype) :
    ∃ t' ch', HTable.step cmp hash t (.insert key v) = .ok ((s.step hash (.insert key v)).1, t') ∧ Lossy cmp hash t' ch' (s.step hash (.insert key v)).2 ∧
      t'.dtype = t.dtype ∧ t'.ktype = t.ktype := by
  obtain ⟨kl0, n0, ks0, ks, hr, ha, hk, hs, hsub, hsz⟩ := h
  obtain ⟨t0', ch', e0, hr', ha', hd, hkt⟩ := insert_agrees hc hr ha key v hv
  obtain ⟨ks', e1, hk', _⟩ := SetT.insert_rep hc hk hs key
  obtain ⟨e2, e3⟩ := insert_wk e1 e0
  have hn0 : n0 = ks0.length := hr.size
  have hn1 := hr'.size
  cases hm : s.map key with
  | none =>
    simp only [hm, if_true] at e2 e3
    refine ⟨wk t0' ks' (t.size + 1), ch', ?_, ⟨t0'.keys, t0'.size, _, setInsert cmp ks key, hr', ha', hk', SetT.setInsert_sorted hc hs key, ?_, ?_⟩, hd, hkt⟩
    · simp only [HTable.step, e2, Outcome.ok_bind, Outcome.pure_eq, LossyMap.step, mapStep, hm]
    · intro k
      rw [SetT.setInsert_mem hc, SetT.setInsert_mem hc]
      exact Or.imp_right (hsub k)
    · show t.size + 1 = _ + s.lost
      omega
  | some old =>
    have hne : ¬ ((-1 : Int) = 1) := by decide
    simp only [hm, hne, if_false] at e2 e3
    refine ⟨wk t0' t.keys t.size, ch', ?_, ⟨t0'.keys, t0'.size, _, ks, hr', ha', hk, hs, ?_, ?_⟩, hd, hkt⟩
    · simp only [HTable.step, e2, Outcome.ok_bind, Outcome.pure_eq, LossyMap.step, mapStep, hm]
    · intro k
      rw [SetT.setInsert_mem hc]
      rintro (rfl | hin)
      · exact hsub _ ((hr.mem _).mpr (by rw [hm]; rfl))
      · exact hsub k hin
    · show t.size = _ + s.lost
      omega

theorem lossy_lookup [DecidableEq K] {cmp : K → K → Int} (hc : LawfulCmp cmp) {hash : K → Nat} {t : Table K} {ch} {s : LossyMap K} (h : Lossy cmp hash t ch s) (key : K)
    (b : Bytes) (hv : b.length = getHtypeSize t.dtype) :
    HTable.step cmp hash t (.lookup key b) = .ok ((s.step hash (.lookup key b)).1, t) ∧ (s.step hash (.lookup key b)).2 = s := by
  obtain ⟨kl0, n0, ks0, ks, hr, ha, hk, hs, hsub, hsz⟩ := h
  have e := lookup_rep hc hr key b hv
  have e' : lookup cmp hash t key b = lookup cmp hash (wk t kl0 n0) key b := by
    unfold lookup
    rw [lookupEntry_wk]
    rfl
  refine ⟨?_, rfl⟩
  rw [← e'] at e
  simp only [HTable.step, e, Outcome.ok_bind, Outcome.pure_eq, LossyMap.step, mapStep]
  cases s.map key <;> rfl

theorem length_without [DecidableEq K] {ks l : List K} (hks : ks.Nodup) (hl : l.Nodup) (hsub : ∀ x ∈ l, x ∈ ks) :
    (ks.filter (fun y => y ∉ l)).length + l.length = ks.length := by
  have h1 : ks.toFinset \ l.toFinset = (ks.filter (fun y => y ∉ l)).toFinset := by
    ext x
    simp
  have h2 := Finset.card_sdiff_add_card_eq_card (s := l.toFinset) (t := ks.toFinset) (by
    intro x hx
    simp only [List.mem_toFinset] at hx ⊢
    exact hsub x hx)
  rw [h1, List.toFinset_card_of_nodup (hks.filter _), List.toFinset_card_of_nodup hl, List.toFinset_card_of_nodup hks] at h2
  exact h2

theorem lossy_remove [DecidableEq K] {cmp : K → K → Int} (hc : LawfulCmp cmp) {hash : K → Nat} {t : Table K} {ch} {s : LossyMap K} (h : Lossy cmp hash t ch s) (key : K)
    (buf : Bytes) (hv : buf.length = getHtypeSize t.dtype) (hkd : getHtypeSize t.ktype = getHtypeSize t.dtype) :
    ∃ t' ch', HTable.step cmp hash t (.remove key buf) = .ok ((s.step hash (.remove key buf)).1, t') ∧ Lossy cmp hash t' ch' (s.step hash (.remove key buf)).2 ∧
      t'.dtype = t.dtype ∧ t'.ktype = t.ktype := by
  obtain ⟨kl0, n0, ks0, ks, hr, ha, hk, hs, hsub, hsz⟩ := h
  have hn0 : n0 = ks0.length := hr.size
  obtain ⟨ks', e1, hk', _⟩ := SetT.remove_rep hc hk hs key
  have hpos : ∀ v, s.map key = some v → t.size ≠ 0 ∧ 0 < ks0.length := by
    intro v hm
    have : key ∈ ks0 := (hr.mem key).mpr (by rw [hm]; rfl)
    have := List.length_pos_of_mem this
    omega
  have hlen : ∀ v, s.map key = some v → v.length = getHtypeSize t.dtype := by
    intro v hm
    obtain ⟨a, ha⟩ := (hr.abs key v).mp hm
    exact hr.chains.len _ _ ha
  by_cases hl : Loses hash s.account key
  · obtain ⟨v, t0', pre, a, post, hm, e0, hb, hnew, hch, hag, hd, hkt⟩ := remove_cuts_agrees hc hr ha key buf hl
    have hk0 : (wk t kl0 n0).ktype = t.ktype := rfl
    rw [hk0, hkd, memcpy_full hv (hlen v hm), Outcome.ok_bind] at e0
    obtain ⟨e2, e3⟩ := remove_wk (hpos v hm).1 e1 e0
    have hknd := hr.chains.key_nodup (hash key)
    rw [hb, List.map_append, List.map_cons, List.nodup_append, List.nodup_cons, hnew] at hknd
    set newer := newerThan key (s.account (hash key)) with hnewer
    have hks0 := SetT.strictSorted_nodup hc hr.sorted
    have hnin : ∀ x ∈ newer, x ∈ ks0 ∧ hash x = hash key := by
      intro x hx
      rw [← hnew] at hx
      obtain ⟨i, hi, rfl⟩ := List.mem_map.mp hx
      have hich : i ∈ ch (hash key) := by rw [hb]; exact List.mem_append_left _ hi
      have hh := hr.chains.key_hash _ i hich
      refine ⟨?_, hh⟩
      rw [hr.mem, (hr.abs i.2.1 i.2.2).mpr ⟨i.1, by rw [hh]; exact hich⟩]
      rfl
    have hkey0 : key ∈ ks0 := (hr.mem key).mpr (by rw [hm]; rfl)
    have hcount := length_without (l := key :: newer) hks0 (List.nodup_cons.mpr ⟨fun hi => hknd.2.2 _ hi _ (by simp) rfl, hknd.1⟩) (by
      intro x hx
      rcases List.mem_cons.mp hx with rfl | hx
      · exact hkey0
      · exact (hnin x hx).1)
    set ks1 := ks0.filter (fun y => y ∉ key :: newer) with hks1
    refine ⟨wk t0' ks' (t.size - 1), fun c => if c = hash key then post else ch c, ?_, ⟨⟨ks1.map some ++ [none], ks1.length, ks1.length + 1⟩, ks1.length, ks1, ks.filter (fun y => y ≠ key), ?_,
      ?_, hk', List.Pairwise.sublist List.filter_sublist hs, ?_, ?_⟩, hd, hkt⟩
    · simp only [HTable.step, e2, Outcome.ok_bind, Outcome.pure_eq, LossyMap.step, mapStep, hm]
    · have hmap : (s.step hash (.remove key buf)).2.map = fun x => if x = key ∨ x ∈ newer then none else s.map x := by
        simp only [LossyMap.step, if_pos hl, hnewer]
      rw [hmap]
      refine ⟨chains_of_eq hch rfl rfl rfl rfl, ?_, ⟨rfl, by simp [wk], by simp [wk], [none], rfl⟩, List.Pairwise.sublist List.filter_sublist hr.sorted, ?_, rfl⟩
      · intro k w
        by_cases hkk : k = key ∨ k ∈ newer
        · rw [if_pos hkk]
          have hhk : hash k = hash key := by
            rcases hkk with rfl | hkk
            · rfl
            · exact (hnin k hkk).2
          simp only [hhk, if_true]
          constructor
          · intro hf; simp at hf
          · rintro ⟨a', hin⟩
            exfalso
            rcases hkk with rfl | hkk
            · exact hknd.2.1.1 (List.mem_map.mpr ⟨_, hin, rfl⟩)
            · exact hknd.2.2 _ hkk _ (List.mem_cons_of_mem _ (List.mem_map.mpr ⟨_, hin, rfl⟩)) rfl
        · rw [if_neg hkk, hr.abs]
          rw [not_or] at hkk
          by_cases hhk : hash k = hash key
          · simp only [hhk, if_true, hb, List.mem_append, List.mem_cons]
            constructor
            · rintro ⟨a', hin | hin | hin⟩
              · exact absurd (by rw [← hnew]; exact List.mem_map.mpr ⟨_, hin, rfl⟩) hkk.2
              · simp at hin; exact absurd hin.2.1 hkk.1
              · exact ⟨a', hin⟩
            · rintro ⟨a', hin⟩; exact ⟨a', Or.inr (Or.inr hin)⟩
          · simp [hhk]
      · intro k
        rw [hks1, List.mem_filter, hr.mem]
        by_cases hkk : k = key ∨ k ∈ newer
        · rw [if_pos hkk]
          simp only [List.mem_cons, hkk]
          simp
        · rw [if_neg hkk]
          simp only [List.mem_cons, hkk]
          simp
    · have hacc : (s.step hash (.remove key buf)).2.account = fun b => if b = hash key then markFirst true (olderThan key (s.account b)) else s.account b := by
        simp only [LossyMap.step, if_pos hl]
      rw [hacc]
      exact hag
    · intro k hin
      rw [hks1, List.mem_filter] at hin
      refine List.mem_filter.mpr ⟨hsub k hin.1, ?_⟩
      have := hin.2
      simp only [List.mem_cons, not_or, decide_eq_true_eq] at this
      simpa using this.1
    · have hlost : (s.step hash (.remove key buf)).2.lost = s.lost + newer.length := by
        simp only [LossyMap.step, if_pos hl, hnewer]
      rw [hlost]
      simp only [List.length_cons] at hcount
      show t.size - 1 = _
      omega
  · have hstep : (s.step hash (.remove key buf)).2 = { s with map := (mapStep s.map (.remove key buf)).2, account := bucketsStep hash s.account (.remove key buf) } := by
      simp only [LossyMap.step, if_neg hl]
    rw [hstep]
    rcases remove_agrees hc hr ha key buf hl with ⟨hm, _, ha1⟩ | ⟨v, t0', ch', hm, e0, hr', ha', hd, hkt⟩
    · have hmm : (fun x => if x = key then none else s.map x) = s.map := by
        funext x
        by_cases hx : x = key
        · simp [hx, hm]
        · simp [hx]
      refine ⟨t, ch, ?_, ⟨kl0, n0, ks0, ks, ?_, ha1, hk, hs, hsub, hsz⟩, rfl, rfl⟩
      · have hrem : remove cmp hash t key buf = .ok (0, buf, t) := by
          rcases lookupEntry_rep hc hr.chains key with ⟨e, hn⟩ | ⟨a, v, e, hmem⟩
          · rw [lookupEntry_wk] at e
            unfold remove
            split_ifs
            · rfl
            · rw [e]; rfl
          · have := hr.unique hmem
            rw [hm] at this
            simp at this
        simp only [HTable.step, hrem, Outcome.ok_bind, Outcome.pure_eq, LossyMap.step, mapStep, hm]
      · simp only [mapStep, hmm]
        exact hr
    · have hk0 : (wk t kl0 n0).ktype = t.ktype := rfl
      rw [hk0, hkd, memcpy_full hv (hlen v hm), Outcome.ok_bind] at e0
      obtain ⟨e2, e3⟩ := remove_wk (hpos v hm).1 e1 e0
      have hn1 := hr'.size
      have hp := hpos v hm
      refine ⟨wk t0' ks' (t.size - 1), ch', ?_, ⟨t0'.keys, t0'.size, _, ks.filter (fun y => y ≠ key), hr', ha', hk', List.Pairwise.sublist List.filter_sublist hs, ?_, ?_⟩, hd, hkt⟩
      · simp only [HTable.step, e2, Outcome.ok_bind, Outcome.pure_eq, LossyMap.step, mapStep, hm]
      · intro k hin
        rw [List.mem_filter] at hin
        exact List.mem_filter.mpr ⟨hsub k hin.1, hin.2⟩
      · show t.size - 1 = _ + s.lost
        omega

theorem lossy_step [DecidableEq K] {cmp : K → K → Int} (hc : LawfulCmp cmp) {hash : K → Nat} (op : MapOp K) {t : Table K} {ch} {s : LossyMap K} (h : Lossy cmp hash t ch s)
    (hsz : opSized (getHtypeSize t.dtype) op) (hkd : getHtypeSize t.ktype = getHtypeSize t.dtype) :
    ∃ t' ch', HTable.step cmp hash t op = .ok ((s.step hash op).1, t') ∧ Lossy cmp hash t' ch' (s.step hash op).2 ∧ t'.dtype = t.dtype ∧ t'.ktype = t.ktype := by
  cases op with
  | insert k v => exact lossy_insert hc h k v hsz
  | lookup k b =>
    obtain ⟨e, e'⟩ := lossy_lookup hc h k b hsz
    exact ⟨t, ch, e, by rw [e']; exact h, rfl, rfl⟩
  | remove k b => exact lossy_remove hc h k b hsz hkd

theorem lossy_run [DecidableEq K] {cmp : K → K → Int} (hc : LawfulCmp cmp) {hash : K → Nat} (ops : List (MapOp K)) :
    ∀ {t : Table K} {ch} {s : LossyMap K}, Lossy cmp hash t ch s → (∀ op ∈ ops, opSized (getHtypeSize t.dtype) op) → getHtypeSize t.ktype = getHtypeSize t.dtype →
      ∃ t' ch', HTable.run cmp hash t ops = .ok ((s.run hash ops).1, t') ∧ Lossy cmp hash t' ch' (s.run hash ops).2 := by
  induction ops with
  | nil => intro t ch s h _ _; exact ⟨t, ch, rfl, h⟩
  | cons op ops ih =>
    intro t ch s h hsz hkd
    have hsz0 := hsz op (by simp)
    have hsz' : ∀ o ∈ ops, opSized (getHtypeSize t.dtype) o := fun o ho => hsz o (by simp [ho])
    obtain ⟨t1, ch1, e1, h1, hd, hk⟩ := lossy_step hc op h hsz0 hkd
    obtain ⟨t2, ch2, e2, h2⟩ := ih h1 (by rw [hd]; exact hsz') (by rw [hd, hk]; exact hkd)
    refine ⟨t2, ch2, ?_, h2⟩
    simp only [HTable.run, e1, Outcome.ok_bind, e2, LossyMap.run]
    rfl

theorem lost_step [DecidableEq K] (hash : K → Nat) (s : LossyMap K) (op : MapOp K) : s.lost ≤ (s.step hash op).2.lost := by
  cases op with
  | remove k b =>
    simp only [LossyMap.step]
    split_ifs
    · exact Nat.le_add_right _ _
    · exact le_rfl
  | _ => exact le_rfl

theorem lost_run [DecidableEq K] (hash : K → Nat) (ops : List (MapOp K)) : ∀ s : LossyMap K, s.lost ≤ (s.run hash ops).2.lost := by
  induction ops with
  | nil => intro s; exact le_rfl
  | cons op ops ih => intro s; exact (lost_step hash s op).trans (ih _)

/-- Keys are lost exactly by histories that are not safe. -/
theorem lost_iff [DecidableEq K] {cmp : K → K → Int} (hc : LawfulCmp cmp) {hash : K → Nat} (ops : List (MapOp K)) :
    ∀ {t : Table K} {ch} {s : LossyMap K}, Lossy cmp hash t ch s → (∀ op ∈ ops, opSized (getHtypeSize t.dtype) op) → getHtypeSize t.ktype = getHtypeSize t.dtype →
      ((s.run hash ops).2.lost = s.lost ↔ SafeHistory hash s.account ops) := by
  induction ops with
  | nil => intro t ch s _ _ _; simp [LossyMap.run, SafeHistory]
  | cons op ops ih =>
    intro t ch s h hsz hkd
    obtain ⟨t1, ch1, e1, h1, hd, hk⟩ := lossy_step hc op h (hsz op (by simp)) hkd
    have hi := ih h1 (by rw [hd]; exact fun o ho => hsz o (by simp [ho])) (by rw [hd, hk]; exact hkd)
    show ((s.step hash op).2.run hash ops).2.lost = s.lost ↔ _
    cases op with
    | insert k v => exact hi
    | lookup k b => exact hi
    | remove k b =>
      by_cases hl : Loses hash s.account k
      · have hlost : (s.step hash (.remove k b)).2.lost = s.lost + (newerThan k (s.account (hash k))).length := by
          simp only [LossyMap.step, if_pos hl]
        have hpos : 0 < (newerThan k (s.account (hash k))).length := by
          obtain ⟨kl0, n0, ks0, ks, hr, ha, _⟩ := h
          have hknd := hr.chains.key_nodup (hash k)
          rw [← prevs_keys (ha _ (hr.chains.hash_lt k))] at hknd
          have hl' := hl
          unfold Loses at hl'
          cases hq : s.account (hash k) with
          | nil => rw [hq] at hl'; simp at hl'
          | cons y q =>
            rw [hq, List.tail_cons] at hl'
            rw [hq, List.map_cons, List.nodup_cons] at hknd
            have hy : y.1 ≠ k := by
              rintro rfl
              exact hknd.1 (List.mem_map.mpr ⟨_, hl', rfl⟩)
            simp [newerThan, List.takeWhile_cons, hy]
        have hmono := lost_run hash ops (s.step hash (.remove k b)).2
        constructor
        · intro he; omega
        · intro hs; exact absurd hl hs.1
      · have hstep : (s.step hash (.remove k b)).2 = { s with map := (mapStep s.map (.remove k b)).2, account := bucketsStep hash s.account (.remove k b) } := by
          simp only [LossyMap.step, if_neg hl]
        rw [hstep] at hi ⊢
        simp only [SafeHistory, hl, not_false_eq_true, true_and]
        exact hi

theorem hooked_of_lossy {cmp : K → K → Int} {hash : K → Nat} {t : Table K} {s ch m ks} (h : Rep cmp hash t s ch m ks) (hnd : ks.Nodup) :
    ∃ D : Finset Nat, (∀ x, x ∈ D ↔ Hooked ch x) ∧ D.card = ks.length ∧ ∀ x ∈ D, t.heap x ≠ none := by
  classical
  have hit : ∀ k ∈ ks, ∃ it, it ∈ ch (hash k) ∧ it.2.1 = k := by
    intro k hk
    obtain ⟨v, hv⟩ := Option.isSome_iff_exists.mp ((h.mem k).mp hk)
    obtain ⟨a, ha⟩ := (h.abs _ _).mp hv
    exact ⟨_, ha, rfl⟩
  choose! f hf1 hf2 using hit
  have hinj : Set.InjOn (fun k => (f k).1) (ks.toFinset : Set K) := by
    intro a ha b hb hab
    have ha : a ∈ ks := by simpa using ha
    have hb : b ∈ ks := by simpa using hb
    have hbk := h.chains.addr_inj _ _ _ _ (hf1 a ha) (hf1 b hb) hab
    have := List.inj_on_of_nodup_map (h.chains.addr_nodup (hash a)) (hf1 a ha) (by rw [hbk]; exact hf1 b hb) hab
    rw [← hf2 a ha, ← hf2 b hb, this]
  have hmem : ∀ x, x ∈ ks.toFinset.image (fun k => (f k).1) ↔ Hooked ch x := by
    intro x
    rw [Finset.mem_image]
    constructor
    · rintro ⟨k, hk, rfl⟩
      exact ⟨_, _, hf1 k (by simpa using hk), rfl⟩
    · rintro ⟨b, it, hitb, rfl⟩
      have hb := h.chains.key_hash b it hitb
      have hk : it.2.1 ∈ ks := by
        rw [h.mem, (h.abs it.2.1 it.2.2).mpr ⟨it.1, by rw [hb]; exact hitb⟩]
        rfl
      refine ⟨it.2.1, by simpa using hk, ?_⟩
      have h1 := hf1 _ hk
      rw [hb] at h1
      rw [List.inj_on_of_nodup_map (h.chains.key_nodup b) h1 hitb (hf2 _ hk)]
  refine ⟨_, hmem, ?_, ?_⟩
  · rw [Finset.card_image_of_injOn hinj, List.toFinset_card_of_nodup hnd]
  · intro x hx
    obtain ⟨b, it, hit, rfl⟩ := (hmem x).mp hx
    have hb : b < t.table.length := by rw [← h.chains.key_hash b it hit]; exact h.chains.hash_lt _
    obtain ⟨p, last, _, hl⟩ := h.chains.link b hb
    obtain ⟨l, r, hlr⟩ := List.append_of_mem hit
    rw [hlr] at hl
    obtain ⟨_, _, _, _, e, he, _⟩ := (lseg_append _ _).mp hl
    simp [he]

end Verif.HTable
