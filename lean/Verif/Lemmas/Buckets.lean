import Verif.Spec.Buckets
import Verif.Lemmas.HTable
/-
Helper lemmas for the second part of C07: the `prev` fields of the entries of a chain agree with the account that `Spec.Bucket` keeps.
-/
namespace Verif.HTable
open Spec
variable {K : Type}

/-- The `prev` fields of a chain. -/
def Prevs (heap : Nat → Option (Entry K)) : Option Nat → List (Item K) → Bucket K → Prop
  | _, [], [] => True
  | prev, i :: r, (k, c) :: q => k = i.2.1 ∧ (∃ e, heap i.1 = some e ∧ e.prev = if c then none else prev) ∧ Prevs heap (some i.1) r q
  | _, _, _ => False

theorem prevs_keys {heap : Nat → Option (Entry K)} : ∀ {l : List (Item K)} {q : Bucket K} {prev}, Prevs heap prev l q → q.map (·.1) = l.map (·.2.1)
  | [], [], _, _ => rfl
  | i :: r, (k, c) :: q, _, h => by
    simp only [List.map_cons, h.1, prevs_keys h.2.2]
  | [], _ :: _, _, h => h.elim
  | _ :: _, [], _, h => h.elim

theorem prevs_congr {heap heap' : Nat → Option (Entry K)} : ∀ {l : List (Item K)} {q : Bucket K} {prev}, (∀ i ∈ l, ∀ e, heap i.1 = some e → ∃ e', heap' i.1 = some e' ∧ e'.prev = e.prev) →
    Prevs heap prev l q → Prevs heap' prev l q
  | [], [], _, _, _ => trivial
  | i :: r, (k, c) :: q, _, hc, ⟨h1, ⟨e, h2, h3⟩, h4⟩ => by
    obtain ⟨e', h5, h6⟩ := hc i (by simp) e h2
    exact ⟨h1, ⟨e', h5, h6.trans h3⟩, prevs_congr (fun j hj => hc j (by simp [hj])) h4⟩
  | [], _ :: _, _, _, h => h.elim
  | _ :: _, [], _, _, h => h.elim

/-- Addresses and keys alone matter. -/
theorem prevs_map {heap : Nat → Option (Entry K)} {f : Item K → Item K} (h1 : ∀ i, (f i).1 = i.1) (h2 : ∀ i, (f i).2.1 = i.2.1) :
    ∀ {l : List (Item K)} {q : Bucket K} {prev}, Prevs heap prev l q → Prevs heap prev (l.map f) q
  | [], [], _, _ => trivial
  | i :: r, (k, c) :: q, _, ⟨a1, a2, a3⟩ => by
    refine ⟨by rw [h2]; exact a1, by rw [h1]; exact a2, ?_⟩
    rw [h1]
    exact prevs_map h1 h2 a3
  | [], _ :: _, _, h => h.elim
  | _ :: _, [], _, h => h.elim

/-- The address of the last entry of a chain. -/
def lastAddr (prev : Option Nat) (l : List (Item K)) : Option Nat := l.foldl (fun _ i => some i.1) prev

/-- Split an account along a chain. -/
theorem prevs_split {heap : Nat → Option (Entry K)} : ∀ {pre post : List (Item K)} {i : Item K} {q : Bucket K} {prev}, Prevs heap prev (pre ++ i :: post) q →
    ∃ q1 c q2, q = q1 ++ (i.2.1, c) :: q2 ∧ Prevs heap prev pre q1 ∧ (∃ e, heap i.1 = some e ∧ e.prev = if c then none else lastAddr prev pre) ∧
      Prevs heap (some i.1) post q2
  | [], post, i, (k, c) :: q, prev, ⟨h1, h2, h3⟩ => ⟨[], c, q, by rw [h1]; rfl, trivial, h2, h3⟩
  | x :: pre, post, i, (k, c) :: q, prev, ⟨h1, h2, h3⟩ => by
    obtain ⟨q1, c', q2, e, h4, h5, h6⟩ := prevs_split h3
    exact ⟨(k, c) :: q1, c', q2, by rw [e]; rfl, ⟨h1, h2, h4⟩, h5, h6⟩
  | [], _, _, [], _, h => h.elim
  | _ :: _, _, _, [], _, h => h.elim

/-- Put a chain together. -/
theorem prevs_append {heap : Nat → Option (Entry K)} : ∀ {pre post : List (Item K)} {q1 q2 : Bucket K} {prev}, Prevs heap prev pre q1 →
    Prevs heap (lastAddr prev pre) post q2 → Prevs heap prev (pre ++ post) (q1 ++ q2)
  | [], _, [], _, _, _, h => h
  | _ :: _, _, (_, _) :: _, _, _, ⟨h1, h2, h3⟩, h => ⟨h1, h2, prevs_append h3 h⟩
  | [], _, _ :: _, _, _, h, _ => h.elim
  | _ :: _, _, [], _, _, h, _ => h.elim

/-- The first entry gets a new `prev` field. -/
theorem prevs_mark {heap heap' : Nat → Option (Entry K)} {lost : Bool} {prev prev' : Option Nat} {l : List (Item K)} {q : Bucket K} (h : Prevs heap prev l q)
    (h1 : ∀ i r, l = i :: r → (∃ e, heap' i.1 = some e ∧ e.prev = if lost then none else prev') ∧ ∀ j ∈ r, heap' j.1 = heap j.1) :
    Prevs heap' prev' l (markFirst lost q) :=
  match l, q, h with
  | [], [], _ => trivial
  | i :: r, (k, c) :: q, ⟨a1, _, a3⟩ => ⟨a1, (h1 i r rfl).1, prevs_congr (fun j hj e he => ⟨e, by rw [(h1 i r rfl).2 j hj, he], rfl⟩) a3⟩

/-- A chain is determined by the heap. -/
theorem lseg_unique {heap : Nat → Option (Entry K)} : ∀ {l l' : List (Item K)} {s s' prev prev' start last last'}, LSeg heap s prev start l last none →
    LSeg heap s' prev' start l' last' none → l = l'
  | [], [], _, _, _, _, _, _, _, _, _ => rfl
  | [], _ :: _, _, _, _, _, _, _, _, ⟨h1, _⟩, ⟨h2, _⟩ => by rw [h1] at h2; cases h2
  | _ :: _, [], _, _, _, _, _, _, _, ⟨h2, _⟩, ⟨h1, _⟩ => by rw [h1] at h2; cases h2
  | (a, k, v) :: r, (a', k', v') :: r', _, _, _, _, _, _, _, ⟨h1, e, h2, h3, h4, _, h5⟩, ⟨h1', e', h2', h3', h4', _, h5'⟩ => by
    rw [h1] at h1'
    obtain rfl : a = a' := by simpa using h1'
    simp only at h2 h2' h3 h3' h4 h4'
    rw [h2] at h2'
    cases h2'
    rw [← h3, ← h4, h3', h4', lseg_unique h5 h5']

theorem chains_unique {hash : K → Nat} {t : Table K} {s s' ch ch'} (h : Chains hash t s ch) (h' : Chains hash t s' ch') (b : Nat) (hb : b < t.table.length) : ch b = ch' b := by
  obtain ⟨p, l, e, h1⟩ := h.link b hb
  obtain ⟨p', l', e', h1'⟩ := h'.link b hb
  rw [e] at e'
  cases e'
  exact lseg_unique h1 h1'

/-- All `prev` fields agree with the account. -/
def Agrees (t : Table K) (ch : Nat → List (Item K)) (st : Nat → Bucket K) : Prop := ∀ b < t.table.length, Prevs t.heap none (ch b) (st b)

/-- A new entry in front of its chain. -/
theorem hookNew_agrees {hash : K → Nat} {t t1 t2 : Table K} {s ch st} (h : Chains hash t s ch) (ha : Agrees t ch st) (key : K) (value : Bytes) {a : Nat}
    (hv : value.length = getHtypeSize t.dtype) (e1 : setEntry t key value = .ok (a, t1)) (e2 : hookFront t1 (hash key) a = .ok t2) :
    t2.table.length = t.table.length ∧ ∀ b < t.table.length, Prevs t2.heap none (if b = hash key then (t.fresh, key, value) :: ch b else ch b)
      (if b = hash key then (key, false) :: markFirst false (st b) else st b) := by
  obtain ⟨p, last, hp, hl⟩ := h.link (hash key) (h.hash_lt key)
  have hlt := h.hash_lt key
  have hother : ∀ b, ∀ i ∈ ch b, i.1 ≠ t.fresh := fun b i hi => Nat.ne_of_lt (h.addr_lt b i hi)
  have em := memcpy_full (dst := List.replicate (getHtypeSize t.dtype) 0) (by simp) hv
  simp only [setEntry, em, Outcome.ok_bind, Outcome.pure_eq, Outcome.ok.injEq, Prod.mk.injEq] at e1
  obtain ⟨rfl, rfl⟩ := e1
  have hpk := ha _ hlt
  cases hch : ch (hash key) with
  | nil =>
    rw [hch] at hl hpk
    obtain ⟨rfl, _⟩ := hl
    simp only [hookFront, rd, store, hp, Outcome.ok_bind, wr, hlt, if_true, Outcome.pure_eq, Outcome.ok.injEq] at e2
    subst e2
    refine ⟨by simp, fun b hb => ?_⟩
    by_cases hbk : b = hash key
    · subst hbk
      simp only [if_true, hch]
      refine ⟨rfl, ⟨_, if_pos rfl, by simp⟩, ?_⟩
      exact prevs_mark hpk (fun i r e => by cases e)
    · simp only [hbk, if_false]
      refine prevs_congr ?_ (ha b hb)
      intro i hi e he
      exact ⟨e, by simp [hother b i hi, he], rfl⟩
  | cons i0 r =>
    have hi0 : i0 ∈ ch (hash key) := by rw [hch]; simp
    have hne : i0.1 ≠ t.fresh := hother _ i0 hi0
    have hnd := h.addr_nodup (hash key)
    rw [hch, List.map_cons, List.nodup_cons] at hnd
    rw [hch] at hl hpk
    obtain ⟨hp0, f, hf, hfk, hfd, hfp, hfl⟩ := hl
    subst hp0
    simp only [hookFront, rd, store, deref, hp, Outcome.ok_bind, if_true, hne, if_false, hf, wr, hlt, Outcome.pure_eq, Outcome.ok.injEq] at e2
    subst e2
    refine ⟨by simp, fun b hb => ?_⟩
    by_cases hbk : b = hash key
    · subst hbk
      simp only [if_true, hch]
      refine ⟨rfl, ⟨⟨key, value, some i0.1, none⟩, ?_, by simp⟩, ?_⟩
      · simp [hne.symm]
      · refine prevs_mark hpk (fun i r' e => ?_)
        cases e
        refine ⟨⟨{ f with prev := some t.fresh }, by simp, by simp⟩, ?_⟩
        intro j hj
        have h1 : j.1 ≠ i0.1 := fun he => hnd.1 (List.mem_map.mpr ⟨j, hj, he⟩)
        have h2 : j.1 ≠ t.fresh := hother _ j (by rw [hch]; simp [hj])
        simp [h1, h2]
    · simp only [hbk, if_false]
      refine prevs_congr ?_ (ha b hb)
      intro i hi e he
      have h1 := hother b i hi
      have h2 : i.1 ≠ i0.1 := fun he => hbk (h.addr_inj _ _ _ _ hi hi0 he)
      exact ⟨e, by simp [h1, h2, he], rfl⟩

/-- Everything about the chains except the links is inherited when items are taken out of one chain. -/
theorem chains_sub {hash : K → Nat} {t t' : Table K} {s s' ch} (h : Chains hash t s ch) {b : Nat} {l : List (Item K)} (hb : l.Sublist (ch b))
    (hlink : ∀ c < t'.table.length, ∃ p last, t'.table[c]? = some p ∧ LSeg t'.heap s' none p (if c = b then l else ch c) last none)
    (hf : t'.fresh = t.fresh) (hd : t'.dtype = t.dtype) (hl : t'.table.length = t.table.length) : Chains hash t' s' (fun c => if c = b then l else ch c) := by
  have hsub : ∀ c, List.Sublist (if c = b then l else ch c) (ch c) := by
    intro c
    by_cases hc : c = b
    · subst hc
      rwa [if_pos rfl]
    · rw [if_neg hc]
  refine ⟨hlink, ?_, ?_, ?_, ?_, ?_, ?_, ?_⟩
  · intro c i hi; rw [hf]; exact h.addr_lt c i ((hsub c).subset hi)
  · intro c; exact ((hsub c).map _).nodup (h.addr_nodup c)
  · intro c c' i i' hi hi' he; exact h.addr_inj c c' i i' ((hsub c).subset hi) ((hsub c').subset hi') he
  · intro c i hi; exact h.key_hash c i ((hsub c).subset hi)
  · intro c; exact ((hsub c).map _).nodup (h.key_nodup c)
  · intro c i hi; rw [hd]; exact h.len c i ((hsub c).subset hi)
  · intro k; rw [hl]; exact h.hash_lt k

/-- Unhooking an entry without `prev`: the chain starts behind it from then on, whatever was in front of it. -/
theorem unhook_none {hash : K → Nat} {t : Table K} {ch} (h : Chains hash t false ch) {b a : Nat} {k : K} {v : Bytes}
    {pre post : List (Item K)} (hb : ch b = pre ++ (a, k, v) :: post) (hbl : b < t.table.length) {e : Entry K} (he : t.heap a = some e) (hpr : e.prev = none) :
    ∃ t1 t2 e, unhookPrev t b a = .ok t1 ∧ unhookNext t1 a = .ok t2 ∧ t2.heap a = some e ∧ e.data = v ∧
      Chains hash (free t2 a) false (fun c => if c = b then post else ch c) ∧ t2.keys = t.keys ∧ t2.size = t.size ∧ t2.dtype = t.dtype ∧ t2.ktype = t.ktype ∧
      (∀ i r, post = i :: r → ∃ f, (free t2 a).heap i.1 = some f ∧ f.prev = none) ∧ (free t2 a).table.length = t.table.length ∧
      (∀ x, x ≠ a → (∀ i r, post = i :: r → x ≠ i.1) → (free t2 a).heap x = t.heap x) := by
  obtain ⟨p0, last, hp0, hl⟩ := h.link b hbl
  have hnd := h.addr_nodup b
  rw [hb] at hl hnd
  obtain ⟨pp, q, hpre, hq, e', he', hek, hed, _, hpost⟩ := (lseg_append _ _).mp hl
  simp only at hq he' hek hed hpost
  obtain rfl : e = e' := by rw [he] at he'; simpa using he'
  rw [List.map_append, List.nodup_append] at hnd
  obtain ⟨hnd1, hnd2, hdis⟩ := hnd
  rw [List.map_cons, List.nodup_cons] at hnd2
  have hpost_ne : ∀ i ∈ post, i.1 ≠ a := fun i hi he => hnd2.1 (List.mem_map.mpr ⟨i, hi, he⟩)
  have hout : ∀ c, c ≠ b → ∀ i ∈ ch c, i.1 ≠ a ∧ (∀ j ∈ post, i.1 ≠ j.1) := by
    intro c hcb i hi
    refine ⟨fun he => ?_, fun j hj he => ?_⟩
    · exact hcb (h.addr_inj _ _ i (a, k, v) hi (by rw [hb]; simp) he)
    · exact hcb (h.addr_inj _ _ i j hi (by rw [hb]; simp [hj]) he)
  have hsub : post.Sublist (ch b) := by rw [hb]; exact (List.sublist_cons_self _ _).trans (List.sublist_append_right _ _)
  cases post with
  | nil =>
    obtain ⟨hn, _⟩ := hpost
    refine ⟨{ t with table := t.table.set b none }, { t with table := t.table.set b none }, e, ?_, ?_, he, hed, ?_, rfl, rfl, rfl, rfl, (by intro i r h; cases h), (by simp [free]), ?_⟩
    · simp only [unhookPrev, deref, he, Outcome.ok_bind, hpr, wr, hbl, if_true, hn]; rfl
    · simp only [unhookNext, deref, he, Outcome.ok_bind, hn, hpr]; rfl
    · refine chains_sub h hsub ?_ rfl rfl (by simp [free])
      intro c hc
      have hc0 : c < t.table.length := by simpa [free] using hc
      by_cases hcb : c = b
      · subst hcb
        exact ⟨none, none, by simp [free, hbl], by simp [LSeg]⟩
      · obtain ⟨p', l', h1, h2⟩ := h.link c hc0
        refine ⟨p', l', by simp [free, Ne.symm hcb, h1], ?_⟩
        rw [if_neg hcb]
        refine lseg_congr _ ?_ h2
        intro i hi
        have := (hout c hcb i hi).1
        simp [free, this]
    · intro x hx _
      simp [free, hx]
  | cons n r =>
    have hpost0 := hpost
    obtain ⟨hn, f, hf, hfk, hfd, hfp, hfl⟩ := hpost
    have hna : n.1 ≠ a := hpost_ne n (by simp)
    set ta : Table K := { t with table := t.table.set b (some n.1) } with hta
    set tb : Table K := store ta n.1 { f with prev := none } with htb
    set tc : Table K := store tb n.1 { f with prev := none } with htc
    refine ⟨tb, store tc a { e with next := none }, { e with next := none }, ?_, ?_, by simp [store], hed, ?_, rfl, rfl, rfl, rfl, ?_, (by simp [free, store, htc, htb, hta]), ?_⟩
    · have hdn : deref ta n.1 = .ok f := by simp [deref, hta, hf]
      have hda : deref t a = .ok e := by simp [deref, he]
      simp only [unhookPrev, hda, Outcome.ok_bind, hpr, wr, hbl, if_true, hn]
      simp only [← hta, hdn, Outcome.ok_bind]
      rfl
    · have hda : deref tb a = .ok e := by simp [deref, htb, hta, store, hna.symm, he]
      have hdn : deref tb n.1 = .ok { f with prev := none } := by simp [deref, htb, store]
      have hda2 : deref tc a = .ok e := by simp [deref, htc, htb, hta, store, hna.symm, he]
      have e0 : (store tb n.1 { key := f.key, data := f.data, next := f.next, prev := none }) = tc := rfl
      simp only [unhookNext, hda, Outcome.ok_bind, hn, hdn, hpr, e0, hda2]
      rfl
    · refine chains_sub h hsub ?_ rfl rfl (by simp [free, store, htc, htb, hta])
      intro c hc
      have hc0 : c < t.table.length := by simpa [free, store, htc, htb, hta] using hc
      by_cases hcb : c = b
      · subst hcb
        refine ⟨some n.1, last, by simp [free, store, htc, htb, hta, hbl], ?_⟩
        rw [if_pos rfl]
        have hseg := lseg_setPrev hf rfl hnd2.2 none hpost0
        rw [hn] at hseg
        refine lseg_congr _ ?_ hseg
        intro i hi
        have h1 := hpost_ne i hi
        by_cases h2 : i.1 = n.1
        · simp [free, store, htc, htb, hta, h2, hna]
        · simp [free, store, htc, htb, hta, h1, h2]
      · obtain ⟨p', l', h1, h2⟩ := h.link c hc0
        refine ⟨p', l', by simp [free, store, htc, htb, hta, Ne.symm hcb, h1], ?_⟩
        rw [if_neg hcb]
        refine lseg_congr _ ?_ h2
        intro i hi
        have h3 := (hout c hcb i hi).1
        have h4 := (hout c hcb i hi).2 n (by simp)
        simp [free, store, htc, htb, hta, h3, h4]
    · intro i r' h
      cases h
      exact ⟨{ f with prev := none }, by simp [free, store, htc, htb, hta, hna], rfl⟩
    · intro x hx hi
      have := hi n r rfl
      simp [free, store, htc, htb, hta, hx, this]

set_option maxHeartbeats 1000000 in
/-- Unhooking an entry whose `prev` is the entry in front of it. -/
theorem unhook_some {hash : K → Nat} {t : Table K} {ch} (h : Chains hash t false ch) {b a : Nat} {k : K} {v : Bytes}
    {pre' post : List (Item K)} {p : Item K} (hb : ch b = (pre' ++ [p]) ++ (a, k, v) :: post) (hbl : b < t.table.length) {e : Entry K} (he : t.heap a = some e)
    (hpr : e.prev = some p.1) :
    ∃ t1 t2 e, unhookPrev t b a = .ok t1 ∧ unhookNext t1 a = .ok t2 ∧ t2.heap a = some e ∧ e.data = v ∧
      Chains hash (free t2 a) false (fun c => if c = b then (pre' ++ [p]) ++ post else ch c) ∧ t2.keys = t.keys ∧ t2.size = t.size ∧ t2.dtype = t.dtype ∧ t2.ktype = t.ktype ∧
      (∀ i r, post = i :: r → ∃ f, (free t2 a).heap i.1 = some f ∧ f.prev = none) ∧ (free t2 a).table.length = t.table.length ∧
      (∀ x, x ≠ a → (∀ i r, post = i :: r → x ≠ i.1) → ∀ g, t.heap x = some g → ∃ g', (free t2 a).heap x = some g' ∧ g'.prev = g.prev) ∧
      (∀ x, x ≠ a → x ≠ p.1 → (∀ i r, post = i :: r → x ≠ i.1) → (free t2 a).heap x = t.heap x) := by
  obtain ⟨p0, last, hp0, hl⟩ := h.link b hbl
  have hnd := h.addr_nodup b
  rw [hb] at hl hnd
  obtain ⟨pp, q, hpre, hq, e', he', hek, hed, _, hpost⟩ := (lseg_append _ _).mp hl
  simp only at hq he' hek hed hpost
  obtain rfl : e = e' := by rw [he] at he'; simpa using he'
  subst hq
  rw [List.map_append, List.nodup_append] at hnd
  obtain ⟨hnd1, hnd2, hdis⟩ := hnd
  rw [List.map_cons, List.nodup_cons] at hnd2
  have hpost_ne : ∀ i ∈ post, i.1 ≠ a := fun i hi he => hnd2.1 (List.mem_map.mpr ⟨i, hi, he⟩)
  have hpre_ne : ∀ i ∈ pre' ++ [p], i.1 ≠ a := fun i hi he => hdis _ (List.mem_map.mpr ⟨i, hi, he⟩) _ (by simp) rfl
  have hpp : ∀ i ∈ pre' ++ [p], ∀ j ∈ post, i.1 ≠ j.1 := fun i hi j hj he =>
    hdis _ (List.mem_map.mpr ⟨i, hi, rfl⟩) _ (List.mem_cons_of_mem _ (List.mem_map.mpr ⟨j, hj, rfl⟩)) he
  have hout : ∀ c, c ≠ b → ∀ i ∈ ch c, i.1 ≠ a ∧ (∀ j ∈ pre' ++ [p], i.1 ≠ j.1) ∧ (∀ j ∈ post, i.1 ≠ j.1) := by
    intro c hcb i hi
    refine ⟨fun he => ?_, fun j hj he => ?_, fun j hj he => ?_⟩
    · exact hcb (h.addr_inj _ _ i (a, k, v) hi (by rw [hb]; simp) he)
    · exact hcb (h.addr_inj _ _ i j hi (by rw [hb]; exact List.mem_append_left _ hj) he)
    · exact hcb (h.addr_inj _ _ i j hi (by rw [hb]; exact List.mem_append_right _ (by simp [hj])) he)
  obtain ⟨px, py, hpre1, hpy, f, hf, hfk, hfd, hfp, hfn, hlast⟩ := (lseg_append _ _).mp hpre
  subst hpy
  subst hlast
  have hpa : p.1 ≠ a := hpre_ne p (by simp)
  have hp_pre' : ∀ i ∈ pre', i.1 ≠ p.1 := by
    intro i hi he
    rw [List.map_append, List.nodup_append] at hnd1
    exact hnd1.2.2 _ (List.mem_map.mpr ⟨i, hi, rfl⟩) _ (by simp) he
  set ta : Table K := store t p.1 { f with next := e.next } with hta
  set tb : Table K := store ta a { e with prev := none } with htb
  have hda : deref ta a = .ok e := by simp [deref, hta, store, hpa.symm, he]
  have hdp : deref t p.1 = .ok f := by simp [deref, hf]
  have hdt : deref t a = .ok e := by simp [deref, he]
  have e1 : unhookPrev t b a = .ok tb := by
    have e0 : (store t p.1 { key := f.key, data := f.data, next := e.next, prev := f.prev }) = ta := rfl
    simp only [unhookPrev, hdt, Outcome.ok_bind, hpr, hdp, e0, hda]
    rfl
  have hdb : deref tb a = .ok { e with prev := none } := by simp [deref, htb, store]
  have hsub : ((pre' ++ [p]) ++ post).Sublist (ch b) := by rw [hb]; exact List.Sublist.append_left (List.sublist_cons_self _ _) _
  cases post with
  | nil =>
    obtain ⟨hn, rfl⟩ := hpost
    refine ⟨tb, tb, { e with prev := none }, e1, ?_, by simp [htb, store], hed, ?_, rfl, rfl, rfl, rfl, (by intro i r h; cases h), rfl, ?_, ?_⟩
    · simp only [unhookNext, hdb, Outcome.ok_bind, hn]; rfl
    · refine chains_sub h hsub ?_ rfl rfl rfl
      intro c hc
      have hc0 : c < t.table.length := hc
      by_cases hcb : c = b
      · subst hcb
        refine ⟨p0, some p.1, hp0, ?_⟩
        rw [if_pos rfl, List.append_nil]
        refine (lseg_append _ _).mpr ⟨px, some p.1, ?_, ?_⟩
        · refine lseg_congr _ ?_ hpre1
          intro i hi
          have h1 := hp_pre' i hi
          have h2 := hpre_ne i (by simp [hi])
          simp [free, store, htb, hta, h1, h2]
        · refine ⟨rfl, { f with next := e.next }, by simp [free, store, htb, hta, hpa], hfk, hfd, by simp, ?_⟩
          exact ⟨hn, rfl⟩
      · obtain ⟨p', l', h1, h2⟩ := h.link c hc0
        refine ⟨p', l', h1, ?_⟩
        rw [if_neg hcb]
        refine lseg_congr _ ?_ h2
        intro i hi
        have h3 := (hout c hcb i hi).1
        have h4 := (hout c hcb i hi).2.1 p (by simp)
        simp [free, store, htb, hta, h3, h4]
    · intro x hx _ g hg
      by_cases hxp : x = p.1
      · rw [hxp, hf] at hg
        cases hg
        exact ⟨{ f with next := e.next }, by simp [free, store, htb, hta, hxp, hpa], rfl⟩
      · exact ⟨g, by simp [free, store, htb, hta, hx, hxp, hg], rfl⟩
    · intro x hx hxp _
      simp [free, store, htb, hta, hx, hxp]
  | cons n r =>
    have hpost0 := hpost
    obtain ⟨hn, g, hg, hgk, hgd, hgp, hgl⟩ := hpost
    have hna : n.1 ≠ a := hpost_ne n (by simp)
    have hpn : p.1 ≠ n.1 := hpp p (by simp) n (by simp)
    set tc : Table K := store tb n.1 { g with prev := none } with htc
    have hdn : deref tb n.1 = .ok g := by simp [deref, htb, hta, store, hna, hpn.symm, hg]
    have hdc : deref tc a = .ok { e with prev := none } := by simp [deref, htc, htb, store, hna.symm]
    refine ⟨tb, store tc a { e with prev := none, next := none }, { e with prev := none, next := none }, e1, ?_, by simp [store], hed, ?_, rfl, rfl, rfl, rfl, ?_, rfl, ?_, ?_⟩
    · have e0 : (store tb n.1 { key := g.key, data := g.data, next := g.next, prev := none }) = tc := rfl
      simp only [unhookNext, hdb, Outcome.ok_bind, hn, hdn, e0, hdc]
      rfl
    · refine chains_sub h hsub ?_ rfl rfl rfl
      intro c hc
      have hc0 : c < t.table.length := hc
      by_cases hcb : c = b
      · subst hcb
        refine ⟨p0, last, hp0, ?_⟩
        rw [if_pos rfl]
        refine (lseg_append _ _).mpr ⟨some p.1, some n.1, (lseg_append _ _).mpr ⟨px, some p.1, ?_, ?_⟩, ?_⟩
        · refine lseg_congr _ ?_ hpre1
          intro i hi
          have h1 := hp_pre' i hi
          have h2 := hpre_ne i (by simp [hi])
          have h3 := hpp i (by simp [hi]) n (by simp)
          simp [free, store, htc, htb, hta, h1, h2, h3]
        · refine ⟨rfl, { f with next := e.next }, by simp [free, store, htc, htb, hta, hpa, hpn], hfk, hfd, by simp, ?_⟩
          exact ⟨hn, rfl⟩
        · have hseg := lseg_setPrev hg rfl hnd2.2 none hpost0
          rw [hn] at hseg
          refine lseg_congr _ ?_ (lseg_weak_prev (prev' := some p.1) hseg)
          intro i hi
          have h1 := hpost_ne i hi
          have h3 := (hpp p (by simp) i hi).symm
          by_cases h2 : i.1 = n.1
          · simp [free, store, htc, htb, hta, h2, hna]
          · simp [free, store, htc, htb, hta, h1, h2, h3]
      · obtain ⟨p', l', h1, h2⟩ := h.link c hc0
        refine ⟨p', l', h1, ?_⟩
        rw [if_neg hcb]
        refine lseg_congr _ ?_ h2
        intro i hi
        have h3 := (hout c hcb i hi).1
        have h4 := (hout c hcb i hi).2.1 p (by simp)
        have h5 := (hout c hcb i hi).2.2 n (by simp)
        simp [free, store, htc, htb, hta, h3, h4, h5]
    · intro i r' h
      cases h
      exact ⟨{ g with prev := none }, by simp [free, store, htc, htb, hta, hna], rfl⟩
    · intro x hx hi g' hg'
      have hxn := hi n r rfl
      by_cases hxp : x = p.1
      · rw [hxp, hf] at hg'
        cases hg'
        exact ⟨{ f with next := e.next }, by simp [free, store, htc, htb, hta, hxp, hpa, hpn], rfl⟩
      · exact ⟨g', by simp [free, store, htc, htb, hta, hx, hxp, hxn, hg'], rfl⟩
    · intro x hx hxp hi
      have hxn := hi n r rfl
      simp [free, store, htc, htb, hta, hx, hxp, hxn]

/-- The rest of `hashtable_remove` once the entry is unhooked. -/
theorem remove_finish [DecidableEq K] {cmp : K → K → Int} (hc : LawfulCmp cmp) {hash : K → Nat} {t t1 t2 : Table K} {ch m ks}
    (h : Rep cmp hash t false ch m ks) (key : K) (buf : Bytes) {a : Nat} {v : Bytes} {en : Entry K} {pre post : List (Item K)} (hms : m key = some v)
    (e : lookupEntry cmp hash t key = .ok (some a)) (hb : ch (hash key) = pre ++ (a, key, v) :: post) (e1 : unhookPrev t (hash key) a = .ok t1)
    (e2 : unhookNext t1 a = .ok t2) (hen : t2.heap a = some en) (hed : en.data = v)
    (hch : Chains hash (free t2 a) false (fun c => if c = hash key then pre ++ post else ch c)) (hk : t2.keys = t.keys) (hs : t2.size = t.size)
    (hd : t2.dtype = t.dtype) (hkt : t2.ktype = t.ktype) :
    ∃ t', remove cmp hash t key buf = (memcpy buf v (getHtypeSize t.ktype) >>= fun b => .ok (1, b, t')) ∧
      Rep cmp hash t' false (fun c => if c = hash key then pre ++ post else ch c) (fun x => if x = key then none else m x) (ks.filter (fun y => y ≠ key)) ∧
      t'.dtype = t.dtype ∧ t'.ktype = t.ktype ∧ t'.heap = (free t2 a).heap ∧ t'.table = (free t2 a).table := by
  have hmem : key ∈ ks := by rw [h.mem, hms]; rfl
  have hz : t.size ≠ 0 := by
    rw [h.size]
    intro h0
    rw [List.eq_nil_of_length_eq_zero h0] at hmem
    simp at hmem
  obtain ⟨ks', e3, hr, _⟩ := SetT.remove_rep hc h.ksrep h.sorted key
  have hknd := h.chains.key_nodup (hash key)
  rw [hb, List.map_append, List.map_cons, List.nodup_append, List.nodup_cons] at hknd
  have hnot : ∀ a' w, (a', key, w) ∉ pre ++ post := by
    intro a' w hin
    rcases List.mem_append.mp hin with hin | hin
    · exact hknd.2.2 _ (List.mem_map.mpr ⟨_, hin, rfl⟩) _ (by simp) rfl
    · exact hknd.2.1.1 (List.mem_map.mpr ⟨_, hin, rfl⟩)
  refine ⟨{ free t2 a with size := t2.size - 1, keys := ks' }, ?_, ⟨chains_of_eq hch rfl rfl rfl rfl, ?_, hr, List.Pairwise.filter _ h.sorted, ?_, ?_⟩, hd, hkt, rfl, rfl⟩
  · unfold remove
    rw [if_neg hz, e]
    simp only [Outcome.ok_bind, e1, e2, entryDestroy, deref, hen, hed, hkt]
    cases memcpy buf v (getHtypeSize t.ktype) with
    | ok b' =>
      simp only [Outcome.ok_bind, Outcome.pure_eq]
      have : (free t2 a).keys = t.keys := hk
      rw [this, e3]
      rfl
    | ub w => rfl
    | abort w => rfl
    | diverge => rfl
  · intro k w
    by_cases hkk : k = key
    · subst hkk
      simp only [if_true]
      constructor
      · intro h; simp at h
      · rintro ⟨a', ha'⟩; exact absurd ha' (hnot _ _)
    · simp only [hkk, if_false]
      rw [h.abs]
      by_cases hh : hash k = hash key
      · simp only [hh, if_true, hb]
        constructor
        · rintro ⟨a', ha'⟩
          refine ⟨a', ?_⟩
          rcases List.mem_append.mp ha' with h1 | h1
          · exact List.mem_append_left _ h1
          · rcases List.mem_cons.mp h1 with h1 | h1
            · simp at h1; exact absurd h1.2.1 hkk
            · exact List.mem_append_right _ h1
        · rintro ⟨a', ha'⟩
          refine ⟨a', ?_⟩
          rcases List.mem_append.mp ha' with h1 | h1
          · exact List.mem_append_left _ h1
          · exact List.mem_append_right _ (List.mem_cons_of_mem _ h1)
      · simp [hh]
  · intro k
    rw [List.mem_filter, h.mem]
    by_cases hkk : k = key
    · simp [hkk]
    · simp [hkk]
  · show t2.size - 1 = _
    obtain ⟨j, hj, hjk⟩ := List.getElem_of_mem hmem
    rw [hs, h.size, ← SetT.eraseIdx_filter (SetT.strictSorted_nodup hc h.sorted) hj hjk, List.length_eraseIdx_of_lt hj]

theorem bucketRemove_split [DecidableEq K] {k : K} {c : Bool} : ∀ {q1 q2 : Bucket K}, k ∉ q1.map (·.1) → bucketRemove k (q1 ++ (k, c) :: q2) = q1 ++ markFirst true q2
  | [], q2, _ => by simp [bucketRemove]
  | (x, d) :: q1, q2, h => by
    have h1 : x ≠ k := fun e => h (by simp [e])
    have h2 : k ∉ q1.map (·.1) := fun e => h (by simp [e])
    simp only [List.cons_append, bucketRemove, h1, if_false, bucketRemove_split h2]

theorem bucketRemove_absent [DecidableEq K] {k : K} : ∀ {q : Bucket K}, k ∉ q.map (·.1) → bucketRemove k q = q
  | [], _ => rfl
  | (x, d) :: q, h => by
    have h1 : x ≠ k := fun e => h (by simp [e])
    have h2 : k ∉ q.map (·.1) := fun e => h (by simp [e])
    simp only [bucketRemove, h1, if_false, bucketRemove_absent h2]

/-- A removal that is not dangerous is exact. -/
theorem remove_agrees [DecidableEq K] {cmp : K → K → Int} (hc : LawfulCmp cmp) {hash : K → Nat} {t : Table K} {ch m ks st}
    (h : Rep cmp hash t false ch m ks) (ha : Agrees t ch st) (key : K) (buf : Bytes) (hsafe : ¬ Loses hash st key) :
    (m key = none ∧ remove cmp hash t key buf = .ok (0, buf, t) ∧ Agrees t ch (bucketsStep hash st (.remove key buf))) ∨
    (∃ v t' ch', m key = some v ∧
      remove cmp hash t key buf = (memcpy buf v (getHtypeSize t.ktype) >>= fun b => .ok (1, b, t')) ∧
      Rep cmp hash t' false ch' (fun x => if x = key then none else m x) (ks.filter (fun y => y ≠ key)) ∧
      Agrees t' ch' (bucketsStep hash st (.remove key buf)) ∧ t'.dtype = t.dtype ∧ t'.ktype = t.ktype) := by
  have habs : (∀ i ∈ ch (hash key), i.2.1 ≠ key) → Agrees t ch (bucketsStep hash st (.remove key buf)) := by
    intro hn b hb
    simp only [bucketsStep]
    by_cases hbk : b = hash key
    · subst hbk
      rw [if_pos rfl, bucketRemove_absent]
      · exact ha _ hb
      · rw [prevs_keys (ha _ hb)]
        intro hm
        obtain ⟨i, hi, e⟩ := List.mem_map.mp hm
        exact hn i hi e
    · rw [if_neg hbk]
      exact ha b hb
  rcases lookupEntry_rep hc h.chains key with ⟨e, hn⟩ | ⟨a, v, e, hm⟩
  · left
    refine ⟨h.none_of hn, ?_, habs hn⟩
    unfold remove
    by_cases hz : t.size = 0
    · rw [if_pos hz]
    · rw [if_neg hz, e]; rfl
  · right
    have hms := h.unique hm
    obtain ⟨pre, post, hb⟩ := List.append_of_mem hm
    have hlt := h.chains.hash_lt key
    have hp := ha _ hlt
    rw [hb] at hp
    obtain ⟨q1, c, q2, hq, hp1, ⟨en, hen, hepr⟩, hp2⟩ := prevs_split hp
    simp only at hq hen hepr hp2
    have hknd := h.chains.key_nodup (hash key)
    have hand := h.chains.addr_nodup (hash key)
    rw [hb, List.map_append, List.map_cons, List.nodup_append, List.nodup_cons] at hknd hand
    have hkq : key ∉ q1.map (·.1) := by
      rw [prevs_keys hp1]
      intro hin
      exact hknd.2.2 _ hin _ (by simp) rfl
    have hpost_ne : ∀ i ∈ post, i.1 ≠ a := fun i hi he => hand.2.1.1 (List.mem_map.mpr ⟨i, hi, he⟩)
    have hpre_ne : ∀ i ∈ pre, i.1 ≠ a := fun i hi he => hand.2.2 _ (List.mem_map.mpr ⟨i, hi, he⟩) _ (by simp) rfl
    have hpp : ∀ i ∈ pre, ∀ j ∈ post, i.1 ≠ j.1 := fun i hi j hj he =>
      hand.2.2 _ (List.mem_map.mpr ⟨i, hi, rfl⟩) _ (List.mem_cons_of_mem _ (List.mem_map.mpr ⟨j, hj, rfl⟩)) he
    have hout : ∀ c, c ≠ hash key → ∀ i ∈ ch c, i.1 ≠ a ∧ (∀ j ∈ post, i.1 ≠ j.1) := by
      intro c hcb i hi
      refine ⟨fun he => ?_, fun j hj he => ?_⟩
      · exact hcb (h.chains.addr_inj _ _ i (a, key, v) hi hm he)
      · exact hcb (h.chains.addr_inj _ _ i j hi (by rw [hb]; simp [hj]) he)
    -- what remains to be shown once the entry is unhooked
    have fin : ∀ {t1 t2 : Table K} {en' : Entry K}, unhookPrev t (hash key) a = .ok t1 → unhookNext t1 a = .ok t2 → t2.heap a = some en' → en'.data = v →
        Chains hash (free t2 a) false (fun c => if c = hash key then pre ++ post else ch c) → t2.keys = t.keys → t2.size = t.size → t2.dtype = t.dtype → t2.ktype = t.ktype →
        (∀ i r, post = i :: r → ∃ f, (free t2 a).heap i.1 = some f ∧ f.prev = none) → (free t2 a).table.length = t.table.length →
        (∀ x, x ≠ a → (∀ i r, post = i :: r → x ≠ i.1) → ∀ g, t.heap x = some g → ∃ g', (free t2 a).heap x = some g' ∧ g'.prev = g.prev) →
        ∃ v t' ch', m key = some v ∧ remove cmp hash t key buf = (memcpy buf v (getHtypeSize t.ktype) >>= fun b => .ok (1, b, t')) ∧
          Rep cmp hash t' false ch' (fun x => if x = key then none else m x) (ks.filter (fun y => y ≠ key)) ∧
          Agrees t' ch' (bucketsStep hash st (.remove key buf)) ∧ t'.dtype = t.dtype ∧ t'.ktype = t.ktype := by
      intro t1 t2 en' e1 e2 hen' hed hch hk hs hd hkt hfirst hlen hsame
      obtain ⟨t', er, hr, hd', hkt', hh', ht'⟩ := remove_finish hc h key buf hms e hb e1 e2 hen' hed hch hk hs hd hkt
      refine ⟨v, t', _, hms, er, hr, ?_, hd', hkt'⟩
      intro b hbl
      rw [ht', hlen] at hbl
      rw [hh']
      simp only [bucketsStep]
      by_cases hbk : b = hash key
      · subst hbk
        rw [if_pos rfl, if_pos rfl, hq, bucketRemove_split hkq]
        refine prevs_append (prevs_congr ?_ hp1) ?_
        · intro i hi g hg
          exact hsame i.1 (hpre_ne i hi) (fun j r hj => hpp i hi j (by rw [hj]; simp)) g hg
        · have hp3 : Prevs (free t2 a).heap none post (markFirst true q2) := by
            cases post with
            | nil =>
              cases q2 with
              | nil => trivial
              | cons _ _ => exact hp2.elim
            | cons n r =>
              cases q2 with
              | nil => exact hp2.elim
              | cons q q2 =>
                obtain ⟨k1, c1⟩ := q
                obtain ⟨x1, x2, x3⟩ := hp2
                obtain ⟨f, hf, hfp⟩ := hfirst n r rfl
                refine ⟨x1, ⟨f, hf, by simpa using hfp⟩, prevs_congr ?_ x3⟩
                intro j hj g hg
                refine hsame j.1 (hpost_ne j (by simp [hj])) (fun i r' hi => ?_) g hg
                cases hi
                have := hand.2.1.2
                rw [List.map_cons, List.nodup_cons] at this
                exact fun he => this.1 (List.mem_map.mpr ⟨j, hj, he⟩)
          cases post with
          | nil =>
            cases q2 with
            | nil => trivial
            | cons _ _ => exact hp2.elim
          | cons n r =>
            cases q2 with
            | nil => exact hp2.elim
            | cons q q2 =>
              obtain ⟨k1, c1⟩ := q
              obtain ⟨x1, x2, x3⟩ := hp3
              exact ⟨x1, by simpa using x2, x3⟩
      · rw [if_neg hbk, if_neg hbk]
        refine prevs_congr ?_ (ha b hbl)
        intro i hi g hg
        exact hsame i.1 (hout b hbk i hi).1 (fun j r hj => (hout b hbk i hi).2 j (by rw [hj]; simp)) g hg
    rcases List.eq_nil_or_concat pre with rfl | ⟨pre', p, rfl⟩
    · have hnone : en.prev = none := by rw [hepr]; simp [lastAddr]
      obtain ⟨t1, t2, en', e1, e2, h1, h2, h3, h4, h5, h6, h7, h8, h9, h10⟩ := unhook_none h.chains hb hlt hen hnone
      exact fin e1 e2 h1 h2 (by simpa using h3) h4 h5 h6 h7 h8 h9 (fun x hx hi g hg => ⟨g, by rw [h10 x hx hi, hg], rfl⟩)
    · rw [List.concat_eq_append] at *
      have hc : c = false := by
        cases c with
        | false => rfl
        | true =>
          exfalso
          apply hsafe
          unfold Loses
          rw [hq]
          cases q1 with
          | nil =>
            cases pre' <;> exact hp1.elim
          | cons q q1 => simp
      have hsome : en.prev = some p.1 := by rw [hepr, hc]; simp [lastAddr]
      obtain ⟨t1, t2, en', e1, e2, h1, h2, h3, h4, h5, h6, h7, h8, h9, h10, _⟩ := unhook_some h.chains hb hlt hen hsome
      exact fin e1 e2 h1 h2 h3 h4 h5 h6 h7 h8 h9 h10

/-- Insertion keeps the account. -/
theorem insert_agrees [DecidableEq K] {cmp : K → K → Int} (hc : LawfulCmp cmp) {hash : K → Nat} {t : Table K} {ch m ks st}
    (h : Rep cmp hash t false ch m ks) (ha : Agrees t ch st) (key : K) (v : Bytes) (hv : v.length = getHtypeSize t.dtype) :
    ∃ t' ch', insert cmp hash t key v =
        .ok ((match m key with | none => 1 | some _ => -1), (match m key with | none => v | some old => old), t') ∧
      Rep cmp hash t' false ch' (fun x => if x = key then some v else m x) (setInsert cmp ks key) ∧
      Agrees t' ch' (bucketsStep hash st (.insert key v)) ∧ t'.dtype = t.dtype ∧ t'.ktype = t.ktype := by
  obtain ⟨t', ch', e', hr, hd, hkt, _⟩ := insert_rep hc h key v hv
  refine ⟨t', ch', e', hr, ?_, hd, hkt⟩
  have hkeys := prevs_keys (ha _ (h.chains.hash_lt key))
  unfold insert at e'
  rcases lookupEntry_rep hc h.chains key with ⟨e, hn⟩ | ⟨a, old, e, hm⟩
  · obtain ⟨t1, t2, e1, e2, hch, hk, hs, hd2, hkt2⟩ := hookNew_rep h.chains key v hv hn
    obtain ⟨hlen, hp⟩ := hookNew_agrees h.chains ha key v hv e1 e2
    obtain ⟨ks', e3, _, _⟩ := SetT.insert_rep hc h.ksrep h.sorted key
    rw [e] at e'
    simp only [Outcome.ok_bind, e1, e2, hk, e3, Outcome.pure_eq, Outcome.ok.injEq, Prod.mk.injEq] at e'
    obtain ⟨_, _, rfl⟩ := e'
    intro b hb
    rw [← chains_unique (chains_of_eq hch (t' := { t2 with size := t2.size + 1, keys := ks' }) rfl rfl rfl rfl) hr.chains b hb]
    have := hp b (by rw [← hlen]; exact hb)
    simp only [bucketsStep]
    by_cases hbk : b = hash key
    · subst hbk
      have hnot : key ∉ (st (hash key)).map (·.1) := by
        rw [hkeys]
        intro hin
        obtain ⟨i, hi, he⟩ := List.mem_map.mp hin
        exact hn i hi he
      rw [if_pos rfl, bucketInsert, if_neg hnot]
      simpa using this
    · simp only [hbk, if_false] at this ⊢
      exact this
  · obtain ⟨en, h1, h2, h3⟩ := h.chains.mem_heap hm
    have hlen := h.chains.len _ _ hm
    simp only at hlen
    rw [e] at e'
    simp only [Outcome.ok_bind, deref, h1, h3] at e'
    rw [memcpy_full (by simp) hlen] at e'
    simp only [Outcome.ok_bind] at e'
    rw [memcpy_full hlen hv] at e'
    simp only [Outcome.ok_bind] at e'
    rw [memcpy_full hv hlen] at e'
    simp only [Outcome.ok_bind, Outcome.pure_eq, Outcome.ok.injEq, Prod.mk.injEq] at e'
    obtain ⟨_, _, rfl⟩ := e'
    intro b hb
    obtain ⟨p, last, hp, hl⟩ := h.chains.link b hb
    obtain ⟨p', last', hp', hl'⟩ := hr.chains.link b hb
    have hpp : p = p' := by
      have : t.table[b]? = some p' := hp'
      rw [hp] at this
      simpa using this
    subst hpp
    rw [← lseg_unique (lseg_setData h1 _ hl) hl']
    have hst : bucketsStep hash st (.insert key v) b = st b := by
      simp only [bucketsStep]
      by_cases hbk : b = hash key
      · subst hbk
        rw [if_pos rfl, bucketInsert, if_pos]
        rw [hkeys]
        exact List.mem_map.mpr ⟨_, hm, rfl⟩
      · rw [if_neg hbk]
    rw [hst]
    refine prevs_map (f := fun i => if i.1 = a then (i.1, i.2.1, v) else i) ?_ ?_ (prevs_congr ?_ (ha b hb))
    · intro i; split <;> rfl
    · intro i; split <;> rfl
    · intro i hi g hg
      by_cases hia : i.1 = a
      · rw [hia, h1] at hg
        cases hg
        exact ⟨{ en with data := v }, by simp [store, hia], rfl⟩
      · exact ⟨g, by simp [store, hia, hg], rfl⟩

/-- A removal that is dangerous takes all newer keys of the bucket with it. -/
theorem remove_loses [DecidableEq K] {cmp : K → K → Int} (hc : LawfulCmp cmp) {hash : K → Nat} {t : Table K} {ch m ks st}
    (h : Rep cmp hash t false ch m ks) (ha : Agrees t ch st) (key : K) (buf : Bytes) (hlose : Loses hash st key) :
    ∃ v t', m key = some v ∧ remove cmp hash t key buf = (memcpy buf v (getHtypeSize t.ktype) >>= fun b => .ok (1, b, t')) ∧
      ∀ x, NewerInBucket hash st x key → (m x).isSome ∧ ∀ b, lookup cmp hash t' x b = .ok (0, b) := by
  have hlt := h.chains.hash_lt key
  have hp := ha _ hlt
  have hkeys := prevs_keys hp
  have hin : (key, true) ∈ st (hash key) := List.mem_of_mem_tail hlose
  have hmem : key ∈ (ch (hash key)).map (·.2.1) := by
    rw [← hkeys]
    exact List.mem_map.mpr ⟨_, hin, rfl⟩
  rcases lookupEntry_rep hc h.chains key with ⟨e, hn⟩ | ⟨a, v, e, hm⟩
  · obtain ⟨i, hi, he⟩ := List.mem_map.mp hmem
    exact absurd he (hn i hi)
  have hms := h.unique hm
  obtain ⟨pre, post, hb⟩ := List.append_of_mem hm
  have hp' := hp
  rw [hb] at hp'
  obtain ⟨q1, c, q2, hq, hp1, ⟨en, hen, hepr⟩, hp2⟩ := prevs_split hp'
  simp only at hq hen hepr hp2
  have hknd := h.chains.key_nodup (hash key)
  rw [← hkeys] at hknd
  have hc1 : c = true := by
    have h1 : (key, c) ∈ st (hash key) := by rw [hq]; simp
    have := List.inj_on_of_nodup_map hknd h1 hin rfl
    simpa using this
  have hnone : en.prev = none := by rw [hepr, hc1]; simp
  obtain ⟨t1, t2, en', e1, e2, h1, h2, h3, h4, h5, h6, h7, h8, h9, h10⟩ := unhook_none h.chains hb hlt hen hnone
  have hkm : key ∈ ks := by rw [h.mem, hms]; rfl
  have hz : t.size ≠ 0 := by
    rw [h.size]
    intro h0
    rw [List.eq_nil_of_length_eq_zero h0] at hkm
    simp at hkm
  obtain ⟨ks', e3, hr, _⟩ := SetT.remove_rep hc h.ksrep h.sorted key
  refine ⟨v, { free t2 a with size := t2.size - 1, keys := ks' }, hms, ?_, ?_⟩
  · unfold remove
    rw [if_neg hz, e]
    simp only [Outcome.ok_bind, e1, e2, entryDestroy, deref, h1, h2, h7]
    cases memcpy buf v (getHtypeSize t.ktype) with
    | ok b' =>
      simp only [Outcome.ok_bind, Outcome.pure_eq]
      have : (free t2 a).keys = t.keys := h4
      rw [this, e3]
      rfl
    | ub w => rfl
    | abort w => rfl
    | diverge => rfl
  · rintro x ⟨l, r, c', hl, hx⟩
    -- the account splits at the key in one way only
    have hnd := hknd
    rw [hl, List.map_append, List.map_cons, List.nodup_append, List.nodup_cons] at hnd
    have hsplit : q1.map (·.1) = l.map (·.1) := by
      have hnd2 := hknd
      rw [hq, List.map_append, List.map_cons, List.nodup_append, List.nodup_cons] at hnd2
      have he : q1.map (·.1) ++ key :: q2.map (·.1) = l.map (·.1) ++ key :: r.map (·.1) := by
        have : (q1 ++ (key, c) :: q2).map (·.1) = (l ++ (key, c') :: r).map (·.1) := by rw [← hq, hl]
        simpa using this
      have n1 : key ∉ q1.map (·.1) := fun hi => hnd2.2.2 _ hi _ (by simp) rfl
      have n2 : key ∉ l.map (·.1) := fun hi => hnd.2.2 _ hi _ (by simp) rfl
      rcases List.append_eq_append_iff.mp he with ⟨as, e1, e2⟩ | ⟨as, e1, e2⟩
      · cases as with
        | nil => simpa using e1.symm
        | cons y as =>
          simp only [List.cons_append, List.cons.injEq] at e2
          exact absurd (by rw [e1, e2.1]; simp) n2
      · cases as with
        | nil => simpa using e1
        | cons y as =>
          simp only [List.cons_append, List.cons.injEq] at e2
          exact absurd (by rw [e1, e2.1]; simp) n1
    have hxpre : x ∈ pre.map (·.2.1) := by rw [← prevs_keys hp1, hsplit]; exact hx
    obtain ⟨i, hi, hix⟩ := List.mem_map.mp hxpre
    have hich : i ∈ ch (hash key) := by rw [hb]; exact List.mem_append_left _ hi
    have hhx : hash x = hash key := by rw [← hix]; exact h.chains.key_hash _ i hich
    have hmx : (m x).isSome := by
      rw [(h.abs x i.2.2).mpr ⟨i.1, by rw [hhx, ← hix]; exact hich⟩]
      rfl
    refine ⟨hmx, fun b => ?_⟩
    have hch' := chains_of_eq h3 (t' := { free t2 a with size := t2.size - 1, keys := ks' }) rfl rfl rfl rfl
    rcases lookupEntry_rep hc hch' x with ⟨e, _⟩ | ⟨a', w, _, hin'⟩
    · simp only [lookup, e, Outcome.ok_bind]
      rfl
    · exfalso
      simp only [hhx, if_true] at hin'
      have hknd' := h.chains.key_nodup (hash key)
      rw [hb, List.map_append, List.map_cons, List.nodup_append] at hknd'
      exact hknd'.2.2 _ hxpre _ (List.mem_cons_of_mem _ (List.mem_map.mpr ⟨_, hin', rfl⟩)) rfl

end Verif.HTable
