import Verif.Spec.Keys
import Verif.Props.HTable
import Verif.Props.Compare
import Mathlib.Tactic.NormNum
import Mathlib.Tactic.Linarith
/-
C83, C84: hash tables whose keys are floating point numbers or strings.
-/
namespace Verif.Props
open Spec Keys
variable {K O : Type}

/-- When all keys can be observed, the history is that of the observations. -/
theorem keys_run {observe : K → Outcome O} {f : K → O} (cmp : O → O → Int) (hash : O → Nat) : ∀ (ops : List (MapOp K)) (t : HTable.Table O), (∀ op ∈ ops, observe (opKey op) = .ok (f (opKey op))) →
    Keys.run observe cmp hash t ops = HTable.run cmp hash t (ops.map (rekey f))
  | [], _, _ => rfl
  | op :: ops, t, h => by
    have h1 : Keys.step observe cmp hash t op = HTable.step cmp hash t (rekey f op) := by
      have := h op List.mem_cons_self
      cases op <;> simp only [Keys.step, key, opKey] at this ⊢ <;> rw [this] <;> rfl
    simp only [Keys.run, List.map_cons, HTable.run, h1]
    cases HTable.step cmp hash t (rekey f op) with
    | ok x =>
      simp only [Outcome.ok_bind]
      rw [keys_run cmp hash ops x.2 fun o ho => h o (List.mem_cons_of_mem _ ho)]
    | _ => rfl

theorem rekey_sized {n : Nat} {f : K → O} {op : MapOp K} (h : opSized n op) : opSized n (rekey f op) := by cases op <;> exact h

theorem rekey_isRemove {f : K → O} {op : MapOp K} (h : isRemove op = false) : isRemove (rekey f op) = false := by cases op <;> first | rfl | cases h

/-- A table whose keys can be observed is a map of the observations. -/
theorem keys_map [DecidableEq O] {observe : K → Outcome O} {f : K → O} {cmp : O → O → Int} (hc : LawfulCmp cmp) (hash : O → Nat) (kt dt : HType) (buckets : Nat) (hb : 0 < buckets)
    (hh : ∀ o, hash o < buckets) (ops : List (MapOp K)) (hnr : ∀ op ∈ ops, isRemove op = false) (hsz : ∀ op ∈ ops, opSized (getHtypeSize dt) op)
    (ho : ∀ op ∈ ops, observe (opKey op) = .ok (f (opKey op))) :
    ∃ t t' : HTable.Table O, HTable.initSize buckets kt dt = .ok t ∧ Keys.run observe cmp hash t ops = .ok ((mapRun (fun _ => none) (ops.map (rekey f))).1, t') := by
  obtain ⟨t, t', e1, e2⟩ := C06_hashtable_is_map hc hash kt dt buckets hb hh (ops.map (rekey f))
    (fun op h => by obtain ⟨o, ho, rfl⟩ := List.mem_map.1 h; exact rekey_isRemove (hnr o ho)) (fun op h => by obtain ⟨o, ho, rfl⟩ := List.mem_map.1 h; exact rekey_sized (hsz o ho))
  exact ⟨t, t', e1, by rw [keys_run (f := f) cmp hash ops t ho, e2]⟩

/-! ### C83 -/

/-- **C83, the part that holds.** A table whose keys are floating point numbers greater than -1 and less than 2^64 is a map: any history of insertions and lookups never goes wrong, and gives
    back what the ideal map from numbers to values gives back, however many keys have the same integral part.
    Missing: all other keys (`C83_violated`). -/
theorem C83_map_partial (kt dt : HType) (buckets : Nat) (hb : 0 < buckets) (ops : List (MapOp Dbl)) (hnr : ∀ op ∈ ops, isRemove op = false) (hsz : ∀ op ∈ ops, opSized (getHtypeSize dt) op)
    (hk : ∀ op ∈ ops, Hashable (opKey op)) :
    ∃ t t' : HTable.Table Rat, HTable.initSize buckets kt dt = .ok t ∧
      Keys.run observeDbl doubleCompare (dblHash buckets) t ops = .ok ((mapRun (fun _ => none) (ops.map (rekey Dbl.value))).1, t') := by
  refine keys_map C16_double_compare _ kt dt buckets hb (fun o => Nat.mod_lt _ hb) ops hnr hsz fun op hop => ?_
  obtain ⟨x, e, h1, h2⟩ := hk op hop
  rw [e]
  exact if_pos ⟨h1, h2⟩

/-- Three keys with the same integral part, one of them inserted twice. -/
example : ∃ ops : List (MapOp Dbl), ops.length = 5 ∧ (∀ op ∈ ops, isRemove op = false) ∧ (∀ op ∈ ops, opSized (getHtypeSize .int) op) ∧ (∀ op ∈ ops, Hashable (opKey op)) ∧
    (mapRun (fun _ => none) (ops.map (rekey Dbl.value))).1 = [(1, [1, 0, 0, 0]), (1, [2, 0, 0, 0]), (-1, [1, 0, 0, 0]), (1, [3, 0, 0, 0]), (0, [9, 9, 9, 9])] := by
  refine ⟨[.insert (.fin (1/2)) [1, 0, 0, 0], .insert (.fin (1/4)) [2, 0, 0, 0], .insert (.fin (1/2)) [3, 0, 0, 0], .lookup (.fin (1/2)) [9, 9, 9, 9], .lookup (.fin (-1/2)) [9, 9, 9, 9]], rfl,
    by simp [isRemove], by simp [opSized, getHtypeSize], ?_, by decide +kernel⟩
  simp only [List.mem_cons, List.not_mem_nil, or_false]
  rintro op (rfl | rfl | rfl | rfl | rfl) <;> exact ⟨_, rfl, by norm_num, by norm_num⟩

/-- **C83 is violated** by every other key: any call with NaN, an infinity, a number up to -1 or one from 2^64 on is undefined, in every state of the table. -/
theorem C83_violated (buckets : Nat) (t : HTable.Table Rat) (op : MapOp Dbl) (hk : ¬ Hashable (opKey op)) : (Keys.step observeDbl doubleCompare (dblHash buckets) t op).IsUB := by
  have : observeDbl (opKey op) = .ub "conversion of a floating point number to size_t" := by
    generalize hx : opKey op = k at hk
    cases k with
    | fin x => exact if_neg fun h => hk ⟨x, rfl, h.1, h.2⟩
    | _ => rfl
  refine ⟨"conversion of a floating point number to size_t", ?_⟩
  unfold Keys.step
  rw [show key op = opKey op by cases op <;> rfl, this]
  rfl

example : ¬ Hashable (.fin (-5/2)) ∧ ¬ Hashable .nan := by
  constructor
  · rintro ⟨x, e, h, _⟩
    cases e
    norm_num at h
  · rintro ⟨x, e, _⟩
    cases e

/-! ### C84 -/

theorem strcmp_swap : ∀ a b : List Nat, strcmp a b = -strcmp b a
  | [], [] => rfl
  | [], _ :: _ => rfl
  | _ :: _, [] => rfl
  | a :: r, b :: s => by
    simp only [strcmp]
    have := strcmp_swap r s
    split_ifs <;> omega

theorem strcmp_eq : ∀ a b : List Nat, strcmp a b = 0 ↔ a = b
  | [], [] => by simp [strcmp]
  | [], _ :: _ => by simp [strcmp]
  | _ :: _, [] => by simp [strcmp]
  | a :: r, b :: s => by
    simp only [strcmp, List.cons.injEq]
    have := strcmp_eq r s
    split_ifs with h1 h2
    · simp; omega
    · simp; omega
    · rw [this]; simp; omega

theorem strcmp_trans : ∀ a b c : List Nat, strcmp a b ≤ 0 → strcmp b c ≤ 0 → strcmp a c ≤ 0
  | [], _, [], _, _ => by simp [strcmp]
  | [], _, _ :: _, _, _ => by simp [strcmp]
  | _ :: _, [], _, h, _ => by simp [strcmp] at h
  | _ :: _, _ :: _, [], _, h => by simp [strcmp] at h
  | a :: r, b :: s, c :: u, h1, h2 => by
    simp only [strcmp] at h1 h2 ⊢
    have := strcmp_trans r s u
    split_ifs at h1 h2 ⊢ <;> omega

theorem strcmp_lawful : LawfulCmp strcmp where
  swap a b := by rw [strcmp_swap a b]; omega
  le_trans := strcmp_trans
  eq_iff := strcmp_eq

/-- What an ideal map gives back does not depend on what the keys are, only on which are the same. -/
theorem mapRun_rekey {K1 K2 : Type} [DecidableEq K1] [DecidableEq K2] {f : K → K1} {g : K → K2} {P : K → Prop} (hfg : ∀ a b, P a → P b → (f a = f b ↔ g a = g b)) : ∀ (ops : List (MapOp K))
    (m1 : K1 → Option Bytes) (m2 : K2 → Option Bytes), (∀ op ∈ ops, P (opKey op)) → (∀ a, P a → m1 (f a) = m2 (g a)) → (mapRun m1 (ops.map (rekey f))).1 = (mapRun m2 (ops.map (rekey g))).1
  | [], _, _, _, _ => rfl
  | op :: ops, m1, m2, hP, hm => by
    have hp := hP op List.mem_cons_self
    have e : (mapStep m1 (rekey f op)).1 = (mapStep m2 (rekey g op)).1 := by
      cases op <;> simp only [rekey, mapStep, opKey] at hp ⊢ <;> rw [hm _ hp]
    have hm' : ∀ a, P a → (mapStep m1 (rekey f op)).2 (f a) = (mapStep m2 (rekey g op)).2 (g a) := by
      intro a ha
      cases op with
      | insert k v =>
        simp only [rekey, mapStep]
        by_cases h : f a = f k
        · rw [if_pos h, if_pos ((hfg a k ha hp).1 h)]
        · rw [if_neg h, if_neg fun h' => h ((hfg a k ha hp).2 h')]; exact hm a ha
      | lookup k b => exact hm a ha
      | remove k b =>
        simp only [rekey, mapStep]
        by_cases h : f a = f k
        · rw [if_pos h, if_pos ((hfg a k ha hp).1 h)]
        · rw [if_neg h, if_neg fun h' => h ((hfg a k ha hp).2 h')]; exact hm a ha
    have ih := mapRun_rekey hfg ops _ _ (fun o ho => hP o (List.mem_cons_of_mem _ ho)) hm'
    exact congrArg₂ List.cons e ih

/-- Addresses below 2^56, as all are that a process can use, contain a zero byte. -/
theorem small_address {a : Nat} (h : a < 2 ^ 56) : 0 ∈ bytesOf a := by
  refine List.mem_map.2 ⟨7, by simp, ?_⟩
  rw [Nat.div_eq_of_lt (by simpa using h)]

/-- **C84, the part that holds.** A history of insertions and lookups with keys that are pointers to strings (`text a` is the string at address `a`) never goes wrong and gives back what the ideal
    map from strings gives back, if among the addresses used two have the same bytes before their first zero byte exactly when they have the same text.
    Missing: all other addresses (`C84_same_text_violated`, `C84_other_text_violated`). -/
theorem C84_map_partial (text : Nat → List Nat) (dt : HType) (buckets : Nat) (hb : 0 < buckets) (ops : List (MapOp Nat)) (hnr : ∀ op ∈ ops, isRemove op = false)
    (hsz : ∀ op ∈ ops, opSized (getHtypeSize dt) op) (ha : ∀ op ∈ ops, opKey op < 2 ^ 56) (ht : ∀ x ∈ ops, ∀ y ∈ ops, (prefixOf (opKey x) = prefixOf (opKey y) ↔ text (opKey x) = text (opKey y))) :
    ∃ t t' : HTable.Table (List Nat), HTable.initSize buckets .string dt = .ok t ∧
      Keys.run observeStr strcmp (textHash buckets) t ops = .ok ((mapRun (fun _ => none) (ops.map (rekey text))).1, t') := by
  obtain ⟨t, t', e1, e2⟩ := keys_map (observe := observeStr) (f := prefixOf) strcmp_lawful (textHash buckets) .string dt buckets hb (fun o => Nat.mod_lt _ hb) ops hnr hsz fun op hop => if_pos (small_address (ha op hop))
  refine ⟨t, t', e1, e2.trans ?_⟩
  rw [mapRun_rekey (f := prefixOf) (g := text) (P := fun a => ∃ op ∈ ops, a = opKey op) ?_ ops _ (fun _ => none) (fun op h => ⟨op, h, rfl⟩) (fun _ _ => rfl)]
  rintro a b ⟨x, hx, rfl⟩ ⟨y, hy, rfl⟩
  exact ht x hx y hy

/-- The two strings of the test of the library, at addresses whose bytes are not zero. -/
example : ∃ ops : List (MapOp Nat), ops.length = 3 ∧ (∀ op ∈ ops, isRemove op = false) ∧ (∀ op ∈ ops, opSized (getHtypeSize .int) op) ∧ (∀ op ∈ ops, opKey op < 2 ^ 56) ∧
    ∀ x ∈ ops, ∀ y ∈ ops, (prefixOf (opKey x) = prefixOf (opKey y) ↔ (fun a => if a = 0x555555556010 then [106, 117, 110, 105, 111, 114] else [109, 105, 99, 104, 97, 101, 108]) (opKey x) =
      (fun a => if a = 0x555555556010 then [106, 117, 110, 105, 111, 114] else [109, 105, 99, 104, 97, 101, 108]) (opKey y)) := by
  refine ⟨[.insert 0x555555556010 [34, 0, 0, 0], .insert 0x555555556017 [7, 0, 0, 0], .lookup 0x555555556010 [0, 0, 0, 0]], rfl, by simp [isRemove], by simp [opSized, getHtypeSize], by simp [opKey], ?_⟩
  have e1 : prefixOf 0x555555556010 = [0x10, 0x60, 0x55, 0x55, 0x55, 0x55] := by decide +kernel
  have e2 : prefixOf 0x555555556017 = [0x17, 0x60, 0x55, 0x55, 0x55, 0x55] := by decide +kernel
  simp only [List.mem_cons, List.not_mem_nil, or_false]
  rintro x (rfl | rfl | rfl) y (rfl | rfl | rfl) <;> simp [opKey, e1, e2]

/-- **C84 is violated** in both directions. A string that is in the table is not found under a copy of it at another address: for any two addresses whose bytes before the first zero byte differ. -/
theorem C84_same_text_violated (dt : HType) (buckets : Nat) (hb : 0 < buckets) (a b : Nat) (ha : a < 2 ^ 56) (hb' : b < 2 ^ 56) (hab : prefixOf a ≠ prefixOf b) (v buf : Bytes)
    (hv : v.length = getHtypeSize dt) (hbuf : buf.length = getHtypeSize dt) :
    ∃ t t' : HTable.Table (List Nat), HTable.initSize buckets .string dt = .ok t ∧ Keys.run observeStr strcmp (textHash buckets) t [.insert a v, .lookup b buf] = .ok ([(1, v), (0, buf)], t') := by
  obtain ⟨t, t', e1, e2⟩ := C84_map_partial prefixOf dt buckets hb [.insert a v, .lookup b buf] (by simp [isRemove]) (by simp [opSized, hv, hbuf]) (by simpa [opKey] using ⟨ha, hb'⟩) (fun _ _ _ _ => Iff.rfl)
  refine ⟨t, t', e1, e2.trans ?_⟩
  simp [rekey, mapRun, mapStep, Ne.symm hab]

/-- And two different strings are the same key when their addresses agree before the first zero byte, as all addresses do whose last byte is zero: the second insertion replaces the value of the first
    string. -/
theorem C84_other_text_violated (dt : HType) (buckets : Nat) (hb : 0 < buckets) (a b : Nat) (ha : a < 2 ^ 56) (hb' : b < 2 ^ 56) (hab : prefixOf a = prefixOf b) (v w buf : Bytes)
    (hv : v.length = getHtypeSize dt) (hw : w.length = getHtypeSize dt) (hbuf : buf.length = getHtypeSize dt) :
    ∃ t t' : HTable.Table (List Nat), HTable.initSize buckets .string dt = .ok t ∧
      Keys.run observeStr strcmp (textHash buckets) t [.insert a v, .insert b w, .lookup a buf] = .ok ([(1, v), (-1, v), (1, w)], t') := by
  obtain ⟨t, t', e1, e2⟩ := C84_map_partial prefixOf dt buckets hb [.insert a v, .insert b w, .lookup a buf] (by simp [isRemove]) (by simp [opSized, hv, hw, hbuf]) (by simpa [opKey] using ⟨ha, hb', ha⟩)
    (fun _ _ _ _ => Iff.rfl)
  refine ⟨t, t', e1, e2.trans ?_⟩
  simp [rekey, mapRun, mapStep, hab]

/-- Two addresses on different pages. -/
example : prefixOf 0x7f0012345600 = prefixOf 0x555555550000 ∧ prefixOf 0x555555556010 ≠ prefixOf 0x555555556020 := by decide +kernel

end Verif.Props
