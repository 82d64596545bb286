import Mathlib.Tactic.Linarith
import Mathlib.Tactic.Ring
import Mathlib.Tactic.NormNum
import Mathlib.Tactic.Positivity
import Mathlib.Algebra.Order.Floor.Ring
import Verif.Spec.Print
/-
Lemmas about formatting and character arrays.
-/
namespace Verif.Print
open Verif.Spec

/-! ### Character arrays -/

/-- No terminating character inside. -/
def NoNul (t : Text) : Prop := '\x00' ∉ t

theorem noNul_append {a b : Text} : NoNul (a ++ b) ↔ NoNul a ∧ NoNul b := by simp [NoNul, not_or]

theorem noNul_cons {c : Char} {b : Text} : NoNul (c :: b) ↔ c ≠ '\x00' ∧ NoNul b := by
  simp [NoNul, not_or, eq_comm]

theorem noNul_flatMap {α : Type} {l : List α} {f : α → Text} (h : ∀ x ∈ l, NoNul (f x)) : NoNul (l.flatMap f) := by
  intro hm; obtain ⟨x, hx, hf⟩ := List.mem_flatMap.1 hm; exact h x hx hf

theorem cstr_text : ∀ (t : Text) (r : Buf), NoNul t → cstr (t.map some ++ some '\x00' :: r) = .ok t
  | [], r, _ => by simp [cstr]
  | c :: t, r, h => by
    rw [noNul_cons] at h
    simp only [List.map_cons, List.cons_append, cstr, if_neg h.1, cstr_text t r h.2, Outcome.ok_bind, Outcome.pure_eq]

/-- A readable array begins with its text and a NUL. -/
theorem cstr_ok : ∀ {b : Buf} {s : Text}, cstr b = .ok s → NoNul s ∧ ∃ r, b = s.map some ++ some '\x00' :: r
  | [], s, h => by simp [cstr] at h
  | none :: _, s, h => by simp [cstr] at h
  | some c :: r, s, h => by
    rw [cstr] at h
    by_cases hc : c = '\x00'
    · rw [if_pos hc] at h; simp only [Outcome.ok.injEq] at h; subst h; subst hc
      exact ⟨by simp [NoNul], r, rfl⟩
    · rw [if_neg hc] at h
      obtain ⟨t, e, h⟩ := Outcome.bind_eq_ok.1 h
      simp only [Outcome.pure_eq, Outcome.ok.injEq] at h; subst h
      obtain ⟨hn, r', hr⟩ := cstr_ok e
      exact ⟨noNul_cons.2 ⟨hc, hn⟩, r', by rw [hr]; rfl⟩

theorem sprintf_over {b : Buf} {off : Nat} {t : Text} (h : b.length < off + t.length + 1) : (sprintf b off t).IsUB := by
  rw [sprintf, if_neg (by omega)]; exact ⟨_, rfl⟩

theorem sprintf_zero {b : Buf} {t : Text} (hn : NoNul t) (h : t.length + 1 ≤ b.length) :
    ∃ b', sprintf b 0 t = .ok b' ∧ b'.length = b.length ∧ cstr b' = .ok t := by
  rw [sprintf, if_pos (by omega)]
  refine ⟨_, rfl, by simp; omega, ?_⟩
  simp only [List.take_zero, List.nil_append, List.map_append, List.map_cons, List.map_nil, List.append_assoc, List.cons_append]
  exact cstr_text t _ hn

theorem append_ok {b : Buf} {s t : Text} (hs : cstr b = .ok s) (hn : NoNul t) (h : s.length + t.length + 1 ≤ b.length) :
    ∃ b', append b t = .ok b' ∧ b'.length = b.length ∧ cstr b' = .ok (s ++ t) := by
  obtain ⟨hns, r, hr⟩ := cstr_ok hs
  rw [append, hs, Outcome.ok_bind, sprintf, if_pos (by omega)]
  refine ⟨_, rfl, by simp; omega, ?_⟩
  have e : b.take s.length = s.map some := by rw [hr]; simp
  rw [e]
  simp only [List.map_append, List.map_cons, List.map_nil, List.append_assoc, List.cons_append]
  rw [← List.append_assoc, ← List.map_append]
  exact cstr_text _ _ (noNul_append.2 ⟨hns, hn⟩)

theorem append_over {b : Buf} {s t : Text} (hs : cstr b = .ok s) (h : b.length < s.length + t.length + 1) : (append b t).IsUB := by
  rw [append, hs, Outcome.ok_bind]; exact sprintf_over h

theorem isUB_bind {α β : Type} {x : Outcome α} {f : α → Outcome β} (h : x.IsUB) : (x >>= f).IsUB := by
  obtain ⟨s, rfl⟩ := h; exact ⟨s, rfl⟩

theorem appendAll_ok : ∀ (ts : List Text) {b : Buf} {s : Text}, cstr b = .ok s → (∀ t ∈ ts, NoNul t) → s.length + ts.flatten.length + 1 ≤ b.length →
    ∃ b', appendAll ts b = .ok b' ∧ cstr b' = .ok (s ++ ts.flatten)
  | [], b, s, hs, _, _ => ⟨b, rfl, by simpa using hs⟩
  | t :: r, b, s, hs, hn, h => by
    simp only [List.flatten_cons, List.length_append] at h
    obtain ⟨b1, e1, l1, c1⟩ := append_ok hs (hn t (by simp)) (by omega)
    obtain ⟨b2, e2, c2⟩ := appendAll_ok r c1 (fun t ht => hn t (by simp [ht])) (by rw [l1, List.length_append]; omega)
    exact ⟨b2, by rw [appendAll, e1, Outcome.ok_bind, e2], by rw [c2]; simp⟩

theorem appendAll_over : ∀ (ts : List Text) {b : Buf} {s : Text}, cstr b = .ok s → (∀ t ∈ ts, NoNul t) → s.length + 1 ≤ b.length →
    b.length < s.length + ts.flatten.length + 1 → (appendAll ts b).IsUB
  | [], b, s, _, _, h1, h2 => by simp at h2; omega
  | t :: r, b, s, hs, hn, h1, h2 => by
    simp only [List.flatten_cons, List.length_append] at h2
    rw [appendAll]
    by_cases h : s.length + t.length + 1 ≤ b.length
    · obtain ⟨b1, e1, l1, c1⟩ := append_ok hs (hn t (by simp)) h
      rw [e1, Outcome.ok_bind]
      exact appendAll_over r c1 (fun t ht => hn t (by simp [ht])) (by rw [l1, List.length_append]; omega) (by rw [l1, List.length_append]; omega)
    · exact isUB_bind (append_over hs (by omega))

/-! ### The logger -/

/-- The text in front of a message. -/
def stamp (sys : Sys) (k : Nat) (ty : LogType) : Text := if ty = .none then [] else sys.date k ++ " ".toList ++ ty.name ++ ": ".toList

theorem name_noNul (ty : LogType) : NoNul ty.name := by cases ty <;> (simp only [NoNul, LogType.name]; decide)

theorem logger_ok {sys : Sys} (hc : ClockWorks sys) (ty : LogType) {msg : Text} (hn : NoNul msg) (w : World) :
    logger sys ty msg w = .ok { w with out := w.out ++ (stamp sys w.asked ty ++ msg), asked := w.asked + 1 } := by
  obtain ⟨hl, hd⟩ := hc w.asked
  rw [logger, getDate, if_pos (by omega), Outcome.ok_bind]
  by_cases h : ty = .none
  · simp only [h, if_true, stamp, Outcome.pure_eq, put, List.nil_append]
  · have hnn : NoNul (sys.date w.asked ++ " ".toList ++ ty.name ++ ": ".toList ++ msg) := by
      simp only [noNul_append]
      exact ⟨⟨⟨⟨hd, by simp [NoNul]⟩, name_noNul ty⟩, by simp [NoNul]⟩, hn⟩
    obtain ⟨b, e, _, c⟩ := sprintf_zero (b := alloc ((sys.date w.asked).length + ty.name.length + msg.length + 10)) hnn
      (by simp [alloc, List.length_append]; omega)
    simp only [if_neg h, e, Outcome.ok_bind, c, Outcome.pure_eq, put, stamp]

theorem logger_prints {sys : Sys} (hc : ClockWorks sys) {msg : Text} (hn : NoNul msg) (w : World) : Prints (logger sys .none msg w) w msg := by
  rw [logger_ok hc _ hn]; exact ⟨_, rfl, by simp [stamp], rfl⟩

theorem logBuf_prints {sys : Sys} (hc : ClockWorks sys) {b : Buf} {t : Text} (h : cstr b = .ok t) (w : World) : Prints (logBuf sys b w) w t := by
  rw [logBuf, h, Outcome.ok_bind]; exact logger_prints hc (cstr_ok h).1 w

theorem say_ok {sys : Sys} (hc : ClockWorks sys) {b : Buf} {t : Text} (hn : NoNul t) (h : t.length + 1 ≤ b.length) (w : World) :
    ∃ b' w', say sys b t w = .ok (b', w') ∧ b'.length = b.length ∧ w'.out = w.out ++ t ∧ w'.files = w.files := by
  obtain ⟨b', e, hl, hcs⟩ := sprintf_zero hn h
  obtain ⟨w', ew, ho, hf⟩ := logBuf_prints hc hcs w
  exact ⟨b', w', by rw [say, e, Outcome.ok_bind, ew, Outcome.ok_bind, Outcome.pure_eq], hl, ho, hf⟩

theorem sayAll_ok {sys : Sys} (hc : ClockWorks sys) : ∀ (ts : List Text) (b : Buf) (w : World), (∀ t ∈ ts, NoNul t ∧ t.length + 1 ≤ b.length) →
    ∃ b' w', sayAll sys ts b w = .ok (b', w') ∧ b'.length = b.length ∧ w'.out = w.out ++ ts.flatten ∧ w'.files = w.files
  | [], b, w, _ => ⟨b, w, rfl, rfl, by simp, rfl⟩
  | t :: r, b, w, h => by
    obtain ⟨b1, w1, e1, l1, o1, f1⟩ := say_ok hc (h t (by simp)).1 (h t (by simp)).2 w
    obtain ⟨b2, w2, e2, l2, o2, f2⟩ := sayAll_ok hc r b1 w1 (fun t ht => by rw [l1]; exact h t (by simp [ht]))
    exact ⟨b2, w2, by rw [sayAll, e1, Outcome.ok_bind]; exact e2, by rw [l2, l1], by rw [o2, o1]; simp, by rw [f2, f1]⟩

theorem sayAll_over {sys : Sys} (hc : ClockWorks sys) : ∀ (ts : List Text) (b : Buf) (w : World), (∀ t ∈ ts, NoNul t) →
    (∃ t ∈ ts, b.length < t.length + 1) → (sayAll sys ts b w).IsUB
  | [], _, _, _, h => by simp at h
  | t :: r, b, w, hn, h => by
    rw [sayAll]
    by_cases ht : t.length + 1 ≤ b.length
    · obtain ⟨b1, w1, e1, l1, _, _⟩ := say_ok hc (hn t (by simp)) ht w
      rw [e1, Outcome.ok_bind]
      refine sayAll_over hc r b1 w1 (fun t ht => hn t (by simp [ht])) ?_
      obtain ⟨t', ht', hl⟩ := h
      rcases List.mem_cons.1 ht' with rfl | ht'
      · omega
      · exact ⟨t', ht', by rw [l1]; exact hl⟩
    · refine isUB_bind ?_
      rw [say]; exact isUB_bind (sprintf_over (by omega))

/-! ### Lengths of formatted numbers -/

theorem digits_noNul (n : Nat) : NoNul (Nat.toDigits 10 n) := by
  intro h
  have := Nat.isDigit_of_mem_toDigits (by decide) (by decide) h
  simp [Char.isDigit] at this

theorem digits_le {n k : Nat} (hk : 0 < k) : (Nat.toDigits 10 n).length ≤ k ↔ n < 10 ^ k := Nat.length_toDigits_le_iff (by decide) hk

theorem fmtI_noNul (k : Int) : NoNul (fmtI k) := by
  rw [fmtI]; split
  · exact noNul_cons.2 ⟨by decide, digits_noNul _⟩
  · exact digits_noNul _

theorem fmtU_noNul (n : Nat) : NoNul (fmtU n) := fmtI_noNul _

theorem fmtL_noNul (n : Nat) : NoNul (fmtL n) := fmtI_noNul _

theorem asInt32_bounds (n : Nat) : -2 ^ 31 ≤ asInt32 n ∧ asInt32 n < 2 ^ 31 := by
  have : n % 2 ^ 32 < 2 ^ 32 := Nat.mod_lt _ (by decide)
  simp only [asInt32]; split <;> omega

theorem fmtU_length (n : Nat) : (fmtU n).length ≤ 11 := by
  have hb := asInt32_bounds n
  have h : (Nat.toDigits 10 (asInt32 n).natAbs).length ≤ 10 := (digits_le (by decide)).2 (by omega)
  rw [fmtU, fmtI]; split
  · simp; exact h
  · omega

theorem fmtL_length {n : Nat} (h : n < 2 ^ 63) : (fmtL n).length ≤ 19 := by
  rw [fmtL, fmtI, if_neg (by omega)]
  refine (digits_le (by decide)).2 ?_
  simp only [Int.natAbs_natCast]; omega

theorem fmtL_index {n : Nat} (h : n < 2 ^ 32) : (fmtL n).length ≤ 10 := by
  rw [fmtL, fmtI, if_neg (by omega)]
  refine (digits_le (by decide)).2 ?_
  simp only [Int.natAbs_natCast]; omega

theorem fmtU_small {n : Nat} (h : n < 2 ^ 31) : fmtU n = decimal n := by
  have e : asInt32 n = n := by simp only [asInt32]; rw [Nat.mod_eq_of_lt (by omega), if_pos h]
  rw [fmtU, e, fmtI, if_neg (by omega), decimal, Int.natAbs_natCast]
  exact Nat.toList_repr.symm

theorem fmtL_eq (n : Nat) : fmtL n = decimal n := by
  rw [fmtL, fmtI, if_neg (by omega), decimal, Int.natAbs_natCast]; exact Nat.toList_repr.symm

theorem digitsPad_length {k n : Nat} (hk : 0 < k) (h : n < 10 ^ k) : (digitsPad k n).length = k := by
  have := (digits_le (n := n) hk).2 h
  simp only [digitsPad, List.length_append, List.length_replicate]; omega

theorem sign_length (neg : Bool) : (sign neg).length ≤ 1 := by cases neg <;> simp [sign]

theorem fmtF_fin_length {p : Nat} (hp : 0 < p) (neg : Bool) (mag : Rat) :
    (fmtF p (.fin neg mag)).length = (sign neg).length + (Nat.toDigits 10 (nearest (mag * 10 ^ p) / 10 ^ p)).length + 1 + p := by
  simp only [fmtF, List.length_append, List.length_cons, digitsPad_length hp (Nat.mod_lt _ (by positivity))]; omega

theorem fmtF_noNul (p : Nat) (x : Dbl) : NoNul (fmtF p x) := by
  have hs : ∀ b, NoNul (sign b) := by intro b; cases b <;> simp [sign, NoNul]
  cases x with
  | nan b => exact noNul_append.2 ⟨hs b, by simp [NoNul]⟩
  | inf b => exact noNul_append.2 ⟨hs b, by simp [NoNul]⟩
  | fin b q =>
    refine noNul_append.2 ⟨hs b, noNul_append.2 ⟨digits_noNul _, noNul_cons.2 ⟨by decide, noNul_append.2 ⟨?_, digits_noNul _⟩⟩⟩⟩
    intro h; exact absurd (List.eq_of_mem_replicate h) (by decide)

/-- Rounding to less than an even number. -/
theorem nearest_lt {q : Rat} (h0 : 0 ≤ q) {N : Nat} (hN : N % 2 = 0) : nearest q < N ↔ q < N - 1 / 2 := by
  have hf : 0 ≤ q.floor := Rat.le_floor_iff.2 (by simpa using h0)
  obtain ⟨n, hn⟩ : ∃ n : Nat, q.floor = n := ⟨q.floor.toNat, by omega⟩
  have h1 : (n : Rat) ≤ q := by have := Rat.floor_le q; rw [hn] at this; exact_mod_cast this
  have h2 : q < n + 1 := by have := Rat.lt_floor_add_one q; rw [hn] at this; exact_mod_cast this
  simp only [nearest, hn, Int.toNat_natCast]
  have cast : ∀ {a b : Nat}, a < b ↔ (a : Rat) + 1 ≤ b := by
    intro a b; constructor
    · intro h; exact_mod_cast h
    · intro h; exact_mod_cast h
  split
  · rename_i hr
    constructor
    · intro h; have := cast.1 h; linarith
    · intro h
      by_contra hcon
      have : (N : Rat) ≤ n := by exact_mod_cast (not_lt.1 hcon)
      linarith
  · split
    · rename_i hr1 hr2
      constructor
      · intro h; have := cast.1 h; push_cast at this; linarith
      · intro h; refine cast.2 ?_
        by_contra hcon
        have : N ≤ n + 1 := by
          by_contra h3
          exact hcon (by exact_mod_cast (by omega : n + 1 + 1 ≤ N))
        have : (N : Rat) ≤ n + 1 := by exact_mod_cast this
        linarith
    · rename_i hr1 hr2
      have he : q = n + 1 / 2 := by linarith [le_antisymm (not_lt.1 hr2) (not_lt.1 hr1)]
      split
      · rename_i hev
        constructor
        · intro h
          have : n + 2 ≤ N := by omega
          have : (n : Rat) + 2 ≤ N := by exact_mod_cast this
          linarith
        · intro h; refine cast.2 ?_
          by_contra hcon
          have : N ≤ n + 1 := by
            by_contra h3
            exact hcon (by exact_mod_cast (by omega : n + 1 ≤ N))
          have : (N : Rat) ≤ n + 1 := by exact_mod_cast this
          linarith
      · rename_i hodd
        constructor
        · intro h; have := cast.1 h; push_cast at this; linarith
        · intro h
          by_contra hcon
          have : (N : Rat) ≤ n + 1 := by exact_mod_cast (not_lt.1 hcon)
          linarith

/-- The length of a printed number that has no minus sign. -/
theorem fmtF_plain {p k : Nat} (hp : 0 < p) (hk : 3 ≤ k + p) (hk0 : 0 < k) {x : Dbl} (hx : Dbl.Plain x) : (fmtF p x).length ≤ k + 1 + p ↔ AtMost p k x := by
  cases x with
  | nan b => 
    have := sign_length b
    refine ⟨fun _ => trivial, fun _ => ?_⟩
    simp only [fmtF, List.length_append]
    have : "nan".toList.length = 3 := by decide
    omega
  | inf b =>
    have := sign_length b
    refine ⟨fun _ => trivial, fun _ => ?_⟩
    simp only [fmtF, List.length_append]
    have : "inf".toList.length = 3 := by decide
    omega
  | fin neg mag =>
    obtain ⟨rfl, h0⟩ := hx
    have hpos : (0 : Rat) < 10 ^ p := by positivity
    have hsgn : (sign false).length = 0 := by decide
    rw [fmtF_fin_length hp, hsgn]
    have e1 : 0 + (Nat.toDigits 10 (nearest (mag * 10 ^ p) / 10 ^ p)).length + 1 + p ≤ k + 1 + p ↔ (Nat.toDigits 10 (nearest (mag * 10 ^ p) / 10 ^ p)).length ≤ k := by omega
    rw [e1, digits_le hk0, Nat.div_lt_iff_lt_mul (by positivity), nearest_lt (mul_nonneg h0 hpos.le) ?_]
    · simp only [AtMost, h0, true_and]
      push_cast
      constructor
      · intro h
        rw [← mul_lt_mul_iff_left₀ hpos]
        have : (1 / 2 / 10 ^ p : Rat) * 10 ^ p = 1 / 2 := by field_simp
        rw [sub_mul, this]; exact h
      · intro h
        have := mul_lt_mul_of_pos_right h hpos
        have e : (1 / 2 / 10 ^ p : Rat) * 10 ^ p = 1 / 2 := by field_simp
        rw [sub_mul, e] at this; exact this
    · obtain ⟨m, rfl⟩ : ∃ m, k = m + 1 := ⟨k - 1, by omega⟩
      rw [pow_succ, mul_assoc, mul_comm, mul_assoc, Nat.mul_mod]; norm_num

/-- With a possible minus sign there is at most one more character. -/
theorem fmtF_length {p k : Nat} (hp : 0 < p) (hk : 3 ≤ k + p) (hk0 : 0 < k) {x : Dbl} (hx : AtMost p k x) : (fmtF p x).length ≤ k + 2 + p := by
  cases x with
  | nan b => have := (fmtF_plain hp hk hk0 (x := .nan b) trivial).2 trivial; omega
  | inf b => have := (fmtF_plain hp hk hk0 (x := .inf b) trivial).2 trivial; omega
  | fin neg mag =>
    have h := (fmtF_plain hp hk hk0 (x := .fin false mag) ⟨rfl, hx.1⟩).2 hx
    rw [fmtF_fin_length hp] at h ⊢
    have := sign_length neg
    have e : (sign false).length = 0 := by decide
    omega

end Verif.Print

namespace Verif.Print
open Verif.Spec

/-! ### Reading back -/

theorem decimal_digits (n : Nat) : decimal n = Nat.toDigits 10 n := Nat.toList_repr

theorem decimal_digit {n : Nat} {c : Char} (h : c ∈ decimal n) : c.isDigit := by
  rw [decimal_digits] at h; exact Nat.isDigit_of_mem_toDigits (by decide) (by decide) h

theorem decimal_inj {a b : Nat} (h : decimal a = decimal b) : a = b := by
  rw [decimal_digits, decimal_digits] at h
  rw [← Nat.ofDigitChars_ten_toDigits (n := a), h, Nat.ofDigitChars_ten_toDigits]

theorem decimal_ne (n : Nat) : ∃ c r, decimal n = c :: r ∧ c.isDigit := by
  cases h : decimal n with
  | nil => rw [decimal_digits] at h; exact absurd h Nat.toDigits_ne_nil
  | cons c r => exact ⟨c, r, rfl, decimal_digit (n := n) (by rw [h]; simp)⟩

/-- A text before the first occurrence of a character is determined. -/
theorem split_unique {α : Type} {c : α} : ∀ {a a' r r' : List α}, c ∉ a → c ∉ a' → a ++ c :: r = a' ++ c :: r' → a = a' ∧ r = r'
  | [], [], r, r', _, _, h => by simpa using h
  | [], x :: a', r, r', _, h2, h => by
    simp only [List.nil_append, List.cons_append, List.cons.injEq] at h
    simp [h.1] at h2
  | x :: a, [], r, r', h1, _, h => by
    simp only [List.nil_append, List.cons_append, List.cons.injEq] at h
    simp [h.1] at h1
  | x :: a, y :: a', r, r', h1, h2, h => by
    simp only [List.cons_append, List.cons.injEq] at h
    obtain ⟨e, h⟩ := h
    obtain ⟨e1, e2⟩ := split_unique (fun hm => h1 (by simp [hm])) (fun hm => h2 (by simp [hm])) h
    exact ⟨by rw [e, e1], e2⟩

theorem decimal_blank {n : Nat} : ' ' ∉ decimal n := fun h => absurd (decimal_digit h) (by decide)

/-- A list of numbers, each followed by a blank, and a bracket. -/
theorem items_unique : ∀ {l l' : List Nat} {r r' : Text},
    l.flatMap (fun i => decimal i ++ " ".toList) ++ ']' :: r = l'.flatMap (fun i => decimal i ++ " ".toList) ++ ']' :: r' → l = l' ∧ r = r'
  | [], [], r, r', h => by simpa using h
  | [], y :: l', r, r', h => by
    obtain ⟨c, t, e, hd⟩ := decimal_ne y
    simp only [List.flatMap_nil, List.nil_append, List.flatMap_cons, e, List.cons_append, List.cons.injEq] at h
    rw [← h.1] at hd; exact absurd hd (by decide)
  | x :: l, [], r, r', h => by
    obtain ⟨c, t, e, hd⟩ := decimal_ne x
    simp only [List.flatMap_nil, List.nil_append, List.flatMap_cons, e, List.cons_append, List.cons.injEq] at h
    rw [h.1] at hd; exact absurd hd (by decide)
  | x :: l, y :: l', r, r', h => by
    have hb : " ".toList = [' '] := by decide
    simp only [List.flatMap_cons, hb, List.append_assoc, List.cons_append, List.nil_append] at h
    obtain ⟨e, h⟩ := split_unique decimal_blank decimal_blank h
    obtain ⟨e', h⟩ := items_unique (l := l) (l' := l') (by simpa only [hb] using h)
    exact ⟨by rw [decimal_inj e, e'], h⟩

theorem mapLine_unique {e e' : Nat × List Nat} {r r' : Text} (h : mapLine e ++ r = mapLine e' ++ r') : e = e' ∧ r = r' := by
  have h1 : " -> [".toList = ' ' :: "-> [".toList := by decide
  have h2 : "]\n".toList = ']' :: ['\n'] := by decide
  simp only [mapLine, h1, h2, List.append_assoc, List.cons_append, List.nil_append] at h
  obtain ⟨e1, h⟩ := split_unique decimal_blank decimal_blank h
  obtain ⟨e2, h⟩ := items_unique (List.append_cancel_left h)
  simp only [List.cons.injEq, true_and] at h
  exact ⟨Prod.ext (decimal_inj e1) e2, h⟩

theorem mapLine_ne (e : Nat × List Nat) (r : Text) : mapLine e ++ r ≠ [] := by
  obtain ⟨c, t, h, _⟩ := decimal_ne e.1
  simp [mapLine, h]

theorem map_unique : ∀ {m m' : KMap (List Nat)}, m.flatMap mapLine = m'.flatMap mapLine → m = m'
  | [], [], _ => rfl
  | [], e :: m', h => by simp only [List.flatMap_nil, List.flatMap_cons] at h; exact absurd h.symm (mapLine_ne e _)
  | e :: m, [], h => by simp only [List.flatMap_nil, List.flatMap_cons] at h; exact absurd h (mapLine_ne e _)
  | e :: m, e' :: m', h => by
    simp only [List.flatMap_cons] at h
    obtain ⟨h1, h2⟩ := mapLine_unique h
    rw [h1, map_unique h2]

theorem sizeLine_unique {e e' : Nat × List Nat} {r r' : Text} (h : sizeLine e ++ r = sizeLine e' ++ r') : (e.1 = e'.1 ∧ e.2.length = e'.2.length) ∧ r = r' := by
  have h1 : " : ".toList = ' ' :: ": ".toList := by decide
  have h2 : "\n".toList = ['\n'] := by decide
  simp only [sizeLine, h1, h2, List.append_assoc, List.cons_append, List.nil_append] at h
  obtain ⟨e1, h⟩ := split_unique decimal_blank decimal_blank h
  have nl : ∀ n, '\n' ∉ decimal n := fun n h => absurd (decimal_digit h) (by decide)
  obtain ⟨e2, h⟩ := split_unique (nl _) (nl _) (List.append_cancel_left h)
  exact ⟨⟨decimal_inj e1, decimal_inj e2⟩, h⟩

/-! ### Loops -/

/-- Reading the first `n` elements of an array one after the other. -/
theorem mapM_rd {α : Type} {xs : List α} {n : Nat} (h : n ≤ xs.length) : (List.range n).mapM (fun j => rd xs j) = Outcome.ok (xs.take n) := by
  have gen : ∀ (a b c : List α), (List.range' a.length b.length).mapM (fun j => rd (a ++ (b ++ c)) j) = Outcome.ok b := by
    intro a b c
    induction b generalizing a with
    | nil => rfl
    | cons y b ih =>
      rw [List.length_cons, List.range'_succ, List.mapM_cons, rd_ok (by simp), Outcome.ok_bind]
      have := ih (a ++ [y])
      simp only [List.length_append, List.length_singleton, List.append_assoc, List.singleton_append] at this
      simp only [List.cons_append, this, Outcome.ok_bind]
      simp
  have := gen [] (xs.take n) (xs.drop n)
  simp only [List.length_nil, List.nil_append, List.take_append_drop, List.length_take, Nat.min_eq_left h] at this
  rw [List.range_eq_range']; exact this

theorem returns_not_ub {α : Type} {x : Outcome α} (h : x.Returns) : ¬ x.IsUB := by
  obtain ⟨a, rfl⟩ := h; rintro ⟨s, h⟩; cases h

/-- A computation that returns if a condition holds and is undefined if it does not. -/
theorem iff_of_cases {α : Type} {x : Outcome α} {P : Prop} (h1 : P → x.Returns) (h2 : ¬ P → x.IsUB) : (x.Returns ↔ P) ∧ (¬ x.Returns → x.IsUB) := by
  by_cases h : P
  · exact ⟨⟨fun _ => h, h1⟩, fun hn => absurd (h1 h) hn⟩
  · exact ⟨⟨fun hr => absurd (h2 h) (returns_not_ub hr), fun hp => absurd hp h⟩, fun _ => h2 h⟩

/-- Formatting several pieces into one array. -/
theorem pieces {b : Buf} {t : Text} {ts : List Text} (hn : NoNul t) (hns : ∀ x ∈ ts, NoNul x) :
    (t.length + ts.flatten.length + 1 ≤ b.length → ∃ b', (sprintf b 0 t >>= appendAll ts) = .ok b' ∧ cstr b' = .ok (t ++ ts.flatten)) ∧
    (b.length < t.length + ts.flatten.length + 1 → (sprintf b 0 t >>= appendAll ts).IsUB) := by
  by_cases h : t.length + 1 ≤ b.length
  · obtain ⟨b1, e1, l1, c1⟩ := sprintf_zero hn h
    rw [e1, Outcome.ok_bind]
    exact ⟨fun h' => appendAll_ok ts c1 hns (by omega), fun h' => appendAll_over ts c1 hns (by omega) (by omega)⟩
  · exact ⟨fun h' => by omega, fun _ => isUB_bind (sprintf_over (by omega))⟩

theorem append_length {b b' : Buf} {t : Text} (h : append b t = .ok b') : b'.length = b.length := by
  obtain ⟨s, hs, h⟩ := Outcome.bind_eq_ok.1 h
  rw [sprintf] at h
  split at h
  · simp only [Outcome.ok.injEq] at h; rw [← h]; simp; omega
  · cases h

theorem appendAll_length : ∀ {ts : List Text} {b b' : Buf}, appendAll ts b = .ok b' → b'.length = b.length
  | [], b, b', h => by simp only [appendAll, Outcome.ok.injEq] at h; rw [h]
  | t :: r, b, b', h => by
    obtain ⟨b1, h1, h2⟩ := Outcome.bind_eq_ok.1 h
    rw [appendAll_length h2, append_length h1]

end Verif.Print
