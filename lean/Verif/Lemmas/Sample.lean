import Verif.Model.Sample
import Verif.Spec.Sample
import Mathlib.Data.List.Forall2
/-
Reading lines and fields.
-/
namespace Verif.Sample
open Verif.Spec

theorem sep_delim {c : Char} (h : Separator c) : isDelim c = true ∧ c ≠ '\x00' ∧ c ≠ '\n' := by
  rcases h with rfl | rfl | rfl | rfl | rfl <;> decide

theorem field_char {c : Char} (h : FieldChar c) : isDelim c = false ∧ c ≠ '\x00' ∧ c ≠ '\n' := by
  obtain ⟨h1, h2, h3⟩ := h
  refine ⟨?_, h3, h2⟩
  simp only [Separator, not_or] at h1
  simp [isDelim, h1, h2]

theorem tokens_sep (s t : List Char) (h : ∀ c ∈ s, Separator c) : tokens [] (s ++ t) = tokens [] t := by
  induction s with
  | nil => rfl
  | cons c s ih =>
    obtain ⟨h1, h2, _⟩ := sep_delim (h c (by simp))
    rw [List.cons_append, tokens, if_neg h2, if_pos h1, ih (fun x hx => h x (by simp [hx]))]
    simp [flush]

theorem tokens_field (f t : List Char) (h : ∀ c ∈ f, FieldChar c) : ∀ acc, tokens acc (f ++ t) = tokens (acc ++ f) t := by
  induction f with
  | nil => intro acc; simp
  | cons c f ih =>
    intro acc
    obtain ⟨h1, h2, _⟩ := field_char (h c (by simp))
    rw [List.cons_append, tokens, if_neg h2, h1, if_neg (by simp), ih (fun x hx => h x (by simp [hx]))]
    simp

/-- The tokens of a line are its fields, with the line feed or without it. -/
theorem tokens_line {fs : List (List Char)} {l : List Char} (h : Line fs l) : ∀ u, u = [] ∨ u = ['\n'] → tokens [] (l ++ u) = fs := by
  induction h with
  | blank h =>
    intro u hu
    rw [tokens_sep _ _ h]
    rcases hu with rfl | rfl <;> decide
  | @field s f t fs hs hf hc ht hl ih =>
    intro u hu
    rw [List.append_assoc, List.append_assoc, tokens_sep _ _ hs, tokens_field _ _ hc, List.nil_append]
    have ih := ih u hu
    have hfl : flush f = [f] := by rw [flush, if_neg hf]
    rcases ht with rfl | ⟨c, r, rfl, hcs⟩
    · rw [List.nil_append] at ih ⊢
      rcases hu with rfl | rfl
      · have : fs = [] := by rw [← ih]; rfl
        rw [this, tokens, hfl]
      · have : fs = [] := by rw [← ih]; decide
        rw [this, tokens, if_neg (by decide), if_pos (by decide), hfl]
        rfl
    · obtain ⟨h1, h2, _⟩ := sep_delim hcs
      rw [List.cons_append, tokens, if_neg h2, if_pos h1] at ih ⊢
      rw [hfl, ← ih]
      rfl

theorem line_plain {fs : List (List Char)} {l : List Char} (h : Line fs l) : ∀ c ∈ l, c ≠ '\n' := by
  induction h with
  | blank h => exact fun c hc => (sep_delim (h c hc)).2.2
  | @field s f t fs hs hf hc ht hl ih =>
    intro c hm
    rcases List.mem_append.1 hm with hm | hm
    · rcases List.mem_append.1 hm with hm | hm
      · exact (sep_delim (hs c hm)).2.2
      · exact (field_char (hc c hm)).2.2
    · exact ih c hm

theorem chunks_line (l t : List Char) (h : ∀ c ∈ l, c ≠ '\n') : ∀ (room : Nat) (acc : List Char), l.length < room → chunks room acc (l ++ '\n' :: t) = (acc ++ l ++ ['\n']) :: chunks 2047 [] t := by
  induction l with
  | nil => intro room acc _; rw [List.nil_append, chunks, if_pos (.inl rfl)]; simp
  | cons c l ih =>
    intro room acc hr
    simp only [List.length_cons] at hr
    rw [List.cons_append, chunks, if_neg (by have := h c (by simp); simp [this]; omega), ih (fun x hx => h x (by simp [hx])) _ _ (by omega)]
    simp

theorem chunks_last (l : List Char) (h : ∀ c ∈ l, c ≠ '\n') : ∀ (room : Nat) (acc : List Char), l.length < room → acc ++ l ≠ [] → chunks room acc l = [acc ++ l] := by
  induction l with
  | nil => intro room acc _ hne; rw [chunks, if_neg (by simpa using hne)]; simp
  | cons c l ih =>
    intro room acc hr _
    simp only [List.length_cons] at hr
    rw [chunks, if_neg (by have := h c (by simp); simp [this]; omega), ih (fun x hx => h x (by simp [hx])) _ _ (by omega) (by simp)]
    simp

/-- A buffer that is filled before the line ends. -/
theorem chunks_full (l t : List Char) (h : ∀ c ∈ l, c ≠ '\n') : ∀ (room : Nat) (acc : List Char), l.length = room → 0 < room → chunks room acc (l ++ t) = (acc ++ l) :: chunks 2047 [] t := by
  induction l with
  | nil => intro room acc h0 h1; simp at h0; omega
  | cons c l ih =>
    intro room acc hr _
    simp only [List.length_cons] at hr
    rw [List.cons_append, chunks]
    by_cases h1 : room ≤ 1
    · have : l = [] := List.length_eq_zero_iff.1 (by omega)
      rw [if_pos (.inr h1), this]
      rfl
    · rw [if_neg (by have := h c (by simp); simp [this]; omega), ih (fun x hx => h x (by simp [hx])) _ _ (by omega) (by omega)]
      simp

theorem not_single {f : List Char} (h : f ≠ ['\x0c']) (hp : ∀ c ∈ f, FieldChar c) : single f = false := by
  match f, h, hp with
  | [], _, _ => rfl
  | [c], h, hp =>
    obtain ⟨h1, h2, h3⟩ := hp c (by simp)
    have hc : c ≠ '\x0c' := by rintro rfl; exact h rfl
    simp only [Separator, not_or] at h1
    simp [single, isSpace, h1, h2, hc]
  | _ :: _ :: _, _, _ => rfl

theorem takeWhile_fields {fs : List (List Char)} (h : ['\x0c'] ∉ fs) (hp : ∀ f ∈ fs, ∀ c ∈ f, FieldChar c) : fs.takeWhile (fun t => !single t) = fs := by
  induction fs with
  | nil => rfl
  | cons f fs ih =>
    rw [List.takeWhile_cons, not_single (fun e => h (by simp [e])) (hp f (by simp)), ih (fun e => h (by simp [e])) fun g hg => hp g (by simp [hg])]
    rfl

theorem line_fields {fs : List (List Char)} {l : List Char} (h : Line fs l) : ∀ f ∈ fs, ∀ c ∈ f, FieldChar c := by
  induction h with
  | blank _ => simp
  | @field s f t fs hs hf hc ht hl ih =>
    intro g hg
    rcases List.mem_cons.1 hg with rfl | hg
    · exact hc
    · exact ih g hg

/-- What is read from the lines of a file. -/
theorem chunks_text {V : Type} (atof : List Char → V) {ls : List (List Char)} {file : List Char} (ht : TextOf ls file) : ∀ table : List (List (List Char)), List.Forall₂ Line table ls →
    (∀ l ∈ ls, l.length ≤ 2046) → (∀ r ∈ table, ['\x0c'] ∉ r) →
    (chunks 2047 [] file).length = table.length ∧ (chunks 2047 [] file).flatMap (lineValues atof) = table.flatten.map atof := by
  induction ht with
  | nil =>
    intro table h _ _
    cases h
    exact ⟨rfl, rfl⟩
  | @last l hl =>
    intro table h hlen hff
    obtain ⟨fs, rest, h1, h2, rfl⟩ := List.forall₂_cons_right_iff.1 h
    cases h2
    rw [chunks_last l (line_plain h1) 2047 [] (by have := hlen l (by simp); omega) (by simpa using hl)]
    have e := tokens_line h1 [] (.inl rfl)
    rw [List.append_nil] at e
    refine ⟨rfl, ?_⟩
    simp only [List.nil_append, List.flatMap_cons, List.flatMap_nil, List.append_nil, lineValues, e, takeWhile_fields (hff fs (by simp)) (line_fields h1), List.flatten_cons, List.flatten_nil]
  | @line l t ls _ ih =>
    intro table h hlen hff
    obtain ⟨fs, rest, h1, h2, rfl⟩ := List.forall₂_cons_right_iff.1 h
    obtain ⟨g1, g2⟩ := ih rest h2 (fun x hx => hlen x (by simp [hx])) (fun r hr => hff r (by simp [hr]))
    rw [chunks_line l t (line_plain h1) 2047 [] (by have := hlen l (by simp); omega)]
    have e := tokens_line h1 ['\n'] (.inr rfl)
    refine ⟨by simp [g1], ?_⟩
    rw [List.flatMap_cons, g2, List.flatten_cons, List.map_append]
    simp only [List.nil_append, lineValues, e, takeWhile_fields (hff fs (by simp)) (line_fields h1)]

theorem chunks_pos (t : List Char) : ∀ (room : Nat) (acc : List Char), acc ++ t ≠ [] → 1 ≤ (chunks room acc t).length := by
  induction t with
  | nil => intro room acc h; rw [chunks, if_neg (by simpa using h)]; simp
  | cons c t ih =>
    intro room acc _
    rw [chunks]
    split
    · simp
    · exact ih _ _ (by simp)

theorem chunks_le (t : List Char) : ∀ (room : Nat) (acc : List Char), (chunks room acc t).length ≤ t.length + 1 := by
  induction t with
  | nil => intro room acc; rw [chunks]; split <;> simp
  | cons c t ih =>
    intro room acc
    rw [chunks]
    split
    · have := ih 2047 []; simp only [List.length_cons]; omega
    · have := ih (room - 1) (acc ++ [c]); simp only [List.length_cons]; omega

end Verif.Sample
