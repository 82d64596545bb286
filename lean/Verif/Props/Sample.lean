import Verif.Lemmas.Sample
import Mathlib.Tactic.Linarith
/-
C114: the sample program reads a data file as the table that it contains.
-/
namespace Verif.Props
open Verif Verif.Sample Verif.Spec

variable {V : Type}

/-- C114, any rows: if no line is longer than 2046 characters then the values are those of all fields in order, the number of rows is the number of lines, and the number of columns is the
quotient of the two counts, rounded down. Blank lines and rows of different lengths are included: nothing is reported for them. -/
theorem C114_any (atof : List Char → V) (table : List (List (List Char))) (file : List Char) (hf : FileOf table 2046 file) (hr : 0 < table.length) (hr2 : table.length < 2 ^ 32) (hn : table.flatten.length < 2 ^ 32) :
    getDset atof file = .ok (table.flatten.map atof, table.length, table.flatten.length / table.length) := by
  obtain ⟨ls, h1, h2, h3, h4⟩ := hf
  obtain ⟨g1, g2⟩ := chunks_text atof h1 table h2 h3 h4
  simp only [getDset, g1, g2]
  rw [Nat.mod_eq_of_lt hr2, if_neg (by omega), List.length_map, Nat.mod_eq_of_lt hn]

theorem length_flatten_const {A : Type} (c : Nat) (t : List (List A)) (h : ∀ r ∈ t, r.length = c) : t.flatten.length = t.length * c := by
  induction t with
  | nil => simp
  | cons r t ih =>
    rw [List.flatten_cons, List.length_append, ih (fun x hx => h x (by simp [hx])), h r (by simp), List.length_cons, Nat.succ_mul, Nat.add_comm]

theorem get_flatten_const {A : Type} (c : Nat) (t : List (List A)) (h : ∀ r ∈ t, r.length = c) : ∀ (i k : Nat), k < c → i < t.length → t.flatten[i * c + k]? = t[i]?.bind (·[k]?) := by
  induction t with
  | nil => intro i k _ hi; simp at hi
  | cons r t ih =>
    intro i k hk hi
    have hrc : r.length = c := h r (by simp)
    rw [List.flatten_cons]
    cases i with
    | zero => rw [Nat.zero_mul, Nat.zero_add, List.getElem?_append_left (by omega)]; rfl
    | succ i =>
      have e : (i + 1) * c + k = r.length + (i * c + k) := by rw [Nat.succ_mul, hrc]; omega
      rw [e, List.getElem?_append_right (by omega), Nat.add_sub_cancel_left, ih (fun x hx => h x (by simp [hx])) i k hk (by simp at hi; omega)]
      rfl

/-- C114, the part that holds: a table of at least one row, with the same number of fields in each and no line longer than 2046 characters, is read as it is. Missing: blank lines
(`C114_blank_violated`), long lines (`C114_long_violated`, `C114_cut_violated`), the empty file (`C114_empty_violated`). -/
theorem C114_table_partial (atof : List Char → V) (table : List (List (List Char))) (file : List Char) (c : Nat) (hf : FileOf table 2046 file) (hr : 0 < table.length) (hc : ∀ r ∈ table, r.length = c)
    (hr2 : table.length < 2 ^ 32) (hn : table.length * c < 2 ^ 32) :
    ∃ values, getDset atof file = .ok (values, table.length, c) ∧ values.length = table.length * c ∧
      ∀ i k : Nat, i < table.length → k < c → values[i * c + k]? = (table[i]?.bind (·[k]?)).map atof := by
  have hl := length_flatten_const c table hc
  refine ⟨table.flatten.map atof, ?_, by rw [List.length_map, hl], ?_⟩
  · rw [C114_any atof table file hf hr hr2 (by omega), hl, Nat.mul_div_cancel_left c hr]
  · intro i k hi hk
    rw [List.getElem?_map, get_flatten_const c table hc i k hk hi]

/-- The file "1,2\n3, 4\r\n" without a line feed at the end. -/
example : FileOf [["1".toList, "2".toList], ["3".toList, "4".toList]] 2046 "1,2\n3, 4\r".toList ∧
    getDset id "1,2\n3, 4\r".toList = .ok (["1".toList, "2".toList, "3".toList, "4".toList], 2, 2) := by
  refine ⟨⟨["1,2".toList, "3, 4\r".toList], ?_, ?_, by decide, by decide⟩, by decide⟩
  · exact .line (l := "1,2".toList) (.last (by decide))
  · have p : ∀ c : Char, c = '1' ∨ c = '2' ∨ c = '3' ∨ c = '4' → FieldChar c := by
      rintro c (rfl | rfl | rfl | rfl) <;> simp [FieldChar, Separator]
    refine .cons ?_ (.cons ?_ .nil)
    · exact .field (s := []) (f := ['1']) (t := [',', '2']) (by simp) (by simp) (fun c hc => p c (by simp at hc; simp [hc])) (.inr ⟨',', _, rfl, by simp [Separator]⟩)
        (.field (s := [',']) (f := ['2']) (t := []) (by simp [Separator]) (by simp) (fun c hc => p c (by simp at hc; simp [hc])) (.inl rfl) (.blank (by simp)))
    · exact .field (s := []) (f := ['3']) (t := [',', ' ', '4', '\r']) (by simp) (by simp) (fun c hc => p c (by simp at hc; simp [hc])) (.inr ⟨',', _, rfl, by simp [Separator]⟩)
        (.field (s := [',', ' ']) (f := ['4']) (t := ['\r']) (by simp [Separator]) (by simp) (fun c hc => p c (by simp at hc; simp [hc])) (.inr ⟨'\r', _, rfl, by simp [Separator]⟩) (.blank (by simp [Separator])))

/-- C114 fails for every table of `c` ≥ 1 columns with blank lines among its lines: the blank lines count as rows, and the number of columns is too small. `table` is the file's content with the
blank lines, of which there is at least one, as empty rows. -/
theorem C114_blank_violated (atof : List Char → V) (table : List (List (List Char))) (file : List Char) (c : Nat) (hf : FileOf table 2046 file) (hc0 : 0 < c) (hc : ∀ r ∈ table, r = [] ∨ r.length = c)
    (hb : [] ∈ table) (hr2 : table.length < 2 ^ 32) (hn : table.length * c < 2 ^ 32) :
    ∃ values cs, getDset atof file = .ok (values, table.length, cs) ∧ cs < c ∧ (table.filter (· ≠ [])).length < table.length := by
  have key : ∀ t : List (List (List Char)), (∀ r ∈ t, r = [] ∨ r.length = c) → t.flatten.length = (t.filter (· ≠ [])).length * c := by
    intro t ht
    induction t with
    | nil => simp
    | cons r t ih =>
      have ih := ih fun x hx => ht x (by simp [hx])
      rw [List.flatten_cons, List.length_append, ih, List.filter_cons]
      rcases ht r (by simp) with rfl | h
      · simp
      · have hne : r ≠ [] := by rintro rfl; simp at h; omega
        rw [if_pos (by simpa using hne), List.length_cons, Nat.succ_mul, h, Nat.add_comm]
  have hlt : (table.filter (· ≠ [])).length < table.length := by
    apply List.length_filter_lt_length_iff_exists.2
    exact ⟨[], hb, by simp⟩
  have hk := key table hc
  have hmul : (table.filter (· ≠ [])).length * c < table.length * c := Nat.mul_lt_mul_of_pos_right hlt hc0
  refine ⟨_, _, C114_any atof table file hf (by omega) hr2 (by omega), ?_, hlt⟩
  rw [Nat.div_lt_iff_lt_mul (by omega), hk, Nat.mul_comm c]
  exact hmul

/-- "1 2\n3 4\n\n" has three rows of one column. -/
example : getDset id "1 2\n3 4\n\n".toList = .ok (["1".toList, "2".toList, "3".toList, "4".toList], 3, 1) := by decide

/-- The premises of `C114_blank_violated` are met by "7\n\n". -/
example : FileOf [["7".toList], []] 2046 "7\n\n".toList := by
  refine ⟨["7".toList, []], .line (l := ['7']) (.line (l := []) .nil), .cons ?_ (.cons (.blank (by simp)) .nil), by decide, by decide⟩
  exact .field (s := []) (f := ['7']) (t := []) (by simp) (by simp) (by simp [FieldChar, Separator]) (.inl rfl) (.blank (by simp))

/-- C114 fails for every line of 2047 characters or more, followed by a line feed: it counts as two rows or more. -/
theorem C114_long_violated (atof : List Char → V) (fs : List (List Char)) (l : List Char) (hl : Line fs l) (h1 : 2047 ≤ l.length) (h2 : l.length < 2 ^ 31) :
    ∃ values rs cs, getDset atof (l ++ ['\n']) = .ok (values, rs, cs) ∧ 2 ≤ rs := by
  have hp := line_plain hl
  have e : l ++ ['\n'] = l.take 2047 ++ (l.drop 2047 ++ ['\n']) := by rw [← List.append_assoc, List.take_append_drop]
  have g := chunks_full (l.take 2047) (l.drop 2047 ++ ['\n']) (fun c hc => hp c (List.mem_of_mem_take hc)) 2047 [] (by rw [List.length_take]; omega) (by omega)
  rw [← e] at g
  have lo : 1 ≤ (chunks 2047 [] (l.drop 2047 ++ ['\n'])).length := by
    have := chunks_pos (l.drop 2047 ++ ['\n']) 2047 [] (by simp)
    omega
  have hi := chunks_le (l ++ ['\n']) 2047 []
  have hlen : 2 ≤ (chunks 2047 [] (l ++ ['\n'])).length := by rw [g, List.length_cons]; omega
  have hmod : (chunks 2047 [] (l ++ ['\n'])).length % 2 ^ 32 = (chunks 2047 [] (l ++ ['\n'])).length := Nat.mod_eq_of_lt (by simp at hi; omega)
  have hd : getDset atof (l ++ ['\n']) = .ok ((chunks 2047 [] (l ++ ['\n'])).flatMap (lineValues atof), (chunks 2047 [] (l ++ ['\n'])).length,
      ((chunks 2047 [] (l ++ ['\n'])).flatMap (lineValues atof)).length % 2 ^ 32 / (chunks 2047 [] (l ++ ['\n'])).length) := by
    simp only [getDset, hmod]
    rw [if_neg (by omega)]
  exact ⟨_, _, _, hd, hlen⟩

/-- C114 fails in the values too: a number that stands across the 2047th character of its line is cut in two, for all numbers, however they are cut. -/
theorem C114_cut_violated (atof : List Char → V) (f g : List Char) (hf : f ≠ []) (hg : g ≠ []) (hfc : ∀ c ∈ f, FieldChar c) (hgc : ∀ c ∈ g, FieldChar c) (hf1 : f ≠ ['\x0c']) (hg1 : g ≠ ['\x0c'])
    (hl : f.length ≤ 2047) (hl2 : g.length ≤ 2046) :
    Line [f ++ g] (List.replicate (2047 - f.length) ' ' ++ (f ++ g)) ∧
    getDset atof (List.replicate (2047 - f.length) ' ' ++ (f ++ g) ++ ['\n']) = .ok ([atof f, atof g], 2, 1) := by
  have hs : ∀ c ∈ List.replicate (2047 - f.length) ' ', Separator c := fun c hc => .inl (List.eq_of_mem_replicate hc)
  have lf : Line [f] (List.replicate (2047 - f.length) ' ' ++ f) := by
    have := Line.field (t := []) hs hf hfc (.inl rfl) (.blank (by simp))
    rwa [List.append_nil] at this
  have lg : Line [g] g := by
    have := Line.field (s := []) (t := []) (by simp) hg hgc (.inl rfl) (.blank (by simp))
    simpa using this
  constructor
  · have := Line.field (f := f ++ g) (t := []) hs (by simp [hf]) (fun c hc => (List.mem_append.1 hc).elim (hfc c) (hgc c)) (.inl rfl) (.blank (by simp))
    rwa [List.append_nil] at this
  · have e : List.replicate (2047 - f.length) ' ' ++ (f ++ g) ++ ['\n'] = (List.replicate (2047 - f.length) ' ' ++ f) ++ (g ++ '\n' :: []) := by simp
    have c1 := chunks_full (List.replicate (2047 - f.length) ' ' ++ f) (g ++ '\n' :: []) (line_plain lf) 2047 [] (by simp; omega) (by omega)
    have c2 := chunks_line g [] (line_plain lg) 2047 [] (by omega)
    have c3 : chunks 2047 [] [] = [] := rfl
    have t1 := tokens_line lf [] (.inl rfl)
    rw [List.append_nil] at t1
    have t2 := tokens_line lg ['\n'] (.inr rfl)
    have k1 := takeWhile_fields (fs := [f]) (by simpa using fun h => hf1 h.symm) (by simpa using hfc)
    have k2 := takeWhile_fields (fs := [g]) (by simpa using fun h => hg1 h.symm) (by simpa using hgc)
    rw [c3] at c2
    rw [c2] at c1
    simp only [getDset, e, c1, List.nil_append, List.flatMap_cons, List.flatMap_nil, lineValues, t1, t2, k1, k2]
    simp

/-- The number 42, cut into 4 and 2. -/
example (atof : List Char → V) : getDset atof (List.replicate 2046 ' ' ++ "42\n".toList) = .ok ([atof ['4'], atof ['2']], 2, 1) := by
  have h := (C114_cut_violated atof ['4'] ['2'] (by simp) (by simp) (by simp [FieldChar, Separator]) (by simp [FieldChar, Separator]) (by decide) (by decide) (by decide) (by decide)).2
  rwa [List.append_assoc, show 2047 - ['4'].length = 2046 from rfl, show ['4'] ++ ['2'] ++ ['\n'] = "42\n".toList by decide] at h

/-- C114 fails for the empty file: the number of values is divided by zero. -/
theorem C114_empty_violated (atof : List Char → V) : getDset atof [] = .ub "division by zero" := rfl

/-- C114, a form feed between separators ends the line: the fields after it are dropped, whatever they are. -/
theorem C114_form_feed (atof : List Char → V) (fs gs : List (List Char)) (l : List Char) (hl : Line (fs ++ ['\x0c'] :: gs) l) (hfs : ['\x0c'] ∉ fs) :
    lineValues atof (l ++ ['\n']) = fs.map atof := by
  have hp := line_fields hl
  rw [lineValues, tokens_line hl ['\n'] (.inr rfl)]
  have k := takeWhile_fields hfs fun f hf => hp f (by simp [hf])
  congr 1
  rw [List.takeWhile_append, k, if_pos rfl]
  simp [single, isSpace]

example : getDset id "1 \x0c 2\n3 4\n".toList = .ok (["1".toList, "3".toList, "4".toList], 2, 1) := by decide

/-- C114, the array is never too short for the counts that go with it, whatever the file contains: long lines, blank lines, rows of different lengths, NUL bytes. -/
theorem C114_in_bounds (atof : List Char → V) (file : List Char) (values : List V) (rs cs : Nat) (h : getDset atof file = .ok (values, rs, cs)) : 0 < rs ∧ rs * cs ≤ values.length := by
  simp only [getDset] at h
  split at h
  · cases h
  · injection h with h
    injection h with h1 h2
    injection h2 with h2 h3
    subst h1 h2 h3
    refine ⟨by omega, ?_⟩
    exact Nat.le_trans (Nat.mul_div_le _ _) (Nat.mod_le _ _)

example : getDset id "1 2 3\n\x00\n4".toList = .ok (["1".toList, "2".toList, "3".toList, "4".toList], 3, 1) := by decide

/-- C114, a file that cannot be opened: with a name of at most 2027 characters the program ends, with the exit status of success; a longer name overflows the buffer of the message. -/
theorem C114_missing (atof : List Char → V) (name : List Char) :
    (name.length ≤ 2027 → getDsetNamed atof name none = .abort "exit(0)") ∧ (2028 ≤ name.length → ∃ w, getDsetNamed atof name none = .ub w) := by
  constructor
  · intro h
    rw [getDsetNamed, if_pos (by omega)]
  · intro h
    exact ⟨_, by rw [getDsetNamed, if_neg (by omega)]⟩

example : (List.replicate 2028 'a').length = 2028 ∧ "data.csv".toList.length ≤ 2027 := ⟨List.length_replicate, by decide⟩

end Verif.Props
