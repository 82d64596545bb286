import Verif.Model.SetT
import Mathlib.Tactic.Linarith
import Mathlib.Data.List.Basic
/-
Helper lemmas for the ArrayList model: each operation refines the list operation.
-/
namespace Verif.AList
variable {α : Type}

/-- The list `l` in memory represents the ideal sequence `xs`. -/
def Rep (l : AList α) (xs : List α) : Prop :=
  l.size = xs.length ∧ l.maxSize = l.buf.length ∧ 0 < l.maxSize ∧ ∃ rest, l.buf = xs.map some ++ rest

theorem Rep.size {l : AList α} {xs} (h : Rep l xs) : l.size = xs.length := h.1

theorem Rep.le {l : AList α} {xs} (h : Rep l xs) : xs.length ≤ l.buf.length := by
  obtain ⟨_, _, _, r, hr⟩ := h; rw [hr]; simp

theorem rep_init {n : Nat} (h : 0 < n) : ∃ l : AList α, init n = .ok l ∧ Rep l [] ∧ l.maxSize = n := by
  refine ⟨⟨List.replicate n none, 0, n⟩, by simp [init, h], ⟨rfl, by simp, h, ⟨_, rfl⟩⟩, rfl⟩

theorem readSlot_rep {l : AList α} {xs} (h : Rep l xs) {i : Nat} (hi : i < xs.length) :
    l.readSlot i = .ok xs[i] := by
  obtain ⟨_, _, _, r, hr⟩ := h
  simp [readSlot, hr, List.getElem?_append_left, hi]

theorem valueAt_rep {l : AList α} {xs} (h : Rep l xs) (i : Nat) : l.valueAt i = .ok xs[i]? := by
  unfold valueAt
  by_cases hi : i < xs.length
  · rw [if_neg (by rw [h.size]; omega), readSlot_rep h hi]; simp [hi]
  · rw [if_pos (by rw [h.size]; omega)]; simp [List.getElem?_eq_none (Nat.le_of_not_lt hi)]

theorem log2_lt (n : Nat) (h : 0 < n) : n < 2 ^ (Nat.log2 n + 1) := by
  exact Nat.lt_log2_self

theorem grow_rep {l : AList α} {xs} (h : Rep l xs) :
    ∃ l', l.grow = .ok l' ∧ Rep l' xs ∧ l'.size = l.size ∧ 2 * l.maxSize < l'.maxSize := by
  obtain ⟨h1, h2, h3, r, hr⟩ := h
  have hne : l.maxSize * 2 ≠ 0 := by omega
  have hlt := log2_lt (l.maxSize * 2) (by omega)
  have hlen : xs.length ≤ l.buf.length := by rw [hr]; simp
  unfold grow highestPowerof2
  rw [if_neg hne]
  generalize 2 ^ (Nat.log2 (l.maxSize * 2) + 1) = N at hlt
  refine ⟨{ l with buf := (l.buf ++ List.replicate (N - l.buf.length) none).take N, maxSize := N }, rfl,
    ⟨h1, ?_, by simp only; omega, ?_⟩, rfl, by simp only; omega⟩
  · simp; omega
  · refine ⟨(r ++ List.replicate (N - l.buf.length) none).take (N - xs.length), ?_⟩
    simp only [hr, List.append_assoc]
    rw [List.take_append, List.take_of_length_le (by simp; omega)]
    simp

theorem insertionHelper_set {l : AList α} {i : Nat} (x : α) (h : i < l.buf.length) :
    l.insertionHelper x i = .ok { l with buf := l.buf.set i (some x) } := by
  simp [insertionHelper, h]

theorem replaceAt_rep {l : AList α} {xs} (h : Rep l xs) (x : α) (i : Nat) :
    ∃ l', l.replaceAt x i = .ok (if i < xs.length then 1 else 0, l') ∧ Rep l' (xs.set i x) ∧ l'.maxSize = l.maxSize := by
  unfold replaceAt
  by_cases hi : i < xs.length
  · have hle := h.le
    rw [if_neg (by rw [h.size]; omega), insertionHelper_set x (by omega)]
    obtain ⟨h1, h2, h3, r, hr⟩ := h
    refine ⟨{ l with buf := l.buf.set i (some x) }, by simp [hi], ⟨by simp [h1], by simp [h2], h3, r, ?_⟩, rfl⟩
    simp [hr, List.set_append, hi, List.map_set]
  · rw [if_pos (by rw [h.size]; omega)]
    refine ⟨l, by simp [hi], ?_, rfl⟩
    rw [List.set_eq_of_length_le (by omega)]; exact h

/-- Room for one more element after the optional growth. -/
theorem room {l : AList α} {xs} (h : Rep l xs) :
    ∃ l1, l.ensureRoom = .ok l1 ∧ Rep l1 xs ∧ xs.length < l1.buf.length
      ∧ l1.size = l.size ∧ l.maxSize ≤ l1.maxSize := by
  by_cases hs : l.size = l.maxSize
  · obtain ⟨l1, e, hr, hsz, hm⟩ := grow_rep h
    refine ⟨l1, by simp [ensureRoom, hs, e], hr, ?_, hsz, by omega⟩
    have := hr.2.1; have := h.1; omega
  · refine ⟨l, by simp [ensureRoom, hs], h, ?_, rfl, le_refl _⟩
    have := h.1; have := h.2.1; have := h.le; omega

theorem append_rep {l : AList α} {xs} (h : Rep l xs) (x : α) :
    ∃ l', l.append x = .ok l' ∧ Rep l' (xs ++ [x]) ∧ l.maxSize ≤ l'.maxSize := by
  obtain ⟨l1, e, h', hlt, hsz, hm⟩ := room h
  unfold append
  rw [e]
  simp only [Outcome.ok_bind]
  rw [insertionHelper_set x (by rw [h'.size]; exact hlt)]
  obtain ⟨h1, h2, h3, r, hr⟩ := h'
  refine ⟨_, rfl, ⟨by simp [h1], by simp [h2], h3, r.tail, ?_⟩, hm⟩
  cases r with
  | nil => simp [hr] at hlt
  | cons a r => simp [hr, h1, List.set_append]

theorem insertAt_rep {l : AList α} {xs} (h : Rep l xs) (x : α) {pos : Nat} (hp : pos ≤ xs.length) :
    ∃ l', l.insertAt x pos = .ok l' ∧ Rep l' (xs.take pos ++ x :: xs.drop pos) ∧ l.maxSize ≤ l'.maxSize := by
  obtain ⟨l1, e, h', hlt, hsz, hm⟩ := room h
  unfold insertAt
  rw [e]
  obtain ⟨h1, h2, h3, r, hr⟩ := h'
  have hs : l1.shiftRight pos = .ok { l1 with buf := l1.buf.take (pos + 1) ++ (l1.buf.drop pos).take (l1.size - pos) ++ l1.buf.drop (l1.size + 1) } := by
    unfold shiftRight
    rw [if_neg (by omega), if_neg (by omega)]
  simp only [Outcome.ok_bind, hs]
  have hb : l1.buf.take (pos + 1) ++ (l1.buf.drop pos).take (l1.size - pos) ++ l1.buf.drop (l1.size + 1)
      = (xs.take pos).map some ++ (l1.buf.drop pos).take 1 ++ (xs.drop pos).map some ++ r.drop 1 := by
    rw [List.take_add, h1, hr]
    simp only [List.drop_append, List.take_append, List.length_map, List.length_drop]
    have e1 : pos - xs.length = 0 := by omega
    have e2 : xs.length - pos - (xs.length - pos) = 0 := by omega
    have e3 : xs.length + 1 - xs.length = 1 := by omega
    have e4 : List.take (xs.length - pos) (List.drop pos (List.map some xs)) = List.drop pos (List.map some xs) :=
      List.take_of_length_le (by simp)
    simp [e1, e3, e4, List.map_take, List.map_drop]
  have hmid : ((l1.buf.drop pos).take 1).length = 1 := by simp; omega
  obtain ⟨m, hmm⟩ := List.length_eq_one_iff.mp hmid
  rw [insertionHelper_set]
  · refine ⟨_, rfl, ⟨?_, ?_, h3, r.drop 1, ?_⟩, hm⟩
    · simp; omega
    · simp only [List.length_set, hb]
      have := congrArg List.length hr
      simp at this
      simp [hmm]
      omega
    · simp only [hb, hmm]
      rw [List.append_assoc, List.append_assoc, List.set_append]
      simp [Nat.min_eq_left hp, List.map_take, List.map_drop]
  · simp only [hb, hmm]; simp; omega

theorem removeAt_rep {l : AList α} {xs} (h : Rep l xs) (pos : Nat) :
    ∃ l', l.removeAt pos = .ok (xs[pos]?, l') ∧ Rep l' (xs.eraseIdx pos) ∧ l'.maxSize = l.maxSize := by
  unfold removeAt
  by_cases hi : pos < xs.length
  · rw [if_neg (by rw [h.size]; omega), readSlot_rep h hi]
    have hle := h.le
    obtain ⟨h1, h2, h3, r, hr⟩ := h
    simp only [Outcome.ok_bind]
    rw [if_neg (by omega)]
    refine ⟨{ l with
          buf := l.buf.take pos ++ (l.buf.drop (pos + 1)).take (l.size - pos - 1) ++ l.buf.drop (l.size - 1)
          size := l.size - 1 }, by simp [hi], ⟨?_, ?_, h3, l.buf.drop (l.size - 1), ?_⟩, rfl⟩
    · simp [List.length_eraseIdx, hi, h1]
    · have := congrArg List.length hr
      simp at this
      simp
      omega
    · simp only [hr, h1]
      rw [List.eraseIdx_eq_take_drop_succ]
      simp only [List.map_append, List.map_take, List.map_drop]
      have e1 : pos - xs.length = 0 := by omega
      have e2 : pos + 1 - xs.length = 0 := by omega
      have e3 : xs.length - pos - 1 - (xs.length - (pos + 1)) = 0 := by omega
      simp only [List.drop_append, List.take_append, List.length_map, List.length_drop, e1, e2, e3]
      have e4 : (List.take (xs.length - pos - 1) (List.drop (pos + 1) (List.map some xs))) = List.drop (pos + 1) (List.map some xs) :=
        List.take_of_length_le (by simp; omega)
      simp [e4]
  · rw [if_pos (by rw [h.size]; omega)]
    refine ⟨l, by simp [List.getElem?_eq_none (Nat.le_of_not_lt hi)], ?_, rfl⟩
    rw [List.eraseIdx_of_length_le (by omega)]; exact h

theorem pop_rep {l : AList α} {xs} (h : Rep l xs) :
    ∃ l', l.pop = .ok (xs.getLast?, l') ∧ Rep l' xs.dropLast ∧ l'.maxSize = l.maxSize := by
  unfold pop
  by_cases hi : xs = []
  · subst hi
    rw [if_pos (by rw [h.size]; rfl)]
    exact ⟨l, rfl, h, rfl⟩
  · have hlen : 0 < xs.length := List.length_pos_of_ne_nil hi
    rw [if_neg (by rw [h.size]; omega), readSlot_rep h (by rw [h.size]; omega)]
    obtain ⟨h1, h2, h3, r, hr⟩ := h
    refine ⟨{ l with size := l.size - 1 }, ?_, ⟨by simp [h1], h2, h3, some (xs.getLast hi) :: r, ?_⟩, rfl⟩
    · simp [List.getLast?_eq_getElem?, h1, hlen]
    · simp only [hr]
      conv_lhs => rw [← List.dropLast_append_getLast hi]
      simp

theorem clear_rep {l : AList α} {xs} (h : Rep l xs) : Rep (l.clear false) [] ∧ (l.clear false).maxSize = l.maxSize := by
  obtain ⟨h1, h2, h3, r, hr⟩ := h
  exact ⟨⟨rfl, h2, h3, l.buf, rfl⟩, rfl⟩

theorem unorderedSearchFrom_rep (cmp : α → α → Int) {l : AList α} {xs} (h : Rep l xs) (x : α) :
    ∀ k i, i + k = xs.length →
      unorderedSearchFrom cmp l x k i = .ok (match (xs.drop i).findIdx? (fun y => cmp y x == 0) with
        | some j => ((i + j : Nat) : Int) | none => -1) := by
  intro k
  induction k with
  | zero => intro i hi; rw [List.drop_of_length_le (by omega)]; simp [unorderedSearchFrom]
  | succ k ih =>
    intro i hi
    have hlt : i < xs.length := by omega
    rw [unorderedSearchFrom, readSlot_rep h hlt, List.drop_eq_getElem_cons hlt, List.findIdx?_cons]
    simp only [Outcome.ok_bind]
    by_cases hc : cmp xs[i] x = 0
    · simp [hc]
    · rw [if_neg hc, ih (i + 1) (by omega)]
      simp only [beq_iff_eq, hc, if_false]
      cases (xs.drop (i + 1)).findIdx? (fun y => cmp y x == 0) with
      | none => simp
      | some j => simp; omega

theorem unorderedSearch_rep (cmp : α → α → Int) {l : AList α} {xs} (h : Rep l xs) (x : α) :
    l.unorderedSearch cmp x = .ok (match xs.findIdx? (fun y => cmp y x == 0) with
        | some j => (j : Int) | none => -1) := by
  have := unorderedSearchFrom_rep cmp h x xs.length 0 (by omega)
  rw [unorderedSearch, h.size, this]
  simp

theorem eraseIdx_findIdx? (p : α → Bool) (xs : List α) {j : Nat} (h : xs.findIdx? p = some j) :
    xs.eraseIdx j = xs.eraseP p := by
  induction xs generalizing j with
  | nil => simp at h
  | cons a xs ih =>
    rw [List.findIdx?_cons] at h
    by_cases ha : p a
    · simp [ha] at h; subst h; simp [ha]
    · simp [ha] at h
      obtain ⟨j', hj, rfl⟩ := h
      simp [ha, ih hj]

theorem remove_rep (cmp : α → α → Int) {l : AList α} {xs} (h : Rep l xs) (x : α) :
    ∃ l', l.remove cmp x = .ok (if xs.any (fun y => cmp y x == 0) then 1 else -1, l') ∧
      Rep l' (xs.eraseP (fun y => cmp y x == 0)) ∧ l'.maxSize = l.maxSize := by
  unfold remove find
  simp only [Bool.false_eq_true, if_false]
  rw [unorderedSearch_rep cmp h x]
  cases hf : xs.findIdx? (fun y => cmp y x == 0) with
  | none =>
    have hn := List.findIdx?_eq_none_iff.mp hf
    refine ⟨l, ?_, ?_, rfl⟩
    · have : xs.any (fun y => cmp y x == 0) = false := by simpa using hn
      simp [this]
    · rw [List.eraseP_of_forall_not (by simpa using hn)]; exact h
  | some j =>
    have hj := List.findIdx?_eq_some_iff_getElem.mp hf
    obtain ⟨hlt, hp, _⟩ := hj
    obtain ⟨l', e, hr, hm⟩ := removeAt_rep h j
    refine ⟨l', ?_, ?_, hm⟩
    · have : xs.any (fun y => cmp y x == 0) = true := by
        rw [List.any_eq_true]; exact ⟨xs[j], List.getElem_mem hlt, hp⟩
      simp [e, this, hlt]
    · rw [← eraseIdx_findIdx? _ _ hf]; exact hr

end Verif.AList
