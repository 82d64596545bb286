import Verif.Lemmas.AList
import Verif.Spec.Collections
/-
Helper lemmas for binary search and the ordered set.
-/
namespace Verif.AList
open Spec
variable {α : Type}

/-- Sorted, with repetitions allowed. -/
def Sorted (cmp : α → α → Int) (xs : List α) : Prop := xs.Pairwise (fun a b => cmp a b ≤ 0)

theorem sorted_lt {cmp : α → α → Int} (hc : PreCmp cmp) {xs : List α} (hs : Sorted cmp xs) {x : α} {i m : Nat}
    (him : i < m) (hm : m < xs.length) (h : cmp xs[m] x < 0) : cmp xs[i] x < 0 := by
  have hle : cmp xs[i] xs[m] ≤ 0 := List.pairwise_iff_getElem.mp hs i m (by omega) hm him
  by_contra hcon
  have h1 : cmp x xs[i] ≤ 0 := by
    by_contra h2
    exact hcon ((hc.swap _ _).mpr (by omega))
  have h3 := hc.le_trans _ _ _ h1 hle
  have h4 := (hc.swap _ _).mp h
  omega

theorem sorted_gt {cmp : α → α → Int} (hc : PreCmp cmp) {xs : List α} (hs : Sorted cmp xs) {x : α} {i m : Nat}
    (him : m < i) (hi : i < xs.length) (h : cmp xs[m] x > 0) : cmp xs[i] x > 0 := by
  have hle : cmp xs[m] xs[i] ≤ 0 := List.pairwise_iff_getElem.mp hs m i (by omega) hi him
  by_contra hcon
  have h1 : cmp xs[i] x ≤ 0 := by omega
  have := hc.le_trans _ _ _ hle h1
  omega

theorem binarySearch_rep {cmp : α → α → Int} (hc : PreCmp cmp) {l : AList α} {xs} (h : Rep l xs)
    (hs : Sorted cmp xs) (x : α) :
    ∀ (fuel : Nat) (lo hi : Int), 0 < fuel → 0 ≤ lo → hi < xs.length → hi - lo + 1 < fuel →
      (∀ i (hi' : i < xs.length), (i : Int) < lo → cmp xs[i] x < 0) →
      (∀ i (hi' : i < xs.length), hi < (i : Int) → cmp xs[i] x > 0) →
      ∃ r, l.binarySearch cmp x fuel lo hi = .ok r ∧
        ((∃ (j : Nat) (hj : j < xs.length), r = j ∧ cmp xs[j] x = 0) ∨ (r = -1 ∧ ∀ y ∈ xs, cmp y x ≠ 0)) := by
  intro fuel
  induction fuel with
  | zero => intro lo hi h0; omega
  | succ fuel ih =>
    intro lo hi _ h0 h1 h2 hlo hhi
    rw [binarySearch]
    by_cases hge : hi ≥ lo
    · rw [if_pos hge]
      have htd : Int.tdiv (hi - lo) 2 = (hi - lo) / 2 := Int.tdiv_eq_ediv_of_nonneg (by omega)
      simp only [htd]
      have hm0 : 0 ≤ lo + (hi - lo) / 2 := by omega
      have hmlo : lo ≤ lo + (hi - lo) / 2 := by omega
      have hmhi : lo + (hi - lo) / 2 ≤ hi := by omega
      generalize lo + (hi - lo) / 2 = mid at hm0 hmlo hmhi
      rw [if_neg (by omega)]
      obtain ⟨m, rfl⟩ := Int.eq_ofNat_of_zero_le hm0
      have hml : m < xs.length := by omega
      rw [show Int.toNat (m : Int) = m from rfl, readSlot_rep h hml]
      simp only [Outcome.ok_bind]
      by_cases hz : cmp xs[m] x = 0
      · rw [if_pos hz]
        exact ⟨m, rfl, Or.inl ⟨m, hml, rfl, hz⟩⟩
      · rw [if_neg hz]
        by_cases hp : cmp xs[m] x > 0
        · rw [if_pos hp]
          refine ih lo (m - 1) (by omega) h0 (by omega) (by omega) hlo ?_
          intro i hi' hlt
          by_cases him : i = m
          · subst him; exact hp
          · exact sorted_gt hc hs (by omega) hi' hp
        · rw [if_neg hp]
          refine ih (m + 1) hi (by omega) (by omega) h1 (by omega) ?_ hhi
          intro i hi' hlt
          by_cases him : i = m
          · subst him; omega
          · exact sorted_lt hc hs (by omega) hml (by omega)
    · rw [if_neg hge]
      refine ⟨-1, rfl, Or.inr ⟨rfl, ?_⟩⟩
      intro y hy
      obtain ⟨i, hi', rfl⟩ := List.getElem_of_mem hy
      by_cases hlt : (i : Int) < lo
      · have := hlo i hi' hlt; omega
      · have := hhi i hi' (by omega); omega
theorem find_sorted_rep {cmp : α → α → Int} (hc : PreCmp cmp) {l : AList α} {xs} (h : Rep l xs)
    (hs : Sorted cmp xs) (x : α) :
    ∃ r, l.find cmp x true = .ok r ∧
      ((∃ (j : Nat) (hj : j < xs.length), r = j ∧ cmp xs[j] x = 0) ∨ (r = -1 ∧ ∀ y ∈ xs, cmp y x ≠ 0)) := by
  unfold find
  rw [if_pos rfl, h.size]
  exact binarySearch_rep hc h hs x _ _ _ (by omega) (by omega) (by omega) (by push_cast; omega)
    (by intros; omega) (by intros; omega)

theorem StrictSorted.sorted {cmp : α → α → Int} {xs : List α} (h : StrictSorted cmp xs) : Sorted cmp xs :=
  List.Pairwise.imp (fun h => le_of_lt h) h

end Verif.AList

namespace Verif.SetT
open Spec AList
variable {α : Type}

theorem insertPos_rep {cmp : α → α → Int} (hc : PreCmp cmp) {s : AList α} {xs} (h : Rep s xs)
    (hs : Sorted cmp xs) (x : α) :
    ∀ (fuel low high : Nat), low < high → high ≤ xs.length → high - low < fuel →
      (∀ i (hi' : i < xs.length), i < low → cmp xs[i] x < 0) →
      (∀ i (hi' : i < xs.length), high ≤ i → cmp xs[i] x > 0) →
      ∃ r, insertPos cmp s x fuel low high = .ok r ∧
        ((r = none ∧ ∃ y ∈ xs, cmp y x = 0) ∨
         (∃ p, r = some p ∧ p ≤ xs.length ∧ (∀ i (hi' : i < xs.length), i < p → cmp xs[i] x < 0) ∧
            (∀ i (hi' : i < xs.length), p ≤ i → cmp xs[i] x > 0))) := by
  intro fuel
  induction fuel with
  | zero => intro low high _ _ h0; omega
  | succ fuel ih =>
    intro low high h0 h1 h2 hlo hhi
    rw [insertPos]
    have hmlo : low ≤ low + (high - low) / 2 := by omega
    have hmhi : low + (high - low) / 2 < high := by omega
    generalize low + (high - low) / 2 = mid at hmlo hmhi
    have hml : mid < xs.length := by omega
    simp only [readSlot_rep h hml, Outcome.ok_bind]
    by_cases hn : cmp xs[mid] x < 0
    · rw [if_pos hn]
      have hlo' : ∀ i (hi' : i < xs.length), i < mid + 1 → cmp xs[i] x < 0 := by
        intro i hi' hlt
        by_cases him : i = mid
        · subst him; exact hn
        · exact sorted_lt hc hs (by omega) hml hn
      by_cases hlt : mid + 1 < high
      · rw [if_pos hlt]
        exact ih _ _ hlt h1 (by omega) hlo' hhi
      · rw [if_neg hlt]
        exact ⟨_, rfl, Or.inr ⟨mid + 1, rfl, by omega, hlo', fun i hi' hle => hhi i hi' (by omega)⟩⟩
    · rw [if_neg hn]
      by_cases hp : cmp xs[mid] x > 0
      · rw [if_pos hp]
        have hhi' : ∀ i (hi' : i < xs.length), mid ≤ i → cmp xs[i] x > 0 := by
          intro i hi' hle
          by_cases him : i = mid
          · subst him; exact hp
          · exact sorted_gt hc hs (by omega) hi' hp
        by_cases hlt : low < mid
        · rw [if_pos hlt]
          exact ih _ _ hlt (by omega) (by omega) hlo hhi'
        · rw [if_neg hlt]
          exact ⟨_, rfl, Or.inr ⟨low, rfl, by omega, hlo, fun i hi' hle => hhi' i hi' (by omega)⟩⟩
      · rw [if_neg hp]
        exact ⟨_, rfl, Or.inl ⟨rfl, xs[mid], List.getElem_mem hml, by omega⟩⟩

theorem filter_split {p : α → Bool} {xs : List α} {k : Nat} (hk : k ≤ xs.length)
    (h1 : ∀ i (hi : i < xs.length), i < k → p xs[i] = true)
    (h2 : ∀ i (hi : i < xs.length), k ≤ i → p xs[i] = false) : xs.filter p = xs.take k := by
  conv_lhs => rw [← List.take_append_drop k xs]
  rw [List.filter_append]
  have e1 : (xs.take k).filter p = xs.take k := by
    rw [List.filter_eq_self]
    intro a ha
    obtain ⟨i, hi, rfl⟩ := List.getElem_of_mem ha
    simp at hi
    simpa using h1 i (by omega) (by omega)
  have e2 : (xs.drop k).filter p = [] := by
    rw [List.filter_eq_nil_iff]
    intro a ha
    obtain ⟨i, hi, rfl⟩ := List.getElem_of_mem ha
    simp at hi
    simpa using h2 (k + i) (by omega) (by omega)
  rw [e1, e2, List.append_nil]

theorem filter_split' {p : α → Bool} {xs : List α} {k : Nat} (hk : k ≤ xs.length)
    (h1 : ∀ i (hi : i < xs.length), i < k → p xs[i] = false)
    (h2 : ∀ i (hi : i < xs.length), k ≤ i → p xs[i] = true) : xs.filter p = xs.drop k := by
  conv_lhs => rw [← List.take_append_drop k xs]
  rw [List.filter_append]
  have e1 : (xs.take k).filter p = [] := by
    rw [List.filter_eq_nil_iff]
    intro a ha
    obtain ⟨i, hi, rfl⟩ := List.getElem_of_mem ha
    simp at hi
    simpa using h1 i (by omega) (by omega)
  have e2 : (xs.drop k).filter p = xs.drop k := by
    rw [List.filter_eq_self]
    intro a ha
    obtain ⟨i, hi, rfl⟩ := List.getElem_of_mem ha
    simp at hi
    simpa using h2 (k + i) (by omega) (by omega)
  rw [e1, e2, List.nil_append]

theorem insert_rep [DecidableEq α] {cmp : α → α → Int} (hc : LawfulCmp cmp) {s : AList α} {xs} (h : Rep s xs)
    (hs : StrictSorted cmp xs) (x : α) :
    ∃ s', insert cmp s x = .ok (if x ∈ xs then 0 else 1, s') ∧ Rep s' (setInsert cmp xs x) ∧
      s.maxSize ≤ s'.maxSize := by
  unfold insert
  have key : ∀ p, p ≤ xs.length → (∀ i (hi' : i < xs.length), i < p → cmp xs[i] x < 0) →
      (∀ i (hi' : i < xs.length), p ≤ i → cmp xs[i] x > 0) →
      ∃ s', (s.insertAt x p >>= fun s' => Outcome.ok ((1 : Int), s')) = .ok (if x ∈ xs then 0 else 1, s') ∧
        Rep s' (setInsert cmp xs x) ∧ s.maxSize ≤ s'.maxSize := by
    intro p hp h1 h2
    have hx : x ∉ xs := by
      intro hx
      obtain ⟨i, hi, he⟩ := List.getElem_of_mem hx
      have hz : cmp xs[i] x = 0 := (hc.eq_iff _ _).mpr he
      by_cases hlt : i < p
      · have := h1 i hi hlt; omega
      · have := h2 i hi (by omega); omega
    obtain ⟨s', e, hr, hm⟩ := insertAt_rep h x hp
    refine ⟨s', by simp [e, hx], ?_, hm⟩
    unfold setInsert
    rw [if_neg hx, filter_split (k := p) hp, filter_split' (k := p) hp]
    · exact hr
    · intro i hi hlt; have := h1 i hi hlt; simp; omega
    · intro i hi hle; have := h2 i hi hle; simp; omega
    · intro i hi hlt; have := h1 i hi hlt; simpa using this
    · intro i hi hle; have := h2 i hi hle; simp; omega
  by_cases hz : s.size > 0
  · have hlen : 0 < xs.length := by rw [← h.size]; exact hz
    obtain ⟨r, e, hr⟩ := insertPos_rep hc.toPreCmp h (StrictSorted.sorted hs) x (s.size + 1) 0 s.size hz
      (by rw [h.size]) (by omega) (by intros; omega) (by intro i hi' hle; rw [h.size] at hle; omega)
    rw [if_pos hz, e]
    rcases hr with ⟨rfl, y, hy, hyx⟩ | ⟨p, rfl, hp, h1, h2⟩
    · have := (hc.eq_iff _ _).mp hyx
      subst this
      exact ⟨s, by simp [hy], by simp [setInsert, hy, h], le_refl _⟩
    · exact key p hp h1 h2
  · rw [if_neg hz]
    have hx : xs = [] := List.eq_nil_of_length_eq_zero (by rw [← h.size]; omega)
    subst hx
    exact key 0 (by simp) (by intro i hi; simp at hi) (by intro i hi; simp at hi)

theorem setInsert_mem [DecidableEq α] {cmp : α → α → Int} (hc : LawfulCmp cmp) (xs : List α) (x y : α) :
    y ∈ setInsert cmp xs x ↔ y = x ∨ y ∈ xs := by
  unfold setInsert
  by_cases hx : x ∈ xs
  · rw [if_pos hx]
    constructor
    · exact Or.inr
    · rintro (rfl | h) <;> assumption
  · rw [if_neg hx]
    simp only [List.mem_append, List.mem_cons, List.mem_filter, decide_eq_true_eq]
    constructor
    · rintro (⟨h, _⟩ | rfl | ⟨h, _⟩)
      · exact Or.inr h
      · exact Or.inl rfl
      · exact Or.inr h
    · rintro (rfl | h)
      · exact Or.inr (Or.inl rfl)
      · rcases lt_trichotomy (cmp y x) 0 with h1 | h1 | h1
        · exact Or.inl ⟨h, h1⟩
        · exact absurd ((hc.eq_iff _ _).mp h1 ▸ h) hx
        · exact Or.inr (Or.inr ⟨h, h1⟩)

theorem lt_trans_cmp {cmp : α → α → Int} (hc : PreCmp cmp) {a b c : α} (h1 : cmp a b < 0) (h2 : cmp b c < 0) :
    cmp a c < 0 := by
  by_contra h
  have hca : cmp c a ≤ 0 := by
    by_contra h3
    exact h ((hc.swap _ _).mpr (by omega))
  have hcb := hc.le_trans _ _ _ hca (le_of_lt h1)
  have := (hc.swap _ _).mp h2
  omega

theorem setInsert_sorted [DecidableEq α] {cmp : α → α → Int} (hc : LawfulCmp cmp) {xs : List α}
    (hs : StrictSorted cmp xs) (x : α) : StrictSorted cmp (setInsert cmp xs x) := by
  unfold setInsert StrictSorted
  by_cases hx : x ∈ xs
  · rw [if_pos hx]; exact hs
  · rw [if_neg hx]
    rw [List.pairwise_append]
    refine ⟨List.Pairwise.filter _ hs, ?_, ?_⟩
    · rw [List.pairwise_cons]
      refine ⟨?_, List.Pairwise.filter _ hs⟩
      intro a ha
      simp only [List.mem_filter, decide_eq_true_eq] at ha
      exact (hc.swap _ _).mpr ha.2
    · intro a ha b hb
      simp only [List.mem_filter, decide_eq_true_eq, List.mem_cons] at ha hb
      rcases hb with rfl | hb
      · exact ha.2
      · exact lt_trans_cmp hc.toPreCmp ha.2 ((hc.swap _ _).mpr hb.2)

theorem strictSorted_nodup {cmp : α → α → Int} (hc : LawfulCmp cmp) {xs : List α} (hs : StrictSorted cmp xs) :
    xs.Nodup := by
  refine List.Pairwise.imp ?_ hs
  intro a b hab he
  have := (hc.eq_iff _ _).mpr he
  omega

theorem find_rep {cmp : α → α → Int} [DecidableEq α] (hc : LawfulCmp cmp) {s : AList α} {xs} (h : Rep s xs)
    (hs : StrictSorted cmp xs) (x : α) :
    find cmp s x = .ok (if x ∈ xs then ((xs.filter (fun y => cmp y x < 0)).length : Int) else -1) := by
  obtain ⟨r, e, hr⟩ := find_sorted_rep hc.toPreCmp h (StrictSorted.sorted hs) x
  unfold find
  rw [e]
  rcases hr with ⟨j, hj, rfl, hz⟩ | ⟨rfl, hz⟩
  · have := (hc.eq_iff _ _).mp hz
    subst this
    rw [if_pos (List.getElem_mem hj)]
    have : xs.filter (fun y => cmp y xs[j] < 0) = xs.take j := by
      refine filter_split (k := j) (by omega) ?_ ?_
      · intro i hi hlt
        simpa using List.pairwise_iff_getElem.mp hs i j hi hj hlt
      · intro i hi hle
        by_cases hij : i = j
        · subst hij; simp; omega
        · have := List.pairwise_iff_getElem.mp hs j i hj hi (by omega)
          have := (hc.swap _ _).mp this
          simp; omega
    rw [this]; simp; omega
  · rw [if_neg]
    intro hx
    exact hz x hx ((hc.eq_iff _ _).mpr rfl)

theorem eraseIdx_filter [DecidableEq α] {xs : List α} (hn : xs.Nodup) {j : Nat}
    (hj : j < xs.length) {z : α} (hz : xs[j] = z) : xs.eraseIdx j = xs.filter (fun y => y ≠ z) := by
  induction xs generalizing j with
  | nil => simp at hj
  | cons a t ih =>
    rw [List.nodup_cons] at hn
    cases j with
    | zero =>
      simp only [List.getElem_cons_zero] at hz
      subst hz
      rw [List.filter_cons]
      simp only [List.eraseIdx_zero, List.tail_cons]
      rw [if_neg (by simp), List.filter_eq_self.mpr]
      intro y hy
      have : y ≠ a := fun h => hn.1 (h ▸ hy)
      simpa using this
    | succ j =>
      simp only [List.getElem_cons_succ] at hz
      have hj' : j < t.length := by simpa using hj
      have : a ≠ z := fun h => hn.1 (by rw [h, ← hz]; exact List.getElem_mem hj')
      rw [List.eraseIdx_cons_succ, ih hn.2 hj' hz, List.filter_cons, if_pos (by simpa using this)]

theorem remove_rep {cmp : α → α → Int} [DecidableEq α] (hc : LawfulCmp cmp) {s : AList α} {xs} (h : Rep s xs)
    (hs : StrictSorted cmp xs) (x : α) :
    ∃ s', remove cmp s x = .ok (if x ∈ xs then 1 else -1, s') ∧ Rep s' (xs.filter (fun y => y ≠ x)) ∧
      s'.maxSize = s.maxSize := by
  obtain ⟨r, e, hr⟩ := find_sorted_rep hc.toPreCmp h (StrictSorted.sorted hs) x
  unfold remove find
  rw [e]
  rcases hr with ⟨j, hj, rfl, hz⟩ | ⟨rfl, hz⟩
  · have := (hc.eq_iff _ _).mp hz
    subst this
    obtain ⟨s', e', hr', hm⟩ := removeAt_rep h j
    refine ⟨s', ?_, ?_, hm⟩
    · simp [e', hj]
    · rw [← eraseIdx_filter (strictSorted_nodup hc hs) hj rfl]; exact hr'
  · have hx : x ∉ xs := fun hx => hz x hx ((hc.eq_iff _ _).mpr rfl)
    refine ⟨s, by simp [hx], ?_, rfl⟩
    rw [List.filter_eq_self.mpr]
    · exact h
    · intro a ha
      have : a ≠ x := fun h => hx (h ▸ ha)
      simpa using this

theorem eraseIdx_sorted {cmp : α → α → Int} {xs : List α} (hs : StrictSorted cmp xs) (i : Nat) :
    StrictSorted cmp (xs.eraseIdx i) := List.Pairwise.sublist (List.eraseIdx_sublist xs i) hs

end Verif.SetT
