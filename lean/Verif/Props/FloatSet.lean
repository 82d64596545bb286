import Verif.Spec.FloatSet
import Verif.Model.Fp
import Verif.Props.Sort
import Verif.Props.Compare
/-
C116: sets of floating point numbers.
-/
namespace Verif.Props
open Verif Spec

section any
variable {α : Type}

/-- The search loop of `set_insert` stays inside the set, whatever the comparison function answers. -/
theorem insertPos_any {cmp : α → α → Int} {s : AList α} {xs : List α} (h : AList.Rep s xs) (x : α) :
    ∀ fuel low high : Nat, low < high → high ≤ xs.length → high - low < fuel →
      ∃ r, SetT.insertPos cmp s x fuel low high = .ok r ∧ ∀ p, r = some p → p ≤ xs.length := by
  intro fuel
  induction fuel with
  | zero => intro low high _ _ h0; omega
  | succ fuel ih =>
    intro low high h1 h2 h3
    have hm : low + (high - low) / 2 < high := by omega
    have hm' : low ≤ low + (high - low) / 2 := by omega
    rw [SetT.insertPos]
    generalize low + (high - low) / 2 = mid at hm hm'
    simp only [AList.readSlot_rep h (show mid < xs.length by omega), Outcome.ok_bind]
    split
    · split
      · exact ih _ _ (by omega) h2 (by omega)
      · exact ⟨_, rfl, fun p e => by cases e; omega⟩
    · split
      · split
        · exact ih _ _ (by omega) (by omega) (by omega)
        · exact ⟨_, rfl, fun p e => by cases e; omega⟩
      · exact ⟨_, rfl, fun p e => by cases e⟩

/-- Everything from the middle on is smaller: the place is at the end. -/
theorem insertPos_right {cmp : α → α → Int} {s : AList α} {xs : List α} (h : AList.Rep s xs) (x : α) :
    ∀ fuel low high : Nat, low < high → high ≤ xs.length → high - low < fuel →
      (∀ (i : Nat) (hi : i < xs.length), low + (high - low) / 2 ≤ i → i < high → cmp xs[i] x < 0) → SetT.insertPos cmp s x fuel low high = .ok (some high) := by
  intro fuel
  induction fuel with
  | zero => intro low high _ _ h0; omega
  | succ fuel ih =>
    intro low high h1 h2 h3 hs
    have hm : low + (high - low) / 2 < high := by omega
    rw [SetT.insertPos]
    have hc := hs _ (by omega) (le_refl _) hm
    simp only [AList.readSlot_rep h (show low + (high - low) / 2 < xs.length by omega), Outcome.ok_bind, if_pos hc]
    split
    · exact ih _ _ (by omega) h2 (by omega) fun i hi h4 h5 => hs i hi (by omega) h5
    · exact congrArg (fun p => Outcome.ok (some p)) (by omega)

/-- Everything from the middle on is smaller: nothing is found. -/
theorem search_right {cmp : α → α → Int} {l : AList α} {xs : List α} (h : AList.Rep l xs) (x : α) :
    ∀ (fuel : Nat) (lo hi : Int), 0 < fuel → 0 ≤ lo → hi < xs.length → hi - lo + 1 < fuel →
      (∀ (i : Nat) (hl : i < xs.length), lo + (hi - lo) / 2 ≤ i → (i : Int) ≤ hi → cmp xs[i] x < 0) → l.binarySearch cmp x fuel lo hi = .ok (-1) := by
  intro fuel
  induction fuel with
  | zero => intro lo hi h0; omega
  | succ fuel ih =>
    intro lo hi _ h0 h1 h2 hs
    rw [AList.binarySearch]
    by_cases hge : hi ≥ lo
    · rw [if_pos hge]
      have htd : Int.tdiv (hi - lo) 2 = (hi - lo) / 2 := Int.tdiv_eq_ediv_of_nonneg (by omega)
      simp only [htd]
      rw [if_neg (by omega)]
      obtain ⟨m, hm⟩ := Int.eq_ofNat_of_zero_le (show 0 ≤ lo + (hi - lo) / 2 by omega)
      have hml : m < xs.length := by omega
      have hc := hs m hml (by omega) (by omega)
      rw [hm, show Int.toNat (m : Int) = m from rfl, AList.readSlot_rep h hml]
      simp only [Outcome.ok_bind]
      rw [if_neg (by omega), if_neg (by omega)]
      exact ih (m + 1) hi (by omega) (by omega) h1 (by omega) fun i hl h4 h5 => hs i hl (by omega) h5
    · rw [if_neg hge]

theorem insertPos_congr {cmp cmp' : α → α → Int} {s : AList α} {xs : List α} (h : AList.Rep s xs) (x : α) (hc : ∀ t ∈ xs, cmp t x = cmp' t x) :
    ∀ fuel low high : Nat, low < high → high ≤ xs.length → SetT.insertPos cmp s x fuel low high = SetT.insertPos cmp' s x fuel low high := by
  intro fuel
  induction fuel with
  | zero => intros; rfl
  | succ fuel ih =>
    intro low high h1 h2
    have hm : low + (high - low) / 2 < high := by omega
    rw [SetT.insertPos, SetT.insertPos]
    generalize low + (high - low) / 2 = mid at hm
    simp only [AList.readSlot_rep h (show mid < xs.length by omega), Outcome.ok_bind, hc _ (List.getElem_mem _)]
    by_cases h3 : mid + 1 < high
    · by_cases h4 : low < mid
      · simp only [if_pos h3, if_pos h4, ih _ _ h3 h2, ih _ _ h4 (by omega)]
      · simp only [if_pos h3, if_neg h4, ih _ _ h3 h2]
    · by_cases h4 : low < mid
      · simp only [if_neg h3, if_pos h4, ih _ _ h4 (show mid ≤ xs.length by omega)]
      · simp only [if_neg h3, if_neg h4]

theorem search_congr {cmp cmp' : α → α → Int} {l : AList α} {xs : List α} (h : AList.Rep l xs) (x : α) (hc : ∀ t ∈ xs, cmp t x = cmp' t x) :
    ∀ (fuel : Nat) (lo hi : Int), 0 ≤ lo → hi < xs.length → l.binarySearch cmp x fuel lo hi = l.binarySearch cmp' x fuel lo hi := by
  intro fuel
  induction fuel with
  | zero => intros; rfl
  | succ fuel ih =>
    intro lo hi h0 h1
    rw [AList.binarySearch, AList.binarySearch]
    by_cases hge : hi ≥ lo
    · rw [if_pos hge, if_pos hge]
      have htd : Int.tdiv (hi - lo) 2 = (hi - lo) / 2 := Int.tdiv_eq_ediv_of_nonneg (by omega)
      simp only [htd]
      rw [if_neg (by omega), if_neg (by omega)]
      obtain ⟨m, hm⟩ := Int.eq_ofNat_of_zero_le (show 0 ≤ lo + (hi - lo) / 2 by omega)
      have hml : m < xs.length := by omega
      rw [hm, show Int.toNat (m : Int) = m from rfl, AList.readSlot_rep h hml]
      simp only [Outcome.ok_bind, hc _ (List.getElem_mem hml), ih lo (m - 1) h0 (by omega), ih (m + 1) hi (by omega) h1]
    · rw [if_neg hge, if_neg hge]

/-- `set_insert` with any comparison function. -/
theorem insert_any {cmp : α → α → Int} {s : AList α} {xs : List α} (h : AList.Rep s xs) (x : α) :
    ∃ s', (SetT.insert cmp s x = .ok (0, s') ∧ s' = s) ∨ ∃ p, p ≤ xs.length ∧ SetT.insert cmp s x = .ok (1, s') ∧ AList.Rep s' (xs.take p ++ x :: xs.drop p) := by
  unfold SetT.insert
  by_cases h0 : s.size > 0
  · obtain ⟨r, e, hr⟩ := insertPos_any (cmp := cmp) h x (s.size + 1) 0 s.size h0 h.size.le (by omega)
    rw [if_pos h0, e]
    cases r with
    | none => exact ⟨s, .inl ⟨rfl, rfl⟩⟩
    | some p =>
      obtain ⟨s', e', h', -⟩ := AList.insertAt_rep h x (hr p rfl)
      exact ⟨s', .inr ⟨p, hr p rfl, by simp [e'], h'⟩⟩
  · obtain ⟨s', e', h', -⟩ := AList.insertAt_rep h x (Nat.zero_le _)
    rw [if_neg h0]
    exact ⟨s', .inr ⟨0, Nat.zero_le _, by simp [e'], h'⟩⟩

theorem set_step_any {cmp : α → α → Int} {s : AList α} {xs : List α} (h : AList.Rep s xs) (op : SetOp α) : ∃ r s' xs', SetT.step cmp s op = .ok (r, s') ∧ AList.Rep s' xs' := by
  have hf : ∀ x, ∃ r, s.find cmp x true = .ok r := by
    intro x
    obtain ⟨r, e, -⟩ := search_any (cmp := cmp) h x (s.size + 1) 0 ((s.size : Int) - 1) (by omega) (by omega) (by rw [h.size]; omega) (by omega)
    exact ⟨r, e⟩
  cases op with
  | insert x =>
    obtain ⟨s', ⟨e, rfl⟩ | ⟨p, -, e, h'⟩⟩ := insert_any (cmp := cmp) h x
    · exact ⟨_, _, _, by simp only [SetT.step, e]; rfl, h⟩
    · exact ⟨_, _, _, by simp only [SetT.step, e]; rfl, h'⟩
  | remove x =>
    obtain ⟨r, e⟩ := hf x
    by_cases hr : r < 0
    · exact ⟨_, _, _, by simp only [SetT.step, SetT.remove, SetT.find, e, Outcome.ok_bind, if_pos hr]; rfl, h⟩
    · obtain ⟨s', e', h', -⟩ := AList.removeAt_rep h r.toNat
      exact ⟨_, _, _, by simp only [SetT.step, SetT.remove, SetT.find, e, e', Outcome.ok_bind, if_neg hr]; rfl, h'⟩
  | removeAt pos =>
    obtain ⟨s', e', h', -⟩ := AList.removeAt_rep h pos
    exact ⟨_, _, _, by simp only [SetT.step, SetT.removeAt, e', Outcome.ok_bind]; rfl, h'⟩
  | find x =>
    obtain ⟨r, e⟩ := hf x
    exact ⟨_, _, _, by simp only [SetT.step, SetT.find, e, Outcome.ok_bind]; rfl, h⟩
  | valueAt pos => exact ⟨_, _, _, by simp only [SetT.step, SetT.valueAt, AList.valueAt_rep h, Outcome.ok_bind]; rfl, h⟩
  | size => exact ⟨_, _, _, rfl, h⟩

theorem set_run_any {cmp : α → α → Int} : ∀ (ops : List (SetOp α)) {s : AList α} {xs : List α}, AList.Rep s xs → ∃ rs s' xs', SetT.run cmp s ops = .ok (rs, s') ∧ AList.Rep s' xs'
  | [], s, xs, h => ⟨_, _, _, rfl, h⟩
  | op :: ops, s, xs, h => by
    obtain ⟨r, s1, xs1, e1, h1⟩ := set_step_any (cmp := cmp) h op
    obtain ⟨rs, s2, xs2, e2, h2⟩ := set_run_any (cmp := cmp) ops h1
    exact ⟨_, _, _, by simp only [SetT.run, e1, e2, Outcome.ok_bind]; rfl, h2⟩

theorem set_run_append {cmp : α → α → Int} : ∀ (ops : List (SetOp α)) {ops' : List (SetOp α)} {s s' t : AList α} {rs rs' : List (Ret α)}, SetT.run cmp s ops = .ok (rs, s') → SetT.run cmp s' ops' = .ok (rs', t) →
    SetT.run cmp s (ops ++ ops') = .ok (rs ++ rs', t)
  | [], _, _, _, _, _, _, h, h' => by
    cases h
    exact h'
  | op :: ops, ops', s, s', t, rs, rs', h, h' => by
    obtain ⟨a, e1, h⟩ := Outcome.bind_eq_ok.1 h
    obtain ⟨b, e2, h⟩ := Outcome.bind_eq_ok.1 h
    cases h
    simp only [List.cons_append, SetT.run, e1, Outcome.ok_bind, set_run_append ops e2 h']
    rfl

end any

variable {V : Type} [LinearOrder V]

theorem nan_left (x : Ieee V) : doubleCompare (Ieee.nan : Ieee V) x = -1 := by cases x <;> rfl

theorem nan_right (x : Ieee V) : doubleCompare x (Ieee.nan : Ieee V) = -1 := by cases x <;> rfl

theorem insert_end {s : AList (Ieee V)} {xs : List (Ieee V)} (h : AList.Rep s xs) (x : Ieee V) (hs : ∀ (i : Nat) (hi : i < xs.length), xs.length / 2 ≤ i → doubleCompare xs[i] x < 0) :
    ∃ s', SetT.step doubleCompare s (.insert x) = .ok ((1, none), s') ∧ AList.Rep s' (xs ++ [x]) := by
  obtain ⟨s', e', h', -⟩ := AList.insertAt_rep h x (le_refl xs.length)
  rw [List.take_length, List.drop_length] at h'
  refine ⟨s', ?_, h'⟩
  simp only [SetT.step, SetT.insert]
  by_cases h0 : s.size > 0
  · rw [if_pos h0, insertPos_right h x (s.size + 1) 0 s.size h0 h.size.le (by omega) fun i hi h4 _ => hs i hi (by rw [← h.size]; omega), h.size]
    simp [e']
  · rw [if_neg h0]
    have : xs.length = 0 := by rw [← h.size]; omega
    rw [this] at e'
    simp [e']

theorem find_none {s : AList (Ieee V)} {xs : List (Ieee V)} (h : AList.Rep s xs) (x : Ieee V) (hs : ∀ (i : Nat) (hi : i < xs.length), (xs.length - 1) / 2 ≤ i → doubleCompare xs[i] x < 0) :
    SetT.step doubleCompare s (.find x) = .ok ((-1, none), s) ∧ SetT.step doubleCompare s (.remove x) = .ok ((-1, none), s) := by
  have e : s.find doubleCompare x true = .ok (-1) := by
    refine search_right h x (s.size + 1) 0 ((s.size : Int) - 1) (by omega) (by omega) (by rw [h.size]; omega) (by omega) fun i hi h4 _ => hs i hi ?_
    have := h.size
    omega
  constructor
  · simp [SetT.step, SetT.find, e]
  · simp [SetT.step, SetT.remove, SetT.find, e]

/-- **C116**, memory: whatever is put into a set of floating point numbers, no call goes wrong. -/
theorem C116_safe (ops : List (SetOp (Ieee V))) : ∃ s rs s' xs, SetT.init = .ok s ∧ SetT.run doubleCompare s ops = .ok (rs, s') ∧ s'.contents = (xs : List (Ieee V)).map (fun x => .ok (some x)) := by
  obtain ⟨s, e, h, _⟩ := AList.rep_init (α := Ieee V) (n := 2) (by omega)
  obtain ⟨rs, s', xs, e', h'⟩ := set_run_any (cmp := doubleCompare) ops h
  exact ⟨s, rs, s', xs, e, e', rep_contents h'⟩

/-- The comparison with NaN below all numbers. -/
def totalCompare : Ieee V → Ieee V → Int
  | .nan, .nan => 0
  | .nan, .num _ => -1
  | .num _, .nan => 1
  | .num a, .num b => doubleCompare a b

theorem total_lawful : LawfulCmp (totalCompare : Ieee V → Ieee V → Int) := by
  have hc := C16_double_compare (D := V)
  refine ⟨⟨?_, ?_⟩, ?_⟩
  · rintro (_ | a) (_ | b) <;> simp [totalCompare, hc.swap]
  · rintro (_ | a) (_ | b) (_ | c) <;> simp [totalCompare]
    exact hc.le_trans a b c
  · rintro (_ | a) (_ | b) <;> simp [totalCompare, hc.eq_iff]

theorem total_num {a b : Ieee V} (ha : a ≠ .nan) (hb : b ≠ .nan) : doubleCompare a b = totalCompare a b := by
  cases a with
  | nan => exact absurd rfl ha
  | num a =>
    cases b with
    | nan => exact absurd rfl hb
    | num b => simp [totalCompare, doubleCompare, CCmp.lt, CCmp.eq]

theorem setStep_total {xs : List (Ieee V)} (hx : ∀ t ∈ xs, t ≠ .nan) {op : SetOp (Ieee V)} (ho : noNan op) :
    setStep doubleCompare xs op = setStep totalCompare xs op ∧ ∀ t ∈ (setStep totalCompare xs op).2, t ≠ .nan := by
  have hf : ∀ (x : Ieee V), x ≠ .nan → xs.filter (fun y => doubleCompare y x < 0) = xs.filter (fun y => totalCompare y x < 0) ∧
      xs.filter (fun y => doubleCompare y x > 0) = xs.filter (fun y => totalCompare y x > 0) := fun x h =>
    ⟨List.filter_congr fun y hy => by rw [total_num (hx y hy) h], List.filter_congr fun y hy => by rw [total_num (hx y hy) h]⟩
  cases op with
  | insert x =>
    obtain ⟨h1, h2⟩ := hf x ho
    refine ⟨by simp only [setStep, setInsert, h1, h2], fun t ht => ?_⟩
    rcases (SetT.setInsert_mem total_lawful xs x t).1 ht with rfl | h
    · exact ho
    · exact hx t h
  | remove x => exact ⟨rfl, fun t ht => hx t (List.mem_of_mem_filter ht)⟩
  | removeAt pos => exact ⟨rfl, fun t ht => hx t (List.mem_of_mem_eraseIdx ht)⟩
  | find x => exact ⟨by simp only [setStep, (hf x ho).1], hx⟩
  | valueAt pos => exact ⟨rfl, hx⟩
  | size => exact ⟨rfl, hx⟩

theorem step_total {s : AList (Ieee V)} {xs : List (Ieee V)} (h : AList.Rep s xs) (hx : ∀ t ∈ xs, t ≠ .nan) {op : SetOp (Ieee V)} (ho : noNan op) :
    SetT.step doubleCompare s op = SetT.step totalCompare s op := by
  have hf : ∀ x : Ieee V, x ≠ .nan → s.find doubleCompare x true = s.find totalCompare x true := fun x hn =>
    search_congr h x (fun t ht => total_num (hx t ht) hn) _ _ _ (by omega) (by rw [h.size]; omega)
  cases op with
  | insert x =>
    simp only [SetT.step, SetT.insert]
    by_cases h0 : s.size > 0
    · rw [if_pos h0, if_pos h0, insertPos_congr h x (fun t ht => total_num (hx t ht) ho) _ _ _ h0 h.size.le]
    · rw [if_neg h0, if_neg h0]
  | remove x => simp only [SetT.step, SetT.remove, SetT.find, hf x ho]
  | find x => simp only [SetT.step, SetT.find, hf x ho]
  | _ => rfl

theorem run_total : ∀ (ops : List (SetOp (Ieee V))) {s : AList (Ieee V)} {xs : List (Ieee V)}, AList.Rep s xs → StrictSorted totalCompare xs → (∀ t ∈ xs, t ≠ .nan) → (∀ op ∈ ops, noNan op) →
    ∃ s', SetT.run doubleCompare s ops = .ok ((setRun doubleCompare xs ops).1, s') ∧ AList.Rep s' (setRun doubleCompare xs ops).2 ∧ StrictSorted totalCompare (setRun doubleCompare xs ops).2 ∧
      ∀ t ∈ (setRun doubleCompare xs ops).2, t ≠ .nan
  | [], s, xs, h, hs, hx, _ => ⟨s, rfl, h, hs, hx⟩
  | op :: ops, s, xs, h, hs, hx, ho => by
    obtain ⟨e0, hx1⟩ := setStep_total hx (ho op (by simp))
    obtain ⟨s1, e1, h1, hs1⟩ := set_step_rep total_lawful h hs op
    rw [← step_total h hx (ho op (by simp)), ← e0] at e1
    rw [← e0] at h1 hs1 hx1
    obtain ⟨s2, e2, h2, hs2, hx2⟩ := run_total ops h1 hs1 hx1 fun o ho' => ho o (by simp [ho'])
    exact ⟨s2, by simp only [SetT.run, e1, e2, Outcome.ok_bind]; rfl, h2, hs2, hx2⟩

/-- **C116**, without NaN: every history of calls that passes no NaN to the set gives back what the ideal set gives back, and leaves the numbers in ascending order. -/
theorem C116_numbers_partial (ops : List (SetOp (Ieee V))) (ho : ∀ op ∈ ops, noNan op) :
    ∃ s s' : AList (Ieee V), SetT.init = .ok s ∧ SetT.run doubleCompare s ops = .ok ((setRun doubleCompare [] ops).1, s') ∧ s'.contents = (setRun doubleCompare [] ops).2.map (fun x => .ok (some x)) ∧
      (setRun doubleCompare [] ops).2.Pairwise fun a b => CCmp.lt a b = true := by
  obtain ⟨s, e, h, _⟩ := AList.rep_init (α := Ieee V) (n := 2) (by omega)
  obtain ⟨s', e', h', hs, hx⟩ := run_total ops h List.Pairwise.nil (by simp) ho
  refine ⟨s, s', e, e', rep_contents h', List.Pairwise.imp_of_mem (fun {a b} ha hb hab => ?_) hs⟩
  have ha := hx a ha
  have hb := hx b hb
  cases a with
  | nan => exact absurd rfl ha
  | num a =>
    cases b with
    | nan => exact absurd rfl hb
    | num b =>
      simp only [totalCompare, doubleCompare, ccmp_lt, ccmp_eq, decide_eq_true_eq] at hab
      show decide (a < b) = true
      rw [decide_eq_true_eq]
      split at hab
      · omega
      · split at hab
        · omega
        · exact lt_of_le_of_ne (not_lt.1 ‹_›) ‹_›

/-- **C116** fails for NaN, after every history: NaN is put at the end each time, and it is never found and never removed. -/
theorem C116_nan_violated (ops : List (SetOp (Ieee V))) :
    ∃ s rs s' xs s'', SetT.init = .ok s ∧ SetT.run doubleCompare s ops = .ok (rs, s') ∧ s'.contents = (xs : List (Ieee V)).map (fun x => .ok (some x)) ∧
      SetT.step doubleCompare s' (.insert .nan) = .ok ((1, none), s'') ∧ s''.contents = (xs ++ [Ieee.nan]).map (fun x => .ok (some x)) ∧
      SetT.step doubleCompare s' (.find .nan) = .ok ((-1, none), s') ∧ SetT.step doubleCompare s' (.remove .nan) = .ok ((-1, none), s') := by
  obtain ⟨s, e, h, _⟩ := AList.rep_init (α := Ieee V) (n := 2) (by omega)
  obtain ⟨rs, s', xs, e', h'⟩ := set_run_any (cmp := doubleCompare) ops h
  obtain ⟨s'', e'', h''⟩ := insert_end h' .nan fun i hi _ => by rw [nan_right]; omega
  have := find_none h' .nan fun i hi _ => by rw [nan_right]; omega
  exact ⟨s, rs, s', xs, s'', e, e', rep_contents h', e'', rep_contents h'', this.1, this.2⟩

theorem nans_run : ∀ (k : Nat) {s : AList (Ieee V)} {xs : List (Ieee V)}, AList.Rep s xs →
    ∃ s', SetT.run doubleCompare s (List.replicate k (.insert (Ieee.nan : Ieee V))) = .ok (List.replicate k (1, none), s') ∧ AList.Rep s' (xs ++ List.replicate k Ieee.nan)
  | 0, s, xs, h => ⟨s, rfl, by simpa using h⟩
  | k + 1, s, xs, h => by
    obtain ⟨s1, e1, h1⟩ := insert_end h (Ieee.nan : Ieee V) fun i hi _ => by rw [nan_right]; omega
    obtain ⟨s2, e2, h2⟩ := nans_run k h1
    refine ⟨s2, by simp only [List.replicate_succ, SetT.run, e1, e2, Outcome.ok_bind]; rfl, ?_⟩
    simpa [List.replicate_succ] using h2

/-- NaN spoils the set for all numbers: after every history, if NaN is inserted more often than there are elements, no number is found or removed any more, and every number is inserted again
    although it is there. -/
theorem C116_hidden_violated (ops : List (SetOp (Ieee V))) :
    ∃ s rs s' xs, SetT.init = .ok s ∧ SetT.run doubleCompare s ops = .ok (rs, s') ∧ s'.contents = (xs : List (Ieee V)).map (fun x => .ok (some x)) ∧
      ∀ k, xs.length < k → ∃ rs' t, SetT.run doubleCompare s (ops ++ List.replicate k (.insert (Ieee.nan : Ieee V))) = .ok (rs', t) ∧
        ∀ x : V, SetT.step doubleCompare t (.find (.num x)) = .ok ((-1, none), t) ∧ SetT.step doubleCompare t (.remove (.num x)) = .ok ((-1, none), t) ∧
          ∃ t', SetT.step doubleCompare t (.insert (.num x)) = .ok ((1, none), t') ∧ t'.contents = (xs ++ List.replicate k Ieee.nan ++ [Ieee.num x]).map (fun x => .ok (some x)) := by
  obtain ⟨s, e, h, _⟩ := AList.rep_init (α := Ieee V) (n := 2) (by omega)
  obtain ⟨rs, s', xs, e', h'⟩ := set_run_any (cmp := doubleCompare) ops h
  refine ⟨s, rs, s', xs, e, e', rep_contents h', fun k hk => ?_⟩
  obtain ⟨t, e1, h1⟩ := nans_run k h'
  have hl : (xs ++ List.replicate k (Ieee.nan : Ieee V)).length = xs.length + k := by simp
  have hn : ∀ (x : Ieee V) (i : Nat) (hi : i < (xs ++ List.replicate k (Ieee.nan : Ieee V)).length), xs.length ≤ i → doubleCompare (xs ++ List.replicate k (Ieee.nan : Ieee V))[i] x < 0 := by
    intro x i hi hle
    rw [List.getElem_append_right hle, List.getElem_replicate, nan_left]
    omega
  refine ⟨rs ++ List.replicate k (1, none), t, set_run_append ops e' e1, fun x => ?_⟩
  obtain ⟨h2, h3⟩ := find_none h1 (.num x) fun i hi hle => hn _ i hi (by omega)
  obtain ⟨t', h4, h5⟩ := insert_end h1 (.num x) fun i hi hle => hn _ i hi (by omega)
  exact ⟨h2, h3, t', h4, rep_contents h5⟩

/-- A history of the first kind: 4, 1 and 4 again, 9, then calls that look for them. -/
example : ∃ ops : List (SetOp (Ieee Int)), (∀ op ∈ ops, noNan op) ∧
    setRun doubleCompare [] ops = ([(1, none), (1, none), (0, none), (1, none), (2, none), (1, none), (-1, none), (1, some (.num 4))], [.num 4, .num 9]) :=
  ⟨[.insert (.num 4), .insert (.num 1), .insert (.num 4), .insert (.num 9), .find (.num 9), .remove (.num 1), .remove (.num 1), .valueAt 0], by simp [noNan], by decide⟩

/-- The others at work: after 5 and two NaN, the number 5 is not found and is stored a second time. -/
theorem C116_cases :
    (SetT.init >>= fun s => SetT.run doubleCompare s [.insert (.num 5), .find (.num 5), .insert .nan, .insert .nan, .find (.num 5), .insert (.num 5), .find .nan, .remove .nan, .size] >>= fun a => .ok (a.1, a.2.contents)) =
      .ok ([(1, none), (0, none), (1, none), (1, none), (-1, none), (1, none), (-1, none), (-1, none), (4, none)], [Ieee.num (5 : Int), .nan, .nan, .num 5].map fun x => .ok (some x)) := by decide

end Verif.Props
