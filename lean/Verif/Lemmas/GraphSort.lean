import Verif.Model.Graph
import Mathlib.Logic.Equiv.Basic
import Mathlib.Data.List.Nodup
import Mathlib.Data.List.Range
import Mathlib.Data.List.Perm.Subperm
import Mathlib.Order.Basic
import Mathlib.Tactic.Linarith
/-
Helper lemmas for the edge sort.
-/
namespace Verif.Graph
variable {W : Type}

/-- The three edge arrays hold the triples `f 0, ..., f (n-1)`. -/
structure ERep (g : Graph W) (n : Nat) (f : Nat → Nat × Nat × W) : Prop where
  va : g.va = (List.range n).map (fun i => (f i).1)
  vb : g.vb = (List.range n).map (fun i => (f i).2.1)
  wt : g.wt = (List.range n).map (fun i => (f i).2.2)

theorem rd_map {α : Type} {n i : Nat} (f : Nat → α) (h : i < n) : rd ((List.range n).map f) i = .ok (f i) := by
  simp [rd, h]

theorem wr_map {α : Type} {n i : Nat} (f : Nat → α) (x : α) (h : i < n) :
    wr ((List.range n).map f) i x = .ok ((List.range n).map (fun k => if k = i then x else f k)) := by
  rw [wr_ok (by simpa using h)]
  congr 1
  apply List.ext_getElem
  · simp
  · intro k h1 h2
    simp at h1
    simp only [List.getElem_set, List.getElem_map, List.getElem_range]
    by_cases hk : i = k
    · simp [hk]
    · simp [hk, Ne.symm hk]

theorem swap_apply_if {i j k : Nat} {α : Type} (f : Nat → α) :
    f (Equiv.swap i j k) = if k = j then f i else if k = i then f j else f k := by
  rw [Equiv.swap_apply_def]
  by_cases h1 : k = i
  · subst h1
    by_cases h2 : k = j
    · subst h2; simp
    · simp [h2]
  · by_cases h2 : k = j
    · subst h2; simp [h1]
    · simp [h1, h2]

theorem swapEdges_rep {g : Graph W} {n i j : Nat} {f} (h : ERep g n f) (hi : i < n) (hj : j < n) :
    ∃ g', swapEdges g i j = .ok g' ∧ ERep g' n (fun k => f (Equiv.swap i j k)) ∧ g'.numVertices = g.numVertices ∧
      g'.edges = g.edges := by
  unfold swapEdges
  by_cases hij : i = j
  · subst hij
    refine ⟨g, by simp, ?_, rfl, rfl⟩
    simpa using h
  · rw [if_pos hij, h.va, h.vb, h.wt]
    simp only [rd_map _ hi, rd_map _ hj, wr_map _ _ hi, wr_map _ _ hj, Outcome.ok_bind]
    refine ⟨_, rfl, ⟨?_, ?_, ?_⟩, rfl, rfl⟩
    · apply List.map_congr_left; intro k _
      rw [swap_apply_if (fun k => (f k))]
      by_cases h1 : k = j <;> by_cases h2 : k = i <;> simp [h1, h2, hij]
    · apply List.map_congr_left; intro k _
      rw [swap_apply_if (fun k => (f k))]
      by_cases h1 : k = j <;> by_cases h2 : k = i <;> simp [h1, h2, hij]
    · apply List.map_congr_left; intro k _
      rw [swap_apply_if (fun k => (f k))]
      by_cases h1 : k = j <;> by_cases h2 : k = i <;> simp [h1, h2, hij]

/-- A permutation of positions that moves nothing outside `[s, e]`. -/
def Within (s e : Nat) (σ : Equiv.Perm Nat) : Prop := ∀ k, k < s ∨ e < k → σ k = k

theorem within_swap {s e i j : Nat} (hi : s ≤ i ∧ i ≤ e) (hj : s ≤ j ∧ j ≤ e) : Within s e (Equiv.swap i j) := by
  intro k hk
  exact Equiv.swap_apply_of_ne_of_ne (by omega) (by omega)

theorem within_mul {s e : Nat} {σ τ : Equiv.Perm Nat} (h1 : Within s e σ) (h2 : Within s e τ) :
    Within s e (τ.trans σ) := by
  intro k hk
  simp [h2 k hk, h1 k hk]

theorem within_refl (s e : Nat) : Within s e (Equiv.refl Nat) := fun _ _ => rfl

theorem within_mono {s e s' e' : Nat} {σ : Equiv.Perm Nat} (h : Within s e σ) (h1 : s' ≤ s) (h2 : e ≤ e') : Within s' e' σ :=
  fun k hk => h k (by omega)

theorem within_mem {s e : Nat} {σ : Equiv.Perm Nat} (h : Within s e σ) {k : Nat} (hk : s ≤ k ∧ k ≤ e) : s ≤ σ k ∧ σ k ≤ e := by
  by_contra hc
  have h1 : σ (σ k) = σ k := h (σ k) (by omega)
  have h2 : σ k = k := σ.injective h1
  rw [h2] at hc; exact hc hk

theorem within_perm {α : Type} {n : Nat} {σ : Equiv.Perm Nat} (h : Within 0 (n - 1) σ) (hn : 0 < n) (f : Nat → α) :
    ((List.range n).map (fun k => f (σ k))).Perm ((List.range n).map f) := by
  have : ((List.range n).map σ).Perm (List.range n) := by
    rw [List.perm_ext_iff_of_nodup (List.nodup_range.map σ.injective) List.nodup_range]
    intro a
    simp only [List.mem_map, List.mem_range]
    constructor
    · rintro ⟨k, hk, rfl⟩
      have := within_mem h (k := k) (by omega)
      omega
    · intro ha
      refine ⟨σ.symm a, ?_, by simp⟩
      by_contra hc
      have := h (σ.symm a) (by omega)
      simp at this
      rw [← this] at hc
      exact hc ha
  have := this.map f
  simpa [Function.comp_def] using this

/-- The partition loop on `[s, i + k)`: the part below `low` is smaller than the pivot, the part from `low` to the
    current position is not. -/
theorem partLoop_rep [CCmp W] {n s e : Nat} (pv : W) (he : e < n) : ∀ (k i low : Nat) (g : Graph W) (f : Nat → Nat × Nat × W),
    ERep g n f → i + k = e → s ≤ low → low ≤ i →
    (∀ x, s ≤ x → x < low → CCmp.lt (f x).2.2 pv = true) → (∀ x, low ≤ x → x < i → CCmp.lt (f x).2.2 pv = false) →
    ∃ g' low' σ, partLoop pv k i low g = .ok (g', low') ∧ ERep g' n (fun k => f (σ k)) ∧
      Within s (e - 1) σ ∧ (s < e ∨ σ = Equiv.refl Nat) ∧ s ≤ low' ∧ low' ≤ e ∧
      (∀ x, s ≤ x → x < low' → CCmp.lt (f (σ x)).2.2 pv = true) ∧
      (∀ x, low' ≤ x → x < e → CCmp.lt (f (σ x)).2.2 pv = false) ∧ g'.numVertices = g.numVertices ∧ g'.edges = g.edges := by
  intro k
  induction k with
  | zero =>
    intro i low g f h hie h1 h2 hlo hhi
    have : i = e := by omega
    subst this
    exact ⟨g, low, Equiv.refl Nat, rfl, h, within_refl _ _, .inr rfl, h1, h2, hlo, hhi, rfl, rfl⟩
  | succ k ih =>
    intro i low g f h hie h1 h2 hlo hhi
    have hin : i < n := by omega
    simp only [partLoop]
    rw [h.wt, rd_map _ hin]
    simp only [Outcome.ok_bind]
    by_cases hc : CCmp.lt (f i).2.2 pv = true
    · rw [if_pos hc]
      obtain ⟨g1, e1, r1, n1, ed1⟩ := swapEdges_rep h hin (show low < n by omega)
      rw [e1]
      simp only [Outcome.ok_bind]
      obtain ⟨g', low', σ, e2, r2, w2, hs2, a1, a2, a3, a4, a5, a6⟩ := ih (i + 1) (low + 1) g1 _ r1 (by omega) (by omega) (by omega)
        (by
          intro x hx1 hx2
          rw [swap_apply_if (fun k => f k)]
          by_cases hxl : x = low
          · simp [hxl, hc]
          · have : x ≠ i := by omega
            simp [hxl, this]; exact hlo x hx1 (by omega))
        (by
          intro x hx1 hx2
          rw [swap_apply_if (fun k => f k)]
          have hxl : x ≠ low := by omega
          by_cases hxi : x = i
          · subst hxi
            simp [hxl]
            exact hhi low (le_refl _) (by omega)
          · simp [hxl, hxi]; exact hhi x (by omega) (by omega))
      refine ⟨g', low', σ.trans (Equiv.swap i low), e2, by simpa using r2, ?_, .inl (by omega), a1, a2, by simpa using a3, by simpa using a4,
        a5.trans n1, a6.trans ed1⟩
      exact within_mul (within_swap (by omega) (by omega)) w2
    · rw [if_neg hc]
      obtain ⟨g', low', σ, e2, r2, w2, hs2, a1, a2, a3, a4, a5, a6⟩ := ih (i + 1) low g _ h (by omega) (by omega) (by omega) hlo
        (by
          intro x hx1 hx2
          by_cases hxi : x = i
          · subst hxi; simpa using hc
          · exact hhi x hx1 (by omega))
      exact ⟨g', low', σ, e2, r2, w2, .inl (by omega), a1, a2, a3, a4, a5, a6⟩

theorem partition_rep [CCmp W] {n s e p : Nat} {g : Graph W} {f : Nat → Nat × Nat × W} (h : ERep g n f) (he : e < n)
    (hp : s ≤ p ∧ p ≤ e) :
    ∃ g' q σ, partition g s e p = .ok (g', q) ∧ ERep g' n (fun k => f (σ k)) ∧ Within s e σ ∧ s ≤ q ∧ q ≤ e ∧
      (∀ x, s ≤ x → x < q → CCmp.lt (f (σ x)).2.2 (f (σ q)).2.2 = true) ∧
      (∀ x, q < x → x ≤ e → CCmp.lt (f (σ x)).2.2 (f (σ q)).2.2 = false) ∧
      g'.numVertices = g.numVertices ∧ g'.edges = g.edges := by
  obtain ⟨g1, e1, r1, n1, ed1⟩ := swapEdges_rep h (show p < n by omega) he
  obtain ⟨g2, q, σ, e2, r2, w2, hs2, a1, a2, a3, a4, n2, ed2⟩ := partLoop_rep (s := s) (f p).2.2 he (e - s) s s g1 _ r1
    (by omega) (le_refl _) (le_refl _) (fun x h1 h2 => by omega) (fun x h1 h2 => by omega)
  obtain ⟨g3, e3, r3, n3, ed3⟩ := swapEdges_rep r2 (show q < n by omega) he
  have hse : σ e = e := by
    rcases hs2 with h | h
    · exact w2 e (by omega)
    · rw [h]; rfl
  have w2' : Within s e σ := within_mono w2 (le_refl _) (by omega)
  -- the pivot sits at q
  have hpiv : Equiv.swap p e (σ (Equiv.swap q e q)) = p := by simp [hse]
  refine ⟨g3, q, ((Equiv.swap q e).trans σ).trans (Equiv.swap p e), ?_, by simpa using r3,
    within_mul (within_swap (by omega) (by omega)) (within_mul w2' (within_swap (by omega) (by omega))), a1, a2, ?_, ?_,
    n3.trans (n2.trans n1), ed3.trans (ed2.trans ed1)⟩
  · simp only [partition]
    rw [h.wt, rd_map _ (show p < n by omega)]
    simp only [Outcome.ok_bind, e1, e2, e3, Outcome.pure_eq]
  · intro x h1 h2
    simp only [Equiv.trans_apply, hpiv]
    have : Equiv.swap q e x = x := Equiv.swap_apply_of_ne_of_ne (by omega) (by omega)
    rw [this]
    exact a3 x h1 h2
  · intro x h1 h2
    simp only [Equiv.trans_apply, hpiv]
    by_cases hx : x = e
    · subst hx
      rw [Equiv.swap_apply_right]
      exact a4 q (le_refl _) h1
    · have : Equiv.swap q e x = x := Equiv.swap_apply_of_ne_of_ne (by omega) hx
      rw [this]
      exact a4 x (by omega) (by omega)

theorem selectPivot_eq [CCmp W] (g : Graph W) {s e : Nat} (h : s ≤ e) : selectPivot g s e = .ok s := by
  unfold selectPivot
  rw [if_pos (by omega)]

/-- Pending ranges: in bounds, at least two elements each, pairwise disjoint. -/
structure Ranges (n : Nat) (st : List (Nat × Nat)) : Prop where
  bound : ∀ r ∈ st, r.1 < r.2 ∧ r.2 < n
  disj : st.Pairwise (fun a b => a.2 < b.1 ∨ b.2 < a.1)

/-- Total number of positions in pending ranges. -/
def weight (st : List (Nat × Nat)) : Nat := (st.map (fun r => r.2 - r.1 + 1)).sum

theorem ranges_nodup {n : Nat} {st : List (Nat × Nat)} (h : Ranges n st) :
    (st.flatMap (fun r => (List.range (r.2 - r.1 + 1)).map (r.1 + ·))).Nodup ∧
    ∀ x ∈ st.flatMap (fun r => (List.range (r.2 - r.1 + 1)).map (r.1 + ·)), x < n := by
  constructor
  · rw [List.nodup_flatMap]
    refine ⟨fun r _ => List.nodup_range.map (fun a b h => by simpa using h), ?_⟩
    have hb := h.bound
    refine h.disj.imp_of_mem ?_
    intro a b ha hb' hab
    have h1 := hb a ha
    have h2 := hb b hb'
    simp only [Function.onFun, List.Disjoint, List.mem_map, List.mem_range]
    rintro x ⟨y, hy, rfl⟩ ⟨z, hz, hzz⟩
    omega
  · intro x hx
    obtain ⟨r, hr, hx⟩ := List.mem_flatMap.mp hx
    obtain ⟨y, hy, rfl⟩ := List.mem_map.mp hx
    have := h.bound r hr
    simp at hy
    omega

theorem weight_le {n : Nat} {st : List (Nat × Nat)} (h : Ranges n st) : weight st ≤ n := by
  obtain ⟨h1, h2⟩ := ranges_nodup h
  have hsub := List.subperm_of_subset h1 (show _ ⊆ List.range n from fun x hx => List.mem_range.mpr (h2 x hx))
  have := hsub.length_le
  simp only [List.length_flatMap, List.length_map, List.length_range] at this
  exact this

theorem two_mul_length_le {n : Nat} {st : List (Nat × Nat)} (h : Ranges n st) : 2 * st.length ≤ n := by
  have h1 := weight_le h
  have h2 : 2 * st.length ≤ weight st := by
    have hb := h.bound
    clear h h1
    induction st with
    | nil => simp [weight]
    | cons r t ih =>
      have := ih (fun x hx => hb x (by simp [hx]))
      have hr := hb r (by simp)
      simp only [weight, List.map_cons, List.sum_cons, List.length_cons] at *
      omega
  omega

theorem push_rep {n cap : Nat} (hcap : cap = n / 2) {c : Bool} {r : Nat × Nat} {st : List (Nat × Nat)}
    (h : Ranges n (if c then r :: st else st)) : push cap c r st = .ok (if c then r :: st else st) := by
  unfold push
  cases c with
  | false => simp
  | true =>
    simp only [if_true] at h ⊢
    have := two_mul_length_le h
    simp only [List.length_cons] at this
    rw [if_pos (by omega)]

/-- One round keeps the ranges well formed and uses up at least one position. -/
theorem ranges_split {n s e p : Nat} {st : List (Nat × Nat)} (h : Ranges n ((s, e) :: st)) (h1 : s ≤ p) (h2 : p ≤ e) :
    Ranges n (if decide (p > s + 1) then (s, p - 1) :: st else st) ∧
    Ranges n (if decide (p + 1 < e) then (p + 1, e) :: (if decide (p > s + 1) then (s, p - 1) :: st else st)
      else (if decide (p > s + 1) then (s, p - 1) :: st else st)) ∧
    weight (if decide (p + 1 < e) then (p + 1, e) :: (if decide (p > s + 1) then (s, p - 1) :: st else st)
      else (if decide (p > s + 1) then (s, p - 1) :: st else st)) + 1 ≤ weight ((s, e) :: st) := by
  obtain ⟨hb, hd⟩ := h
  have hse := hb (s, e) (by simp)
  simp only at hse
  rw [List.pairwise_cons] at hd
  obtain ⟨hd1, hd2⟩ := hd
  have hbt : ∀ r ∈ st, r.1 < r.2 ∧ r.2 < n := fun r hr => hb r (by simp [hr])
  by_cases c1 : p > s + 1 <;> by_cases c2 : p + 1 < e <;> simp only [c1, c2, decide_true, decide_false, if_true, if_false, Bool.false_eq_true]
  · refine ⟨⟨?_, ?_⟩, ⟨?_, ?_⟩, ?_⟩
    · intro r hr
      rcases List.mem_cons.mp hr with rfl | hr
      · simp only; omega
      · exact hbt r hr
    · rw [List.pairwise_cons]
      exact ⟨fun r hr => by have := hd1 r hr; simp only at this ⊢; omega, hd2⟩
    · intro r hr
      rcases List.mem_cons.mp hr with rfl | hr
      · simp only; omega
      · rcases List.mem_cons.mp hr with rfl | hr
        · simp only; omega
        · exact hbt r hr
    · rw [List.pairwise_cons, List.pairwise_cons]
      refine ⟨fun r hr => ?_, fun r hr => by have := hd1 r hr; simp only at this ⊢; omega, hd2⟩
      rcases List.mem_cons.mp hr with rfl | hr
      · simp only; omega
      · have := hd1 r hr; simp only at this ⊢; omega
    · simp only [weight, List.map_cons, List.sum_cons]; omega
  · refine ⟨⟨?_, ?_⟩, ⟨?_, ?_⟩, ?_⟩
    · intro r hr
      rcases List.mem_cons.mp hr with rfl | hr
      · simp only; omega
      · exact hbt r hr
    · rw [List.pairwise_cons]
      exact ⟨fun r hr => by have := hd1 r hr; simp only at this ⊢; omega, hd2⟩
    · intro r hr
      rcases List.mem_cons.mp hr with rfl | hr
      · simp only; omega
      · exact hbt r hr
    · rw [List.pairwise_cons]
      exact ⟨fun r hr => by have := hd1 r hr; simp only at this ⊢; omega, hd2⟩
    · simp only [weight, List.map_cons, List.sum_cons]; omega
  · refine ⟨⟨hbt, hd2⟩, ⟨?_, ?_⟩, ?_⟩
    · intro r hr
      rcases List.mem_cons.mp hr with rfl | hr
      · simp only; omega
      · exact hbt r hr
    · rw [List.pairwise_cons]
      exact ⟨fun r hr => by have := hd1 r hr; simp only at this ⊢; omega, hd2⟩
    · simp only [weight, List.map_cons, List.sum_cons]; omega
  · refine ⟨⟨hbt, hd2⟩, ⟨hbt, hd2⟩, ?_⟩
    simp only [weight, List.map_cons, List.sum_cons]; omega

/-- `i < j` are in the right order or still inside one pending range. -/
def Ordered [CCmp W] (n : Nat) (f : Nat → Nat × Nat × W) (st : List (Nat × Nat)) : Prop :=
  ∀ i j, i < j → j < n → CCmp.lt (f j).2.2 (f i).2.2 = false ∨ ∃ r ∈ st, r.1 ≤ i ∧ j ≤ r.2

/-- Splitting a range after a partition keeps everything ordered; for linearly ordered weights. -/
theorem ordered_split [LinearOrder W] {n s e q : Nat} {st : List (Nat × Nat)} {f : Nat → Nat × Nat × W} {σ : Equiv.Perm Nat}
    (h : Ranges n ((s, e) :: st)) (ho : Ordered n f ((s, e) :: st)) (hw : Within s e σ) (h1 : s ≤ q) (h2 : q ≤ e)
    (hlo : ∀ x, s ≤ x → x < q → CCmp.lt (f (σ x)).2.2 (f (σ q)).2.2 = true)
    (hhi : ∀ x, q < x → x ≤ e → CCmp.lt (f (σ x)).2.2 (f (σ q)).2.2 = false) :
    Ordered n (fun k => f (σ k)) (if decide (q + 1 < e) then (q + 1, e) :: (if decide (q > s + 1) then (s, q - 1) :: st else st)
      else (if decide (q > s + 1) then (s, q - 1) :: st else st)) := by
  obtain ⟨hb, hd⟩ := h
  rw [List.pairwise_cons] at hd
  simp only [ccmp_lt, decide_eq_true_eq, decide_eq_false_iff_not, not_lt] at hlo hhi
  intro i j hij hj
  rw [ccmp_lt, decide_eq_false_iff_not, not_lt]
  change (f (σ i)).2.2 ≤ (f (σ j)).2.2 ∨ _
  have hin : ∀ r ∈ st, r ∈ (if decide (q + 1 < e) then (q + 1, e) :: (if decide (q > s + 1) then (s, q - 1) :: st else st)
      else (if decide (q > s + 1) then (s, q - 1) :: st else st)) := by
    intro r hr; split <;> split <;> simp [hr]
  have old : ∀ i j, i < j → j < n → (f i).2.2 ≤ (f j).2.2 ∨ (s ≤ i ∧ j ≤ e) ∨ ∃ r ∈ st, r.1 ≤ i ∧ j ≤ r.2 := by
    intro i j hij hj
    rcases ho i j hij hj with hlt | ⟨r, hr, hr2⟩
    · simp only [ccmp_lt, decide_eq_false_iff_not, not_lt] at hlt; exact .inl hlt
    · rcases List.mem_cons.mp hr with rfl | hr
      · exact .inr (.inl hr2)
      · exact .inr (.inr ⟨r, hr, hr2⟩)
  by_cases hi : s ≤ i ∧ i ≤ e
  · by_cases hj2 : j ≤ e
    · -- both inside
      by_cases hjq : j < q
      · refine .inr ⟨(s, q - 1), ?_, by simp only; omega⟩
        have : q > s + 1 := by omega
        split <;> simp [this]
      · by_cases hiq : q < i
        · refine .inr ⟨(q + 1, e), ?_, by simp only; omega⟩
          have : q + 1 < e := by omega
          simp [this]
        · refine .inl ?_
          have hA : (f (σ i)).2.2 ≤ (f (σ q)).2.2 := by
            by_cases he : i = q
            · rw [he]
            · exact (hlo i hi.1 (by omega)).le
          have hB : (f (σ q)).2.2 ≤ (f (σ j)).2.2 := by
            by_cases he : j = q
            · rw [he]
            · exact hhi j (by omega) hj2
          exact hA.trans hB
    · -- i inside, j above
      have hsi := within_mem hw hi
      have hsj : σ j = j := hw j (by omega)
      refine .inl ?_
      rw [hsj]
      rcases old (σ i) j (by omega) hj with hlt | hc | ⟨r, hr, hr2⟩
      · exact hlt
      · omega
      · have := hd.1 r hr; simp only at this; omega
  · have hsi : σ i = i := hw i (by omega)
    by_cases hj2 : s ≤ j ∧ j ≤ e
    · -- i below, j inside
      have hsj := within_mem hw hj2
      refine .inl ?_
      rw [hsi]
      have hne := hb (s, e) (by simp)
      simp only at hne
      rcases old i (σ j) (by omega) (by omega) with hlt | hc | ⟨r, hr, hr2⟩
      · exact hlt
      · omega
      · have := hd.1 r hr; simp only at this; omega
    · have hsj : σ j = j := hw j (by omega)
      rw [hsi, hsj]
      rcases old i j hij hj with hlt | hc | ⟨r, hr, hr2⟩
      · exact .inl hlt
      · omega
      · exact .inr ⟨r, hin r hr, hr2⟩

/-- The sorting loop returns, only permutes the triples, and never overflows its stacks; any weights. -/
theorem sortLoop_rep [CCmp W] {n cap : Nat} (hcap : cap = n / 2) : ∀ (fuel : Nat) (st : List (Nat × Nat)) (g : Graph W)
    (f : Nat → Nat × Nat × W), ERep g n f → Ranges n st → weight st ≤ fuel →
    ∃ g' σ, sortLoop cap fuel st g = .ok g' ∧ ERep g' n (fun k => f (σ k)) ∧ Within 0 (n - 1) σ ∧
      g'.numVertices = g.numVertices ∧ g'.edges = g.edges := by
  intro fuel
  induction fuel with
  | zero =>
    intro st g f h hr hw
    cases st with
    | nil => exact ⟨g, Equiv.refl Nat, rfl, h, within_refl _ _, rfl, rfl⟩
    | cons r t => simp only [weight, List.map_cons, List.sum_cons] at hw; omega
  | succ fuel ih =>
    intro st g f h hr hw
    cases st with
    | nil => exact ⟨g, Equiv.refl Nat, rfl, h, within_refl _ _, rfl, rfl⟩
    | cons r t =>
      obtain ⟨s, e⟩ := r
      have hse := hr.bound (s, e) (by simp)
      simp only at hse
      obtain ⟨g1, q, σ, e1, r1, w1, a1, a2, a3, a4, n1, ed1⟩ := partition_rep h hse.2 (p := s) (s := s) (by omega)
      obtain ⟨b1, b2, b3⟩ := ranges_split hr a1 a2
      obtain ⟨g2, τ, e2, r2, w2, n2, ed2⟩ := ih _ g1 _ r1 b2 (by omega)
      refine ⟨g2, τ.trans σ, ?_, by simpa using r2, within_mul (within_mono w1 (by omega) (by omega)) w2, n2.trans n1, ed2.trans ed1⟩
      simp only [sortLoop, selectPivot_eq g (show s ≤ e by omega), Outcome.ok_bind, e1, push_rep hcap b1, push_rep hcap b2]
      exact e2

/-- With linearly ordered weights the result is sorted. -/
theorem sortLoop_sorted [LinearOrder W] {n cap : Nat} (hcap : cap = n / 2) : ∀ (fuel : Nat) (st : List (Nat × Nat)) (g : Graph W)
    (f : Nat → Nat × Nat × W), ERep g n f → Ranges n st → weight st ≤ fuel → Ordered n f st →
    ∃ g' f', sortLoop cap fuel st g = .ok g' ∧ ERep g' n f' ∧ Ordered n f' [] := by
  intro fuel
  induction fuel with
  | zero =>
    intro st g f h hr hw ho
    cases st with
    | nil => exact ⟨g, f, rfl, h, ho⟩
    | cons r t => simp only [weight, List.map_cons, List.sum_cons] at hw; omega
  | succ fuel ih =>
    intro st g f h hr hw ho
    cases st with
    | nil => exact ⟨g, f, rfl, h, ho⟩
    | cons r t =>
      obtain ⟨s, e⟩ := r
      have hse := hr.bound (s, e) (by simp)
      simp only at hse
      obtain ⟨g1, q, σ, e1, r1, w1, a1, a2, a3, a4, n1, ed1⟩ := partition_rep h hse.2 (p := s) (s := s) (by omega)
      obtain ⟨b1, b2, b3⟩ := ranges_split hr a1 a2
      obtain ⟨g2, f', e2, r2, o2⟩ := ih _ g1 _ r1 b2 (by omega) (ordered_split hr ho w1 a1 a2 a3 a4)
      refine ⟨g2, f', ?_, r2, o2⟩
      simp only [sortLoop, selectPivot_eq g (show s ≤ e by omega), Outcome.ok_bind, e1, push_rep hcap b1, push_rep hcap b2]
      exact e2

end Verif.Graph
