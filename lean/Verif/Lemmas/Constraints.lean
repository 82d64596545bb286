import Verif.Lemmas.Selection
import Mathlib.Algebra.BigOperators.Group.Finset.Basic
import Mathlib.Algebra.Order.Monoid.Prod
/-
Helper lemmas: choosing between a cluster and its descendants bottom up is optimal, for totals in any ordered group.
-/
namespace Verif.Sel
open Spec Relation
set_option linter.unusedSectionVars false
open Classical in
section
variable {W S G : Type} [CCmp W] [CCmp S] {N : Nat} {K : Nat → Cl W S}
variable (ht : Tree N K) (hout : ∀ l, N ≤ l ∨ l = 0 → (K l).parent = none)

/-- The labels at or below `q`. -/
noncomputable def below (N : Nat) (K : Nat → Cl W S) (q : Nat) : Finset Nat := (Finset.range N).filter (fun l => ReflTransGen (fun a b => (K a).parent = some b) l q)

theorem mem_below {l q : Nat} : l ∈ below N K q ↔ l < N ∧ ReflTransGen (fun a b => (K a).parent = some b) l q := by
  simp [below]

include ht hout in
/-- A sum over a subtree. -/
theorem sum_below [AddCommMonoid G] (f : Nat → G) {q : Nat} (hq : q < N) :
    (below N K q).sum f = f q + ((kidsAbove N K 0 q).map (fun l => (below N K l).sum f)).sum := by
  have hlt := par_lt ht hout
  have hun := par_un (K := K)
  have e : below N K q = insert q ((kidsAbove N K 0 q).toFinset.biUnion (below N K)) := by
    ext x
    simp only [Finset.mem_insert, Finset.mem_biUnion, List.mem_toFinset, mem_below, mem_kids hout]
    constructor
    · rintro ⟨h1, h2⟩
      rcases reflTransGen_iff_eq_or_transGen.1 h2 with h | h
      · exact .inl h.symm
      · obtain ⟨l, p1, p2⟩ := below_child h
        exact .inr ⟨l, p1, h1, p2⟩
    · rintro (rfl | ⟨l, p1, h1, p2⟩)
      · exact ⟨hq, .refl⟩
      · exact ⟨h1, p2.tail p1⟩
  rw [e, Finset.sum_insert, Finset.sum_biUnion]
  · rw [List.sum_toFinset _ nodup_kids]
  · intro a ha b hb hne
    simp only [Finset.mem_coe, List.mem_toFinset] at ha hb
    refine Finset.disjoint_left.2 (fun x p1 p2 => ?_)
    exact hne (children_disjoint hlt hun ((mem_kids hout).1 ha) ((mem_kids hout).1 hb) (mem_below.1 p1).2 (mem_below.1 p2).2)
  · simp only [Finset.mem_biUnion, List.mem_toFinset, mem_below, mem_kids hout]
    rintro ⟨l, p1, _, p2⟩
    have := hlt _ _ p1
    have := refl_le hlt p2
    omega

/-- What the clusters that are not covered by `T` add. -/
noncomputable def rest [AddCommMonoid G] (K : Nat → Cl W S) (base : Nat → G) (T : List Nat) (l : Nat) : G :=
  if ∃ t ∈ T, ReflTransGen (fun a b => (K a).parent = some b) l t then 0 else base l

variable [AddCommGroup G] [LinearOrder G] [IsOrderedAddMonoid G] {val base tot : Nat → G} {w : Nat → Bool} {desc : Nat → List Nat}
  (htot : ∀ q, 1 ≤ q → q < N → tot q = base q + ((kidsAbove N K 0 q).map (fun l => if w l then val l else tot l)).sum)
  (hdesc : ∀ q, desc q = (kidsAbove N K 0 q).flatMap (fun l => if w l then [l] else desc l))
  (hw1 : ∀ l l', (K l').parent = some l → w l = true → tot l ≤ val l)
  (hw2 : ∀ l, 1 ≤ l → l < N → w l = false → val l < tot l)

/-- The clusters of `T` at or below `l`. -/
noncomputable def part (K : Nat → Cl W S) (T : List Nat) (l : Nat) : List Nat := T.filter (fun t => decide (ReflTransGen (fun a b => (K a).parent = some b) t l))

include ht hout in
/-- The value of a selection is made up of the values of its parts below the children. -/
theorem value_split (val base : Nat → G) {q : Nat} (hq : q < N) (T : List Nat) (hT : T.Nodup)
    (h1 : ∀ t ∈ T, TransGen (fun a b => (K a).parent = some b) t q) :
    (T.map val).sum + (below N K q).sum (rest K base T) =
      base q + ((kidsAbove N K 0 q).map (fun l => ((part K T l).map val).sum + (below N K l).sum (rest K base T))).sum := by
  have hlt := par_lt ht hout
  have hun := par_un (K := K)
  have hperm : T.Perm ((kidsAbove N K 0 q).flatMap (part K T)) := by
    rw [List.perm_ext_iff_of_nodup hT]
    · intro t
      simp only [List.mem_flatMap, part, List.mem_filter, decide_eq_true_eq]
      constructor
      · intro h
        obtain ⟨l, p1, p2⟩ := below_child (h1 t h)
        exact ⟨l, (mem_kids hout).2 p1, h, p2⟩
      · rintro ⟨_, _, h, _⟩; exact h
    · rw [List.nodup_flatMap]
      refine ⟨fun l _ => hT.filter _, List.Pairwise.imp_of_mem (fun {a b} ha hb hne t p1 p2 => ?_) nodup_kids⟩
      simp only [part, List.mem_filter, decide_eq_true_eq] at p1 p2
      exact hne (children_disjoint hlt hun ((mem_kids hout).1 ha) ((mem_kids hout).1 hb) p1.2 p2.2)
  have hs : (T.map val).sum = ((kidsAbove N K 0 q).map (fun k => ((part K T k).map val).sum)).sum := by
    rw [(hperm.map _).sum_eq, sum_flatMap']
  have hr : rest K base T q = base q := by
    rw [rest, if_neg]
    rintro ⟨t, p1, p2⟩
    have := trans_lt hlt (h1 t p1)
    have := refl_le hlt p2
    omega
  rw [sum_below ht hout _ hq, hs, hr, List.sum_map_add, add_left_comm]

include ht hout in
/-- Below a child that is not selected only its part counts. -/
theorem rest_part (base : Nat → G) {q l : Nat} (hp : (K l).parent = some q) (T : List Nat)
    (h1 : ∀ t ∈ T, TransGen (fun a b => (K a).parent = some b) t q) (hl : l ∉ T) :
    (below N K l).sum (rest K base T) = (below N K l).sum (rest K base (part K T l)) := by
  have hlt := par_lt ht hout
  have hun := par_un (K := K)
  refine Finset.sum_congr rfl (fun x hx => ?_)
  have hx' := (mem_below.1 hx).2
  have : (∃ t ∈ T, ReflTransGen (fun a b => (K a).parent = some b) x t) ↔ ∃ t ∈ part K T l, ReflTransGen (fun a b => (K a).parent = some b) x t := by
    constructor
    · rintro ⟨t, p1, p2⟩
      refine ⟨t, List.mem_filter.2 ⟨p1, ?_⟩, p2⟩
      simp only [decide_eq_true_eq]
      rcases comparable hun p2 hx' with h | h
      · exact h
      · rcases reflTransGen_iff_eq_or_transGen.1 h with h | h
        · exact absurd (h ▸ p1) hl
        · exact absurd (h1 t p1) (fun hc => none_between hlt hun hp h hc)
    · rintro ⟨t, p1, p2⟩
      exact ⟨t, (List.mem_filter.1 p1).1, p2⟩
  simp only [rest, this]

include ht hout in
/-- Below a selected child nothing is left. -/
theorem rest_zero (base : Nat → G) {l : Nat} {T : List Nat} (hl : l ∈ T) : (below N K l).sum (rest K base T) = 0 :=
  Finset.sum_eq_zero (fun x hx => by rw [rest, if_pos ⟨l, hl, (mem_below.1 hx).2⟩])

include ht hout in
theorem part_self {l : Nat} {T : List Nat} (hT : T.Nodup) (h2 : ∀ s ∈ T, ∀ t ∈ T, ¬ TransGen (fun a b => (K a).parent = some b) t s) (hl : l ∈ T) : part K T l = [l] := by
  have : (part K T l).Perm [l] := by
    unfold part
    rw [List.perm_ext_iff_of_nodup (hT.filter _) (by simp)]
    intro t
    simp only [List.mem_filter, decide_eq_true_eq, List.mem_singleton]
    constructor
    · rintro ⟨p1, p2⟩
      rcases reflTransGen_iff_eq_or_transGen.1 p2 with h | h
      · exact h.symm
      · exact absurd h (h2 l hl t p1)
    · rintro rfl; exact ⟨hl, .refl⟩
  exact List.perm_singleton.1 this

include ht hout htot hdesc hw1 hw2 in
/-- No selection is better. -/
theorem dp_optimal (q : Nat) (hq1 : 1 ≤ q) (hqN : q < N) (T : List Nat) (hT : T.Nodup) (h1 : ∀ t ∈ T, TransGen (fun a b => (K a).parent = some b) t q)
    (h2 : ∀ s ∈ T, ∀ t ∈ T, ¬ TransGen (fun a b => (K a).parent = some b) t s)
    (h3 : ∀ l, (∀ l', (K l').parent ≠ some l) → TransGen (fun a b => (K a).parent = some b) l q → ∃ t ∈ T, ReflTransGen (fun a b => (K a).parent = some b) l t) :
    (T.map val).sum + (below N K q).sum (rest K base T) ≤ tot q ∧
    ((T.map val).sum + (below N K q).sum (rest K base T) = tot q → ∀ t ∈ T, ∃ s ∈ desc q, ReflTransGen (fun a b => (K a).parent = some b) t s) := by
  have hlt := par_lt ht hout
  have hun := par_un (K := K)
  generalize hm : N - q = m
  induction m using Nat.strongRecOn generalizing q T with
  | _ m ih =>
    have key : ∀ l ∈ kidsAbove N K 0 q, ((part K T l).map val).sum + (below N K l).sum (rest K base T) ≤ (if w l then val l else tot l) ∧
        (((part K T l).map val).sum + (below N K l).sum (rest K base T) = (if w l then val l else tot l) →
          ∀ t ∈ T, ReflTransGen (fun a b => (K a).parent = some b) t l → ∃ s ∈ (if w l then [l] else desc l), ReflTransGen (fun a b => (K a).parent = some b) t s) := by
      intro l hl
      have hp := (mem_kids hout).1 hl
      have hb := mem_kidsAbove.1 hl
      have h0 := hlt _ _ hp
      by_cases hlT : l ∈ T
      · rw [part_self ht hout hT h2 hlT, rest_zero ht hout base hlT]
        simp only [List.map_cons, List.map_nil, List.sum_cons, List.sum_nil, add_zero]
        cases hw : w l with
        | true => exact ⟨le_rfl, fun _ t _ htl => ⟨l, by simp, htl⟩⟩
        | false =>
          have := hw2 l (by omega) hb.2.1 hw
          exact ⟨by simpa using this.le, fun he => absurd he (by simpa using this.ne)⟩
      · have hup : ∀ t ∈ T, ¬ TransGen (fun a b => (K a).parent = some b) l t := fun t p1 p2 => none_between hlt hun hp p2 (h1 t p1)
        have hkid : ∃ l', (K l').parent = some l := by
          by_contra hleaf
          obtain ⟨t, p1, p2⟩ := h3 l (fun l' h => hleaf ⟨l', h⟩) (.single hp)
          rcases reflTransGen_iff_eq_or_transGen.1 p2 with h | h
          · exact hlT (h ▸ p1)
          · exact hup t p1 h
        obtain ⟨l', hl'⟩ := hkid
        obtain ⟨i1, i2⟩ := ih (N - l) (by omega) l (by omega) hb.2.1 (part K T l) (hT.filter _)
          (by
            intro t p1
            simp only [part, List.mem_filter, decide_eq_true_eq] at p1
            rcases reflTransGen_iff_eq_or_transGen.1 p1.2 with h | h
            · exact absurd (h ▸ p1.1) hlT
            · exact h)
          (by
            intro s p1 t p2
            exact h2 s (List.mem_filter.1 p1).1 t (List.mem_filter.1 p2).1)
          (by
            intro l0 hleaf p1
            obtain ⟨t, p2, p3⟩ := h3 l0 hleaf (p1.tail hp)
            refine ⟨t, ?_, p3⟩
            simp only [part, List.mem_filter, decide_eq_true_eq]
            refine ⟨p2, ?_⟩
            rcases comparable hun p3 p1.to_reflTransGen with h | h
            · exact h
            · rcases reflTransGen_iff_eq_or_transGen.1 h with h | h
              · rw [h]
              · exact absurd h (hup t p2)) rfl
        rw [rest_part ht hout base hp T h1 hlT]
        cases hw : w l with
        | true =>
          have := hw1 l l' hl' hw
          exact ⟨by simpa using i1.trans this, fun _ t _ p2 => ⟨l, by simp, p2⟩⟩
        | false =>
          simp only [Bool.false_eq_true, if_false]
          exact ⟨i1, fun he t p1 p2 => i2 he t (List.mem_filter.2 ⟨p1, by simpa using p2⟩)⟩
    rw [value_split ht hout val base hqN T hT h1, htot q hq1 hqN]
    refine ⟨add_le_add_right (List.sum_le_sum (fun l hl => (key l hl).1)) _, fun he t p1 => ?_⟩
    have he' := add_left_cancel he
    obtain ⟨l, p2, p3⟩ := below_child (h1 t p1)
    have hl := (mem_kids hout).2 p2
    have := sum_eq_each _ _ _ (fun l hl => (key l hl).1) he' l hl
    obtain ⟨s, p4, p5⟩ := (key l hl).2 this t p1 p3
    refine ⟨s, ?_, p5⟩
    rw [hdesc q]
    exact List.mem_flatMap.2 ⟨l, hl, p4⟩

include ht hout htot hdesc in
/-- The total is that of the selection made. -/
theorem dp_value (hd : ∀ q, (∀ t ∈ desc q, TransGen (fun a b => (K a).parent = some b) t q) ∧ (desc q).Nodup ∧
      ∀ s ∈ desc q, ∀ t ∈ desc q, ¬ TransGen (fun a b => (K a).parent = some b) t s) (q : Nat) (hq1 : 1 ≤ q) (hqN : q < N) :
    ((desc q).map val).sum + (below N K q).sum (rest K base (desc q)) = tot q := by
  have hlt := par_lt ht hout
  have hun := par_un (K := K)
  generalize hm : N - q = m
  induction m using Nat.strongRecOn generalizing q with
  | _ m ih =>
    rw [value_split ht hout val base hqN _ (hd q).2.1 (hd q).1, htot q hq1 hqN]
    congr 2
    refine List.map_congr_left (fun l hl => ?_)
    have hp := (mem_kids hout).1 hl
    have hb := mem_kidsAbove.1 hl
    have h0 := hlt _ _ hp
    have hin : ∀ t, t ∈ desc q ∧ ReflTransGen (fun a b => (K a).parent = some b) t l ↔ t ∈ (if w l then [l] else desc l) := by
      intro t
      have hself : ∀ l', t ∈ (if w l' then [l'] else desc l') → ReflTransGen (fun a b => (K a).parent = some b) t l' := by
        intro l' h
        cases hw : w l' with
        | true => rw [hw] at h; simp at h; subst h; exact .refl
        | false => rw [hw] at h; exact ((hd l').1 t (by simpa using h)).to_reflTransGen
      constructor
      · rintro ⟨p1, p2⟩
        rw [hdesc q, List.mem_flatMap] at p1
        obtain ⟨l', p3, p4⟩ := p1
        have : l' = l := children_disjoint hlt hun ((mem_kids hout).1 p3) hp (hself l' p4) p2
        exact this ▸ p4
      · intro h
        refine ⟨?_, hself l h⟩
        rw [hdesc q, List.mem_flatMap]
        exact ⟨l, hl, h⟩
    cases hw : w l with
    | true =>
      have hlq : l ∈ desc q := ((hin l).2 (by simp [hw])).1
      rw [part_self ht hout (hd q).2.1 (hd q).2.2 hlq, rest_zero ht hout base hlq]
      simp
    | false =>
      have hin' : ∀ t, t ∈ part K (desc q) l ↔ t ∈ desc l := fun t => by
        rw [part, List.mem_filter, decide_eq_true_eq, hin t, hw]; simp
      have hlq : l ∉ desc q := fun h => by
        have := (hin l).1 ⟨h, .refl⟩
        rw [hw] at this
        exact absurd (trans_lt hlt ((hd l).1 l (by simpa using this))) (by omega)
      have hpm : (part K (desc q) l).Perm (desc l) := (List.perm_ext_iff_of_nodup ((hd q).2.1.filter _) (hd l).2.1).2 hin'
      rw [rest_part ht hout base hp _ (hd q).1 hlq, (hpm.map val).sum_eq]
      have hrest : ∀ x, rest K base (part K (desc q) l) x = rest K base (desc l) x := fun x => by
        simp only [rest, hin']
      rw [Finset.sum_congr rfl (fun x _ => hrest x)]
      simpa using ih (N - l) (by omega) l (by omega) hb.2.1 rfl

end
end Verif.Sel
