import Verif.Lemmas.PropTree
import Mathlib.Algebra.Order.BigOperators.Group.List
import Mathlib.Algebra.Order.Group.Defs
import Mathlib.Data.List.Nodup
/-
Helper lemmas: the clusters selected by propagation.
-/
namespace Verif.Sel
open Spec Relation
set_option linter.unusedSectionVars false
variable {W S : Type}

/-- The cluster at an index, with a filler outside. -/
def kOf (ar : Arith W S) (cs : List (Option (Cl W S))) (l : Nat) : Cl W S :=
  match cs[l]? with
  | some (some c) => c
  | _ => Cl.init ar l none none 0

theorem kOf_eq {ar : Arith W S} {cs : List (Option (Cl W S))} {l : Nat} {c : Cl W S} (h : cs[l]? = some (some c)) : kOf ar cs l = c := by
  simp [kOf, h]

theorem child_iff {ar : Arith W S} {cs : List (Option (Cl W S))} {l q : Nat} : IsChild cs l q ↔ (kOf ar cs l).parent = some q := by
  unfold IsChild kOf
  split
  · rename_i c hc
    constructor
    · rintro ⟨c', h1, h2⟩
      rw [hc] at h1
      simp only [Option.some.injEq] at h1
      rw [h1]; exact h2
    · exact fun h => ⟨c, hc, h⟩
  · rename_i hn
    simp only [Cl.init, reduceCtorEq, iff_false, not_exists, not_and]
    intro c hc
    exact absurd hc (hn c)

theorem tree_of {ar : Arith W S} {cs : List (Option (Cl W S))} (h : ClusterTree cs) :
    Rep cs cs.length (kOf ar cs) ∧ Tree cs.length (kOf ar cs) ∧ ∀ l, cs.length ≤ l → (kOf ar cs l).parent = none := by
  have hat : ∀ l, 1 ≤ l → l < cs.length → cs[l]? = some (some (kOf ar cs l)) := by
    intro l h1 h2
    obtain ⟨c, hc, _⟩ := h.cl l h1 h2
    rw [hc, kOf_eq hc]
  have hout : ∀ l, cs.length ≤ l → (kOf ar cs l).parent = none := by
    intro l hl
    simp [kOf, List.getElem?_eq_none hl, Cl.init]
  refine ⟨⟨rfl, h.zero, hat⟩, ⟨?_, ?_, ?_, ?_, h.two⟩, hout⟩
  · intro l h1 h2
    obtain ⟨c, hc, hl⟩ := h.cl l h1 h2
    rw [kOf_eq hc, hl]
  · intro l h1 h2
    exact h.root l _ (hat l h1 h2)
  · intro l q h1 h2 hq
    exact h.up l q (child_iff.2 hq)
  · intro l h1 h2
    rw [h.kids l _ (hat l h1 h2)]
    constructor
    · rintro ⟨l', hl'⟩
      have := child_iff (ar := ar).1 hl'
      refine ⟨l', ?_, ?_, this⟩
      · have := (h.up l' l hl'); omega
      · by_contra hn
        rw [hout l' (by omega)] at this
        simp at this
    · rintro ⟨l', _, _, hl'⟩
      exact ⟨l', child_iff.2 hl'⟩

theorem fresh_of {ar : Arith W S} {cs : List (Option (Cl W S))} (h : Unpropagated ar cs) (l : Nat) :
    (kOf ar cs l).propStability = ar.zeroS ∧ (kOf ar cs l).propLowest = ar.dmax ∧ (kOf ar cs l).desc = [] := by
  unfold kOf
  split
  · rename_i c hc
    exact h l c hc
  · simp [Cl.init]

/-! ### Ancestors -/

section
variable {P : Nat → Nat → Prop} (hlt : ∀ l q, P l q → q < l) (hun : ∀ l q q', P l q → P l q' → q = q')

include hlt in
theorem trans_lt {l a : Nat} (h : TransGen P l a) : a < l := by
  induction h with
  | single h => exact hlt _ _ h
  | tail _ h ih => exact Nat.lt_trans (hlt _ _ h) ih

include hlt in
theorem refl_le {l a : Nat} (h : ReflTransGen P l a) : a ≤ l := by
  rcases reflTransGen_iff_eq_or_transGen.1 h with h | h
  · omega
  · exact Nat.le_of_lt (trans_lt hlt h)

include hun in
theorem comparable {l a b : Nat} (h1 : ReflTransGen P l a) (h2 : ReflTransGen P l b) : ReflTransGen P a b ∨ ReflTransGen P b a :=
  ReflTransGen.total_of_right_unique (fun _ _ _ => hun _ _ _) h1 h2

include hlt hun in
/-- What is strictly above a child of `q` is `q` or above it. -/
theorem above_child {l q a : Nat} (hl : P l q) (h : TransGen P l a) : ReflTransGen P q a := by
  rcases TransGen.head'_iff.1 h with ⟨c, hc, hca⟩
  rw [hun _ _ _ hl hc]
  exact hca

include hlt hun in
/-- Different children have nothing in common below. -/
theorem children_disjoint {l l' q t : Nat} (hl : P l q) (hl' : P l' q) (h : ReflTransGen P t l) (h' : ReflTransGen P t l') : l = l' := by
  have key : ∀ a b, P a q → P b q → ReflTransGen P a b → a = b := by
    intro a b ha hb hab
    rcases reflTransGen_iff_eq_or_transGen.1 hab with h | h
    · exact h.symm
    · have := refl_le hlt (above_child hlt hun ha h)
      have := hlt _ _ hb
      omega
  rcases comparable hun h h' with hc | hc
  · exact key _ _ hl hl' hc
  · exact (key _ _ hl' hl hc).symm

include hlt hun in
/-- Nothing lies strictly between a child and its parent. -/
theorem none_between {l q t : Nat} (hl : P l q) (h1 : TransGen P l t) (h2 : TransGen P t q) : False := by
  have := refl_le hlt (above_child hlt hun hl h1)
  have := trans_lt hlt h2
  omega

/-- Below `q` means at or below one of its children. -/
theorem below_child {t q : Nat} (h : TransGen P t q) : ∃ l, P l q ∧ ReflTransGen P t l := by
  rcases TransGen.tail'_iff.1 h with ⟨l, h1, h2⟩
  exact ⟨l, h2, h1⟩
end

section
variable [CCmp W] [CCmp S] {ar : Arith W S} {N : Nat} {K V : Nat → Cl W S}

/-- What a cluster hands on. -/
def pick (V : Nat → Cl W S) (l : Nat) : List Nat := if wins (V l) then [l] else (V l).desc

variable (ht : Tree N K) (hout : ∀ l, N ≤ l ∨ l = 0 → (K l).parent = none) (hv : VInv ar N K 0 V)

include hout in
theorem mem_kids {l q : Nat} : l ∈ kidsAbove N K 0 q ↔ (K l).parent = some q := by
  rw [mem_kidsAbove]
  constructor
  · exact fun h => h.2.2
  · intro h
    refine ⟨?_, ?_, h⟩
    · rcases Nat.eq_zero_or_pos l with h0 | h0
      · rw [hout l (.inr h0)] at h; simp at h
      · exact h0
    · by_contra hn
      rw [hout l (.inl (by omega))] at h; simp at h

theorem nodup_kids {q : Nat} : (kidsAbove N K 0 q).Nodup := by
  rw [kidsAbove, List.nodup_reverse]
  exact (List.nodup_range' (step := 1) (h := by omega)).filter _

include ht hout in
theorem par_lt (l q : Nat) (h : (K l).parent = some q) : q < l := by
  have := (mem_kidsAbove.1 ((mem_kids hout).2 h))
  exact (ht.up l q (by omega) this.2.1 h).2

theorem par_un (l q q' : Nat) (h : (K l).parent = some q) (h' : (K l).parent = some q') : q = q' := by
  rw [h] at h'; simpa using h'

include ht hout hv in
theorem not_wins {l : Nat} (h1 : 1 ≤ l) (h2 : l < N) (h : wins (V l) = false) : ∃ l', (K l').parent = some l := by
  have hc : (K l).hasChildren = true := by
    have : (V l).hasChildren = (K l).hasChildren := by rw [hv.stat]
    rw [← this]
    by_contra hn
    rw [Bool.not_eq_true] at hn
    simp [wins, hn] at h
  obtain ⟨l', _, _, h'⟩ := (ht.kids l h1 h2).1 hc
  exact ⟨l', h'⟩

include ht hout hv in
/-- The descendants handed to `q`. -/
theorem desc_spec (q : Nat) :
    (∀ t ∈ (V q).desc, TransGen (fun a b => (K a).parent = some b) t q) ∧ (V q).desc.Nodup ∧
    (∀ s ∈ (V q).desc, ∀ t ∈ (V q).desc, ¬ TransGen (fun a b => (K a).parent = some b) t s) ∧
    (∀ l, (∀ l', (K l').parent ≠ some l) → TransGen (fun a b => (K a).parent = some b) l q → ∃ t ∈ (V q).desc, ReflTransGen (fun a b => (K a).parent = some b) l t) := by
  have hlt := par_lt ht hout
  have hun := par_un (K := K)
  generalize hm : N - q = m
  induction m using Nat.strongRecOn generalizing q with
  | _ m ih =>
    have hpick : ∀ l, (K l).parent = some q →
        (∀ t ∈ pick V l, ReflTransGen (fun a b => (K a).parent = some b) t l) ∧ (pick V l).Nodup ∧
        (∀ s ∈ pick V l, ∀ t ∈ pick V l, ¬ TransGen (fun a b => (K a).parent = some b) t s) ∧
        (∀ l0, (∀ l', (K l').parent ≠ some l0) → ReflTransGen (fun a b => (K a).parent = some b) l0 l → ∃ t ∈ pick V l, ReflTransGen (fun a b => (K a).parent = some b) l0 t) := by
      intro l hl
      have hb := mem_kidsAbove.1 ((mem_kids hout).2 hl)
      have hlq := hlt l q hl
      cases hw : wins (V l) with
      | true =>
        simp only [pick, hw, if_true]
        refine ⟨?_, by simp, ?_, ?_⟩
        · intro t h1; rw [List.mem_singleton.1 h1]
        · intro s h1 t h2 h
          rw [List.mem_singleton.1 h1, List.mem_singleton.1 h2] at h
          exact absurd (trans_lt hlt h) (by omega)
        · intro l0 _ h1; exact ⟨l, by simp, h1⟩
      | false =>
        simp only [pick, hw, Bool.false_eq_true, if_false]
        obtain ⟨i1, i2, i3, i4⟩ := ih (N - l) (by omega) l rfl
        refine ⟨fun t h1 => (i1 t h1).to_reflTransGen, i2, i3, fun l0 hleaf h1 => ?_⟩
        rcases reflTransGen_iff_eq_or_transGen.1 h1 with h | h
        · subst h
          obtain ⟨l', hl'⟩ := not_wins ht hout hv (by omega) hb.2.1 hw
          exact absurd hl' (hleaf l')
        · exact i4 l0 hleaf h
    have hd : (V q).desc = (kidsAbove N K 0 q).flatMap (pick V) := hv.desc q
    rw [hd]
    refine ⟨?_, ?_, ?_, ?_⟩
    · intro t h1
      obtain ⟨l, h2, h3⟩ := List.mem_flatMap.1 h1
      have hl := (mem_kids hout).1 h2
      exact TransGen.tail' ((hpick l hl).1 t h3) hl
    · rw [List.nodup_flatMap]
      refine ⟨fun l hl => (hpick l ((mem_kids hout).1 hl)).2.1, ?_⟩
      refine List.Pairwise.imp_of_mem (fun {a b} ha hb hne t h1 h2 => ?_) nodup_kids
      have ha' := (mem_kids hout).1 ha
      have hb' := (mem_kids hout).1 hb
      exact hne (children_disjoint hlt hun ha' hb' ((hpick a ha').1 t h1) ((hpick b hb').1 t h2))
    · intro s hs t ht' hst
      obtain ⟨l, h2, h3⟩ := List.mem_flatMap.1 hs
      obtain ⟨l', h2', h3'⟩ := List.mem_flatMap.1 ht'
      have hl := (mem_kids hout).1 h2
      have hl' := (mem_kids hout).1 h2'
      have : l = l' := children_disjoint hlt hun hl hl' (hst.to_reflTransGen.trans ((hpick l hl).1 s h3)) ((hpick l' hl').1 t h3')
      subst this
      exact (hpick l hl).2.2.1 s h3 t h3' hst
    · intro l0 hleaf h
      obtain ⟨l, h1, h2⟩ := below_child h
      obtain ⟨t, h3, h4⟩ := (hpick l h1).2.2.2 l0 hleaf h2
      exact ⟨t, List.mem_flatMap.2 ⟨l, (mem_kids hout).2 h1, h3⟩, h4⟩

variable (hn : ∀ l, (K l).ncs = 0 ∧ (K l).pncs = 0)

include ht hout hv hn in
theorem pncs_zero (q : Nat) : (V q).pncs = 0 := by
  have hlt := par_lt ht hout
  generalize hm : N - q = m
  induction m using Nat.strongRecOn generalizing q with
  | _ m ih =>
    rw [hv.pncs, (hn q).2]
    have : ∀ (ks : List Nat), (∀ l ∈ ks, (K l).parent = some q) → ks.foldl (fun s l' => addIndex s (if wins (V l') then (V l').ncs else (V l').pncs)) 0 = 0 := by
      intro ks
      induction ks with
      | nil => intro _; rfl
      | cons a l ih2 =>
        intro h
        have ha := h a (by simp)
        have hb := mem_kidsAbove.1 ((mem_kids hout).2 ha)
        have h0 := hlt _ _ ha
        have h1 : (V a).pncs = 0 := ih (N - a) (by omega) a rfl
        have h2 : (V a).ncs = 0 := by rw [hv.stat]; exact (hn a).1
        rw [List.foldl_cons, h1, h2, ite_self]
        have : addIndex 0 0 = 0 := by simp [addIndex]
        rw [this]
        exact ih2 (fun l hl => h l (by simp [hl]))
    exact this _ (fun l hl => (mem_kids hout).1 hl)
end

/-! ### Optimality -/

theorem sum_flatMap' {α : Type} [AddCommMonoid S] (ks : List α) (g : α → List Nat) (f : Nat → S) :
    ((ks.flatMap g).map f).sum = (ks.map (fun k => ((g k).map f).sum)).sum := by
  induction ks with
  | nil => simp
  | cons a l ih => simp [List.flatMap_cons, ih]

theorem foldl_add [AddCommMonoid S] (l : List Nat) (f : Nat → S) (b : S) : l.foldl (fun s x => s + f x) b = b + (l.map f).sum := by
  induction l generalizing b with
  | nil => simp
  | cons a l ih => simp [ih, add_assoc]

theorem sum_eq_each [AddCommGroup S] [LinearOrder S] [IsOrderedAddMonoid S] (l : List Nat) (f g : Nat → S) (h : ∀ x ∈ l, f x ≤ g x) (he : (l.map f).sum = (l.map g).sum) :
    ∀ x ∈ l, f x = g x := by
  induction l with
  | nil => simp
  | cons a l ih =>
    simp only [List.map_cons, List.sum_cons] at he
    have h1 := h a (by simp)
    have h2 : (l.map f).sum ≤ (l.map g).sum := List.sum_le_sum (fun x hx => h x (by simp [hx]))
    have h3 : f a = g a := by
      refine le_antisymm h1 ?_
      by_contra hn
      have := add_lt_add_of_lt_of_le (lt_of_not_ge hn) h2
      rw [he] at this
      exact lt_irrefl _ this
    have h4 : (l.map f).sum = (l.map g).sum := by
      rw [h3] at he
      exact add_left_cancel he
    intro x hx
    rcases List.mem_cons.1 hx with rfl | hx
    · exact h3
    · exact ih (fun x hx => h x (by simp [hx])) h4 x hx

section
variable [CCmp W] [LinearOrder S] {ar : Arith W S} {N : Nat} {K V : Nat → Cl W S}
variable (ht : Tree N K) (hout : ∀ l, N ≤ l ∨ l = 0 → (K l).parent = none) (hv : VInv ar N K 0 V) (hn : ∀ l, (K l).ncs = 0 ∧ (K l).pncs = 0)

/-- The larger of the two totals. -/
def best (V : Nat → Cl W S) (l : Nat) : S := if wins (V l) then (V l).stability else (V l).propStability

include ht hout hv hn in
theorem best_ge {l : Nat} : (V l).stability ≤ best V l := by
  have hp := pncs_zero ht hout hv hn l
  have h2 : (V l).ncs = 0 := by rw [hv.stat]; exact (hn l).1
  unfold best
  split
  · exact le_rfl
  · rename_i hw
    simp only [wins, hp, h2, ccmp_le, Bool.or_eq_true, decide_eq_true_eq, Bool.and_eq_true] at hw
    simp at hw
    exact hw.2.le

include ht hout hv hn in
theorem best_lt {l : Nat} (hw : wins (V l) = false) : (V l).stability < best V l := by
  have hp := pncs_zero ht hout hv hn l
  have h2 : (V l).ncs = 0 := by rw [hv.stat]; exact (hn l).1
  unfold best
  rw [hw]
  simp [wins, hp, h2] at hw
  simpa using hw.2

include ht hout hv hn in
theorem best_ge' {l l' : Nat} (hk : (K l').parent = some l) : (V l).propStability ≤ best V l := by
  have hp := pncs_zero ht hout hv hn l
  have h2 : (V l).ncs = 0 := by rw [hv.stat]; exact (hn l).1
  have hlt := par_lt ht hout
  have hb := mem_kidsAbove.1 ((mem_kids hout).2 hk)
  have hup := ht.up l' l (by omega) hb.2.1 hk
  have hc : (V l).hasChildren = true := by
    rw [hv.stat]
    exact (ht.kids l hup.1 (by omega)).2 ⟨l', by omega, hb.2.1, hk⟩
  unfold best
  split
  · rename_i hw
    simpa [wins, hp, h2, hc] using hw
  · exact le_rfl

end

section
variable [CCmp W] [AddCommGroup S] [LinearOrder S] [IsOrderedAddMonoid S] {ar : Arith W S} {N : Nat} {K V : Nat → Cl W S}
variable (ht : Tree N K) (hout : ∀ l, N ≤ l ∨ l = 0 → (K l).parent = none) (hv : VInv ar N K 0 V)
  (hadd : ∀ a b, ar.add a b = a + b) (hz : ar.zeroS = 0) (hn : ∀ l, (K l).ncs = 0 ∧ (K l).pncs = 0)

include hv hadd hz in
theorem prop_sum (q : Nat) : (V q).propStability = ((kidsAbove N K 0 q).map (best V)).sum := by
  rw [hv.stab]
  simp only [hadd, hz]
  rw [foldl_add, zero_add]
  rfl

include ht hout hv hadd hz in
theorem desc_sum (q : Nat) : (V q).propStability = ((V q).desc.map (fun l => (K l).stability)).sum := by
  have hlt := par_lt ht hout
  generalize hm : N - q = m
  induction m using Nat.strongRecOn generalizing q with
  | _ m ih =>
    rw [prop_sum hv hadd hz, show (V q).desc = (kidsAbove N K 0 q).flatMap (pick V) from hv.desc q, sum_flatMap']
    congr 1
    refine List.map_congr_left (fun l hl => ?_)
    have ha := (mem_kids hout).1 hl
    have hb := mem_kidsAbove.1 hl
    have h0 := hlt _ _ ha
    unfold best pick
    cases hw : wins (V l) with
    | true =>
      have : (V l).stability = (K l).stability := by rw [hv.stat]
      simp [this]
    | false =>
      simp only [Bool.false_eq_true, if_false]
      exact ih (N - l) (by omega) l rfl

include ht hout hv hadd hz hn in
theorem optimal (q : Nat) (T : List Nat) (hT : T.Nodup) (h1 : ∀ t ∈ T, TransGen (fun a b => (K a).parent = some b) t q)
    (h2 : ∀ s ∈ T, ∀ t ∈ T, ¬ TransGen (fun a b => (K a).parent = some b) t s)
    (h3 : ∀ l, (∀ l', (K l').parent ≠ some l) → TransGen (fun a b => (K a).parent = some b) l q → ∃ t ∈ T, ReflTransGen (fun a b => (K a).parent = some b) l t) :
    (T.map (fun l => (K l).stability)).sum ≤ (V q).propStability ∧
    ((T.map (fun l => (K l).stability)).sum = (V q).propStability → ∀ t ∈ T, ∃ s ∈ (V q).desc, ReflTransGen (fun a b => (K a).parent = some b) t s) := by
  classical
  have hlt := par_lt ht hout
  have hun := par_un (K := K)
  generalize hm : N - q = m
  induction m using Nat.strongRecOn generalizing q T with
  | _ m ih =>
    have hperm : T.Perm ((kidsAbove N K 0 q).flatMap (fun l => T.filter (fun t => decide (ReflTransGen (fun a b => (K a).parent = some b) t l)))) := by
      rw [List.perm_ext_iff_of_nodup hT]
      · intro t
        simp only [List.mem_flatMap, List.mem_filter, decide_eq_true_eq]
        constructor
        · intro h
          obtain ⟨l, p1, p2⟩ := below_child (h1 t h)
          exact ⟨l, (mem_kids hout).2 p1, h, p2⟩
        · rintro ⟨_, _, h, _⟩; exact h
      · rw [List.nodup_flatMap]
        refine ⟨fun l _ => hT.filter _, List.Pairwise.imp_of_mem (fun {a b} ha hb hne t p1 p2 => ?_) nodup_kids⟩
        simp only [List.mem_filter, decide_eq_true_eq] at p1 p2
        exact hne (children_disjoint hlt hun ((mem_kids hout).1 ha) ((mem_kids hout).1 hb) p1.2 p2.2)
    have hsum : (T.map (fun l => (K l).stability)).sum =
        ((kidsAbove N K 0 q).map (fun k => ((T.filter (fun t => decide (ReflTransGen (fun a b => (K a).parent = some b) t k))).map (fun l => (K l).stability)).sum)).sum := by
      rw [(hperm.map _).sum_eq, sum_flatMap']
    have key : ∀ l ∈ kidsAbove N K 0 q, ((T.filter (fun t => decide (ReflTransGen (fun a b => (K a).parent = some b) t l))).map (fun l => (K l).stability)).sum ≤ best V l ∧
        (((T.filter (fun t => decide (ReflTransGen (fun a b => (K a).parent = some b) t l))).map (fun l => (K l).stability)).sum = best V l →
          ∀ t ∈ T, ReflTransGen (fun a b => (K a).parent = some b) t l → ∃ s ∈ pick V l, ReflTransGen (fun a b => (K a).parent = some b) t s) := by
      intro l hl
      have hp := (mem_kids hout).1 hl
      have hb := mem_kidsAbove.1 hl
      have h0 := hlt _ _ hp
      have hst : (V l).stability = (K l).stability := by rw [hv.stat]
      by_cases hlT : l ∈ T
      · have hf : T.filter (fun t => decide (ReflTransGen (fun a b => (K a).parent = some b) t l)) = [l] := by
          have : (T.filter (fun t => decide (ReflTransGen (fun a b => (K a).parent = some b) t l))).Perm [l] := by
            rw [List.perm_ext_iff_of_nodup (hT.filter _) (by simp)]
            intro t
            simp only [List.mem_filter, decide_eq_true_eq, List.mem_singleton]
            constructor
            · rintro ⟨p1, p2⟩
              rcases reflTransGen_iff_eq_or_transGen.1 p2 with h | h
              · exact h.symm
              · exact absurd h (h2 l hlT t p1)
            · rintro rfl; exact ⟨hlT, .refl⟩
          exact List.perm_singleton.1 this
        rw [hf]
        simp only [List.map_cons, List.map_nil, List.sum_cons, List.sum_nil, add_zero]
        have hge := best_ge ht hout hv hn (l := l)
        rw [hst] at hge
        refine ⟨hge, fun he t _ htl => ?_⟩
        cases hw : wins (V l) with
        | true => exact ⟨l, by simp [pick, hw], htl⟩
        | false =>
          have := best_lt ht hout hv hn hw
          rw [hst, he] at this
          exact absurd this (lt_irrefl _)
      · -- `l` is not chosen, so it is no leaf
        have hup : ∀ t ∈ T, ¬ TransGen (fun a b => (K a).parent = some b) l t := fun t p1 p2 => none_between hlt hun hp p2 (h1 t p1)
        have hkid : ∃ l', (K l').parent = some l := by
          by_contra hleaf
          obtain ⟨t, p1, p2⟩ := h3 l (fun l' h => hleaf ⟨l', h⟩) (.single hp)
          rcases reflTransGen_iff_eq_or_transGen.1 p2 with h | h
          · exact hlT (h ▸ p1)
          · exact hup t p1 h
        obtain ⟨l', hl'⟩ := hkid
        obtain ⟨i1, i2⟩ := ih (N - l) (by omega) l (T.filter (fun t => decide (ReflTransGen (fun a b => (K a).parent = some b) t l))) (hT.filter _)
          (by
            intro t p1
            simp only [List.mem_filter, decide_eq_true_eq] at p1
            rcases reflTransGen_iff_eq_or_transGen.1 p1.2 with h | h
            · exact absurd (h ▸ p1.1) hlT
            · exact h)
          (by
            intro s p1 t p2
            exact h2 s (List.mem_filter.1 p1).1 t (List.mem_filter.1 p2).1)
          (by
            intro l0 hleaf p1
            obtain ⟨t, p2, p3⟩ := h3 l0 hleaf (p1.tail hp)
            refine ⟨t, ?_, p3⟩
            simp only [List.mem_filter, decide_eq_true_eq]
            refine ⟨p2, ?_⟩
            rcases comparable hun p3 p1.to_reflTransGen with h | h
            · exact h
            · rcases reflTransGen_iff_eq_or_transGen.1 h with h | h
              · rw [h]
              · exact absurd h (hup t p2)) rfl
        have hge := best_ge' ht hout hv hn hl'
        refine ⟨i1.trans hge, fun he t p1 p2 => ?_⟩
        cases hw : wins (V l) with
        | true => exact ⟨l, by simp [pick, hw], p2⟩
        | false =>
          simp only [pick, hw, Bool.false_eq_true, if_false]
          refine i2 ?_ t (List.mem_filter.2 ⟨p1, by simpa using p2⟩)
          rw [he]
          simp [best, hw]
    refine ⟨?_, fun he t p1 => ?_⟩
    · rw [hsum, prop_sum hv hadd hz]
      exact List.sum_le_sum (fun l hl => (key l hl).1)
    · rw [hsum, prop_sum hv hadd hz] at he
      obtain ⟨l, p2, p3⟩ := below_child (h1 t p1)
      have hl := (mem_kids hout).2 p2
      have := sum_eq_each _ _ _ (fun l hl => (key l hl).1) he l hl
      obtain ⟨s, p4, p5⟩ := (key l hl).2 this t p1 p3
      refine ⟨s, ?_, p5⟩
      rw [show (V q).desc = (kidsAbove N K 0 q).flatMap (pick V) from hv.desc q]
      exact List.mem_flatMap.2 ⟨l, hl, p4⟩

end
end Verif.Sel
