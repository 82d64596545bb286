import Verif.Lemmas.Constraints
import Mathlib.Algebra.Order.Ring.Int
import Mathlib.Algebra.BigOperators.Ring.Finset
import Mathlib.Algebra.Order.BigOperators.Group.Finset
import Verif.Spec.Constraints
/-
Helper lemmas: constraint counts through the propagation; the calls that record them.
-/
namespace Verif.Sel
open Spec Relation
set_option linter.unusedSectionVars false

theorem addIndex_small {a b : Nat} (h : a + b < 2 ^ 32) : addIndex a b = a + b := by rw [addIndex, if_pos h]

theorem fold_addIndex (f : Nat → Nat) (l : List Nat) (b : Nat) (h : b + (l.map f).sum < 2 ^ 32) :
    l.foldl (fun s x => addIndex s (f x)) b = b + (l.map f).sum := by
  induction l generalizing b with
  | nil => simp
  | cons a l ih =>
    simp only [List.map_cons, List.sum_cons] at h ⊢
    rw [List.foldl_cons, addIndex_small (by omega), ih _ (by omega)]
    omega

theorem lex_list {S : Type} [AddCommGroup S] (l : List Nat) (f : Nat → ℤ) (g : Nat → S) :
    (l.map (fun x => (toLex (f x, g x) : ℤ ×ₗ S))).sum = toLex ((l.map f).sum, (l.map g).sum) := by
  induction l with
  | nil => rfl
  | cons a l ih => simp only [List.map_cons, List.sum_cons, ih]; rfl

theorem lex_finset {S : Type} [AddCommGroup S] (s : Finset Nat) (f : Nat → ℤ) (g : Nat → S) :
    s.sum (fun x => (toLex (f x, g x) : ℤ ×ₗ S)) = toLex (s.sum f, s.sum g) := by
  classical
  induction s using Finset.induction_on with
  | empty => rfl
  | insert a s h ih => rw [Finset.sum_insert h, Finset.sum_insert h, Finset.sum_insert h, ih]; rfl

section
variable {W S : Type} [CCmp W] [AddCommGroup S] [LinearOrder S] [IsOrderedAddMonoid S] {ar : Arith W S} {N : Nat} {K V : Nat → Cl W S}
variable (ht : Tree N K) (hout : ∀ l, N ≤ l ∨ l = 0 → (K l).parent = none) (hv : VInv ar N K 0 V)
  (hadd : ∀ a b, ar.add a b = a + b) (hz : ar.zeroS = 0) (hsmall : (Finset.range N).sum (fun l => (K l).ncs + (K l).pncs) < 2 ^ 32)

include ht hout hv hsmall in
/-- The counts do not wrap around. -/
theorem counts (q : Nat) (h1 : 1 ≤ q) (hq : q < N) :
    (V q).pncs = (K q).pncs + ((kidsAbove N K 0 q).map (fun l => if wins (V l) then (K l).ncs else (V l).pncs)).sum ∧
    (V q).pncs + (K q).ncs ≤ (below N K q).sum (fun l => (K l).ncs + (K l).pncs) := by
  have hlt := par_lt ht hout
  generalize hm : N - q = m
  induction m using Nat.strongRecOn generalizing q with
  | _ m ih =>
    have hb := sum_below ht hout (fun l => (K l).ncs + (K l).pncs) hq
    have hle : (below N K q).sum (fun l => (K l).ncs + (K l).pncs) < 2 ^ 32 :=
      lt_of_le_of_lt (Finset.sum_le_sum_of_subset (fun x hx => Finset.mem_range.2 (mem_below.1 hx).1)) hsmall
    have hk : ((kidsAbove N K 0 q).map (fun l => if wins (V l) then (K l).ncs else (V l).pncs)).sum ≤
        ((kidsAbove N K 0 q).map (fun l => (below N K l).sum (fun l => (K l).ncs + (K l).pncs))).sum := by
      refine List.sum_le_sum (fun l hl => ?_)
      have hp := (mem_kids hout).1 hl
      have hbd := mem_kidsAbove.1 hl
      have h0 := hlt _ _ hp
      have := (ih (N - l) (by omega) l (by omega) hbd.2.1 rfl).2
      split <;> omega
    have e : (V q).pncs = (K q).pncs + ((kidsAbove N K 0 q).map (fun l => if wins (V l) then (K l).ncs else (V l).pncs)).sum := by
      rw [hv.pncs]
      have hn : ∀ l, (V l).ncs = (K l).ncs := fun l => by rw [hv.stat]
      simp only [hn]
      exact fold_addIndex _ _ _ (by omega)
    exact ⟨e, by rw [e]; omega⟩

include ht hout hv hadd hz hsmall in
/-- The selection made is the best one, by constraints first and stability second. -/
theorem lex_optimal (h1N : 1 < N) :
    (((V 1).pncs : ℤ) = (((V 1).desc.map (fun l => (K l).ncs)).sum + (below N K 1).sum (rest K (fun l => (K l).pncs) (V 1).desc) : Nat)) ∧
    ∀ T : List Nat, T.Nodup → (∀ t ∈ T, TransGen (fun a b => (K a).parent = some b) t 1) →
      (∀ s ∈ T, ∀ t ∈ T, ¬ TransGen (fun a b => (K a).parent = some b) t s) →
      (∀ l, (∀ l', (K l').parent ≠ some l) → TransGen (fun a b => (K a).parent = some b) l 1 → ∃ t ∈ T, ReflTransGen (fun a b => (K a).parent = some b) l t) →
      (toLex ((((T.map (fun l => (K l).ncs)).sum + (below N K 1).sum (rest K (fun l => (K l).pncs) T) : Nat) : ℤ), (T.map (fun l => (K l).stability)).sum) : ℤ ×ₗ S) ≤
        toLex (((V 1).pncs : ℤ), (V 1).propStability) ∧
      ((toLex ((((T.map (fun l => (K l).ncs)).sum + (below N K 1).sum (rest K (fun l => (K l).pncs) T) : Nat) : ℤ), (T.map (fun l => (K l).stability)).sum) : ℤ ×ₗ S) =
        toLex (((V 1).pncs : ℤ), (V 1).propStability) → ∀ t ∈ T, ∃ s ∈ (V 1).desc, ReflTransGen (fun a b => (K a).parent = some b) t s) := by
  have hkids : ∀ l, (V l).hasChildren = (K l).hasChildren := fun l => by rw [hv.stat]
  have hncs : ∀ l, (V l).ncs = (K l).ncs := fun l => by rw [hv.stat]
  have hstab : ∀ l, (V l).stability = (K l).stability := fun l => by rw [hv.stat]
  have htot : ∀ q, 1 ≤ q → q < N → (toLex (((V q).pncs : ℤ), (V q).propStability) : ℤ ×ₗ S) = toLex (((K q).pncs : ℤ), 0) +
      ((kidsAbove N K 0 q).map (fun l => if wins (V l) then (toLex (((K l).ncs : ℤ), (K l).stability) : ℤ ×ₗ S) else toLex (((V l).pncs : ℤ), (V l).propStability))).sum := by
    intro q h1 h2
    have e : ∀ l, (if wins (V l) then (toLex (((K l).ncs : ℤ), (K l).stability) : ℤ ×ₗ S) else toLex (((V l).pncs : ℤ), (V l).propStability)) =
        toLex (((if wins (V l) then (K l).ncs else (V l).pncs : Nat) : ℤ), best V l) := by
      intro l
      rw [best, hstab]
      split <;> rfl
    simp only [e]
    rw [lex_list, prop_sum hv hadd hz, (counts ht hout hv hsmall q h1 h2).1]
    have : ∀ ks : List Nat, ((ks.map (fun l => if wins (V l) then (K l).ncs else (V l).pncs)).sum : ℤ) = (ks.map (fun l => ((if wins (V l) then (K l).ncs else (V l).pncs : Nat) : ℤ))).sum := by
      intro ks
      induction ks with
      | nil => rfl
      | cons a l ih => simp only [List.map_cons, List.sum_cons, ← ih, Nat.cast_add]
    rw [Nat.cast_add, this]
    show _ = toLex (_ + _, 0 + _)
    rw [zero_add]
    rfl
  have hdesc : ∀ q, (V q).desc = (kidsAbove N K 0 q).flatMap (fun l => if wins (V l) then [l] else (V l).desc) := hv.desc
  have hw1 : ∀ l l', (K l').parent = some l → wins (V l) = true → (toLex (((V l).pncs : ℤ), (V l).propStability) : ℤ ×ₗ S) ≤ toLex (((K l).ncs : ℤ), (K l).stability) := by
    intro l l' hp hw
    have hb := mem_kidsAbove.1 ((mem_kids hout).2 hp)
    have hup := ht.up l' l (by omega) hb.2.1 hp
    have hc : (V l).hasChildren = true := by
      rw [hkids]
      exact (ht.kids l hup.1 (by omega)).2 ⟨l', by omega, hb.2.1, hp⟩
    rw [Prod.Lex.toLex_le_toLex]
    rw [wins, Bool.or_eq_true, Bool.and_eq_true, decide_eq_true_eq, decide_eq_true_eq, hc, hncs, hstab] at hw
    rcases hw with (h | h) | ⟨h, h'⟩
    · exact absurd h (by simp)
    · exact .inl (by simpa using h)
    · by_cases he : (V l).pncs = (K l).ncs
      · exact .inr ⟨by simp [he], by simpa using h'⟩
      · exact .inl (by simp; omega)
  have hw2 : ∀ l, 1 ≤ l → l < N → wins (V l) = false → (toLex (((K l).ncs : ℤ), (K l).stability) : ℤ ×ₗ S) < toLex (((V l).pncs : ℤ), (V l).propStability) := by
    intro l _ _ hw
    rw [Prod.Lex.toLex_lt_toLex]
    rw [wins, Bool.or_eq_false_iff, Bool.and_eq_false_iff, decide_eq_false_iff_not, decide_eq_false_iff_not, hncs, hstab, not_not, not_or] at hw
    obtain ⟨⟨_, h1⟩, h2⟩ := hw
    by_cases he : (K l).ncs = (V l).pncs
    · refine .inr ⟨by simp [he], ?_⟩
      rcases h2 with h | h
      · omega
      · simpa using h
    · exact .inl (by simp; omega)
  have hd : ∀ q, (∀ t ∈ (V q).desc, TransGen (fun a b => (K a).parent = some b) t q) ∧ (V q).desc.Nodup ∧
      ∀ s ∈ (V q).desc, ∀ t ∈ (V q).desc, ¬ TransGen (fun a b => (K a).parent = some b) t s := fun q => by
    obtain ⟨d1, d2, d3, _⟩ := desc_spec ht hout hv q
    exact ⟨d1, d2, d3⟩
  have hrest : ∀ (T : List Nat) (x : Nat), rest K (fun l => (toLex (((K l).pncs : ℤ), 0) : ℤ ×ₗ S)) T x = toLex (((rest K (fun l => (K l).pncs) T x : Nat) : ℤ), 0) := by
    intro T x
    unfold rest
    split <;> rfl
  have hcast : ∀ ks : List Nat, ((ks.map (fun l => (K l).ncs)).sum : ℤ) = (ks.map (fun l => ((K l).ncs : ℤ))).sum := by
    intro ks
    induction ks with
    | nil => rfl
    | cons a l ih => simp only [List.map_cons, List.sum_cons, ← ih, Nat.cast_add]
  have hval : ∀ T : List Nat, (T.map (fun l => (toLex (((K l).ncs : ℤ), (K l).stability) : ℤ ×ₗ S))).sum +
      (below N K 1).sum (rest K (fun l => (toLex (((K l).pncs : ℤ), 0) : ℤ ×ₗ S)) T) =
      toLex ((((T.map (fun l => (K l).ncs)).sum + (below N K 1).sum (rest K (fun l => (K l).pncs) T) : Nat) : ℤ), (T.map (fun l => (K l).stability)).sum) := by
    intro T
    rw [lex_list, Finset.sum_congr rfl (fun x _ => hrest T x), lex_finset, Finset.sum_const_zero, Nat.cast_add, hcast, Nat.cast_sum]
    show toLex (_ + _, _ + 0) = _
    rw [add_zero]
    rfl
  constructor
  · have := dp_value ht hout htot hdesc hd 1 le_rfl h1N
    rw [hval] at this
    exact (congrArg (fun x => (ofLex x).1) this).symm
  · intro T hT a1 a2 a3
    have := dp_optimal ht hout htot hdesc hw1 hw2 1 le_rfl h1N T hT a1 a2 a3
    rw [hval] at this
    exact this
end

/-- What the calls record for a cluster itself. -/
def own (calls : List ConstraintCall) (l : Nat) : Nat := (calls.map (fun c => if c.virtual = false ∧ c.label = l then c.count else 0)).sum

/-- What the calls record for its virtual child. -/
def virt (calls : List ConstraintCall) (l : Nat) : Nat := (calls.map (fun c => if c.virtual = true ∧ c.label = l then c.count else 0)).sum

/-- The cluster with the counts added. -/
def withCounts {W S : Type} (a b : Nat) (c : Cl W S) : Cl W S := { c with ncs := c.ncs + a, pncs := c.pncs + b }

theorem total_ge (calls : List ConstraintCall) (l : Nat) : own calls l + virt calls l ≤ (calls.map (·.count)).sum := by
  induction calls with
  | nil => simp [own, virt]
  | cons a r ih =>
    simp only [own, virt, List.map_cons, List.sum_cons] at ih ⊢
    cases a.virtual <;> simp <;> split <;> omega

/-- All calls on clusters that exist add up. -/
theorem recordAll_ok {W S : Type} (calls : List ConstraintCall) (cs : List (Option (Cl W S))) (b : Nat)
    (hin : ∀ x ∈ calls, ∃ c, cs[x.label]? = some (some c)) (hb : ∀ (l : Nat) (c : Cl W S), cs[l]? = some (some c) → c.ncs ≤ b ∧ c.pncs ≤ b)
    (hs : b + (calls.map (·.count)).sum < 2 ^ 32) :
    ∃ cs' : List (Option (Cl W S)), recordAll calls cs = .ok cs' ∧
      ∀ l, cs'[l]? = (cs[l]?).map (Option.map (withCounts (own calls l) (virt calls l))) := by
  induction calls generalizing cs b with
  | nil =>
    refine ⟨cs, rfl, fun l => ?_⟩
    have : (withCounts (own [] l) (virt [] l) : Cl W S → Cl W S) = id := by funext c; rfl
    rw [this]; simp
  | cons x r ih =>
    obtain ⟨c, hc⟩ := hin x (by simp)
    have hlen : x.label < cs.length := (List.getElem?_eq_some_iff.1 hc).1
    simp only [List.map_cons, List.sum_cons] at hs
    obtain ⟨n1, n2⟩ := hb _ _ hc
    have hrec : c.record x.virtual x.count = withCounts (if x.virtual = false then x.count else 0) (if x.virtual = true then x.count else 0) c := by
      cases hx : x.virtual
      · simp [Cl.record, Cl.addConstraints, withCounts, addIndex_small (show c.ncs + x.count < 2 ^ 32 by omega)]
      · simp [Cl.record, Cl.addVirtualConstraints, withCounts, addIndex_small (show c.pncs + x.count < 2 ^ 32 by omega)]
    have hget : ∀ l, (cs.set x.label (some (c.record x.virtual x.count)))[l]? =
        (cs[l]?).map (Option.map (withCounts (if x.virtual = false ∧ x.label = l then x.count else 0) (if x.virtual = true ∧ x.label = l then x.count else 0))) := by
      intro l
      by_cases h : x.label = l
      · subst h
        rw [List.getElem?_set_self hlen, hc, hrec]
        simp
      · rw [List.getElem?_set_ne h]
        have : (withCounts (if x.virtual = false ∧ x.label = l then x.count else 0) (if x.virtual = true ∧ x.label = l then x.count else 0) : Cl W S → Cl W S) = id := by
          funext c; simp [h, withCounts]
        rw [this]; simp
    obtain ⟨cs', e, h'⟩ := ih (cs.set x.label (some (c.record x.virtual x.count))) (b + x.count)
      (by
        intro y hy
        obtain ⟨d, hd⟩ := hin y (by simp [hy])
        exact ⟨_, by rw [hget, hd]; rfl⟩)
      (by
        intro l d hd
        rw [hget] at hd
        cases h0 : cs[l]? with
        | none => rw [h0] at hd; simp at hd
        | some o =>
          cases o with
          | none => rw [h0] at hd; simp at hd
          | some d0 =>
            rw [h0] at hd
            simp only [Option.map_some, Option.some.injEq] at hd
            subst hd
            obtain ⟨m1, m2⟩ := hb _ _ h0
            simp only [withCounts]
            constructor <;> split <;> omega)
      (by omega)
    refine ⟨cs', ?_, fun l => ?_⟩
    · have hg : getCl cs x.label = .ok c := by
        obtain ⟨h1, h2⟩ := List.getElem?_eq_some_iff.1 hc
        rw [getCl, rd_ok h1, h2]
        rfl
      rw [recordAll, hg, Outcome.ok_bind, wr_ok hlen]
      exact e
    · rw [h', hget]
      cases cs[l]? with
      | none => rfl
      | some o =>
        cases o with
        | none => rfl
        | some d => simp [withCounts, own, virt, Nat.add_assoc]

theorem sum_ite_nodup (T : List Nat) (hT : T.Nodup) (a k : Nat) : (T.map (fun l => if a = l then k else 0)).sum = if a ∈ T then k else 0 := by
  induction T with
  | nil => simp
  | cons b r ih =>
    rw [List.nodup_cons] at hT
    rw [List.map_cons, List.sum_cons, ih hT.2]
    by_cases h : a = b
    · subst h; simp [hT.1]
    · simp [h]

open Classical in
/-- The constraints satisfied, call by call. -/
theorem satisfied_sum {W S : Type} (N : Nat) (K : Nat → Cl W S) (calls : List ConstraintCall) (T : List Nat) (hT : T.Nodup) (q : Nat)
    (hin : ∀ x ∈ calls, x.label ∈ below N K q) :
    (T.map (own calls)).sum + (below N K q).sum (rest K (virt calls) T) =
      (calls.map (fun c => if c.virtual then (if ∃ t ∈ T, ReflTransGen (fun a b => (K a).parent = some b) c.label t then 0 else c.count)
        else (if c.label ∈ T then c.count else 0))).sum := by
  induction calls with
  | nil =>
    have h1 : ∀ T : List Nat, (T.map (own [])).sum = 0 := fun T => by induction T <;> simp_all [own]
    rw [h1, Finset.sum_eq_zero]
    · rfl
    · intro x _; simp [rest, virt]
  | cons x r ih =>
    have ih := ih (fun y hy => hin y (by simp [hy]))
    have hx := hin x (by simp)
    have e1 : (T.map (own (x :: r))).sum = (if x.virtual = false then (if x.label ∈ T then x.count else 0) else 0) + (T.map (own r)).sum := by
      have : T.map (own (x :: r)) = T.map (fun l => (if x.virtual = false ∧ x.label = l then x.count else 0) + own r l) := rfl
      rw [this, List.sum_map_add]
      congr 1
      cases x.virtual
      · simpa using sum_ite_nodup T hT x.label x.count
      · simp
    have e2 : (below N K q).sum (rest K (virt (x :: r)) T) =
        (if x.virtual = true then (if ∃ t ∈ T, ReflTransGen (fun a b => (K a).parent = some b) x.label t then 0 else x.count) else 0) + (below N K q).sum (rest K (virt r) T) := by
      have : ∀ y, rest K (virt (x :: r)) T y = rest K (fun l => if x.virtual = true ∧ x.label = l then x.count else 0) T y + rest K (virt r) T y := by
        intro y
        unfold rest
        split
        · rfl
        · rfl
      rw [Finset.sum_congr rfl (fun y _ => this y), Finset.sum_add_distrib]
      congr 1
      rw [Finset.sum_eq_single x.label]
      · unfold rest
        cases x.virtual <;> simp
      · intro y _ hne
        unfold rest
        simp [Ne.symm hne]
      · exact fun h => absurd hx h
    rw [e1, e2, List.map_cons, List.sum_cons, ← ih]
    cases x.virtual <;> simp <;> omega

theorem range_total (N : Nat) (calls : List ConstraintCall) : (Finset.range N).sum (fun l => own calls l + virt calls l) ≤ (calls.map (·.count)).sum := by
  induction calls with
  | nil => simp [own, virt]
  | cons x r ih =>
    have : ∀ l, own (x :: r) l + virt (x :: r) l = (if x.label = l then x.count else 0) + (own r l + virt r l) := by
      intro l
      simp only [own, virt, List.map_cons, List.sum_cons]
      cases x.virtual <;> simp <;> omega
    rw [Finset.sum_congr rfl (fun l _ => this l), Finset.sum_add_distrib, List.map_cons, List.sum_cons, Finset.sum_ite_eq]
    split <;> omega

end Verif.Sel
