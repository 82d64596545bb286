import Verif.Model.Propagate
import Verif.Spec.Tree
import Verif.Lemmas.Split
/-
Helper lemmas: what propagation computes.
-/
namespace Verif.Sel
open Spec
set_option linter.unusedSectionVars false
variable {W S : Type}

/-- The list of clusters as a function. -/
structure Rep (cs : List (Option (Cl W S))) (N : Nat) (V : Nat → Cl W S) : Prop where
  len : cs.length = N
  zero : cs[0]? = some none
  at' : ∀ l, 1 ≤ l → l < N → cs[l]? = some (some (V l))

/-- Does the cluster hand itself on? -/
def wins [CCmp S] (c : Cl W S) : Bool := decide (c.hasChildren = false ∨ c.ncs > c.pncs) || (decide (¬ c.ncs < c.pncs) && CCmp.le c.propStability c.stability)

theorem choose_eq [CCmp S] (ar : Arith W S) (c p : Cl W S) : Cl.choose ar c p = if wins c then Cl.passSelf ar c p else Cl.passDesc ar c p := by
  unfold Cl.choose wins
  by_cases h1 : c.hasChildren = false ∨ c.ncs > c.pncs
  · simp [h1]
  · by_cases h2 : c.ncs < c.pncs
    · simp [h1, h2]
    · simp [h1, h2]

/-- One step on functions. -/
def stepV [CCmp W] [CCmp S] (ar : Arith W S) (V : Nat → Cl W S) (x : Nat) : Nat → Cl W S :=
  match (V x).parent with
  | none => V
  | some q =>
    let V1 := fun l => if l = x then (V x).ownLowest ar else V l
    fun l => if l = q then Cl.choose ar (V1 x) (Cl.passLowest (V1 x) (V1 q)) else V1 l

theorem Rep.write {cs : List (Option (Cl W S))} {N V} (h : Rep cs N V) {x : Nat} (h1 : 1 ≤ x) (h2 : x < N) (c : Cl W S) :
    ∃ cs', wr cs x (some c) = .ok cs' ∧ Rep cs' N (fun l => if l = x then c else V l) := by
  refine ⟨cs.set x (some c), wr_ok (by rw [h.len]; exact h2), by simp [h.len], ?_, ?_⟩
  · rw [List.getElem?_set_ne (by omega)]; exact h.zero
  · intro l hl1 hl2
    by_cases hx : l = x
    · subst hx
      simp [List.getElem?_set_self (show l < cs.length by rw [h.len]; exact hl2)]
    · rw [List.getElem?_set_ne (by omega), h.at' l hl1 hl2]
      simp [hx]

theorem propagate_rep [CCmp W] [CCmp S] (ar : Arith W S) {cs : List (Option (Cl W S))} {N V} (h : Rep cs N V) {x : Nat} (h1 : 1 ≤ x) (h2 : x < N)
    (hp : ∀ q, (V x).parent = some q → 1 ≤ q ∧ q < N) :
    ∃ cs', propagate ar cs x = .ok cs' ∧ Rep cs' N (stepV ar V x) := by
  unfold propagate stepV
  rw [Hier.getCl_ok (h.at' x h1 h2)]
  simp only [Outcome.ok_bind]
  cases hq : (V x).parent with
  | none => exact ⟨cs, rfl, h⟩
  | some q =>
    obtain ⟨q1, q2⟩ := hp q hq
    obtain ⟨cs1, e1, r1⟩ := h.write h1 h2 ((V x).ownLowest ar)
    simp only [e1, Outcome.ok_bind, Hier.getCl_ok (r1.at' q q1 q2)]
    obtain ⟨cs2, e2, r2⟩ := r1.write q1 q2 (Cl.choose ar ((V x).ownLowest ar) (Cl.passLowest ((V x).ownLowest ar) (if q = x then (V x).ownLowest ar else V q)))
    refine ⟨cs2, e2, ?_⟩
    simpa using r2

section
variable [CCmp W] [CCmp S] (ar : Arith W S) (N : Nat) (K : Nat → Cl W S)

/-- Children of `l` with label above `x`, in descending order. -/
def kidsAbove (x l : Nat) : List Nat := ((List.range' (x + 1) (N - 1 - x)).filter (fun l' => decide ((K l').parent = some l))).reverse

/-- The processed part is described. -/
structure VInv (x : Nat) (V : Nat → Cl W S) : Prop where
  stat : ∀ l, V l = { K l with pncs := (V l).pncs, propStability := (V l).propStability, propLowest := (V l).propLowest, desc := (V l).desc }
  desc : ∀ l, (V l).desc = (kidsAbove N K x l).flatMap (fun l' => if wins (V l') then [l'] else (V l').desc)
  stab : ∀ l, (V l).propStability = (kidsAbove N K x l).foldl (fun s l' => ar.add s (if wins (V l') then (V l').stability else (V l').propStability)) ar.zeroS
  pncs : ∀ l, (V l).pncs = (kidsAbove N K x l).foldl (fun s l' => addIndex s (if wins (V l') then (V l').ncs else (V l').pncs)) (K l).pncs
  low : ∀ l, (V l).propLowest =
    let w := (kidsAbove N K x l).foldl (fun w l' => if CCmp.lt (V l').propLowest w then (V l').propLowest else w) ar.dmax
    if x < l ∧ (K l).parent ≠ none then (if CCmp.eq w ar.dmax then (K l).death else w) else w

/-- The tree in terms of the function. -/
structure Tree : Prop where
  label : ∀ l, 1 ≤ l → l < N → (K l).label = l
  root : ∀ l, 1 ≤ l → l < N → ((K l).parent = none ↔ l = 1)
  up : ∀ l q, 1 ≤ l → l < N → (K l).parent = some q → 1 ≤ q ∧ q < l
  kids : ∀ l, 1 ≤ l → l < N → ((K l).hasChildren = true ↔ ∃ l', 1 ≤ l' ∧ l' < N ∧ (K l').parent = some l)
  two : 2 ≤ N

variable {ar N K}

theorem mem_kidsAbove {x l l' : Nat} : l' ∈ kidsAbove N K x l ↔ x < l' ∧ l' < N ∧ (K l').parent = some l := by
  simp only [kidsAbove, List.mem_reverse, List.mem_filter, List.mem_range'_1, decide_eq_true_eq]
  constructor
  · rintro ⟨⟨h1, h2⟩, h3⟩; exact ⟨by omega, by omega, h3⟩
  · rintro ⟨h1, h2, h3⟩; exact ⟨⟨by omega, by omega⟩, h3⟩

theorem range_split {x : Nat} (h : x + 1 < N) : List.range' (x + 1) (N - 1 - x) = (x + 1) :: List.range' (x + 2) (N - 1 - (x + 1)) := by
  have : N - 1 - x = (N - 1 - (x + 1)) + 1 := by omega
  rw [this, List.range'_succ]

theorem kidsAbove_succ {x l : Nat} (h : x + 1 < N) :
    kidsAbove N K x l = kidsAbove N K (x + 1) l ++ (if (K (x + 1)).parent = some l then [x + 1] else []) := by
  rw [kidsAbove, range_split h, List.filter_cons, kidsAbove]
  by_cases hp : (K (x + 1)).parent = some l <;> simp [hp]

theorem kidsAbove_top {x l : Nat} (h : N ≤ x + 1) : kidsAbove N K x l = [] := by
  have : N - 1 - x = 0 := by omega
  simp [kidsAbove, this]

theorem VInv.start (hfresh : ∀ l, (K l).propStability = ar.zeroS ∧ (K l).propLowest = ar.dmax ∧ (K l).desc = [])
    (hout : ∀ l, N ≤ l → (K l).parent = none) :
    VInv ar N K (N - 1) K := by
  have hk : ∀ l, kidsAbove N K (N - 1) l = [] := fun l => kidsAbove_top (by omega)
  refine ⟨fun l => rfl, fun l => ?_, fun l => ?_, fun l => ?_, fun l => ?_⟩
  · simp [hk, hfresh]
  · simp [hk, hfresh]
  · simp [hk, hfresh]
  · simp only [hk, List.foldl_nil, hfresh]
    by_cases h : N - 1 < l
    · simp [hout l (by omega)]
    · simp [h]

theorem foldl_congr' {α β : Type} {f g : β → α → β} {l : List α} {b : β} (h : ∀ x ∈ l, ∀ b, f b x = g b x) : l.foldl f b = l.foldl g b := by
  induction l generalizing b with
  | nil => rfl
  | cons a l ih =>
    rw [List.foldl_cons, List.foldl_cons, h a (by simp)]
    exact ih (fun x hx b => h x (by simp [hx]) b)

theorem flatMap_congr' {α β : Type} {f g : α → List β} {l : List α} (h : ∀ x ∈ l, f x = g x) : l.flatMap f = l.flatMap g := by
  induction l with
  | nil => rfl
  | cons a l ih =>
    rw [List.flatMap_cons, List.flatMap_cons, h a (by simp), ih (fun x hx => h x (by simp [hx]))]

theorem wins_ownLowest (c : Cl W S) : wins (c.ownLowest ar) = wins c := rfl

theorem VInv.step (ht : Tree N K) {x : Nat} {V} (h : VInv ar N K (x + 1) V) (hx : x + 1 < N) : VInv ar N K x (stepV ar V (x + 1)) := by
  have hpar : ∀ l, (V l).parent = (K l).parent := fun l => by rw [h.stat l]
  cases hq : (K (x + 1)).parent with
  | none =>
    have hs : stepV ar V (x + 1) = V := by
      unfold stepV; rw [hpar, hq]
    have hk : ∀ l, kidsAbove N K x l = kidsAbove N K (x + 1) l := fun l => by
      rw [kidsAbove_succ hx, hq]; simp
    rw [hs]
    refine ⟨h.stat, fun l => by rw [hk, ← h.desc], fun l => by rw [hk, ← h.stab], fun l => by rw [hk, ← h.pncs], fun l => ?_⟩
    rw [hk]
    refine (h.low l).trans ?_
    by_cases hl : l = x + 1
    · subst hl; simp [hq]
    · have : x < l ↔ x + 1 < l := by omega
      simp only [this]
  | some q =>
    obtain ⟨q1, q2⟩ := ht.up (x + 1) q (by omega) hx hq
    have hqx : q ≠ x + 1 := by omega
    have hs : stepV ar V (x + 1) = fun l => if l = q then Cl.choose ar ((V (x + 1)).ownLowest ar) (Cl.passLowest ((V (x + 1)).ownLowest ar) (V q))
        else if l = x + 1 then (V (x + 1)).ownLowest ar else V l := by
      unfold stepV
      rw [hpar, hq]
      funext l
      simp [hqx]
    have hV : ∀ l', x + 1 < l' → stepV ar V (x + 1) l' = V l' := by
      intro l' hl'
      rw [hs]
      simp only [show l' ≠ q by omega, show l' ≠ x + 1 by omega, if_false]
    have hy : stepV ar V (x + 1) (x + 1) = (V (x + 1)).ownLowest ar := by
      rw [hs]; simp [Ne.symm hqx]
    have hVq : stepV ar V (x + 1) q = Cl.choose ar ((V (x + 1)).ownLowest ar) (Cl.passLowest ((V (x + 1)).ownLowest ar) (V q)) := by
      rw [hs]; simp
    have ho : ∀ l, l ≠ q → l ≠ x + 1 → stepV ar V (x + 1) l = V l := by
      intro l h1 h2
      rw [hs]; simp [h1, h2]
    have hkq : kidsAbove N K x q = kidsAbove N K (x + 1) q ++ [x + 1] := by rw [kidsAbove_succ hx, hq]; simp
    have hk : ∀ l, l ≠ q → kidsAbove N K x l = kidsAbove N K (x + 1) l := fun l hl => by
      rw [kidsAbove_succ hx, hq]; simp [Ne.symm hl]
    have hlab : (V (x + 1)).label = x + 1 := by rw [h.stat]; exact ht.label _ (by omega) hx
    have hmem : ∀ l l', l' ∈ kidsAbove N K (x + 1) l → stepV ar V (x + 1) l' = V l' := fun l l' hl' => hV l' (mem_kidsAbove.1 hl').1
    generalize hV' : stepV ar V (x + 1) = V' at *
    clear hs
    refine ⟨fun l => ?_, fun l => ?_, fun l => ?_, fun l => ?_, fun l => ?_⟩
    · by_cases h1 : l = q
      · subst h1
        rw [hVq, choose_eq]
        have := h.stat l
        generalize V l = c at this
        split <;> (simp only [Cl.passSelf, Cl.passDesc, Cl.passLowest]; rw [this])
      · by_cases h2 : l = x + 1
        · subst h2
          rw [hy]
          have := h.stat (x + 1)
          generalize V (x + 1) = c at this
          simp only [Cl.ownLowest]
          rw [this]
        · rw [ho l h1 h2]; exact h.stat l
    · by_cases h1 : l = q
      · subst h1
        rw [hkq, List.flatMap_append, flatMap_congr' (g := fun l' => if wins (V l') then [l'] else (V l').desc) (fun l' hl' => by rw [hmem l l' hl']),
          ← h.desc, hVq, choose_eq]
        simp only [List.flatMap_cons, List.flatMap_nil, List.append_nil, hy]
        split
        · simp only [Cl.passSelf, Cl.passLowest, Cl.ownLowest, hlab]
        · simp only [Cl.passDesc, Cl.passLowest, Cl.ownLowest]
      · rw [hk l h1, flatMap_congr' (g := fun l' => if wins (V l') then [l'] else (V l').desc) (fun l' hl' => by rw [hmem l l' hl']), ← h.desc]
        by_cases h2 : l = x + 1
        · subst h2; rw [hy]; rfl
        · rw [ho l h1 h2]
    · by_cases h1 : l = q
      · subst h1
        rw [hkq, List.foldl_append, foldl_congr' (l := kidsAbove N K (x + 1) l) (g := fun s l' => ar.add s (if wins (V l') then (V l').stability else (V l').propStability))
          (fun l' hl' b => by rw [hmem l l' hl']), ← h.stab, hVq, choose_eq]
        simp only [List.foldl_cons, List.foldl_nil, hy]
        split
        · simp only [Cl.passSelf, Cl.passLowest, Cl.ownLowest]
        · simp only [Cl.passDesc, Cl.passLowest, Cl.ownLowest]
      · rw [hk l h1, foldl_congr' (g := fun s l' => ar.add s (if wins (V l') then (V l').stability else (V l').propStability))
          (fun l' hl' b => by rw [hmem l l' hl']), ← h.stab]
        by_cases h2 : l = x + 1
        · subst h2; rw [hy]; rfl
        · rw [ho l h1 h2]
    · by_cases h1 : l = q
      · subst h1
        rw [hkq, List.foldl_append, foldl_congr' (l := kidsAbove N K (x + 1) l) (g := fun s l' => addIndex s (if wins (V l') then (V l').ncs else (V l').pncs))
          (fun l' hl' b => by rw [hmem l l' hl']), ← h.pncs, hVq, choose_eq]
        simp only [List.foldl_cons, List.foldl_nil, hy]
        split
        · simp only [Cl.passSelf, Cl.passLowest, Cl.ownLowest]
        · simp only [Cl.passDesc, Cl.passLowest, Cl.ownLowest]
      · rw [hk l h1, foldl_congr' (g := fun s l' => addIndex s (if wins (V l') then (V l').ncs else (V l').pncs))
          (fun l' hl' b => by rw [hmem l l' hl']), ← h.pncs]
        by_cases h2 : l = x + 1
        · subst h2; rw [hy]; rfl
        · rw [ho l h1 h2]
    · by_cases h1 : l = q
      · subst h1
        rw [hkq, List.foldl_append, foldl_congr' (l := kidsAbove N K (x + 1) l) (g := fun w l' => if CCmp.lt (V l').propLowest w then (V l').propLowest else w)
          (fun l' hl' b => by rw [hmem l l' hl'])]
        have hl := h.low l
        simp only [show ¬ (x + 1 < l ∧ (K l).parent ≠ none) from fun h => by omega, if_false] at hl
        simp only [← hl, List.foldl_cons, List.foldl_nil, hy, show ¬ (x < l ∧ (K l).parent ≠ none) from fun h => by omega, if_false]
        rw [hVq, choose_eq]
        split <;> simp only [Cl.passSelf, Cl.passDesc, Cl.passLowest]
      · rw [hk l h1, foldl_congr' (g := fun w l' => if CCmp.lt (V l').propLowest w then (V l').propLowest else w)
          (fun l' hl' b => by rw [hmem l l' hl'])]
        have hl := h.low l
        by_cases h2 : l = x + 1
        · subst h2
          simp only [show ¬ (x + 1 < x + 1 ∧ (K (x + 1)).parent ≠ none) from fun h => by omega, if_false] at hl
          simp only [← hl, hy]
          rw [if_pos (show (x < x + 1 ∧ (K (x + 1)).parent ≠ none) from ⟨by omega, by rw [hq]; simp⟩)]
          simp only [Cl.ownLowest]
          rw [show (V (x + 1)).death = (K (x + 1)).death by rw [h.stat (x + 1)]]
        · rw [ho l h1 h2]
          refine hl.trans ?_
          have : x < l ↔ x + 1 < l := by omega
          simp only [this]

end
end Verif.Sel
