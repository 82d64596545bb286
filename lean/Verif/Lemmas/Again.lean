import Verif.Spec.Again
import Verif.Lemmas.Labels
import Verif.Lemmas.Lowest
/-
Helper lemmas: propagation and labelling a second time.
-/
namespace Verif.Sel
open Spec Relation Hier
set_option linter.unusedSectionVars false
variable {W S : Type}

/-- Two states of the clusters that differ in what propagation writes only. -/
def Same (K V : Nat → Cl W S) : Prop :=
  ∀ l, V l = { K l with pncs := (V l).pncs, propStability := (V l).propStability, propLowest := (V l).propLowest, desc := (V l).desc }

theorem Same.kids {K V : Nat → Cl W S} (h : Same K V) (l : Nat) : (V l).hasChildren = (K l).hasChildren := by rw [h l]

variable [CCmp W] [CCmp S] {ar : Arith W S} {N : Nat} {K : Nat → Cl W S}

theorem Tree.same {V : Nat → Cl W S} (ht : Tree N K) (h : Same K V) : Tree N V := by
  have hp : ∀ l, (V l).parent = (K l).parent := fun l => by rw [h l]
  refine ⟨fun l h1 h2 => by rw [h l]; exact ht.label l h1 h2, fun l h1 h2 => by rw [hp]; exact ht.root l h1 h2, fun l q h1 h2 h3 => ht.up l q h1 h2 (by rw [← hp]; exact h3),
    fun l h1 h2 => ?_, ht.two⟩
  rw [h.kids, ht.kids l h1 h2]
  simp only [hp]

/-- The same for one cluster. -/
def SameC (a b : Cl W S) : Prop := b = { a with pncs := b.pncs, propStability := b.propStability, propLowest := b.propLowest, desc := b.desc }

theorem SameC.own {a b : Cl W S} (h : SameC a b) (ar : Arith W S) : SameC a (b.ownLowest ar) := by unfold SameC at *; rw [h]; rfl
theorem SameC.low {a b : Cl W S} (h : SameC a b) (c : Cl W S) : SameC a (Cl.passLowest c b) := by unfold SameC at *; rw [h]; rfl
theorem SameC.choose {a b : Cl W S} (h : SameC a b) (ar : Arith W S) (c : Cl W S) : SameC a (Cl.choose ar c b) := by
  rw [choose_eq]
  unfold SameC at *
  split <;> (rw [h]; rfl)

theorem Same.step {V : Nat → Cl W S} (h : Same K V) (ar : Arith W S) (x : Nat) : Same K (stepV ar V x) := by
  intro l
  show SameC (K l) (stepV ar V x l)
  have hh : ∀ l, SameC (K l) (V l) := h
  unfold stepV
  cases hq : (V x).parent with
  | none => exact h l
  | some q =>
    have h1 : ∀ l, SameC (K l) (if l = x then (V x).ownLowest ar else V l) := by
      intro l
      split
      · rename_i hl; subst hl; exact (hh l).own ar
      · exact hh l
    simp only
    split
    · rename_i hl; subst hl
      exact ((h1 l).low _).choose ar _
    · exact h1 l

/-- A whole pass: the clusters `x`, `x - 1`, …, `1` are processed. -/
def passV (ar : Arith W S) : Nat → (Nat → Cl W S) → Nat → Cl W S
  | 0, V => V
  | x + 1, V => passV ar x (stepV ar V (x + 1))

theorem pass_inv {P : (Nat → Cl W S) → Prop} (hstep : ∀ x V, 1 ≤ x → x < N → P V → P (stepV ar V x)) : ∀ x V, x < N → P V → P (passV ar x V) := by
  intro x
  induction x with
  | zero => intro V _ h; exact h
  | succ x ih => intro V hx h; exact ih _ (by omega) (hstep (x + 1) V (by omega) hx h)

/-- The invariant of the examination loop in any pass. -/
structure XRun (ar : Arith W S) (smax : S) (N : Nat) (K : Nat → Cl W S) (x : Nat) (s : St W S) (V : Nat → Cl W S) : Prop where
  rep : Rep s.clusters N V
  stat : Same K V
  ex : s.ex = (List.range' 1 x).filter (ready N K x)
  alen : s.added.length = N
  added : ∀ l, 1 ≤ l → l ≤ x → s.added[l]? = some (ready N K x l)
  trace : s.trace = (List.range' (x + 1) (N - 1 - x)).reverse
  inf : s.infinite = (List.range' (x + 1) (N - 1 - x)).any (fun l => CCmp.eq (K l).stability smax)

theorem XRun.step (ht : Tree N K) {smax : S} {x : Nat} {s : St W S} {V} (h : XRun ar smax N K (x + 1) s V) (hx : x + 1 < N) (fuel : Nat) :
    ∃ s', examine ar smax (fuel + 1) s = examine ar smax fuel s' ∧ XRun ar smax N K x s' (stepV ar V (x + 1)) := by
  have hpar : ∀ l, (V l).parent = (K l).parent := fun l => by rw [h.stat l]
  have hup : ∀ q, (V (x + 1)).parent = some q → 1 ≤ q ∧ q < N := fun q hq => by
    rw [hpar] at hq
    have := ht.up (x + 1) q (by omega) hx hq
    omega
  obtain ⟨cs', e1, hr'⟩ := propagate_rep ar h.rep (x := x + 1) (by omega) hx hup
  have hv' := h.stat.step ar (x + 1)
  have hex : s.ex = (List.range' 1 x).filter (ready N K (x + 1)) ++ [x + 1] := by
    rw [h.ex, List.range'_concat, List.filter_append, List.filter_cons]
    simp [Nat.add_comm 1 x, ready_self ht (show 1 ≤ x + 1 by omega) hx]
  have hlast : s.ex.getLast? = some (x + 1) := by rw [hex]; simp
  have hdrop : s.ex.dropLast = (List.range' 1 x).filter (ready N K (x + 1)) := by rw [hex]; simp
  have hget := Hier.getCl_ok (hr'.at' (x + 1) (by omega) hx)
  have hst : (stepV ar V (x + 1) (x + 1)).stability = (K (x + 1)).stability := by rw [hv' _]
  have hpp : (stepV ar V (x + 1) (x + 1)).parent = (K (x + 1)).parent := by rw [hv' _]
  -- the parent is queued
  have hqueue : ∃ ex added, queueParent cs' (K (x + 1)).parent s.ex.dropLast s.added = .ok (ex, added) ∧
      ex = (List.range' 1 x).filter (ready N K x) ∧ added.length = N ∧ ∀ l, 1 ≤ l → l ≤ x → added[l]? = some (ready N K x l) := by
    cases hq : (K (x + 1)).parent with
    | none =>
      have hre : ∀ l, ready N K x l = ready N K (x + 1) l := fun l => by rw [ready_succ hx, hq]; simp
      refine ⟨_, _, rfl, ?_, h.alen, fun l h1 h2 => ?_⟩
      · rw [hdrop]; exact List.filter_congr (fun l _ => (hre l).symm)
      · rw [h.added l h1 (by omega), hre]
    | some q =>
      obtain ⟨q1, q2⟩ := ht.up (x + 1) q (by omega) hx hq
      have hlab : (stepV ar V (x + 1) q).label = q := by rw [hv' _]; exact ht.label q q1 (by omega)
      have ha := h.added q q1 (by omega)
      have hrd : rd s.added q = .ok (ready N K (x + 1) q) := by simp [rd, ha]
      simp only [queueParent, Hier.getCl_ok (hr'.at' q q1 (by omega)), Outcome.ok_bind, hlab, hrd]
      cases hrq : ready N K (x + 1) q with
      | true =>
        have hre : ∀ l, ready N K x l = ready N K (x + 1) l := fun l => by
          rw [ready_succ hx, hq]
          by_cases hl : q = l
          · subst hl; simp [hrq]
          · simp [hl]
        refine ⟨s.ex.dropLast, s.added, by simp, ?_, h.alen, fun l h1 h2 => ?_⟩
        · rw [hdrop]; exact List.filter_congr (fun l _ => (hre l).symm)
        · rw [h.added l h1 (by omega), hre]
      | false =>
        have hre : ∀ l, ready N K x l = true ↔ l = q ∨ ready N K (x + 1) l = true := fun l => by
          rw [ready_succ hx, hq]
          simp only [Option.some.injEq, Bool.or_eq_true, decide_eq_true_eq]
          constructor
          · rintro (h | h); exacts [.inr h, .inl h.symm]
          · rintro (h | h); exacts [.inr h.symm, .inl h]
        refine ⟨sInsert s.ex.dropLast q, s.added.set q true, by simp [wr_ok (show q < s.added.length by rw [h.alen]; omega)], ?_, by simp [h.alen], fun l h1 h2 => ?_⟩
        · refine sorted_ext (sorted_sInsert ?_ _) (List.Pairwise.filter _ (List.pairwise_lt_range' (s := 1) (n := x))) ?_
          · rw [hdrop]
            exact List.Pairwise.filter _ (List.pairwise_lt_range' (s := 1) (n := x))
          · intro l
            rw [mem_sInsert, hdrop, List.mem_filter, List.mem_filter, hre, List.mem_range'_1]
            constructor
            · rintro (h | h)
              · subst h; exact ⟨⟨q1, by omega⟩, .inl rfl⟩
              · exact ⟨h.1, .inr h.2⟩
            · rintro ⟨h1, h2 | h2⟩
              · exact .inl h2
              · exact .inr ⟨h1, h2⟩
        · by_cases hl : l = q
          · subst hl
            rw [List.getElem?_set_self (by rw [h.alen]; omega), (hre l).2 (.inl rfl)]
          · rw [List.getElem?_set_ne (by omega), h.added l h1 (by omega)]
            have := hre l
            simp only [hl, false_or] at this
            rw [Bool.eq_iff_iff.2 this]
  obtain ⟨ex, added, eq, a1, a2, a3⟩ := hqueue
  refine ⟨{ clusters := cs', ex := ex, added := added, infinite := s.infinite || CCmp.eq (K (x + 1)).stability smax, trace := s.trace ++ [x + 1] }, ?_,
    ⟨hr', hv', a1, a2, a3, ?_, ?_⟩⟩
  · simp only [examine, hlast, e1, Outcome.ok_bind, hget, hpp, eq, hst]
  · simp only [h.trace]
    rw [range_split hx]
    simp
  · simp only [h.inf]
    rw [range_split hx, List.any_cons, Bool.or_comm]

theorem examine_run (ht : Tree N K) {smax : S} : ∀ (x : Nat) {s : St W S} {V} (_ : XRun ar smax N K x s V), x < N → ∀ fuel, x ≤ fuel →
    ∃ s', examine ar smax fuel s = .ok s' ∧ XRun ar smax N K 0 s' (passV ar x V) := by
  intro x
  induction x with
  | zero =>
    intro s V h _ fuel _
    have : s.ex = [] := by rw [h.ex]; simp
    cases fuel with
    | zero => exact ⟨s, by simp [examine, this], h⟩
    | succ f => exact ⟨s, by simp [examine, this], h⟩
  | succ x ih =>
    intro s V h hx fuel hf
    match fuel, hf with
    | fuel + 1, hf =>
      obtain ⟨s1, e1, h1⟩ := h.step ht hx fuel
      obtain ⟨s2, e2, h2⟩ := ih h1 (by omega) fuel (by omega)
      exact ⟨s2, by rw [e1, e2], h2⟩

/-- The whole of propagation. -/
theorem propagateTree_run (ht : Tree N K) {cs : List (Option (Cl W S))} {V : Nat → Cl W S} (hr : Rep cs N V) (hs : Same K V) (smax : S) {order : List Nat} (ho : order.Perm (List.range cs.length)) :
    ∃ s, propagateTree ar smax order cs = .ok s ∧ XRun ar smax N K 0 s (passV ar (N - 1) V) := by
  have hN := ht.two
  have hmem : ∀ l, l ∈ order ↔ l < N := fun l => by rw [ho.mem_iff, List.mem_range, hr.len]
  obtain ⟨ex, added, e, a1, a2, a3, _, a5⟩ := leaves_rep (ht.same hs) hr order (fun i hi => (hmem i).1 hi) [] (List.replicate cs.length false) List.Pairwise.nil (by simp [hr.len])
  have hk : ∀ l, kidsAbove N K (N - 1) l = [] := fun l => kidsAbove_top (by omega)
  have hrd : ∀ l, ready N K (N - 1) l = !(K l).hasChildren := fun l => by simp [ready, hk]
  have hX : XRun ar smax N K (N - 1) { clusters := cs, ex := ex, added := added, infinite := false, trace := [] } V := by
    refine ⟨hr, hs, ?_, a2, fun l h1 h2 => ?_, ?_, ?_⟩
    · refine sorted_ext a1 (List.Pairwise.filter _ (List.pairwise_lt_range' (s := 1) (n := N - 1))) (fun l => ?_)
      rw [a3, hs.kids, List.mem_filter, hrd, List.mem_range'_1, hmem]
      simp only [List.not_mem_nil, false_or, Bool.not_eq_true']
      constructor
      · rintro ⟨h1, h2, h3⟩; exact ⟨⟨h1, by omega⟩, h3⟩
      · rintro ⟨⟨h1, h2⟩, h3⟩; exact ⟨h1, by omega, h3⟩
    · rw [hrd]
      cases hc : (K l).hasChildren with
      | false => exact (a5 l (by omega)).1 ⟨h1, (hmem l).2 (by omega), (hs.kids l).trans hc⟩
      | true =>
        rw [(a5 l (by omega)).2 (fun h => by rw [hs.kids, hc] at h; simp at h), hr.len]
        simp [show l < N by omega]
    · simp
    · simp
  obtain ⟨s, e2, h2⟩ := examine_run ht (N - 1) hX (by omega) cs.length (by rw [hr.len]; omega)
  exact ⟨s, by simp only [propagateTree, e, Outcome.ok_bind, e2], h2⟩


/-- One step, written out. -/
theorem stepV_at {V : Nat → Cl W S} {x q : Nat} (hq : (V x).parent = some q) (hne : q ≠ x) (l : Nat) :
    stepV ar V x l = if l = q then Cl.choose ar ((V x).ownLowest ar) (Cl.passLowest ((V x).ownLowest ar) (V q)) else if l = x then (V x).ownLowest ar else V l := by
  unfold stepV
  rw [hq]
  simp [hne]

theorem stepV_root {V : Nat → Cl W S} {x : Nat} (hq : (V x).parent = none) : stepV ar V x = V := by unfold stepV; rw [hq]

/-- What further passes leave as it is; `V0` is the state after the first pass. -/
structure AInv (K V0 V : Nat → Cl W S) : Prop where
  stat : Same K V
  low : ∀ l, (V l).propLowest = (V0 l).propLowest
  pre : ∀ l, (V0 l).desc <+: (V l).desc
  und : ∀ l y, y ∈ (V l).desc → TransGen (fun a b => (K a).parent = some b) y l

theorem desc_choose (c p : Cl W S) : (Cl.choose ar c p).desc = p.desc ++ if wins c then [c.label] else c.desc := by
  rw [choose_eq]; split <;> rfl

theorem low_choose (c p : Cl W S) : (Cl.choose ar c p).propLowest = p.propLowest := by
  rw [choose_eq]; split <;> rfl

theorem AInv.step {V0 : Nat → Cl W S} (ht : Tree N K) (hl1 : ∀ x q, 1 ≤ x → x < N → (K x).parent = some q → CCmp.eq (V0 x).propLowest ar.dmax = false)
    (hl2 : ∀ x q, 1 ≤ x → x < N → (K x).parent = some q → CCmp.lt (V0 x).propLowest (V0 q).propLowest = false) {V : Nat → Cl W S} {x : Nat} (hx1 : 1 ≤ x) (hx2 : x < N)
    (h : AInv K V0 V) : AInv K V0 (stepV ar V x) := by
  have hp : (V x).parent = (K x).parent := by rw [h.stat x]
  have hlab : (V x).label = x := by rw [h.stat x]; exact ht.label x hx1 hx2
  cases hq : (K x).parent with
  | none => rw [stepV_root (hp.trans hq)]; exact h
  | some q =>
    have hup := ht.up x q hx1 hx2 hq
    have hown : (V x).ownLowest ar = V x := by
      unfold Cl.ownLowest
      rw [h.low x, hl1 x q hx1 hx2 hq]
      rw [← h.low x]
      rfl
    have hpass : Cl.passLowest (V x) (V q) = V q := by
      unfold Cl.passLowest
      rw [h.low x, h.low q, hl2 x q hx1 hx2 hq, ← h.low q]
      rfl
    have hat := stepV_at (ar := ar) (hp.trans hq) (by omega : q ≠ x)
    rw [hown, hpass] at hat
    have hat' : ∀ l, stepV ar V x l = if l = q then Cl.choose ar (V x) (V q) else V l := by
      intro l
      rw [hat]
      split
      · rfl
      · split
        · rename_i hl; rw [hl]
        · rfl
    refine ⟨h.stat.step ar x, fun l => ?_, fun l => ?_, fun l y hy => ?_⟩
    · rw [hat']
      split
      · rename_i hl; subst hl; rw [low_choose, h.low]
      · exact h.low l
    · rw [hat']
      split
      · rename_i hl; subst hl; rw [desc_choose]; exact (h.pre l).trans (List.prefix_append _ _)
      · exact h.pre l
    · rw [hat'] at hy
      split at hy
      · rename_i hl; subst hl
        rw [desc_choose, List.mem_append] at hy
        rcases hy with hy | hy
        · exact h.und l y hy
        · split at hy
          · rw [List.mem_singleton, hlab] at hy
            subst hy
            exact .single hq
          · exact (h.und x y hy).tail hq
      · exact h.und l y hy


/-- With such sums a cluster that was not chosen is not chosen later, and what is chosen later lies in what was chosen first. -/
structure GInv (P : S → Prop) (N : Nat) (K V0 V : Nat → Cl W S) : Prop extends AInv K V0 V where
  ncs : ∀ l, (V l).pncs = 0
  sums : ∀ l, 2 ≤ l → l < N → P (V l).propStability
  lose : ∀ l, 2 ≤ l → l < N → wins (V0 l) = false → wins (V l) = false
  inside : ∀ l y, y ∈ (V l).desc → ∃ z ∈ (V0 l).desc, ReflTransGen (fun a b => (K a).parent = some b) y z

theorem wins_zero {c : Cl W S} (h1 : c.ncs = 0) (h2 : c.pncs = 0) : wins c = (!c.hasChildren || CCmp.le c.propStability c.stability) := by
  unfold wins
  rw [h1, h2]
  cases c.hasChildren <;> simp

theorem GInv.step {P : S → Prop} (hg : Grows ar P) {V0 : Nat → Cl W S} (ht : Tree N K) (hv0 : VInv ar N K 0 V0)
    (hl1 : ∀ x q, 1 ≤ x → x < N → (K x).parent = some q → CCmp.eq (V0 x).propLowest ar.dmax = false)
    (hl2 : ∀ x q, 1 ≤ x → x < N → (K x).parent = some q → CCmp.lt (V0 x).propLowest (V0 q).propLowest = false)
    (hn : ∀ l, (K l).ncs = 0) (hst : ∀ l, 2 ≤ l → l < N → P (K l).stability) {V : Nat → Cl W S} {x : Nat} (hx1 : 1 ≤ x) (hx2 : x < N)
    (h : GInv P N K V0 V) : GInv P N K V0 (stepV ar V x) := by
  have hA := h.toAInv.step ht hl1 hl2 hx1 hx2
  have hp : (V x).parent = (K x).parent := by rw [h.stat x]
  have hlab : (V x).label = x := by rw [h.stat x]; exact ht.label x hx1 hx2
  cases hq : (K x).parent with
  | none => rw [stepV_root (hp.trans hq)]; exact h
  | some q =>
    have hup := ht.up x q hx1 hx2 hq
    have hx2' : 2 ≤ x := by omega
    have hown : (V x).ownLowest ar = V x := by
      unfold Cl.ownLowest
      rw [h.low x, hl1 x q hx1 hx2 hq]
      rw [← h.low x]
      rfl
    have hpass : Cl.passLowest (V x) (V q) = V q := by
      unfold Cl.passLowest
      rw [h.low x, h.low q, hl2 x q hx1 hx2 hq, ← h.low q]
      rfl
    have hat := stepV_at (ar := ar) (hp.trans hq) (by omega : q ≠ x)
    rw [hown, hpass] at hat
    have hat' : ∀ l, stepV ar V x l = if l = q then Cl.choose ar (V x) (V q) else V l := by
      intro l
      rw [hat]
      split
      · rfl
      · split
        · rename_i hl; rw [hl]
        · rfl
    have hncs : ∀ (U : Nat → Cl W S), Same K U → ∀ l, (U l).ncs = 0 := fun U hU l => by rw [hU l]; exact hn l
    have hsum : (Cl.choose ar (V x) (V q)).propStability = ar.add (V q).propStability (if wins (V x) then (V x).stability else (V x).propStability) := by
      rw [choose_eq]; split <;> rfl
    have hpn : (Cl.choose ar (V x) (V q)).pncs = 0 := by
      rw [choose_eq]
      split
      · simp only [Cl.passSelf, h.ncs, hncs V h.stat]; rfl
      · simp only [Cl.passDesc, h.ncs]; rfl
    have hadd : P (if wins (V x) then (V x).stability else (V x).propStability) := by
      split
      · rw [h.stat x]; exact hst x hx2' hx2
      · exact h.sums x hx2' hx2
    have hkid : x ∈ kidsAbove N K 0 q := mem_kidsAbove.2 ⟨by omega, hx2, hq⟩
    refine { toAInv := hA, ncs := fun l => ?_, sums := fun l h1 h2 => ?_, lose := fun l h1 h2 h3 => ?_, inside := fun l y hy => ?_ }
    · rw [hat']
      split
      · exact hpn
      · exact h.ncs l
    · rw [hat']
      split
      · rename_i hl; subst hl; rw [hsum]; exact hg.add _ _ (h.sums l h1 h2) hadd
      · exact h.sums l h1 h2
    · have h4 := h.lose l h1 h2 h3
      rw [hat']
      split
      · rename_i hl; subst hl
        have hs' := hA.stat l
        rw [hat', if_pos rfl] at hs'
        have hc : (Cl.choose ar (V x) (V l)).ncs = 0 := by rw [hs']; exact hn l
        have hch : (Cl.choose ar (V x) (V l)).hasChildren = (V l).hasChildren := by rw [hs', h.stat.kids]
        have hsb : (Cl.choose ar (V x) (V l)).stability = (V l).stability := by rw [hs', h.stat l]
        rw [wins_zero (hncs V h.stat l) (h.ncs l), Bool.or_eq_false_iff] at h4
        rw [wins_zero hc hpn, Bool.or_eq_false_iff, hch, hsum, hsb]
        exact ⟨h4.1, hg.more _ _ _ (h.sums l h1 h2) hadd (by rw [h.stat l]; exact hst l h1 h2) h4.2⟩
      · exact h4
    · rw [hat'] at hy
      split at hy
      · rename_i hl; subst hl
        rw [desc_choose, List.mem_append] at hy
        rcases hy with hy | hy
        · exact h.inside l y hy
        · have hall : ∀ z, z ∈ (if wins (V0 x) then [x] else (V0 x).desc) → z ∈ (V0 l).desc := by
            intro z hz
            rw [hv0.desc l, List.mem_flatMap]
            exact ⟨x, hkid, hz⟩
          cases hw0 : wins (V0 x) with
          | true =>
            have hx0 : x ∈ (V0 l).desc := hall x (by simp [hw0])
            refine ⟨x, hx0, ?_⟩
            split at hy
            · rw [List.mem_singleton, hlab] at hy
              subst hy; exact .refl
            · exact (h.und x y hy).to_reflTransGen
          | false =>
            rw [h.lose x hx2' hx2 hw0] at hy
            obtain ⟨z, hz, hzz⟩ := h.inside x y (by simpa using hy)
            exact ⟨z, hall z (by simp [hw0, hz]), hzz⟩
      · exact h.inside l y hy

/-- What is handed on lies below. -/
theorem und_start {V0 : Nat → Cl W S} (ht : Tree N K) (hv0 : VInv ar N K 0 V0) : ∀ (j l : Nat), N - l ≤ j → ∀ y, y ∈ (V0 l).desc → TransGen (fun a b => (K a).parent = some b) y l := by
  intro j
  induction j with
  | zero =>
    intro l hl y hy
    rw [hv0.desc l, List.mem_flatMap] at hy
    obtain ⟨k, hk, _⟩ := hy
    obtain ⟨k1, k2, k3⟩ := mem_kidsAbove.1 hk
    have := ht.up k l (by omega) k2 k3
    omega
  | succ j ih =>
    intro l hl y hy
    rw [hv0.desc l, List.mem_flatMap] at hy
    obtain ⟨k, hk, hy⟩ := hy
    obtain ⟨k1, k2, k3⟩ := mem_kidsAbove.1 hk
    have := ht.up k l (by omega) k2 k3
    split at hy
    · rw [List.mem_singleton] at hy; subst hy; exact .single k3
    · exact (ih k (by omega) y hy).tail k3

theorem AInv.start {V0 : Nat → Cl W S} (ht : Tree N K) (hv0 : VInv ar N K 0 V0) : AInv K V0 V0 :=
  ⟨hv0.stat, fun _ => rfl, fun _ => List.prefix_rfl, fun l y hy => und_start ht hv0 (N - l) l (Nat.le_refl _) y hy⟩

theorem foldl_zero (f : Nat → Nat) (ks : List Nat) (h : ∀ k ∈ ks, f k = 0) : ks.foldl (fun s k => addIndex s (f k)) 0 = 0 := by
  induction ks with
  | nil => rfl
  | cons k ks ih =>
    rw [List.foldl_cons, h k (by simp)]
    exact ih (fun k hk => h k (by simp [hk]))

theorem foldl_P {P : S → Prop} (hg : Grows ar P) (f : Nat → S) (ks : List Nat) (h : ∀ k ∈ ks, P (f k)) (a : S) (ha : P a) : P (ks.foldl (fun s k => ar.add s (f k)) a) := by
  induction ks generalizing a with
  | nil => exact ha
  | cons k ks ih => exact ih (fun k hk => h k (by simp [hk])) _ (hg.add _ _ ha (h k (by simp)))

theorem GInv.start {P : S → Prop} (hg : Grows ar P) {V0 : Nat → Cl W S} (ht : Tree N K) (hv0 : VInv ar N K 0 V0)
    (hn : ∀ l, (K l).ncs = 0 ∧ (K l).pncs = 0) (hst : ∀ l, 2 ≤ l → l < N → P (K l).stability) : GInv P N K V0 V0 := by
  have key : ∀ (j l : Nat), N - l ≤ j → (V0 l).pncs = 0 ∧ P (V0 l).propStability := by
    intro j
    induction j with
    | zero =>
      intro l hl
      have hk : kidsAbove N K 0 l = [] := by
        rw [List.eq_nil_iff_forall_not_mem]
        intro k hk
        obtain ⟨k1, k2, k3⟩ := mem_kidsAbove.1 hk
        have := ht.up k l (by omega) k2 k3
        omega
      rw [hv0.pncs l, hv0.stab l, hk]
      exact ⟨(hn l).2, hg.zero⟩
    | succ j ih =>
      intro l hl
      have hkid : ∀ k ∈ kidsAbove N K 0 l, 2 ≤ k ∧ k < N ∧ N - k ≤ j := by
        intro k hk
        obtain ⟨k1, k2, k3⟩ := mem_kidsAbove.1 hk
        have := ht.up k l (by omega) k2 k3
        omega
      constructor
      · rw [hv0.pncs l, (hn l).2]
        refine foldl_zero (fun l' => if wins (V0 l') then (V0 l').ncs else (V0 l').pncs) _ (fun k hk => ?_)
        split
        · rw [hv0.stat k]; exact (hn k).1
        · exact (ih k (hkid k hk).2.2).1
      · rw [hv0.stab l]
        refine foldl_P hg (fun l' => if wins (V0 l') then (V0 l').stability else (V0 l').propStability) _ (fun k hk => ?_) _ hg.zero
        split
        · rw [hv0.stat k]; exact hst k (hkid k hk).1 (hkid k hk).2.1
        · exact (ih k (hkid k hk).2.2).2
  exact { toAInv := AInv.start ht hv0, ncs := fun l => (key _ l (Nat.le_refl _)).1, sums := fun l _ _ => (key _ l (Nat.le_refl _)).2, lose := fun _ _ _ h => h
          inside := fun l y hy => ⟨y, hy, .refl⟩ }

end Verif.Sel

namespace Verif.Sel
open Spec Relation Hier
variable {W S : Type}

/-- A cluster is below another one only if its points at birth are among those of the other one at its birth. -/
theorem member_up [LinearOrder W] {ar : Arith W S} {n m : Nat} {res : Result W S} {hist : List (W × (Nat → Nat))} {cur : Nat → Nat} {noise : Nat → Option W} {last : Nat → Option Nat}
    (h : Base ar n m res hist cur noise last) {p : Nat} (hp : p < n) {y z : Nat} (hyz : ReflTransGen (fun a b => (kOf ar res.clusters a).parent = some b) y z)
    (hz : z ≠ 1) (hz0 : z ≠ 0) (hy : lab hist cur (kOf ar res.clusters y).offset p = y) : lab hist cur (kOf ar res.clusters z).offset p = z := by
  obtain ⟨htree, _, _⟩ := obs_tree h
  obtain ⟨hr, ht, hout⟩ := tree_of (ar := ar) htree
  have hin : ∀ k q, (kOf ar res.clusters k).parent = some q → 1 ≤ k ∧ k < res.clusters.length := by
    intro k q hk
    by_contra hn
    rcases Nat.eq_zero_or_pos k with h0 | h0
    · subst h0
      have : (kOf ar res.clusters 0).parent = none := by simp [kOf, htree.zero, Cl.init]
      rw [hk] at this; simp at this
    · have := hout k (by omega)
      rw [hk] at this; simp at this
  induction hyz with
  | refl => exact hy
  | tail hab hbc ih =>
    rename_i b c
    obtain ⟨b1, b2⟩ := hin b c hbc
    have hup := ht.up b c b1 b2 hbc
    have hb := ih (by omega) (by omega)
    have hcb := hr.at' b b1 b2
    obtain ⟨q, s, w, g, e1, e2, e3, e4, e5, e6, e7, e8, e9, e10, e11⟩ := h.birth (by omega) hcb
    rw [hbc] at e2
    simp only [Option.some.injEq] at e2
    subst e2
    rw [e6] at hb
    have hg := e8 p hp hb
    have hlab : lab hist cur s p = c := by rw [lab_get e1]; exact hg
    obtain ⟨q', s', w', g', f1, f2, f3, f4, f5, f6, f7, f8, f9, f10, f11⟩ := h.birth hz (hr.at' c (by omega) (by omega))
    rw [f6]
    refine h.bk.back hp ?_ hz0 f10 hlab
    by_contra hlt
    exact f11 s (by omega) p hp hlab

/-- The lowest death levels after the first pass: no further pass changes them. -/
theorem obs_low [LinearOrder W] [CCmp S] {ar : Arith W S} {n m M : Nat} {f : Nat → Nat × Nat × W} {res : Result W S} {hist : List (W × (Nat → Nat))} {cur : Nat → Nat}
    {noise : Nat → Option W} {last : Nat → Option Nat} (h : Obs ar n m M f res hist cur noise last) (hmax : ∀ i, i < M → (f i).2.2 < ar.dmax) {V0 : Nat → Cl W S}
    (hv0 : VInv ar res.clusters.length (kOf ar res.clusters) 0 V0) {x q : Nat} (h1 : 1 ≤ x) (h2 : x < res.clusters.length) (hq : (kOf ar res.clusters x).parent = some q) :
    CCmp.eq (V0 x).propLowest ar.dmax = false ∧ CCmp.lt (V0 x).propLowest (V0 q).propLowest = false := by
  obtain ⟨htree, _, _⟩ := obs_tree h.toBase
  obtain ⟨hr, ht, hout⟩ := tree_of (ar := ar) htree
  have hout' : ∀ l, res.clusters.length ≤ l ∨ l = 0 → (kOf ar res.clusters l).parent = none := by
    rintro l (hl | hl)
    · exact hout l hl
    · subst hl; simp [kOf, htree.zero, Cl.init]
  have hd : ∀ l, 1 ≤ l → l < res.clusters.length → (kOf ar res.clusters l).death < ar.dmax := by
    intro l h1 h2
    obtain ⟨s, g, d1, _⟩ := death_at h.toBase (hr.at' l h1 h2)
    obtain ⟨i, hi, he⟩ := weight_mem h d1
    rw [← he]; exact hmax i hi
  have hup := ht.up x q h1 h2 hq
  obtain ⟨⟨t, t1, t2, t3, t4, t5⟩, _⟩ := low_spec ht hout' hv0 hd _ x (Nat.le_refl _) h1 h2 (.inl (by omega))
  obtain ⟨_, b⟩ := low_spec ht hout' hv0 hd _ q (Nat.le_refl _) hup.1 (by omega) (.inr ⟨x, hq⟩)
  have ht1 : 1 ≤ t := by
    rcases reflTransGen_iff_eq_or_transGen.1 t4 with h | h
    · omega
    · obtain ⟨b, hb, _⟩ := TransGen.head'_iff.1 h
      by_contra h0
      have := hout' t (.inr (by omega))
      rw [hb] at this; simp at this
  have hlt := hd t ht1 t2
  have hle := b t t3 (t4.tail hq)
  rw [t5]
  exact ⟨by simp [hlt.ne], by simp [hle]⟩

/-- The labels for any list of clusters below the root. -/
theorem prominent_any [LinearOrder W] [CCmp S] {ar : Arith W S} {n m : Nat} {res : Result W S} {hist : List (W × (Nat → Nat))}
    {cur : Nat → Nat} {noise : Nat → Option W} {last : Nat → Option Nat} (h : Base ar n m res hist cur noise last) {cs : List (Option (Cl W S))} {V : Nat → Cl W S}
    (hr : Rep cs res.clusters.length V) (hs : Same (kOf ar res.clusters) V) (hund : ∀ y, y ∈ (V 1).desc → TransGen (fun a b => (kOf ar res.clusters a).parent = some b) y 1)
    {order : Nat → List Nat} {sched : List (Nat × Nat) → List (Nat × Nat)} (ho : ∀ N, (order N).Perm (List.range N)) (hsch : ∀ l, (sched l).Perm l) :
    ∃ labels : List Nat, prominent cs res.hierarchy n order sched = .ok labels ∧ labels.length = n ∧
      (∀ p l, l ≠ 0 → labels[p]? = some l → l ∈ (V 1).desc ∧ p < n ∧ lab hist cur (kOf ar res.clusters l).offset p = l) ∧
      ∀ p l, p < n → l ∈ (V 1).desc → lab hist cur (kOf ar res.clusters l).offset p = l → labels[p]? ≠ some 0 := by
  obtain ⟨htree, hfresh, _⟩ := obs_tree h
  obtain ⟨hrr, ht, hout⟩ := tree_of (ar := ar) htree
  have hN := htree.two
  have hsol : ∀ l ∈ (V 1).desc, l ≠ 1 ∧ 1 ≤ l ∧ l < res.clusters.length ∧ res.clusters[l]? = some (some (kOf ar res.clusters l)) := by
    intro l hl
    obtain ⟨q, hq, _⟩ := TransGen.head'_iff.1 (hund l hl)
    have h1 : 1 ≤ l ∧ l < res.clusters.length := by
      by_contra hn
      rcases Nat.eq_zero_or_pos l with h0 | h0
      · subst h0
        have : (kOf ar res.clusters 0).parent = none := by simp [kOf, htree.zero, Cl.init]
        rw [hq] at this; simp at this
      · have := hout l (by omega)
        rw [hq] at this; simp at this
    have := ht.up l q h1.1 h1.2 hq
    exact ⟨by omega, h1.1, h1.2, hrr.at' l h1.1 h1.2⟩
  have hsol' : ∀ l ∈ (V 1).desc, ∃ c : Cl W S, cs[l]? = some (some c) ∧ c.label = l ∧ c.offset = (kOf ar res.clusters l).offset := by
    intro l hl
    obtain ⟨h1, h2, h3, h4⟩ := hsol l hl
    refine ⟨V l, hr.at' l h2 h3, ?_, by rw [hs l]⟩
    rw [hs l]
    exact ht.label l h2 h3
  have hord : ∀ i, i ∈ order (V 1).desc.length ↔ i < (V 1).desc.length := fun i => by rw [(ho _).mem_iff, List.mem_range]
  obtain ⟨mp, em, m1, m2⟩ := group_rep hsol' (order (V 1).desc.length) (fun i hi => (hord i).1 hi) []
  have m1' : ∀ k l, (∃ ls, mp.find? (fun e => e.1 = k) = some (k, ls) ∧ l ∈ ls) ↔ l ∈ (V 1).desc ∧ (kOf ar res.clusters l).offset = k := by
    intro k l
    rw [m1]
    simp only [List.find?_nil, reduceCtorEq, false_and, exists_const, false_or]
    constructor
    · rintro ⟨i, _, h1, h2⟩; exact ⟨List.mem_of_getElem? h1, h2⟩
    · rintro ⟨h1, h2⟩
      obtain ⟨i, hi⟩ := List.mem_iff_getElem?.1 h1
      exact ⟨i, (hord i).2 (List.getElem?_eq_some_iff.1 hi).1, hi, h2⟩
  have m2' : ∀ k, k ∈ mp.map (·.1) ↔ ∃ l ∈ (V 1).desc, (kOf ar res.clusters l).offset = k := by
    intro k
    rw [m2]
    simp only [List.map_nil, List.not_mem_nil, false_or]
    constructor
    · rintro ⟨i, _, l, h1, h2⟩; exact ⟨l, List.mem_of_getElem? h1, h2⟩
    · rintro ⟨l, h1, h2⟩
      obtain ⟨i, hi⟩ := List.mem_iff_getElem?.1 h1
      exact ⟨i, (hord i).2 (List.getElem?_eq_some_iff.1 hi).1, l, hi, h2⟩
  have hsteps : ∀ x, x ∈ sched (labelSteps mp n) ↔ x.1 ∈ mp.map (·.1) ∧ x.2 < n := by
    rintro ⟨k, j⟩
    rw [(hsch _).mem_iff, labelSteps, List.mem_flatMap]
    simp only [List.mem_map, List.mem_range, Prod.mk.injEq]
    constructor
    · rintro ⟨k', hk', j', hj', rfl, rfl⟩; exact ⟨hk', hj'⟩
    · rintro ⟨hk, hj⟩; exact ⟨k, hk, j, hj, rfl, rfl⟩
  obtain ⟨labels, el, hlen, hlab⟩ := labelAll_rep (lines := res.hierarchy) (m := mp) (n := n) (fun k j => lab hist cur k j)
    (by
      intro k hk
      obtain ⟨l, hl, hof⟩ := (m2' k).1 hk
      obtain ⟨h1, h2, h3, h4⟩ := hsol l hl
      obtain ⟨q, s', w, g, b1, b2, b3, b4, b5, b6, b7, _⟩ := h.birth h1 h4
      rw [← hof, b6]
      exact find_line h b7)
    (sched (labelSteps mp n)) (fun x hxm => (hsteps x).1 hxm) (List.replicate n 0) (by simp)
  refine ⟨labels, ?_, hlen, fun p l hl0 hp => ?_, fun p l hpn hl hbl => ?_⟩
  · simp only [prominent, getCl_ok (hr.at' 1 (by omega) (by omega)), Outcome.ok_bind, em, el]
  · have hpn : p < n := by rw [← hlen]; exact (List.getElem?_eq_some_iff.1 hp).1
    rcases hlab p hpn with ⟨k, ls, a1, a2, a3, a4⟩ | ⟨_, a2⟩
    · rw [hp] at a4
      simp only [Option.some.injEq] at a4
      obtain ⟨q1, q2⟩ := (m1' k _).1 ⟨ls, a2, a3⟩
      rw [← a4] at q1 q2
      exact ⟨q1, hpn, by rw [q2]; exact a4.symm⟩
    · rw [hp] at a2
      simp only [List.getElem?_replicate, hpn, if_true, Option.some.injEq] at a2
      exact absurd a2 hl0
  · obtain ⟨ls, q1, q2⟩ := (m1' _ l).2 ⟨hl, rfl⟩
    rcases hlab p hpn with ⟨k, ls', a1, a2, a3, a4⟩ | ⟨a1, _⟩
    · obtain ⟨r1, r2⟩ := (m1' k _).1 ⟨ls', a2, a3⟩
      have := (hsol _ r1).2.1
      rw [a4]
      simp only [ne_eq, Option.some.injEq]
      omega
    · exact absurd (by rw [hbl]; exact q2) (a1 (kOf ar res.clusters l).offset ls ((hsteps _).2 ⟨(m2' _).2 ⟨l, hl, rfl⟩, hpn⟩) q1)

end Verif.Sel
