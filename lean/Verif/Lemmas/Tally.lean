import Verif.Lemmas.ArithMap
import Verif.Lemmas.Stability
import Mathlib.Algebra.Order.Group.Multiset
import Mathlib.Algebra.BigOperators.Group.Finset.Basic
/-
Helper lemmas: which terms the stability of a cluster is added up from, whatever the arithmetic.
-/
namespace Verif.Hier
open Spec
variable {W S : Type}

/-- One call of `cluster_detach_points`: the number of points, the level, the birth level. -/
abbrev Event (W : Type) := Nat × W × Option W

/-- The stabilities are lists of the calls that changed them; no call is for no points. -/
def traceArith (z d : W) : Arith W {es : List (Event W) // ∀ e ∈ es, e.1 ≠ 0} where
  zeroW := z
  dmax := d
  zeroS := ⟨[], by simp⟩
  add x y := ⟨x.1 ++ y.1, fun e he => (List.mem_append.1 he).elim (x.2 e) (y.2 e)⟩
  term k w b := if hk : k = 0 then ⟨[], by simp⟩ else ⟨[(k, w, b)], fun e he => by rw [List.mem_singleton.1 he]; exact hk⟩

/-- The stabilities are the points that left. -/
def tallyArith (z d : W) : Arith W (Multiset (W × Option W)) where
  zeroW := z
  dmax := d
  zeroS := 0
  add := (· + ·)
  term k w b := Multiset.replicate k (w, b)

/-- The stability that the calls lead to. -/
def total (ar : Arith W S) (es : List (Event W)) : S := es.foldl (fun s e => ar.add s (ar.term e.1 e.2.1 e.2.2)) ar.zeroS

theorem total_snoc (ar : Arith W S) (es : List (Event W)) (k : Nat) (w : W) (b : Option W) : total ar (es ++ [(k, w, b)]) = ar.add (total ar es) (ar.term k w b) := by
  simp [total]

theorem total_hom (ar : Arith W S) : Hom (traceArith ar.zeroW ar.dmax) ar (fun es => total ar es.1) :=
  ⟨rfl, rfl, rfl, fun s k w b hk => by simp only [traceArith, dif_neg hk]; exact (total_snoc ar s.1 k w b).symm⟩

theorem tally_additive (z d : W) : Additive (tallyArith z d) :=
  ⟨fun a b c => add_assoc a b c, fun a => add_zero a, fun w b => by simp [tallyArith], fun j k w b => by simp [tallyArith, Multiset.replicate_add]⟩

theorem cnt_tally {α : Type} (n : Nat) (P : Nat → Prop) [DecidablePred P] (x : α) :
    Multiset.replicate (cnt n P) x = ∑ p ∈ Finset.range n, if P p then {x} else 0 := by
  unfold cnt
  induction n with
  | zero => simp
  | succ n ih =>
    rw [List.range_succ, List.countP_append, Finset.sum_range_succ, Multiset.replicate_add, ih]
    congr 1
    by_cases hp : P n <;> simp [hp]

/-- The weight of step `s`. -/
def weightAt (d : W) (hist : List (W × (Nat → Nat))) (s : Nat) : W := ((hist[s]?).map (·.1)).getD d

theorem weightAt_get {d : W} {hist : List (W × (Nat → Nat))} {s : Nat} {w : W} {f : Nat → Nat} (h : hist[s]? = some (w, f)) : weightAt d hist s = w := by
  simp [weightAt, h]

section
variable [LinearOrder W] {z d : W} {n : Nat} {hist : List (W × (Nat → Nat))} {cur : Nat → Nat}

theorem tally_sum (l : Nat) (b : W) (N : Nat) (hN : N ≤ hist.length) :
    stabSum (tallyArith z d) n hist cur l (some b) N = ∑ s ∈ Finset.range N, ∑ p ∈ Finset.range n,
      if lab hist cur s p = l ∧ lab hist cur (s + 1) p ≠ l then {(weightAt b hist s, some b)} else 0 := by
  induction N with
  | zero => simp [stabSum, tallyArith]
  | succ N ih =>
    rw [stabSum_succ, ih (by omega), Finset.sum_range_succ]
    have hg : hist[N]? = some hist[N] := List.getElem?_eq_getElem (by omega)
    have : stepTerm (tallyArith z d) n hist cur l (some b) N = ∑ p ∈ Finset.range n,
        if lab hist cur N p = l ∧ lab hist cur (N + 1) p ≠ l then {(weightAt b hist N, some b)} else 0 := by
      have hw : weightAt b hist N = hist[N].1 := weightAt_get hg
      have hl : lab hist cur N = hist[N].2 := lab_get hg
      rw [stepTerm, hg]
      simp only [tallyArith]
      rw [cnt_tally, hw, hl]
    rw [this]
    rfl

theorem sum_filter_multiset {α : Type} (F : Nat → α) (P : Nat → Prop) [DecidablePred P] (N : Nat) :
    (∑ p ∈ Finset.range N, if P p then ({F p} : Multiset α) else 0) = (((List.range N).filter (fun p => decide (P p))).map F : List α) := by
  induction N with
  | zero => simp
  | succ N ih =>
    rw [Finset.sum_range_succ, ih, List.range_succ, List.filter_append, List.map_append, ← Multiset.coe_add]
    congr 1
    by_cases hP : P N <;> simp [hP]
end

/-- The stability of a cluster is added up from terms for the points that ever carry its label, whatever the arithmetic. -/
theorem terms_base [LinearOrder W] (ar : Arith W S) (g : Graph W) (minPoints : Nat) {res1 : Result W (Multiset (W × Option W))} {hist : List (W × (Nat → Nat))} {cur : Nat → Nat} {noise : Nat → Option W} {last : Nat → Option Nat}
    (e1 : compute (tallyArith ar.zeroW ar.dmax) minPoints false g = .ok res1) (h : Base (tallyArith ar.zeroW ar.dmax) g.numVertices minPoints res1 hist cur noise last)
    (hline : ∀ x ∈ hist, x.1 ∈ g.wt) :
    ∃ res : Result W S, compute ar minPoints false g = .ok res ∧
      ∀ (l : Nat) (c : Cl W S), res.clusters[l]? = some (some c) → l ≠ 1 →
        ∃ (b : W) (members : List Nat) (leave : Nat → W) (es : List (Event W)), c.birth = some b ∧ b ∈ g.wt ∧ members ≠ [] ∧ members.Nodup ∧
          (∀ p, p ∈ members ↔ ∃ i, Carries res.hierarchy i p l) ∧
          (∀ p ∈ members, LeavesAt res.hierarchy l p (leave p) ∧ leave p < b ∧ leave p ∈ g.wt ∧ p < g.numVertices) ∧
          c.stability = total ar es ∧ (∀ e ∈ es, e.1 ≠ 0) ∧ total (tallyArith ar.zeroW ar.dmax) es = (members.map (fun p => (leave p, some b)) : List (W × Option W)) := by
  have hA := map_compute (total_hom ar) minPoints false g
  have hT := map_compute (total_hom (tallyArith ar.zeroW ar.dmax)) minPoints false g
  rw [e1] at hT
  change .ok res1 = over _ (compute (traceArith ar.zeroW ar.dmax) minPoints false g) at hT
  obtain ⟨res0, e0, e2⟩ : ∃ res0, compute (traceArith ar.zeroW ar.dmax) minPoints false g = .ok res0 ∧ res1 = mapResult (fun es => total (tallyArith ar.zeroW ar.dmax) es.1) res0 := by
    cases hc : compute (traceArith ar.zeroW ar.dmax) minPoints false g with
    | ok r => rw [hc] at hT; exact ⟨r, rfl, Outcome.ok.inj hT⟩
    | ub w => rw [hc] at hT; exact absurd hT (by simp [over])
    | abort w => rw [hc] at hT; exact absurd hT (by simp [over])
    | diverge => rw [hc] at hT; exact absurd hT (by simp [over])
  rw [e0] at hA
  refine ⟨_, hA, fun l c hc hl => ?_⟩
  have hc' : ((res0.clusters[l]?).map (Option.map (mapCl (fun es => total ar es.1)))) = some (some c) := by rw [← hc]; simp [mapResult, mapCls]
  obtain ⟨c0, hc0, rfl⟩ : ∃ c0, res0.clusters[l]? = some (some c0) ∧ mapCl (fun es => total ar es.1) c0 = c := by
    cases hx : res0.clusters[l]? with
    | none => rw [hx] at hc'; simp at hc'
    | some x =>
      cases x with
      | none => rw [hx] at hc'; simp at hc'
      | some c0 => rw [hx] at hc'; exact ⟨c0, rfl, by simpa using hc'⟩
  have hc1 : res1.clusters[l]? = some (some (mapCl (fun es => total (tallyArith ar.zeroW ar.dmax) es.1) c0)) := by
    rw [e2]; simp [mapResult, mapCls, hc0]
  have hhier : ∀ x : Result W S, x = mapResult (fun es => total ar es.1) res0 → x.hierarchy = res1.hierarchy := by
    rintro _ rfl; rw [e2]; rfl
  rw [hhier _ rfl]
  obtain ⟨hl1, hl2, hi⟩ := h.bk.get hc1
  obtain ⟨q, s0, b, f0, b1, b2, b3, b4, b5, b6, b7, b8, b9, ⟨p0, b10, b10'⟩, b11⟩ := h.birth hl hc1
  have hback : ∀ s p, p < g.numVertices → lab hist cur s p = l → lab hist cur (s0 + 1) p = l := by
    intro s p hp hlab
    refine h.bk.back hp ?_ (by omega) ⟨p0, b10, b10'⟩ hlab
    by_contra hne
    exact b11 s (by omega) p hp hlab
  let mem : List Nat := (List.range g.numVertices).filter (fun p => decide (lab hist cur (s0 + 1) p = l))
  have hmem : ∀ p, p ∈ mem ↔ p < g.numVertices ∧ lab hist cur (s0 + 1) p = l := by
    intro p
    simp [mem]
  have hlv : ∀ p, ∃ s, p ∈ mem → s0 + 1 ≤ s ∧ s < hist.length ∧ lab hist cur s p = l ∧ (∀ t, s < t → lab hist cur t p ≠ l) ∧
      ∀ t, (lab hist cur t p = l ∧ lab hist cur (t + 1) p ≠ l) ↔ t = s := by
    intro p
    by_cases hp : p ∈ mem
    · obtain ⟨s, hs⟩ := h.leaves (by omega) ((hmem p).1 hp).1 ((hmem p).1 hp).2
      exact ⟨s, fun _ => hs⟩
    · exact ⟨0, fun h => absurd h hp⟩
  choose T hT' using hlv
  have hwAt : ∀ s, s < hist.length → ∃ g', hist[s]? = some (weightAt b hist s, g') := by
    intro s hs
    refine ⟨hist[s].2, ?_⟩
    simp [weightAt, hs]
  have hin : ∀ s, s < hist.length → weightAt b hist s ∈ g.wt := by
    intro s hs
    obtain ⟨g', hg'⟩ := hwAt s hs
    exact hline _ (List.mem_of_getElem? hg')
  have hbw : b = weightAt b hist s0 := (weightAt_get b1).symm
  have htally : total (tallyArith ar.zeroW ar.dmax) c0.stability.1 = (mem.map (fun p => (weightAt b hist (T p), some b)) : List (W × Option W)) := by
    have : (mapCl (fun es => total (tallyArith ar.zeroW ar.dmax) es.1) c0).stability = total (tallyArith ar.zeroW ar.dmax) c0.stability.1 := rfl
    rw [← this, hi.stab hl (tally_additive _ _), b5, tally_sum l b hist.length (Nat.le_refl _), Finset.sum_comm]
    have h1 : ∀ p ∈ Finset.range g.numVertices, (∑ s ∈ Finset.range hist.length,
        if lab hist cur s p = l ∧ lab hist cur (s + 1) p ≠ l then ({(weightAt b hist s, some b)} : Multiset (W × Option W)) else 0) =
        if lab hist cur (s0 + 1) p = l then {(weightAt b hist (T p), some b)} else 0 := by
      intro p hp
      rw [Finset.mem_range] at hp
      by_cases hpm : lab hist cur (s0 + 1) p = l
      · rw [if_pos hpm]
        obtain ⟨_, k2, _, _, k5⟩ := hT' p ((hmem p).2 ⟨hp, hpm⟩)
        rw [Finset.sum_eq_single (T p)]
        · rw [if_pos ((k5 (T p)).2 rfl)]
        · intro t _ hne
          rw [if_neg (fun hx => hne ((k5 t).1 hx))]
        · intro hx
          exact absurd (Finset.mem_range.2 k2) hx
      · rw [if_neg hpm]
        apply Finset.sum_eq_zero
        intro t _
        rw [if_neg (fun hx => hpm (hback t p hp hx.1))]
    rw [Finset.sum_congr rfl h1]
    exact sum_filter_multiset (fun p => (weightAt b hist (T p), some b)) _ _
  refine ⟨b, mem, fun p => weightAt b hist (T p), c0.stability.1, b5, ?_, List.ne_nil_of_mem ((hmem p0).2 ⟨b10, b10'⟩), List.nodup_range.filter _, ?_, ?_, rfl, c0.stability.2, htally⟩
  · rw [hbw]; exact hin s0 (by omega)
  · intro p
    rw [hmem]
    constructor
    · rintro ⟨hp, hlab⟩
      exact ⟨s0 + 2, (h.carries (by omega)).2 ⟨by omega, hp, by simpa using hlab⟩⟩
    · rintro ⟨i, hci⟩
      rcases Nat.eq_zero_or_pos i with hi0 | hi0
      · subst hi0
        have := (h.carries_zero.1 hci).2
        omega
      · obtain ⟨_, hp, hlab⟩ := (h.carries hi0).1 hci
        exact ⟨hp, hback _ p hp hlab⟩
  · intro p hp
    obtain ⟨k1, k2, k3, k4, _⟩ := hT' p hp
    have hpn := ((hmem p).1 hp).1
    obtain ⟨g', hg'⟩ := hwAt _ k2
    refine ⟨⟨T p + 1, by omega, (h.carries (by omega)).2 ⟨by omega, hpn, by simpa using k3⟩, h.hasWeight hg', ?_⟩, ?_, hin _ k2, hpn⟩
    · intro j hj hcj
      obtain ⟨_, _, hlab⟩ := (h.carries (by omega)).1 hcj
      exact k4 (j - 1) (by omega) hlab
    · have h2 := h.ord
      rw [List.pairwise_iff_getElem] at h2
      have h3 := h2 s0 (T p) (by simp; omega) (by simpa using k2) (by omega)
      have hs0l := lt_of_get b1
      have e1 : weightAt b hist s0 = hist[s0].1 := by simp [weightAt, hs0l]
      have e2 : weightAt b hist (T p) = hist[T p].1 := by simp [weightAt, k2]
      simp only [List.getElem_map] at h3
      show weightAt b hist (T p) < b
      rw [e2]
      calc hist[T p].1 < hist[s0].1 := h3
        _ = b := by rw [← e1]; exact hbw.symm

/-- The same for admissible inputs. -/
theorem terms [LinearOrder W] (ar : Arith W S) (g : Graph W) (minPoints : Nat) (hm : 1 ≤ minPoints)
    (hn : g.numVertices < 2 ^ 32) (hg : TreeInput g.numVertices g.va g.vb g.wt g.edges) :
    ∃ res : Result W S, compute ar minPoints false g = .ok res ∧
      ∀ (l : Nat) (c : Cl W S), res.clusters[l]? = some (some c) → l ≠ 1 →
        ∃ (b : W) (members : List Nat) (leave : Nat → W) (es : List (Event W)), c.birth = some b ∧ b ∈ g.wt ∧ members ≠ [] ∧ members.Nodup ∧
          (∀ p, p ∈ members ↔ ∃ i, Carries res.hierarchy i p l) ∧
          (∀ p ∈ members, LeavesAt res.hierarchy l p (leave p) ∧ leave p < b ∧ leave p ∈ g.wt ∧ p < g.numVertices) ∧
          c.stability = total ar es ∧ (∀ e ∈ es, e.1 ≠ 0) ∧ total (tallyArith ar.zeroW ar.dmax) es = (members.map (fun p => (leave p, some b)) : List (W × Option W)) := by
  obtain ⟨f, hr, ec, hd, hs, htr⟩ := input_rep hg
  obtain ⟨res1, hist, cur, noise, last, e1, h⟩ := obs (tallyArith ar.zeroW ar.dmax) hr hg.nonempty ec rfl hn hm hd hs
  refine terms_base ar g minPoints e1 h.toBase fun x hx => ?_
  obtain ⟨k, hk⟩ := h.line _ hx
  obtain ⟨j, hj, hjw⟩ := hk.at'
  rw [← hjw, hr.wt]
  exact List.mem_map.2 ⟨j, List.mem_range.2 hj, rfl⟩

end Verif.Hier
