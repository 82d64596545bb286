import Verif.Lemmas.PropTree
import Verif.Props.Labels
import Verif.Props.Selection
/-
C38: reporting infinite stabilities.
-/
namespace Verif.Props
open Spec Sel
variable {W S : Type}

/-- C38, what `hdbscan_propagate_tree` does report: the return value is true exactly if the stability of some cluster compares equal to `D_MAX`.
    Missing: an infinite stability is `+inf`, which is different from `D_MAX` (`C38_not_reported`), so the claim itself is false. -/
theorem C38_report_partial [CCmp W] [CCmp S] (ar : Arith W S) (smax : S) (cs : List (Option (Cl W S))) (h : ClusterTree cs) (hf : Unpropagated ar cs)
    (order : List Nat) (ho : order.Perm (List.range cs.length)) :
    ∃ s : St W S, propagateTree ar smax order cs = .ok s ∧
      (s.infinite = true ↔ ∃ (l : Nat) (c : Cl W S), cs[l]? = some (some c) ∧ CCmp.eq c.stability smax = true) := by
  obtain ⟨hr, ht, hout⟩ := tree_of (ar := ar) h
  obtain ⟨s, V, e, hx⟩ := propagateTree_rep ht hr (fresh_of hf) hout smax (List.Perm.refl _)
  refine ⟨s, ?_, ?_⟩
  · rw [← e, propagateTree, propagateTree, leaves_schedule (ar := ar) h ho (List.Perm.refl _)]
  · have hN := h.two
    rw [hx.inf, List.any_eq_true]
    constructor
    · rintro ⟨l, hl, hc⟩
      rw [List.mem_range'_1] at hl
      exact ⟨l, _, hr.at' l (by omega) (by omega), hc⟩
    · rintro ⟨l, c, hl, hc⟩
      have hlt := (List.getElem?_eq_some_iff.1 hl).1
      have h0 : l ≠ 0 := by rintro rfl; rw [h.zero] at hl; simp at hl
      refine ⟨l, List.mem_range'_1.2 ⟨by omega, by omega⟩, ?_⟩
      have := hr.at' l (by omega) hlt
      rw [hl] at this
      cases this
      exact hc

/-- C38 is false for every cluster tree: with floating point values, however many stabilities are `+inf`, nothing is reported unless some other
    cluster happens to have the finite stability `D_MAX`. -/
theorem C38_not_reported [CCmp W] (ar : Arith W Fl) (m : Int) (cs : List (Option (Cl W Fl))) (h : ClusterTree cs) (hf : Unpropagated ar cs)
    (order : List Nat) (ho : order.Perm (List.range cs.length)) (hinf : ∀ (l : Nat) (c : Cl W Fl), cs[l]? = some (some c) → c.stability ≠ .fin m) :
    ∃ s : St W Fl, propagateTree ar (.fin m) order cs = .ok s ∧ s.infinite = false := by
  obtain ⟨s, e, hs⟩ := C38_report_partial ar (.fin m) cs h hf order ho
  refine ⟨s, e, Bool.eq_false_iff.2 fun ht => ?_⟩
  obtain ⟨l, c, hl, hc⟩ := hs.1 ht
  refine hinf l c hl ?_
  generalize c.stability = x at hc
  cases x <;> simp [CCmp.eq] at hc ⊢
  exact hc

/-! ### Concrete case: two groups of three identical points -/

/-- Stabilities as floating point values: `k * (1 / 0 - 1 / birth) = +inf`, the root's terms are NaN, all other terms are 1. -/
def dupArith : Arith Int Fl :=
  { zeroW := 0, dmax := 1000, zeroS := .fin 0
    add := fun a b => match a, b with
      | .nan, _ => .nan
      | _, .nan => .nan
      | .pinf, .ninf => .nan
      | .ninf, .pinf => .nan
      | .pinf, _ => .pinf
      | _, .pinf => .pinf
      | .ninf, _ => .ninf
      | _, .ninf => .ninf
      | .fin x, .fin y => .fin (x + y)
    term := fun _ w b => match b with | none => .nan | some _ => if w = 0 then .pinf else .fin 1 }

/-- Six points: three at 0 and three at 5. -/
def dupData : Distance Int :=
  { rows := 6, cols := 1, numNeighbors := 1
    distances := [some 0, some 0, some 5, some 5, some 5, some 0, some 5, some 5, some 5, some 5, some 5, some 5, some 0, some 0, some 0]
    coreDistances := [some 0, some 0, some 0, some 0, some 0, some 0] }

/-- C38 is violated: a run on two groups of identical points finds two clusters of infinite stability and reports none. -/
theorem C38_violated : (Run.doRun dupArith (.fin 1000) seqSchedule 2 dupData 6 >>= fun o => .ok (o.clusters.map (fun c => c.map (·.stability)), o.infinite)) =
    .ok ([none, some .nan, some .pinf, some .pinf], false) := by decide +kernel

/-- A tree with an infinite stability, as the hierarchy construction leaves it for these points. -/
def dupTree : List (Option (Cl Int Fl)) :=
  [none, some { Cl.init dupArith 1 none none 6 with hasChildren := true, stability := .nan },
    some { Cl.init dupArith 2 (some 1) (some 5) 3 with stability := .pinf }, some { Cl.init dupArith 3 (some 1) (some 5) 3 with stability := .pinf }]

theorem dupTree_child (l q : Nat) : IsChild dupTree l q ↔ (l, q) ∈ [(2, 1), (3, 1)] := by
  unfold IsChild
  match l with
  | 0 | 1 => simp [dupTree, Cl.init]
  | 2 | 3 => simp [dupTree, Cl.init, eq_comm]
  | l + 4 => simp [dupTree]

theorem dupTree_tree : ClusterTree dupTree := by
  refine ⟨rfl, by decide, ?_, ?_, ?_, ?_⟩
  · intro l h1 h2
    have h3 : l < 4 := h2
    match l, h1, h3 with
    | 1, _, _ | 2, _, _ | 3, _, _ => exact ⟨_, rfl, rfl⟩
  · intro l c hc
    match l with
    | 0 => simp [dupTree] at hc
    | 1 | 2 | 3 =>
      simp [dupTree] at hc
      subst hc
      simp [Cl.init]
    | l + 4 => simp [dupTree] at hc
  · intro l q h
    rw [dupTree_child] at h
    simp at h
    omega
  · intro l c hc
    simp only [dupTree_child]
    match l with
    | 0 => simp [dupTree] at hc
    | 1 | 2 | 3 =>
      simp [dupTree] at hc
      subst hc
      simp [Cl.init]
    | l + 4 => simp [dupTree] at hc

theorem dupTree_fresh : Unpropagated dupArith dupTree ∧ ∀ (l : Nat) (c : Cl Int Fl), dupTree[l]? = some (some c) → c.stability ≠ .fin 1000 := by
  constructor <;> intro l c hc <;> match l with
    | 0 => simp [dupTree] at hc
    | 1 | 2 | 3 =>
      simp [dupTree] at hc
      subst hc
      simp [Cl.init]
    | l + 4 => simp [dupTree] at hc

example := C38_report_partial treeArith 9 treeEx treeEx_tree treeEx_fresh.1 [5, 0, 3, 1, 2, 4] (by decide)
example := C38_not_reported dupArith 1000 dupTree dupTree_tree dupTree_fresh.1 [3, 1, 0, 2] (by decide) dupTree_fresh.2

end Verif.Props
