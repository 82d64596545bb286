import Verif.Lemmas.AgainRun
import Verif.Props.StabAny
import Verif.Props.ScoreRun
/-
C110: selecting the clusters again, `hdbscan_propagate_tree` and `hdbscan_find_prominent_clusters` called after a run.
-/
namespace Verif.Props
open Verif Verif.Spec Verif.Sel Verif.Hier Relation
variable {D W S T : Type}

theorem same_but_sums [CCmp W] [CCmp S] {K V0 V : Nat → Cl W S} {N : Nat} {cs cs' : List (Option (Cl W S))} (hr : Rep cs N V0) (hr' : Rep cs' N V) (h0 : Same K V0) (h : AInv K V0 V) :
    SameButSums cs cs' := by
  unfold SameButSums
  apply List.ext_getElem?
  intro l
  rw [List.getElem?_map, List.getElem?_map]
  rcases Nat.eq_zero_or_pos l with hl | hl
  · subst hl; rw [hr.zero, hr'.zero]
  · by_cases hN : l < N
    · rw [hr.at' l hl hN, hr'.at' l hl hN]
      simp only [Option.map_some, Option.some.injEq]
      have a := h.stat l
      have b := h0 l
      have c := h.low l
      rw [a, b]
      simp only [withoutSums, c]
    · rw [List.getElem?_eq_none (by rw [hr'.len]; omega), List.getElem?_eq_none (by rw [hr.len]; omega)]

/-- Scores depend on the clusters through the lowest death levels only. -/
theorem scores_congr [CCmp W] [CCmp T] {qsort : (OScore W T → OScore W T → Int) → List (OScore W T) → List (OScore W T)} {zeroW : W} {ops : Outlier.Ops W T} {order : List Nat}
    {cs cs' : List (Option (Cl W S))} {noise : List (Option W)} {last : List (Option Nat)} {core : List (Option W)} {n : Nat} (h : SameButSums cs cs') :
    Outlier.scores qsort zeroW ops order cs' noise last core n = Outlier.scores qsort zeroW ops order cs noise last core n := by
  have hget : ∀ l, (getCl cs' l >>= fun c => (.ok c.propLowest : Outcome W)) = (getCl cs l >>= fun c => .ok c.propLowest) := by
    intro l
    have := congrArg (fun x : List (Option (Cl W S)) => x[l]?) h
    simp only [List.getElem?_map] at this
    unfold getCl rd
    cases h1 : cs'[l]? with
    | none => cases h2 : cs[l]? with
      | none => rfl
      | some b => rw [h1, h2] at this; cases this
    | some a => cases h2 : cs[l]? with
      | none => rw [h1, h2] at this; cases this
      | some b =>
        rw [h1, h2] at this
        cases a with
        | none => cases b with
          | none => rfl
          | some b => cases this
        | some a => cases b with
          | none => cases this
          | some b =>
            simp only [Option.map_some, Option.some.injEq] at this
            have := congrArg (·.propLowest) this
            simp only [withoutSums] at this
            simp [this]
  have hs : ∀ i, Outlier.scoreOf zeroW ops cs' noise last i = Outlier.scoreOf zeroW ops cs noise last i := by
    intro i
    unfold Outlier.scoreOf
    cases rdInit last i with
    | ok l =>
      simp only [Outcome.ok_bind]
      have := hget l
      cases h1 : getCl cs' l <;> cases h2 : getCl cs l <;> rw [h1, h2] at this
      case ok.ok a b =>
        simp only [Outcome.ok_bind] at this ⊢
        rw [Outcome.ok.inj this]
      all_goals first | rfl | (cases this; done) | (cases this; rfl)
    | ub => rfl
    | abort => rfl
    | diverge => rfl
  have hf : ∀ (order : List Nat) a, Outlier.fill zeroW ops cs' noise last core order a = Outlier.fill zeroW ops cs noise last core order a := by
    intro order
    induction order with
    | nil => intro a; rfl
    | cons i r ih => intro a; simp only [Outlier.fill, hs, ih]
  unfold Outlier.scores
  rw [hf]

/-- **C110, what holds for all sums**. After a run on supported data the two functions can be called any number of times, with any schedules. Nothing changes but the labels and the sums that the
    clusters keep of what was selected below them; in particular the tree, the stabilities and the lowest death levels stay, and computing the outlier scores again would give the same scores. Every label is
    still that of a cluster of which the point was a member when it was born. No point of a cluster becomes noise. -/
theorem C110_calls_partial [LinearOrder W] [CCmp S] [LinearOrder T] (env : Api.Env D W S T) (hq : SortsAscending env.qsort) (data : List D) (rows cols : Nat) (f : Nat → Nat → W)
    (h : Supported env data rows cols f) (h5 : 5 ≤ rows) (m : Nat) (hm : 2 ≤ m) (hmr : m ≤ rows) :
    ∃ obj : Api.Obj W S T, (∀ par, Complete rows rows par → Api.fresh env par m data rows cols true = .ok obj) ∧
      ∀ calls : List Run.Schedule, (∀ sch ∈ calls, sch.Complete) → ∃ (cs : List (Option (Cl W S))) (labels : List Nat),
        Api.agains env calls obj = .ok { obj with results := { obj.results with clusters := cs, labels := labels } } ∧
        SameButSums obj.results.clusters cs ∧
        (∀ order : List Nat, order.Perm (List.range rows) → Outlier.scores env.qsort env.ar.zeroW env.oops order cs obj.results.noise obj.results.last obj.dis.coreDistances rows = .ok obj.results.outliers) ∧
        labels.length = rows ∧
        (∀ p l, l ≠ 0 → labels[p]? = some l → MemberAtBirth obj.results.hierarchy l p) ∧
        ∀ p : Nat, labels[p]? = some 0 → obj.results.labels[p]? = some 0 := by
  obtain ⟨obj, M, e, res, hist, cur, noise, last, V0, hf, hp⟩ := run_parts hq h h5 hm hmr
  obtain ⟨htree, _, _⟩ := obs_tree hp.obs.toBase
  obtain ⟨hr0, ht, hout⟩ := tree_of (ar := env.ar) htree
  refine ⟨obj, hf, fun calls hc => ?_⟩
  obtain ⟨V, cs, labels, e1, j1, j2, j3⟩ := agains_run hp (J := AInv (kOf env.ar res.clusters) V0) (fun _ h => h)
    (fun x V h1 h2 hV => hV.step ht (fun x q h1 h2 hq => (obs_low hp.obs hp.wt hp.inv h1 h2 hq).1) (fun x q h1 h2 hq => (obs_low hp.obs hp.wt hp.inv h1 h2 hq).2) h1 h2)
    calls hc V0 obj.results.clusters obj.results.labels (AInv.start ht hp.inv) hp.rep hp.labelled
  have hs : SameButSums obj.results.clusters cs := same_but_sums hp.rep j2 hp.inv.stat j1
  refine ⟨cs, labels, e1, hs, fun order ho => (scores_congr hs).trans (hp.scores order ho), j3.len, fun p l hl hpl => ?_, fun p hp0 => ?_⟩
  · obtain ⟨a1, a2, a3⟩ := j3.from_ p l hl hpl
    obtain ⟨q, hq, _⟩ := TransGen.head'_iff.1 (j1.und 1 l a1)
    obtain ⟨c, hc, hcq⟩ := (child_iff (ar := env.ar)).2 hq
    have hup := htree.up l q ⟨c, hc, hcq⟩
    rw [hp.lines]
    exact (birth_member hp.obs.toBase (by omega) hc p).1 ⟨a2, by rw [← kOf_eq (ar := env.ar) hc]; exact a3⟩
  · have hpn : p < rows := by rw [← j3.len]; exact (List.getElem?_eq_some_iff.1 hp0).1
    obtain ⟨x, hx⟩ : ∃ x, obj.results.labels[p]? = some x := ⟨_, List.getElem?_eq_getElem (by rw [hp.len]; exact hpn)⟩
    rw [hx]
    by_contra hne
    have hx0 : x ≠ 0 := fun h => hne (by rw [h])
    obtain ⟨a1, a2, a3⟩ := (hp.labels p x hx0).1 hx
    exact j3.some_ p x hpn ((j1.pre 1).subset a1) a3 hp0

/-- **C110, with sums that never fall** (such as sums of stabilities that are not negative): the later labels refine those of the run. The same points are noise, and a point keeps its cluster or moves to a
    cluster below it. If no cluster below the root that was selected has a cluster below it, the labels stay the same. -/
theorem C110_refines_partial [LinearOrder W] [CCmp S] [LinearOrder T] (env : Api.Env D W S T) (hq : SortsAscending env.qsort) (data : List D) (rows cols : Nat) (f : Nat → Nat → W)
    (h : Supported env data rows cols f) (h5 : 5 ≤ rows) (m : Nat) (hm : 2 ≤ m) (hmr : m ≤ rows) (P : S → Prop) (hg : Grows env.ar P) :
    ∃ obj : Api.Obj W S T, (∀ par, Complete rows rows par → Api.fresh env par m data rows cols true = .ok obj) ∧
      ((∀ (l : Nat) (c : Cl W S), obj.results.clusters[l]? = some (some c) → l ≠ 1 → P c.stability) →
      ∀ calls : List Run.Schedule, (∀ sch ∈ calls, sch.Complete) → ∃ obj' : Api.Obj W S T, Api.agains env calls obj = .ok obj' ∧ obj'.results.labels.length = rows ∧
        (∀ p l l' : Nat, obj.results.labels[p]? = some l → obj'.results.labels[p]? = some l' → (l' = 0 ↔ l = 0) ∧ (l ≠ 0 → AtOrAbove obj.results.clusters l l')) ∧
        ((∀ l ∈ obj.results.labels, l ≠ 0 → Leaf obj.results.clusters l) → obj'.results.labels = obj.results.labels)) := by
  obtain ⟨obj, M, e, res, hist, cur, noise, last, V0, hf, hp⟩ := run_parts hq h h5 hm hmr
  obtain ⟨htree, _, hzero⟩ := obs_tree hp.obs.toBase
  obtain ⟨hr0, ht, hout⟩ := tree_of (ar := env.ar) htree
  have hn : ∀ l, (kOf env.ar res.clusters l).ncs = 0 ∧ (kOf env.ar res.clusters l).pncs = 0 := by
    intro l
    by_cases hl : 1 ≤ l ∧ l < res.clusters.length
    · exact hzero l _ (hr0.at' l hl.1 hl.2)
    · unfold kOf
      rcases Nat.eq_zero_or_pos l with h0 | h0
      · subst h0; rw [htree.zero]; exact ⟨rfl, rfl⟩
      · rw [List.getElem?_eq_none (by omega)]; exact ⟨rfl, rfl⟩
  refine ⟨obj, hf, fun hst calls hc => ?_⟩
  have hst' : ∀ l, 2 ≤ l → l < res.clusters.length → P (kOf env.ar res.clusters l).stability := by
    intro l h1 h2
    have := hst l _ (hp.rep.at' l (by omega) h2) (by omega)
    rw [hp.inv.stat l] at this
    exact this
  have hl1 := fun x q h1 h2 hq => (obs_low hp.obs hp.wt hp.inv (x := x) (q := q) h1 h2 hq).1
  have hl2 := fun x q h1 h2 hq => (obs_low hp.obs hp.wt hp.inv (x := x) (q := q) h1 h2 hq).2
  obtain ⟨V, cs, labels, e1, j1, j2, j3⟩ := agains_run hp (J := GInv P res.clusters.length (kOf env.ar res.clusters) V0) (fun _ h => h.toAInv)
    (fun x V h1 h2 hV => hV.step hg ht hp.inv hl1 hl2 (fun l => (hn l).1) hst' h1 h2) calls hc V0 obj.results.clusters obj.results.labels (GInv.start hg ht hp.inv hn hst') hp.rep hp.labelled
  have hchild : ∀ a b, (kOf env.ar res.clusters a).parent = some b → IsChild obj.results.clusters a b := by
    intro a b hab
    obtain ⟨c, hc, hcq⟩ := (child_iff (ar := env.ar)).2 hab
    obtain ⟨a1, a2, _⟩ := hp.obs.bk.get hc
    exact ⟨_, hp.rep.at' a a1 a2, by rw [hp.inv.stat a]; exact hab⟩
  -- a later label lies below the first one
  have key : ∀ p l : Nat, l ≠ 0 → labels[p]? = some l → ∃ z, z ≠ 0 ∧ obj.results.labels[p]? = some z ∧ AtOrAbove obj.results.clusters z l := by
    intro p l hl hpl
    obtain ⟨a1, a2, a3⟩ := j3.from_ p l hl hpl
    obtain ⟨z, z1, z2⟩ := j1.inside 1 l a1
    obtain ⟨q, hq⟩ := hp.sel.notRoot z z1
    have hup := htree.up z q hq
    refine ⟨z, by omega, (hp.labels p z (by omega)).2 ⟨z1, a2, member_up hp.obs.toBase a2 z2 (by omega) (by omega) a3⟩, ?_⟩
    exact ReflTransGen.mono hchild _ _ z2
  have hmain : ∀ p l l' : Nat, obj.results.labels[p]? = some l → labels[p]? = some l' → (l' = 0 ↔ l = 0) ∧ (l ≠ 0 → AtOrAbove obj.results.clusters l l') := by
    refine fun p l l' hl hl' => ⟨⟨fun h0 => ?_, fun h0 => ?_⟩, fun hne => ?_⟩
    · subst h0
      by_contra hne
      obtain ⟨a1, a2, a3⟩ := (hp.labels p l hne).1 hl
      exact j3.some_ p l a2 ((j1.pre 1).subset a1) a3 hl'
    · subst h0
      by_contra hne
      obtain ⟨z, z1, z2, _⟩ := key p l' hne hl'
      rw [hl] at z2
      simp only [Option.some.injEq] at z2
      omega
    · by_cases h0 : l' = 0
      · exfalso
        subst h0
        obtain ⟨a1, a2, a3⟩ := (hp.labels p l hne).1 hl
        exact j3.some_ p l a2 ((j1.pre 1).subset a1) a3 hl'
      · obtain ⟨z, _, z2, z3⟩ := key p l' h0 hl'
        rw [hl] at z2
        simp only [Option.some.injEq] at z2
        rw [z2]; exact z3
  refine ⟨_, e1, j3.len, hmain, fun hleaf => ?_⟩
  apply List.ext_getElem?
  intro p
  by_cases hpn : p < rows
  · obtain ⟨x, hx⟩ : ∃ x, obj.results.labels[p]? = some x := ⟨_, List.getElem?_eq_getElem (by rw [hp.len]; exact hpn)⟩
    obtain ⟨y, hy⟩ : ∃ y, labels[p]? = some y := ⟨_, List.getElem?_eq_getElem (by rw [j3.len]; exact hpn)⟩
    obtain ⟨a1, a2⟩ := hmain p x y hx hy
    show labels[p]? = _
    rw [hx, hy]
    by_cases hx0 : x = 0
    · rw [hx0, a1.2 hx0]
    · rcases ReflTransGen.cases_tail (a2 hx0) with h | ⟨b, _, h⟩
      · rw [h]
      · exact absurd h ((hleaf x (List.mem_of_getElem? hx) hx0).2 b)
  · show labels[p]? = _
    rw [List.getElem?_eq_none (by rw [j3.len]; omega), List.getElem?_eq_none (by rw [hp.len]; omega)]

open Binary64 in
/-- Sums of `double`s that are not negative never fall, with rounding and overflow. -/
theorem num_grows : Grows numArith (fun s => PosInf s ∨ NonNeg s) where
  zero := .inr ⟨_, of_zero_fin, le_refl _⟩
  add a b := by
    rintro (rfl | ha) hb
    · exact .inl (pinf_add hb)
    · rcases hb with rfl | hb
      · exact .inl (add_pinf ha)
      · exact (num_infinities.fin_fin a b ha hb).symm
  more a b s := by
    have hinf : ∀ s : Dbl, (PosInf s ∨ NonNeg s) → CCmp.le (.num .pinf : Dbl) s = false → ∀ a : Dbl, PosInf a → CCmp.le a s = false := by
      rintro s _ h a rfl; exact h
    have htop : ∀ s : Dbl, NonNeg s → CCmp.le (.num .pinf : Dbl) s = false := fun s h => num_infinities.le _ _ rfl h
    rintro (rfl | ha) hb hs hle
    · show CCmp.le (Fp.add (.num .pinf : Dbl) b) s = false
      rw [pinf_add hb]; exact hle
    · obtain ⟨x, rfl, hx⟩ := ha
      have hs' : NonNeg s := by
        rcases hs with rfl | hs
        · exfalso
          have : CCmp.le (Fp.fin x : Dbl) (.num .pinf) = true := decide_eq_true (num_le_pinf (.fin x))
          rw [this] at hle; cases hle
        · exact hs
      rcases hb with rfl | ⟨y, rfl, hy⟩
      · show CCmp.le (Fp.add (Fp.fin x) (.num .pinf : Dbl)) s = false
        rw [add_pinf ⟨x, rfl, hx⟩]; exact htop s hs'
      · show CCmp.le (Fp.of (x.1 + y.1) : Dbl) s = false
        rcases of_cases (x.1 + y.1) with ⟨g, e⟩ | ⟨g, e⟩
        · rw [e]
          obtain ⟨z, rfl, hz⟩ := hs'
          have h1 : ¬ (Num754.fin x ≤ Num754.fin z) := of_decide_eq_false hle
          rw [num_fin_le] at h1
          refine decide_eq_false (p := Num754.fin _ ≤ Num754.fin z) ?_
          rw [num_fin_le, not_le]
          refine (not_le.1 h1).trans_le ?_
          show x.1 ≤ fl (x.1 + y.1)
          have := fl_mono (show x.1 ≤ x.1 + y.1 by linarith)
          rwa [fl_double x.2.1] at this
        · rw [e, decide_eq_false (not_lt.2 (add_nonneg hx hy))]
          exact htop s hs'

/-- **C110, for `double` data** whose distances do not overflow: the labels after later calls refine those of the run, and stay the same if no cluster below the root that was selected has a cluster below it. -/
theorem C110_double_partial (qsort : (OScore (Num754 binary64) (Num754 binary64) → OScore (Num754 binary64) (Num754 binary64) → Int) →
      List (OScore (Num754 binary64) (Num754 binary64)) → List (OScore (Num754 binary64) (Num754 binary64))) (hq : SortsAscending qsort)
    (data : List (Fin754 binary64)) (rows cols : Nat) (hr : rows ≤ 65536) (hdata : rows * cols ≤ data.length) (h5 : 5 ≤ rows) (m : Nat) (hm : 2 ≤ m) (hmr : m ≤ rows)
    (hfin : ∀ i j, i < j → j < rows → numOps.sqrt (numSq data cols i j) ≠ .pinf) :
    ∃ obj : Api.Obj (Num754 binary64) Dbl (Num754 binary64), (∀ par, Complete rows rows par → Api.fresh (numEnv qsort) par m data rows cols true = .ok obj) ∧
      ∀ calls : List Run.Schedule, (∀ sch ∈ calls, sch.Complete) → ∃ obj' : Api.Obj (Num754 binary64) Dbl (Num754 binary64), Api.agains (numEnv qsort) calls obj = .ok obj' ∧ obj'.results.labels.length = rows ∧
        (∀ p l l' : Nat, obj.results.labels[p]? = some l → obj'.results.labels[p]? = some l' → (l' = 0 ↔ l = 0) ∧ (l ≠ 0 → AtOrAbove obj.results.clusters l l')) ∧
        ((∀ l ∈ obj.results.labels, l ≠ 0 → Leaf obj.results.clusters l) → obj'.results.labels = obj.results.labels) := by
  obtain ⟨obj, hf, h⟩ := C110_refines_partial (numEnv qsort) hq data rows cols (numSq data cols) (finite_supported qsort data rows cols hr hdata hfin) h5 m hm hmr _ num_grows
  refine ⟨obj, hf, h fun l c hc hl => ?_⟩
  obtain ⟨⟨o2, hf2, hs⟩, _⟩ := C104_stabilities qsort hq data rows cols hr hdata h5 m hm
  obtain rfl : o2 = obj := fresh_same hf2 hf
  obtain ⟨b, members, leave, _, _, _, hleave, h1, h2⟩ := hs.others l c hc hl
  by_cases h0 : ∃ p ∈ members, (leave p).1 = 0
  · exact .inl (h1 h0)
  · obtain ⟨x, e, hx, _⟩ := h2 fun p hp => lt_of_le_of_ne (hleave p hp).1 fun e => h0 ⟨p, hp, e.symm⟩
    exact .inr ⟨x, e, hx⟩

/-! ### Concrete cases -/

/-- Eight values. The run selects clusters with further ones below them. -/
def nestPts : List (Fin754 binary64) := [10, 4, 37, 16, 12, 7, 19, 36].attach.map fun k => whole k.1 ((by decide : ∀ k ∈ [10, 4, 37, 16, 12, 7, 19, 36], k < 2 ^ 33) k.1 k.2)

/-- Nine values. -/
def orderPts : List (Fin754 binary64) := [1, 14, 38, 21, 36, 29, 26, 24, 19].attach.map fun k => whole k.1 ((by decide : ∀ k ∈ [1, 14, 38, 21, 36, 29, 26, 24, 19], k < 2 ^ 33) k.1 k.2)

/-- The loops of the selection in reverse. -/
def revSchedule : Run.Schedule := ⟨fun N => (List.range N).reverse, fun N => (List.range N).reverse, List.reverse⟩

theorem revSchedule_complete : revSchedule.Complete := ⟨fun _ => List.reverse_perm _, fun _ => List.reverse_perm _, fun _ => List.reverse_perm _⟩

/-- The labels after a run and later calls. -/
def labelsAfter (calls : List Run.Schedule) (m : Nat) (data : List (Fin754 binary64)) (n : Nat) : Outcome (List Nat) := do
  let o ← Api.fresh (numEnv isort) (backPar n n) m data n 1 true
  let o ← Api.agains (numEnv isort) calls o
  return o.results.labels

/-- **C110 is violated**: later calls change the labels of `nestPts`, and for `orderPts` the labels then depend on the order in which the loops of the calls examine the clusters. -/
theorem C110_violated : labelsAfter [] 2 nestPts 8 = .ok [2, 2, 3, 2, 2, 2, 2, 3] ∧ labelsAfter [seqSchedule] 2 nestPts 8 = .ok [5, 5, 3, 4, 5, 5, 4, 3] ∧
    labelsAfter [] 2 orderPts 9 = .ok [0, 3, 2, 3, 2, 3, 3, 3, 3] ∧ labelsAfter [seqSchedule] 2 orderPts 9 = .ok [0, 3, 2, 4, 2, 3, 5, 5, 4] ∧
    labelsAfter [revSchedule] 2 orderPts 9 = .ok [0, 3, 2, 3, 2, 3, 3, 3, 3] := by
  refine ⟨?_, ?_, ?_, ?_, ?_⟩ <;> decide +kernel

example : labelsAfter [seqSchedule, revSchedule] 2 nestPts 8 = .ok [5, 5, 3, 4, 5, 5, 4, 3] := by decide +kernel
example : labelsAfter [revSchedule, seqSchedule] 2 spread 7 = .ok [2, 2, 2, 3, 3, 3, 0] ∧ labelsAfter [] 2 spread 7 = .ok [2, 2, 2, 3, 3, 3, 0] := by constructor <;> decide +kernel

theorem nestPts_finite : ∀ i j, i < j → j < 8 → numOps.sqrt (numSq nestPts 1 i j) ≠ .pinf := by
  have : ∀ j : Fin 8, ∀ i : Fin 8, numOps.sqrt (numSq nestPts 1 i j) ≠ .pinf := by decide +kernel
  intro i j h1 h2
  exact this ⟨j, h2⟩ ⟨i, by omega⟩

example := C110_double_partial isort (isort_sorts _) nestPts 8 1 (by decide) (by decide) (by decide) 2 (by decide) (by decide) nestPts_finite
example : ∀ sch ∈ [seqSchedule, revSchedule], sch.Complete := by simp [seqSchedule_complete, revSchedule_complete]
example := C110_refines_partial (numEnv isort) (isort_sorts _) nestPts 8 1 _ (finite_supported isort nestPts 8 1 (by decide) (by decide) nestPts_finite) (by decide) 2 (by decide) (by decide) _ num_grows
example := C110_calls_partial (numEnv isort) (isort_sorts _) nestPts 8 1 _ (finite_supported isort nestPts 8 1 (by decide) (by decide) nestPts_finite) (by decide) 2 (by decide) (by decide)

/-- No cluster of the run on `spread` below the root has clusters below it. -/
example : (match Api.fresh (numEnv isort) (backPar 7 7) 2 spread 7 1 true with
    | .ok o => (o.results.labels, o.results.clusters.map (Option.map (·.parent)))
    | _ => ([], [])) = ([2, 2, 2, 3, 3, 3, 0], [none, some none, some (some 1), some (some 1)]) := by decide +kernel

end Verif.Props
