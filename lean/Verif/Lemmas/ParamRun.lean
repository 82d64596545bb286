import Verif.Lemmas.Param
import Verif.Model.Api
import Verif.Spec.Outlier
/-
Two runs that see related values, from the data to the outlier scores.
-/
namespace Verif.Param
open Verif
variable {α β γ δ D D' W W' S S' T : Type}

/-! ### Distances from data -/

section
variable {R1 : W → W' → Prop} {ops : DistOps D W} {ops' : DistOps D' W'} {data : List D} {data' : List D'}

/-- The distances of the rows `i` and `j` are related. -/
def SumRel (R1 : W → W' → Prop) (ops : DistOps D W) (ops' : DistOps D' W') (data : List D) (data' : List D') (cols cols' i j : Nat) : Prop :=
  ORel (fun s s' => R1 (ops.sqrt s) (ops'.sqrt s')) (Distance.sumFrom ops data cols i j cols 0 ops.zero) (Distance.sumFrom ops' data' cols' i j cols' 0 ops'.zero)

theorem computeLoop_rel (cols cols' rows : Nat) : ∀ (order : List (Nat × Nat)), (∀ p ∈ order, SumRel R1 ops ops' data data' cols cols' p.1 p.2) → ∀ {m : List (Option W)} {m' : List (Option W')},
    LRel (OptRel R1) m m' → ORel (LRel (OptRel R1)) (Distance.computeLoop ops data cols rows order m) (Distance.computeLoop ops' data' cols' rows order m') := by
  intro order
  induction order with
  | nil => intro _ m m' h; exact .ok h
  | cons p r ih =>
    intro hs m m' h
    obtain ⟨i, j⟩ := p
    unfold Distance.computeLoop Distance.computeCell
    have h1 : ORel (LRel (OptRel R1)) (Distance.sumFrom ops data cols i j cols 0 ops.zero >>= fun sum => wr m (cellSet rows i j) (some (ops.sqrt sum)))
        (Distance.sumFrom ops' data' cols' i j cols' 0 ops'.zero >>= fun sum => wr m' (cellSet rows i j) (some (ops'.sqrt sum))) :=
      ORel.bind (hs (i, j) List.mem_cons_self) fun a b hab => wr_rel h _ (x := some _) (y := some _) hab
    exact ORel.bind h1 fun a b hab => ih (fun p hp => hs p (List.mem_cons_of_mem _ hp)) hab

variable [CCmp W] [CCmp W']

theorem distance_rel (hc : Alike R1) {dmax : W} {dmax' : W'} (hz : R1 ops.zero ops'.zero) (hm : R1 dmax dmax') (order : List (Nat × Nat)) (corder : List Nat) (rows cols cols' nn : Nat)
    (hs : ∀ p ∈ order, SumRel R1 ops ops' data data' cols cols' p.1 p.2) :
    ORel (DRel R1) (Distance.compute ops dmax order corder data rows cols nn) (Distance.compute ops' dmax' order corder data' rows cols' nn) := by
  unfold Distance.compute
  refine ORel.bind (computeLoop_rel cols cols' rows order hs (LRel.replicate _ trivial)) fun m m' h => ?_
  exact getCore_rel hc hz hm corder ⟨rfl, rfl, h, LRel.replicate _ trivial⟩

end

/-! ### Outlier scores -/

/-- Related scores: equal but for the core distances. -/
structure ScRel (R1 : W → W' → Prop) (a : OScore W T) (b : OScore W' T) : Prop where
  score : a.score = b.score
  core : R1 a.core b.core
  id : a.id = b.id

section
variable [CCmp W] [CCmp W'] [CCmp T] {R R1 : W → W' → Prop} {Q : S → S' → Prop} (hc : Alike R1) (hR : ∀ {a b}, R a b → R1 a b)

omit [CCmp T] in
include hc hR in
theorem scoreOf_rel {zeroW : W} {zeroW' : W'} (hz : R zeroW zeroW') {ops : Outlier.Ops W T} {ops' : Outlier.Ops W' T} (h0 : ops.zero = ops'.zero)
    (hr : ∀ {a a' b b'}, R1 a a' → R b b' → CCmp.eq b zeroW = false → ops.ratio a b = ops'.ratio a' b') {cs : List (Option (Cl W S))} {cs' : List (Option (Cl W' S'))} (h : LRel (OptRel (ClRel R R1 Q)) cs cs')
    {noise : List (Option W)} {noise' : List (Option W')} (hn : LRel (OptRel R) noise noise') (last : List (Option Nat)) (i : Nat) :
    ORel Eq (Outlier.scoreOf zeroW ops cs noise last i) (Outlier.scoreOf zeroW' ops' cs' noise' last i) := by
  unfold Outlier.scoreOf
  refine ORel.bind_same _ fun l => ?_
  refine ORel.bind (getCl_rel h _) fun c c' hcc => ?_
  refine ORel.bind (rdInit_rel hn _) fun e e' he => ?_
  refine .ok ?_
  rw [← hc.eq (hR he) (hR hz), h0]
  split
  · rfl
  · exact hr hcc.propLowest he (Bool.eq_false_iff.2 ‹_›)

omit [CCmp T] in
include hc hR in
theorem fill_rel {zeroW : W} {zeroW' : W'} (hz : R zeroW zeroW') {ops : Outlier.Ops W T} {ops' : Outlier.Ops W' T} (h0 : ops.zero = ops'.zero)
    (hr : ∀ {a a' b b'}, R1 a a' → R b b' → CCmp.eq b zeroW = false → ops.ratio a b = ops'.ratio a' b') {cs : List (Option (Cl W S))} {cs' : List (Option (Cl W' S'))} (h : LRel (OptRel (ClRel R R1 Q)) cs cs')
    {noise : List (Option W)} {noise' : List (Option W')} (hn : LRel (OptRel R) noise noise') (last : List (Option Nat)) {core : List (Option W)} {core' : List (Option W')}
    (hco : LRel (OptRel R1) core core') : ∀ (order : List Nat) {a : List (Option (OScore W T))} {a' : List (Option (OScore W' T))}, LRel (OptRel (ScRel R1)) a a' →
    ORel (LRel (OptRel (ScRel R1))) (Outlier.fill zeroW ops cs noise last core order a) (Outlier.fill zeroW' ops' cs' noise' last core' order a') := by
  intro order
  induction order with
  | nil => intro a a' ha; exact .ok ha
  | cons i r ih =>
    intro a a' ha
    unfold Outlier.fill
    refine ORel.bind (scoreOf_rel hc hR hz h0 hr h hn last i) ?_
    rintro s _ rfl
    refine ORel.bind (rdInit_rel hco _) fun x x' hx => ?_
    exact ORel.bind (wr_rel ha i (x := some { score := s, core := x, id := i }) (y := some { score := s, core := x', id := i }) ⟨rfl, hx, rfl⟩) fun a a' ha => ih ha

omit [CCmp W] [CCmp W'] [CCmp T] in
theorem initialised_rel {P : α → β → Prop} : ∀ {a : List (Option α)} {b : List (Option β)}, LRel (OptRel P) a b → ORel (LRel P) (Outlier.initialised a) (Outlier.initialised b) := by
  intro a b h
  induction h with
  | nil => exact .ok .nil
  | @cons x y _ _ h _ ih =>
    cases x <;> cases y
    · exact .ub _
    · exact False.elim h
    · exact False.elim h
    · exact ORel.bind ih fun a b hab => .ok (LRel.cons h hab)

/-- Two sorting functions that return related lists for related lists of scores. -/
def SortRel (n : Nat) (R1 : W → W' → Prop) (q : (OScore W T → OScore W T → Int) → List (OScore W T) → List (OScore W T)) (q' : (OScore W' T → OScore W' T → Int) → List (OScore W' T) → List (OScore W' T)) : Prop :=
  ∀ {xs ys}, LRel (ScRel R1) xs ys → xs.map (fun o => o.id) = List.range n → LRel (ScRel R1) (q outlierCompare xs) (q' outlierCompare ys)

omit [CCmp W'] [CCmp T] in
theorem fill_ids {zeroW : W} {ops : Outlier.Ops W T} {cs : List (Option (Cl W S))} {noise : List (Option W)} {last : List (Option Nat)} {core : List (Option W)} : ∀ {order : List Nat} {a a' : List (Option (OScore W T))},
    Outlier.fill zeroW ops cs noise last core order a = .ok a' → (∀ (i : Nat) (o : OScore W T), a[i]? = some (some o) → o.id = i) → a'.length = a.length ∧ ∀ (i : Nat) (o : OScore W T), a'[i]? = some (some o) → o.id = i := by
  intro order
  induction order with
  | nil => intro a a' h hi; cases h; exact ⟨rfl, hi⟩
  | cons x r ih =>
    intro a a' h hi
    unfold Outlier.fill at h
    obtain ⟨s, _, h⟩ := Outcome.bind_eq_ok.1 h
    obtain ⟨c, _, h⟩ := Outcome.bind_eq_ok.1 h
    obtain ⟨a1, e, h⟩ := Outcome.bind_eq_ok.1 h
    unfold wr at e
    split at e
    · cases e
      obtain ⟨h1, h2⟩ := ih h (by
        intro i o ho
        rw [List.getElem?_set] at ho
        split at ho
        · rename_i hxi
          cases ho
          exact hxi
        · exact hi i o ho)
      exact ⟨by rw [h1, List.length_set], h2⟩
    · cases e

theorem initialised_get {α : Type} : ∀ {a : List (Option α)} {xs : List α}, Outlier.initialised a = .ok xs → a = xs.map some := by
  intro a
  induction a with
  | nil => intro xs h; cases h; rfl
  | cons x r ih =>
    intro xs h
    cases x with
    | none => cases h
    | some x =>
      obtain ⟨ys, e, h⟩ := Outcome.bind_eq_ok.1 h
      cases h
      rw [ih e, List.map_cons]

omit [CCmp W'] [CCmp T] in
theorem scores_ids {zeroW : W} {ops : Outlier.Ops W T} {cs : List (Option (Cl W S))} {noise : List (Option W)} {last : List (Option Nat)} {core : List (Option W)} {order : List Nat} {n : Nat} {xs : List (OScore W T)}
    (h : (Outlier.fill zeroW ops cs noise last core order (List.replicate n none) >>= Outlier.initialised) = .ok xs) : xs.map (fun o => o.id) = List.range n := by
  obtain ⟨a, e, h⟩ := Outcome.bind_eq_ok.1 h
  obtain ⟨h1, h2⟩ := fill_ids e (by
    intro i o ho
    rw [List.getElem?_replicate] at ho
    split at ho <;> cases ho)
  have h3 := initialised_get h
  rw [h3] at h1 h2
  rw [List.length_map, List.length_replicate] at h1
  refine List.ext_getElem? fun i => ?_
  by_cases hi : i < n
  · rw [List.getElem?_map, List.getElem?_range hi, List.getElem?_eq_getElem (by omega : i < xs.length)]
    have := h2 i xs[i] (by rw [List.getElem?_map, List.getElem?_eq_getElem (by omega : i < xs.length)]; rfl)
    rw [Option.map_some, this]
  · rw [List.getElem?_eq_none (by rw [List.length_map]; omega), List.getElem?_eq_none (by rw [List.length_range]; omega)]

/-- Related results of a run; whether an infinite stability was seen is left out. -/
structure FullRel (R R1 : W → W' → Prop) (Q : S → S' → Prop) (o : Run.Full W S T) (o' : Run.Full W' S' T) : Prop where
  out : OutRel R R1 Q o.toOut o'.toOut
  outliers : LRel (ScRel R1) o.outliers o'.outliers

/-- The weights of the sorted spanning tree of the first run have the property `P` (not being `D_MAX`). -/
def Short (P : W → Prop) (ar : Arith W S) (dis : Distance W) (n : Nat) : Prop := ∀ g, (Mst.construct ar.zeroW ar.dmax true dis n >>= Graph.sortByWeight) = .ok g → ∀ w ∈ g.wt, P w

omit [CCmp W] [CCmp W'] in
theorem mem_rel {P : α → β → Prop} {P' : α → β → Prop} {a : List α} {b : List β} (h : LRel P a b) : (∀ x ∈ a, ∀ y, P x y → P' x y) → LRel P' a b := by
  induction h with
  | nil => intro _; exact .nil
  | cons h _ ih => intro hP; exact .cons (hP _ List.mem_cons_self _ h) (ih fun x hx => hP x (List.mem_cons_of_mem _ hx))

theorem tree_rel {P : W → Prop} {ar : Arith W S} {ar' : Arith W' S'} (ha : ArRel R R1 Q ar ar') (hc : Alike R1) (hR : ∀ {a b}, R a b → R1 a b) (ht : ∀ {a b}, R1 a b → P a → R a b)
    {dis : Distance W} {dis' : Distance W'} (hd : DRel R1 dis dis') (n : Nat) (hw : Short P ar dis n) :
    ORel (GRel R) (Mst.construct ar.zeroW ar.dmax true dis n >>= Graph.sortByWeight) (Mst.construct ar'.zeroW ar'.dmax true dis' n >>= Graph.sortByWeight) := by
  have h2 : ORel (GRel R1) (Mst.construct ar.zeroW ar.dmax true dis n >>= Graph.sortByWeight) (Mst.construct ar'.zeroW ar'.dmax true dis' n >>= Graph.sortByWeight) :=
    ORel.bind (construct_rel hc (hR ha.zeroW) ha.dmax true hd n) fun g g' hg => sort_rel hc hg
  unfold Short at hw
  generalize (Mst.construct ar.zeroW ar.dmax true dis n >>= Graph.sortByWeight) = x at h2 hw
  generalize (Mst.construct ar'.zeroW ar'.dmax true dis' n >>= Graph.sortByWeight) = y at h2
  cases h2 with
  | ok h => exact .ok ⟨h.num, h.va, h.vb, h.edges, mem_rel h.wt fun w hx w' hw' => ht hw' (hw _ rfl w hx)⟩
  | ub s => exact .ub s
  | abort s => exact .abort s
  | diverge => exact .diverge

theorem hierarchy_rel {P : W → Prop} {ar : Arith W S} {ar' : Arith W' S'} (ha : ArRel R R1 Q ar ar') (hc : Alike R1) (hR : ∀ {a b}, R a b → R1 a b) (ht : ∀ {a b}, R1 a b → P a → R a b)
    (m : Nat) {dis : Distance W} {dis' : Distance W'} (hd : DRel R1 dis dis') (n : Nat) (hw : Short P ar dis n) :
    ORel (ResRel R R1 Q) (Run.hierarchy ar m dis n) (Run.hierarchy ar' m dis' n) := by
  unfold Run.hierarchy
  have h3 := ORel.bind (tree_rel ha hc hR ht hd n hw) (f := Hier.compute ar m false) (g := Hier.compute ar' m false) fun g g' hg => compute_rel ha hc hR m false hg
  rwa [Outcome.bind_assoc, Outcome.bind_assoc] at h3

theorem out_rel [CCmp S] [CCmp S'] {P : W → Prop} {ar : Arith W S} {ar' : Arith W' S'} (ha : ArRel R R1 Q ar ar') (hc : Alike R1) (hR : ∀ {a b}, R a b → R1 a b) (ht : ∀ {a b}, R1 a b → P a → R a b)
    (hadd : ∀ {a a' b b'}, Q a a' → Q b b' → Q (ar.add a b) (ar'.add a' b')) (hq : ∀ {a a' b b'}, Q a a' → Q b b' → CCmp.le a b = CCmp.le a' b') (smax : S) (smax' : S') (sch : Run.Schedule) (m : Nat) {dis : Distance W} {dis' : Distance W'} (hd : DRel R1 dis dis') (n : Nat)
    (hw : Short P ar dis n) : ORel (OutRel R R1 Q) (Run.doRun ar smax sch m dis n) (Run.doRun ar' smax' sch m dis' n) := by
  unfold Run.doRun
  have h3 := ORel.bind (tree_rel ha hc hR ht hd n hw) (f := Run.fromTree ar smax sch m) (g := Run.fromTree ar' smax' sch m) fun g g' hg => fromTree_rel ha hc hR hadd hq smax smax' sch m hg
  rwa [Outcome.bind_assoc, Outcome.bind_assoc] at h3

variable [CCmp S] [CCmp S']

/-- What two sets of operations must agree on. -/
structure EnvRel (n : Nat) (P : W → Prop) (R R1 : W → W' → Prop) (Q : S → S' → Prop) (env : Api.Env D W S T) (env' : Api.Env D' W' S' T) : Prop where
  ar : ArRel R R1 Q env.ar env'.ar
  alike : Alike R1
  sub : ∀ {a b}, R a b → R1 a b
  top : ∀ {a b}, R1 a b → P a → R a b
  add : ∀ {a a' b b'}, Q a a' → Q b b' → Q (env.ar.add a b) (env'.ar.add a' b')
  le : ∀ {a a' b b'}, Q a a' → Q b b' → CCmp.le a b = CCmp.le a' b'
  zero : R1 env.dops.zero env'.dops.zero
  scoreZero : env.oops.zero = env'.oops.zero
  ratio : ∀ {a a' b b'}, R1 a a' → R b b' → CCmp.eq b env.ar.zeroW = false → env.oops.ratio a b = env'.oops.ratio a' b'
  sort : SortRel n R1 env.qsort env'.qsort

theorem full_rel {P : W → Prop} {n : Nat} {env : Api.Env D W S T} {env' : Api.Env D' W' S' T} (he : EnvRel n P R R1 Q env env') (sch : Run.Schedule) (order : List Nat) (m : Nat) {dis : Distance W} {dis' : Distance W'} (hd : DRel R1 dis dis')
    (hw : Short P env.ar dis n) :
    ORel (FullRel R R1 Q) (Run.full env.qsort env.ar env.smax env.oops sch order m dis n) (Run.full env'.qsort env'.ar env'.smax env'.oops sch order m dis' n) := by
  unfold Run.full
  refine ORel.bind (out_rel he.ar he.alike he.sub he.top he.add he.le env.smax env'.smax sch m hd n hw) fun o o' ho => ?_
  rw [← ho.last]
  unfold Outlier.scores
  have h3 : ORel (LRel (ScRel R1)) (Outlier.fill env.ar.zeroW env.oops o.clusters o.noise o.last dis.coreDistances order (List.replicate n none) >>= Outlier.initialised)
      (Outlier.fill env'.ar.zeroW env'.oops o'.clusters o'.noise o.last dis'.coreDistances order (List.replicate n none) >>= Outlier.initialised) :=
    ORel.bind (fill_rel he.alike he.sub he.ar.zeroW he.scoreZero he.ratio ho.clusters ho.noise o.last hd.cores order (LRel.replicate _ trivial)) fun a a' ha => initialised_rel ha
  have h4 : ORel (LRel (ScRel R1)) (Outlier.fill env.ar.zeroW env.oops o.clusters o.noise o.last dis.coreDistances order (List.replicate n none) >>= fun a => Outlier.initialised a >>= fun xs => .ok (env.qsort outlierCompare xs))
      (Outlier.fill env'.ar.zeroW env'.oops o'.clusters o'.noise o.last dis'.coreDistances order (List.replicate n none) >>= fun a => Outlier.initialised a >>= fun xs => .ok (env'.qsort outlierCompare xs)) := by
    rw [← Outcome.bind_assoc, ← Outcome.bind_assoc]
    have hids := fun xs => scores_ids (xs := xs) (zeroW := env.ar.zeroW) (ops := env.oops) (cs := o.clusters) (noise := o.noise) (last := o.last) (core := dis.coreDistances) (order := order) (n := n)
    generalize (Outlier.fill env.ar.zeroW env.oops o.clusters o.noise o.last dis.coreDistances order (List.replicate n none) >>= Outlier.initialised) = x at h3 hids
    generalize (Outlier.fill env'.ar.zeroW env'.oops o'.clusters o'.noise o.last dis'.coreDistances order (List.replicate n none) >>= Outlier.initialised) = y at h3
    cases h3 with
    | ok h => exact .ok (he.sort h (hids _ rfl))
    | ub s => exact .ub s
    | abort s => exact .abort s
    | diverge => exact .diverge
  exact ORel.bind h4 fun sc sc' hs => .ok ⟨ho, hs⟩

/-- Related objects. -/
structure ObjRel (R R1 : W → W' → Prop) (Q : S → S' → Prop) (o : Api.Obj W S T) (o' : Api.Obj W' S' T) : Prop where
  minPoints : o.minPoints = o'.minPoints
  numPoints : o.numPoints = o'.numPoints
  dis : DRel R1 o.dis o'.dis
  results : FullRel R R1 Q o.results o'.results

theorem doRun_rel {P : W → Prop} {n : Nat} {env : Api.Env D W S T} {env' : Api.Env D' W' S' T} (he : EnvRel n P R R1 Q env env') (par : Api.Par) (m : Nat) {dis : Distance W} {dis' : Distance W'} (hd : DRel R1 dis dis')
    (hw : Short P env.ar dis n) : ORel (ObjRel R R1 Q) (Api.doRun env par m dis n) (Api.doRun env' par m dis' n) := by
  unfold Api.doRun
  refine ORel.bind_same _ fun _ => ?_
  exact ORel.bind (full_rel he par.sch par.scores m hd hw) fun r r' hr => .ok ⟨rfl, rfl, hd, hr⟩

/-- The abstraction theorem for `hdbscan_init` and `hdbscan_run`. -/
theorem fresh_rel {P : W → Prop} {rows : Nat} {env : Api.Env D W S T} {env' : Api.Env D' W' S' T} (he : EnvRel rows P R R1 Q env env') (par : Api.Par) (m : Nat) (data : List D) (data' : List D') (cols cols' : Nat)
    (hs : ∀ p ∈ par.pairs, SumRel R1 env.dops env'.dops data data' cols cols' p.1 p.2)
    (hw : ∀ dis, Distance.compute env.dops env.ar.dmax par.pairs par.cores data rows cols (subIndex m 1) = .ok dis → Short P env.ar dis rows) :
    ORel (ObjRel R R1 Q) (Api.fresh env par m data rows cols true) (Api.fresh env' par m data' rows cols' true) := by
  unfold Api.fresh Api.initObj
  split
  · simp only [Outcome.ok_bind]
    unfold Api.run
    have h1 := distance_rel he.alike he.zero he.ar.dmax par.pairs par.cores rows cols cols' (subIndex m 1) hs
    generalize Distance.compute env.dops env.ar.dmax par.pairs par.cores data rows cols (subIndex m 1) = x at h1 hw
    generalize Distance.compute env'.dops env'.ar.dmax par.pairs par.cores data' rows cols' (subIndex m 1) = y at h1
    cases h1 with
    | ok h =>
      simp only [Outcome.ok_bind]
      refine ORel.bind_same _ fun _ => ?_
      refine ORel.bind_same _ fun _ => ?_
      exact doRun_rel he par m h (hw _ rfl)
    | ub s => exact .ub s
    | abort s => exact .abort s
    | diverge => exact .diverge
  · exact .abort _

end

end Verif.Param
