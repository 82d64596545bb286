import Verif.Model.Hierarchy
import Verif.Lemmas.Split
/-
Helper lemmas: the hierarchy does not look at the stabilities, so that other arithmetic only changes the stabilities.
-/
namespace Verif.Hier
variable {W S S' : Type}

/-- `φ` carries the stabilities of one arithmetic over to those of another one, as far as terms for at least one point go. -/
structure Hom (ar : Arith W S) (ar' : Arith W S') (φ : S → S') : Prop where
  zeroW : ar'.zeroW = ar.zeroW
  dmax : ar'.dmax = ar.dmax
  zero : ar'.zeroS = φ ar.zeroS
  add : ∀ s k w b, k ≠ 0 → ar'.add (φ s) (ar'.term k w b) = φ (ar.add s (ar.term k w b))

def mapCl (φ : S → S') (c : Cl W S) : Cl W S' :=
  { label := c.label, birth := c.birth, death := c.death, numPoints := c.numPoints, offset := c.offset, stability := φ c.stability,
    propStability := φ c.propStability, propLowest := c.propLowest, ncs := c.ncs, pncs := c.pncs, vchild := c.vchild, parent := c.parent,
    desc := c.desc, hasChildren := c.hasChildren }

def mapCls (φ : S → S') (cs : List (Option (Cl W S))) : List (Option (Cl W S')) := cs.map (Option.map (mapCl φ))

def mapWork (φ : S → S') (wk : Work W S) : Work W S' :=
  { cur := wk.cur, clusters := mapCls φ wk.clusters, next := wk.next, fresh := wk.fresh, noise := wk.noise, last := wk.last }

def mapSt (φ : S → S') (st : St W S) : St W S' :=
  { adj := st.adj, wk := mapWork φ st.wk, prev := st.prev, lines := st.lines, lineCount := st.lineCount, significant := st.significant, affV := st.affV }

def mapResult (φ : S → S') (r : Result W S) : Result W S' :=
  { adj := r.adj, clusters := mapCls φ r.clusters, hierarchy := r.hierarchy, noise := r.noise, last := r.last, cur := r.cur }

/-- Applying a function to the result of a call. -/
def over {α β : Type} (f : α → β) (x : Outcome α) : Outcome β := x >>= fun a => .ok (f a)

theorem over_ok {α β : Type} (f : α → β) (a : α) : over f (.ok a) = .ok (f a) := rfl

theorem over_bind {α β γ δ : Type} (f : α → β) (g : γ → δ) (x : Outcome α) (k : α → Outcome γ) (k' : β → Outcome δ) (h : ∀ a, k' (f a) = over g (k a)) :
    (over f x >>= k') = over g (x >>= k) := by
  cases x <;> simp [over]; exact h _

theorem bind_over {α γ δ : Type} (g : γ → δ) (x : Outcome α) (k : α → Outcome γ) (k' : α → Outcome δ) (h : ∀ a, k' a = over g (k a)) :
    (x >>= k') = over g (x >>= k) := by
  cases x <;> simp [over]; exact h _

theorem rd_map {α β : Type} (f : α → β) (xs : List α) (i : Nat) : rd (xs.map f) i = over f (rd xs i) := by
  unfold rd
  rw [List.getElem?_map]
  cases xs[i]? <;> rfl

theorem wr_map {α β : Type} (f : α → β) (xs : List α) (i : Nat) (x : α) : wr (xs.map f) i (f x) = over (List.map f) (wr xs i x) := by
  unfold wr
  rw [List.length_map]
  split
  · rw [over_ok, List.map_set]
  · rfl

theorem getCl_map (φ : S → S') (cs : List (Option (Cl W S))) (l : Nat) : getCl (mapCls φ cs) l = over (mapCl φ) (getCl cs l) := by
  unfold getCl mapCls
  rw [rd_map]
  refine over_bind _ _ _ _ _ fun a => ?_
  cases a <;> rfl

section
variable {ar : Arith W S} {ar' : Arith W S'} {φ : S → S'} (h : Hom ar ar' φ)
include h

theorem map_init (label : Nat) (parent : Option Nat) (birth : Option W) (k : Nat) : Cl.init ar' label parent birth k = mapCl φ (Cl.init ar label parent birth k) := by
  simp [Cl.init, mapCl, h.zeroW, h.dmax, h.zero]

theorem map_detach (c : Cl W S) (k : Nat) (hk : k ≠ 0) (w : W) : ((mapCl φ c).detach ar' k w).1 = mapCl φ (c.detach ar k w).1 := by
  unfold Cl.detach Cl.detachTo
  simp only [mapCl, h.add _ _ _ _ hk]
  split
  · rfl
  · split <;> rfl

theorem map_newCluster (points : List Nat) (hp : points ≠ []) (parent : Nat) (level : W) (wk : Work W S) :
    newCluster ar' points parent level (mapWork φ wk) = over (mapWork φ) (newCluster ar points parent level wk) := by
  unfold newCluster
  refine bind_over _ _ _ _ fun cur' => ?_
  show (getCl (mapCls φ wk.clusters) parent >>= _) = _
  rw [getCl_map]
  refine over_bind _ _ _ _ _ fun c => ?_
  dsimp only
  rw [map_detach h _ _ (by simpa using hp)]
  have : some ({ mapCl φ (c.detach ar points.length level).1 with hasChildren := true } : Cl W S') =
      Option.map (mapCl φ) (some { (c.detach ar points.length level).1 with hasChildren := true }) := rfl
  rw [this]
  show (wr (mapCls φ wk.clusters) parent _ >>= _) = _
  unfold mapCls
  rw [wr_map]
  refine over_bind _ _ _ _ _ fun cs => ?_
  simp only [Outcome.pure_eq, over_ok, mapWork, mapCls, List.map_append, List.map_cons, List.map_nil, Option.map_some, map_init h]

theorem map_newNoise (points : List Nat) (hp : points ≠ []) (parent : Nat) (level : W) (wk : Work W S) :
    newNoise ar' points parent level (mapWork φ wk) = over (mapWork φ) (newNoise ar points parent level wk) := by
  unfold newNoise
  refine bind_over _ _ _ _ fun cur' => ?_
  show (getCl (mapCls φ wk.clusters) parent >>= _) = _
  rw [getCl_map]
  refine over_bind _ _ _ _ _ fun c => ?_
  dsimp only
  rw [map_detach h _ _ (by simpa using hp)]
  have : some ((mapCl φ (c.detach ar points.length level).1).addVirtual points) =
      Option.map (mapCl φ) (some ((c.detach ar points.length level).1.addVirtual points)) := rfl
  rw [this]
  show (wr (mapCls φ wk.clusters) parent _ >>= _) = _
  unfold mapCls
  rw [wr_map]
  refine over_bind _ _ _ _ _ fun cs => ?_
  refine bind_over _ _ _ _ fun n' => ?_
  refine bind_over _ _ _ _ fun l' => ?_
  rfl

omit h in
theorem sInsert_ne (xs : List Nat) (x : Nat) : sInsert xs x ≠ [] := by
  unfold sInsert
  split
  · rename_i hx
    rintro rfl
    simp at hx
  · simp

omit h in
theorem visitNbrs_ne (nb : List Nat) : ∀ e : Ex, e.constr ≠ [] → (visitNbrs nb e).constr ≠ [] := by
  induction nb with
  | nil => exact fun e he => he
  | cons v r ih =>
    intro e he
    unfold visitNbrs
    split
    · exact ih _ he
    · exact ih _ (sInsert_ne _ _)

omit h in
theorem explore_ne (adj : List (List Nat)) (minPoints fuel : Nat) : ∀ e e' : Ex, e.constr ≠ [] → explore adj minPoints fuel e = .ok e' → e'.constr ≠ [] := by
  induction fuel with
  | zero =>
    intro e e' he hx
    unfold explore at hx
    split at hx
    · cases hx; exact he
    · cases hx
  | succ fuel ih =>
    intro e e' he hx
    unfold explore at hx
    cases hv : e.unexpl.getLast? with
    | none => rw [hv] at hx; cases hx; exact he
    | some v =>
      rw [hv] at hx
      obtain ⟨nb, _, hx⟩ := Outcome.bind_eq_ok.mp hx
      have h1 := visitNbrs_ne nb { e with unexpl := e.unexpl.dropLast } he
      dsimp only at hx
      split at hx
      · split at hx
        · cases hx; exact h1
        · refine ih _ _ ?_ hx
          exact h1
      · refine ih _ _ ?_ hx
        exact h1

omit h in
theorem growNbrs_ne (nb : List Nat) : ∀ x : List Nat × List Nat, x.1 ≠ [] → (growNbrs nb x).1 ≠ [] := by
  induction nb with
  | nil => exact fun x hx => hx
  | cons v r ih =>
    rintro ⟨a, b⟩ hx
    unfold growNbrs
    split
    · exact ih _ hx
    · exact ih _ (sInsert_ne _ _)

omit h in
theorem growFirst_ne (adj : List (List Nat)) (fuel : Nat) : ∀ (x : List Nat × List Nat) (y : List Nat), x.1 ≠ [] → growFirst adj fuel x = .ok y → y ≠ [] := by
  induction fuel with
  | zero =>
    rintro ⟨a, b⟩ y hx hy
    unfold growFirst at hy
    split at hy
    · cases hy; exact hx
    · cases hy
  | succ fuel ih =>
    rintro ⟨a, b⟩ y hx hy
    unfold growFirst at hy
    cases hv : b.getLast? with
    | none => rw [hv] at hy; cases hy; exact hx
    | some v =>
      rw [hv] at hy
      obtain ⟨nb, _, hy⟩ := Outcome.bind_eq_ok.mp hy
      exact ih _ _ (growNbrs_ne nb (a, b.dropLast) hx) hy

omit h in
theorem bind_over' {α γ δ : Type} (g : γ → δ) (x : Outcome α) (k : α → Outcome γ) (k' : α → Outcome δ) (h : ∀ a, x = .ok a → k' a = over g (k a)) :
    (x >>= k') = over g (x >>= k) := by
  cases x <;> simp [over]; exact h _ rfl

theorem map_settle (minPoints label : Nat) (level : W) (e : Ex) (he : e.constr ≠ []) (wk : Work W S) :
    settle ar' minPoints label level e (mapWork φ wk) = over (Prod.map id (mapWork φ)) (settle ar minPoints label level e wk) := by
  unfold settle
  split
  · cases e.first.getLast? with
    | none => rfl
    | some m =>
      dsimp only
      split
      · rfl
      · rw [map_newCluster h _ he]
        refine over_bind _ _ _ _ _ fun _ => rfl
  · split
    · rw [map_newNoise h _ he]
      refine over_bind _ _ _ _ _ fun _ => rfl
    · rfl

theorem map_roots (adj : List (List Nat)) (minPoints label : Nat) (level : W) (fuel : Nat) : ∀ (e : Ex) (wk : Work W S),
    roots ar' adj minPoints label level fuel e (mapWork φ wk) = over (Prod.map id (mapWork φ)) (roots ar adj minPoints label level fuel e wk) := by
  induction fuel with
  | zero => intro e wk; unfold roots; split <;> rfl
  | succ fuel ih =>
    intro e wk
    unfold roots
    cases e.examined.getLast? with
    | none => rfl
    | some root =>
      dsimp only
      refine bind_over' _ _ _ _ fun e1 he1 => ?_
      rw [map_settle h _ _ _ _ (explore_ne _ _ _ _ _ (sInsert_ne _ _) he1)]
      refine over_bind _ _ _ _ _ fun a => ?_
      exact ih _ _

theorem map_finish (adj : List (List Nat)) (label : Nat) (level : W) (e : Ex) (wk : Work W S) :
    finish ar' adj label level e (mapWork φ wk) = over (mapWork φ) (finish ar adj label level e wk) := by
  unfold finish
  split
  · refine bind_over' _ _ _ _ fun dd hdd => ?_
    refine bind_over _ _ _ _ fun l => ?_
    split
    · refine bind_over' _ _ _ _ fun first hfirst => ?_
      refine map_newCluster h _ (growFirst_ne _ _ _ _ ?_ hfirst) _ _ _
      intro h0
      change e.first = [] at h0
      rw [h0] at hdd
      simp [rd] at hdd
    · rfl
  · rfl

theorem map_clustersLoop (adj : List (List Nat)) (minPoints : Nat) (level : W) (fuel : Nat) : ∀ (affL affV : List Nat) (wk : Work W S),
    clustersLoop ar' adj minPoints level fuel affL affV (mapWork φ wk) = over (Prod.map id (mapWork φ)) (clustersLoop ar adj minPoints level fuel affL affV wk) := by
  induction fuel with
  | zero => intro a b wk; unfold clustersLoop; split <;> rfl
  | succ fuel ih =>
    intro affL affV wk
    unfold clustersLoop
    cases affL.getLast? with
    | none => rfl
    | some label =>
      dsimp only
      refine bind_over _ _ _ _ fun x => ?_
      rw [map_roots h]
      refine over_bind _ _ _ _ _ fun y => ?_
      show (finish ar' adj label level y.1 (mapWork φ y.2) >>= _) = _
      rw [map_finish h]
      refine over_bind _ _ _ _ _ fun z => ?_
      exact ih _ _ _

omit h in
theorem map_setOffsets (lc : Nat) (ls : List Nat) : ∀ cs : List (Option (Cl W S)), setOffsets lc ls (mapCls φ cs) = over (mapCls φ) (setOffsets lc ls cs) := by
  induction ls with
  | nil => intro cs; rfl
  | cons l r ih =>
    intro cs
    unfold setOffsets
    rw [getCl_map]
    refine over_bind _ _ _ _ _ fun c => ?_
    have : some ({ mapCl φ c with offset := lc } : Cl W S') = Option.map (mapCl φ) (some { c with offset := lc }) := rfl
    rw [this]
    unfold mapCls
    rw [wr_map]
    refine over_bind _ _ _ _ _ fun cs' => ?_
    exact ih cs'

omit h in
theorem map_endLevel (compact : Bool) (w : W) (st : St W S) : endLevel compact w (mapSt φ st) = over (mapSt φ) (endLevel compact w st) := by
  unfold endLevel
  dsimp only
  show (setOffsets _ st.wk.fresh (mapCls φ st.wk.clusters) >>= _) = _
  rw [map_setOffsets]
  refine over_bind _ _ _ _ _ fun cs => ?_
  rfl

theorem map_level [CCmp W] (minPoints : Nat) (compact : Bool) (va vb : List Nat) (wt : List W) (k : Nat) (st : St W S) :
    level ar' minPoints compact va vb wt k (mapSt φ st) = over (Prod.map id (mapSt φ)) (level ar minPoints compact va vb wt k st) := by
  unfold level
  refine bind_over _ _ _ _ fun w => ?_
  refine bind_over _ _ _ _ fun r => ?_
  dsimp only
  split
  · rfl
  · have : ({ (mapSt φ st).wk with fresh := [] } : Work W S') = mapWork φ { st.wk with fresh := [] } := rfl
    rw [this, map_clustersLoop h]
    refine over_bind _ _ _ _ _ fun x => ?_
    show (endLevel compact w (mapSt φ { st with adj := r.adj, wk := x.2, affV := x.1 }) >>= _) = _
    rw [map_endLevel]
    refine over_bind _ _ _ _ _ fun y => ?_
    rfl

theorem map_mainLoop [CCmp W] (minPoints : Nat) (compact : Bool) (va vb : List Nat) (wt : List W) (fuel : Nat) : ∀ (k : Nat) (st : St W S),
    mainLoop ar' minPoints compact va vb wt fuel k (mapSt φ st) = over (mapSt φ) (mainLoop ar minPoints compact va vb wt fuel k st) := by
  induction fuel with
  | zero => intro k st; cases k <;> rfl
  | succ fuel ih =>
    intro k st
    cases k with
    | zero => rfl
    | succ k =>
      unfold mainLoop
      rw [map_level h]
      refine over_bind _ _ _ _ _ fun x => ?_
      exact ih _ _

/-- Other arithmetic changes the stabilities and nothing else. -/
theorem map_compute [CCmp W] (minPoints : Nat) (compact : Bool) (g : Graph W) :
    compute ar' minPoints compact g = over (mapResult φ) (compute ar minPoints compact g) := by
  unfold compute
  have : initial ar' g = mapSt φ (initial ar g) := by
    simp [initial, mapSt, mapWork, mapCls, map_init h]
  rw [this, map_mainLoop h]
  refine over_bind _ _ _ _ _ fun st => ?_
  simp [over, mapResult, mapSt, mapWork, h.zeroW]
end

end Verif.Hier
