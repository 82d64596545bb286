import Verif.Spec.Report
import Verif.Lemmas.ClusterMap
import Verif.Props.SortClusters
import Verif.Props.ClusterMap
/-
Helper lemmas for C79.
-/
namespace Verif.Report
open Spec
variable {V W : Type}

/-! ### Distances of arbitrary values -/

/-- What holds of a record through all updates: `P` always, `F` once it holds; `Gc` and `Gp` tell which members and pairs establish it. -/
structure Steps [CCmp W] (k : DMap.Consts W) (d : Nat → Nat → W) (core : Nat → W) (l : List Nat) (P F : DistVals W → Prop) (Gc : Nat → Prop) (Gp : Nat → Nat → Prop) : Prop where
  core : ∀ i ∈ l, ∀ v, P v → P (DMap.core k (core i) v) ∧ (F v ∨ Gc i → F (DMap.core k (core i) v))
  pair : ∀ i j, [i, j].Sublist l → ∀ v, P v → P (DMap.pair k (d i j) v) ∧ (F v ∨ Gp i j → F (DMap.pair k (d i j) v))

theorem pairs_any [CCmp W] {k : DMap.Consts W} {dis : Distance W} {d : Nat → Nat → W} {P F : DistVals W → Prop} {Gp : Nat → Nat → Prop} (i : Nat) : ∀ (r : List Nat) (v : DistVals W),
    (∀ j ∈ r, dis.get k.zero i j = .ok (d i j)) → (∀ j ∈ r, ∀ v, P v → P (DMap.pair k (d i j) v) ∧ (F v ∨ Gp i j → F (DMap.pair k (d i j) v))) → P v →
    ∃ v', DMap.pairs k dis i r v = .ok v' ∧ P v' ∧ ((F v ∨ ∃ j ∈ r, Gp i j) → F v') := by
  intro r
  induction r with
  | nil => intro v _ _ h; exact ⟨v, rfl, h, fun h => by simpa using h⟩
  | cons j r ih =>
    intro v hg hp h
    obtain ⟨h1, h2⟩ := hp j (by simp) v h
    obtain ⟨v', e, h', h3⟩ := ih (DMap.pair k (d i j) v) (fun a ha => hg a (by simp [ha])) (fun a ha => hp a (by simp [ha])) h1
    refine ⟨v', by rw [DMap.pairs, hg j (by simp), Outcome.ok_bind, e], h', ?_⟩
    rintro (hf | ⟨a, ha, hga⟩)
    · exact h3 (.inl (h2 (.inl hf)))
    · rcases List.mem_cons.1 ha with rfl | ha
      · exact h3 (.inl (h2 (.inr hga)))
      · exact h3 (.inr ⟨a, ha, hga⟩)

/-- The later members one after the other. -/
theorem members_any [CCmp W] {k : DMap.Consts W} {dis : Distance W} {d : Nat → Nat → W} {core : Nat → W} {P F : DistVals W → Prop} {Gc : Nat → Prop} {Gp : Nat → Nat → Prop} :
    ∀ (l : List Nat) (v : DistVals W), (∀ i ∈ l, ∀ j ∈ l, dis.get k.zero i j = .ok (d i j)) → (∀ i ∈ l, dis.coreDistances[i]? = some (some (core i))) →
    Steps k d core l P F Gc Gp → P v →
    ∃ v', DMap.members k dis l (some v) = .ok (some v') ∧ P v' ∧ ((F v ∨ (∃ i ∈ l, Gc i) ∨ ∃ i j, [i, j].Sublist l ∧ Gp i j) → F v') := by
  intro l
  induction l with
  | nil => intro v _ _ _ h; exact ⟨v, rfl, h, fun h => by simpa using h⟩
  | cons i r ih =>
    intro v hg hc hs h
    obtain ⟨h1, h2⟩ := hs.core i (by simp) v h
    obtain ⟨v1, e1, h3, h4⟩ := pairs_any (d := d) (P := P) (F := F) (Gp := Gp) i r (DMap.core k (core i) v) (fun j hj => hg i (by simp) j (by simp [hj]))
      (fun j hj => hs.pair i j (by simpa using hj)) h1
    obtain ⟨v2, e2, h5, h6⟩ := ih v1 (fun a ha b hb => hg a (by simp [ha]) b (by simp [hb])) (fun a ha => hc a (by simp [ha]))
      ⟨fun a ha => hs.core a (by simp [ha]), fun a b hab => hs.pair a b (hab.cons _)⟩ h3
    refine ⟨v2, by simp only [DMap.members, rdInit, rd, hc i (by simp), Outcome.ok_bind, Outcome.pure_eq, e1, e2], h5, ?_⟩
    rintro (hf | ⟨a, ha, hga⟩ | ⟨a, b, hab, hgab⟩)
    · exact h6 (.inl (h4 (.inl (h2 (.inl hf)))))
    · rcases List.mem_cons.1 ha with rfl | ha
      · exact h6 (.inl (h4 (.inl (h2 (.inr hga)))))
      · exact h6 (.inr (.inl ⟨a, ha, hga⟩))
    · rcases List.sublist_cons_iff.1 hab with hab | ⟨t, ht, hab⟩
      · exact h6 (.inr (.inr ⟨a, b, hab, hgab⟩))
      · simp only [List.cons.injEq] at ht
        obtain ⟨rfl, rfl⟩ := ht
        exact h6 (.inl (h4 (.inr ⟨b, by simpa using hab, hgab⟩)))

/-- A whole cluster. -/
theorem cluster_any [CCmp W] {k : DMap.Consts W} {dis : Distance W} {d : Nat → Nat → W} {core : Nat → W} {P F : DistVals W → Prop} {Gc : Nat → Prop} {Gp : Nat → Nat → Prop}
    (i : Nat) (r : List Nat)
    (hg : ∀ a ∈ i :: r, ∀ b ∈ i :: r, dis.get k.zero a b = .ok (d a b)) (hc : ∀ a ∈ i :: r, dis.coreDistances[a]? = some (some (core a)))
    (hfirst : P (DMap.first k (core i))) (hs : Steps k d core (i :: r) P F Gc Gp) :
    ∃ v', DMap.members k dis (i :: r) none = .ok (some v') ∧ P v' ∧ (((∃ a ∈ r, Gc a) ∨ ∃ a b, [a, b].Sublist (i :: r) ∧ Gp a b) → F v') := by
  obtain ⟨v1, e1, h3, h4⟩ := pairs_any (d := d) (P := P) (F := F) (Gp := Gp) i r (DMap.first k (core i)) (fun j hj => hg i (by simp) j (by simp [hj]))
    (fun j hj => hs.pair i j (by simpa using hj)) hfirst
  obtain ⟨v2, e2, h5, h6⟩ := members_any (d := d) (core := core) (P := P) (F := F) (Gc := Gc) (Gp := Gp) r v1 (fun a ha b hb => hg a (by simp [ha]) b (by simp [hb]))
    (fun a ha => hc a (by simp [ha])) ⟨fun a ha => hs.core a (by simp [ha]), fun a b hab => hs.pair a b (hab.cons _)⟩ h3
  refine ⟨v2, by simp only [DMap.members, rdInit, rd, hc i (by simp), Outcome.ok_bind, Outcome.pure_eq, e1, e2], h5, ?_⟩
  rintro (hga | ⟨a, b, hab, hgab⟩)
  · exact h6 (.inr (.inl hga))
  · rcases List.sublist_cons_iff.1 hab with hab | ⟨t, ht, hab⟩
    · exact h6 (.inr (.inr ⟨a, b, hab, hgab⟩))
    · simp only [List.cons.injEq] at ht
      obtain ⟨rfl, rfl⟩ := ht
      exact h6 (.inl (h4 (.inr ⟨b, by simpa using hab, hgab⟩)))

/-- All clusters; `P` may depend on the list of members. -/
theorem loop_any [CCmp W] {k : DMap.Consts W} {dis : Distance W} (P : List Nat → DistVals W → Prop) : ∀ (r : KMap (List Nat)) (m : KMap (DistVals W)),
    Ascending r → (∀ a ∈ m.keys, ∀ b ∈ r.keys, a < b) → (∀ x ∈ r, ∃ v, DMap.members k dis x.2 none = .ok (some v) ∧ P x.2 v) →
    ∃ m', DMap.loop k dis r m = .ok (m ++ m') ∧ List.Forall₂ (fun x y => x.1 = y.1 ∧ P x.2 y.2) r m' := by
  intro r
  induction r with
  | nil => intro m _ _ _; exact ⟨[], by simp [DMap.loop], .nil⟩
  | cons x r ih =>
    obtain ⟨key, l⟩ := x
    intro m hasc hlt hx
    rw [Ascending, KMap.keys, List.map_cons, List.pairwise_cons] at hasc
    obtain ⟨v, e, hv⟩ := hx (key, l) (by simp)
    have hnone : m.lookup key = none := KMap.lookup_none (fun a ha => by have := hlt a ha key (by simp [KMap.keys]); omega)
    have hlast : m.insert key v = m ++ [(key, v)] := KMap.insert_last (fun a ha => hlt a ha key (by simp [KMap.keys])) v
    obtain ⟨m', e', hm⟩ := ih (m ++ [(key, v)]) hasc.2 (by
      intro a ha b hb
      rw [KMap.keys, List.map_append, List.mem_append] at ha
      rcases ha with ha | ha
      · exact hlt a ha b (by simp [KMap.keys] at hb ⊢; exact .inr hb)
      · simp at ha; subst ha; exact hasc.1 b hb) (fun y hy => hx y (by simp [hy]))
    refine ⟨(key, v) :: m', ?_, .cons ⟨rfl, hv⟩ hm⟩
    rw [DMap.loop, hnone, e, Outcome.ok_bind]
    simp only []
    rw [hlast, e', List.append_assoc]; rfl

/-! ### Sorting numbers -/

open CSort

/-- The same arrays, the values being numbers. -/
def lift {L : Type} (a : Arr L V) : Arr L (Ieee V) := { c := a.c, d := a.d.map .num }

def liftO {α β : Type} (f : α → β) : Outcome α → Outcome β
  | .ok a => .ok (f a)
  | .ub w => .ub w
  | .abort w => .abort w
  | .diverge => .diverge

theorem liftO_bind {α β γ δ : Type} {f : α → β} {g : γ → δ} {x : Outcome α} {k : α → Outcome γ} {k' : β → Outcome δ} (h : ∀ a, k' (f a) = liftO g (k a)) :
    (liftO f x >>= k') = liftO g (x >>= k) := by
  cases x with
  | ok a => exact h a
  | ub w => rfl
  | abort w => rfl
  | diverge => rfl

theorem rd_lift (d : List V) (i : Nat) : rd (d.map Ieee.num) i = liftO .num (rd d i) := by
  unfold rd
  rw [List.getElem?_map]
  cases d[i]? <;> rfl

theorem wr_lift (d : List V) (i : Nat) (v : V) : wr (d.map Ieee.num) i (.num v) = liftO (List.map .num) (wr d i v) := by
  unfold wr
  rw [List.length_map]
  split
  · simp [liftO, List.map_set]
  · rfl

section
variable {L : Type} [LinearOrder V]

theorem upLoop_lift (d : List V) (x : V) : ∀ k up, upLoop (d.map Ieee.num) (.num x) k up = upLoop d x k up := by
  intro k
  induction k with
  | zero => intro up; rfl
  | succ k ih =>
    intro up
    simp only [upLoop, rd_lift]
    cases rd d up with
    | ok v =>
      simp only [liftO, Outcome.ok_bind, ih]
      rfl
    | ub w => rfl
    | abort w => rfl
    | diverge => rfl

theorem downLoop_lift (d : List V) (x : V) : ∀ k down, downLoop (d.map Ieee.num) (.num x) k down = downLoop d x k down := by
  intro k
  induction k with
  | zero => intro up; rfl
  | succ k ih =>
    intro down
    simp only [downLoop, rd_lift]
    cases rd d down with
    | ok v =>
      simp only [liftO, Outcome.ok_bind, ih]
      rfl
    | ub w => rfl
    | abort w => rfl
    | diverge => rfl

omit [LinearOrder V] in
theorem swap_lift (a : Arr L V) (i j : Nat) : swap (lift a) i j = liftO lift (swap a i j) := by
  simp only [swap, lift, rd_lift]
  refine liftO_bind (fun t => liftO_bind (fun v => ?_))
  rw [wr_lift]
  refine liftO_bind (fun d1 => ?_)
  rw [wr_lift]
  refine liftO_bind (fun d2 => ?_)
  cases rd a.c i with
  | ok t2 =>
    simp only [Outcome.ok_bind]
    cases rd a.c j with
    | ok v2 =>
      simp only [Outcome.ok_bind]
      cases wr a.c i v2 with
      | ok c1 =>
        simp only [Outcome.ok_bind]
        cases wr c1 j t2 <;> rfl
      | _ => rfl
    | _ => rfl
  | _ => rfl

/-- Results of `partition`. -/
def liftP (p : Nat × Arr L V) : Nat × Arr L (Ieee V) := (p.1, lift p.2)

theorem partLoop_lift (x : V) : ∀ (fuel up down : Nat) (a : Arr L V), partLoop (.num x) fuel up down (lift a) = liftO liftP (partLoop x fuel up down a) := by
  intro fuel
  induction fuel with
  | zero => intro up down a; simp only [partLoop]; split <;> rfl
  | succ fuel ih =>
    intro up down a
    simp only [partLoop]
    split
    · rw [show (lift a).d = a.d.map .num from rfl, upLoop_lift]
      cases upLoop a.d x (down - up) up with
      | ok up' =>
        simp only [Outcome.ok_bind]
        rw [downLoop_lift]
        cases downLoop a.d x (down - up') down with
        | ok down' =>
          simp only [Outcome.ok_bind]
          split
          · rfl
          · rw [swap_lift]
            exact liftO_bind (fun a' => ih _ _ a')
        | _ => rfl
      | _ => rfl
    · rfl

theorem partition_lift (a : Arr L V) (lower upper : Nat) : partition (lift a) lower upper = liftO liftP (partition a lower upper) := by
  simp only [partition]
  rw [show (lift a).d = a.d.map .num from rfl, show (lift a).c = a.c from rfl, rd_lift]
  refine liftO_bind (fun x => ?_)
  cases rd a.c lower with
  | ok x2 =>
    simp only [Outcome.ok_bind]
    rw [partLoop_lift]
    refine liftO_bind (fun p => ?_)
    obtain ⟨up, a1⟩ := p
    simp only [liftP]
    rw [show (lift a1).d = a1.d.map .num from rfl, show (lift a1).c = a1.c from rfl, rd_lift]
    refine liftO_bind (fun v => ?_)
    rw [show (CCmp.lt (Ieee.num x) (Ieee.num v) : Bool) = CCmp.lt x v from rfl, rd_lift]
    refine liftO_bind (fun dv => ?_)
    rw [wr_lift]
    refine liftO_bind (fun d1 => ?_)
    rw [wr_lift]
    refine liftO_bind (fun d2 => ?_)
    generalize (if CCmp.lt x v = true then up - 1 else up) = u
    cases rd a1.c u with
    | ok cv =>
      simp only [Outcome.ok_bind]
      cases wr a1.c lower cv with
      | ok c1 =>
        simp only [Outcome.ok_bind]
        cases wr c1 u x2 <;> rfl
      | _ => rfl
    | _ => rfl
  | _ => rfl

theorem quicksort_lift : ∀ (fuel : Nat) (a : Arr L V) (left hi : Nat), quicksort fuel (lift a) left hi = liftO lift (quicksort fuel a left hi) := by
  intro fuel
  induction fuel with
  | zero => intro a left hi; simp only [quicksort]; split <;> rfl
  | succ fuel ih =>
    intro a left hi
    simp only [quicksort]
    split
    · rw [partition_lift]
      refine liftO_bind (fun p => ?_)
      obtain ⟨pv, a1⟩ := p
      simp only [liftP]
      rw [ih]
      exact liftO_bind (fun a2 => ih _ _ _)
    · rfl

theorem sortAll_lift (cl : List Nat) (ds : List V) : sortAll cl (ds.map Ieee.num) = sortAll cl ds := by
  simp only [sortAll]
  rw [show ({ c := cl, d := ds.map Ieee.num } : Arr Nat (Ieee V)) = lift { c := cl, d := ds } from rfl, quicksort_lift]
  cases quicksort cl.length { c := cl, d := ds } 0 cl.length <;> rfl

end

end Verif.Report
