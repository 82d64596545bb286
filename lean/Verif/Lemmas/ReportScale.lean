import Verif.Lemmas.Param
import Verif.Model.Report
/-
Reports on two runs whose distances are related: statistics and orders are the same if the quotients of distances are.
-/
namespace Verif.Param
variable {W : Type} [CCmp W]

/-- What the reports need of related distances: those that are not zero lie strictly between D_MIN and D_MAX. -/
structure Between (k : DMap.Consts W) (R : W → W → Prop) : Prop where
  zero : R k.zero k.zero
  lt : ∀ {a a' b b'}, R a a' → R b b' → CCmp.lt a b = CCmp.lt a' b'
  nonneg : ∀ {a a'}, R a a' → CCmp.lt a k.zero = false
  pos : ∀ {a a'}, R a a' → CCmp.lt k.zero a = true → (CCmp.lt a k.dmax = true ∧ CCmp.lt k.dmin a = true) ∧ CCmp.lt a' k.dmax = true ∧ CCmp.lt k.dmin a' = true
  null : ∀ {a a'}, R a a' → CCmp.lt k.zero a = false → CCmp.lt k.dmin a = false ∧ CCmp.lt k.dmin a' = false

/-- Related records: confidences are equal; the smallest and the largest distance are related, or still D_MAX and D_MIN in both. -/
structure VRel (k : DMap.Consts W) (R : W → W → Prop) (v v' : DistVals W) : Prop where
  minCr : R v.minCr v'.minCr
  maxCr : R v.maxCr v'.maxCr
  crConf : v.crConf = v'.crConf
  drConf : v.drConf = v'.drConf
  dr : (v.minDr = k.dmax ∧ v'.minDr = k.dmax ∧ v.maxDr = k.dmin ∧ v'.maxDr = k.dmin) ∨ (R v.minDr v'.minDr ∧ R v.maxDr v'.maxDr)

variable {k : DMap.Consts W} {R : W → W → Prop}

theorem first_vrel (_ : Between k R) {c c' : W} (hc : R c c') : VRel k R (DMap.first k c) (DMap.first k c') := ⟨hc, hc, rfl, rfl, .inl ⟨rfl, rfl, rfl, rfl⟩⟩

theorem core_vrel (h : Between k R) {c c' : W} (hc : R c c') {v v' : DistVals W} (hv : VRel k R v v') : VRel k R (DMap.core k c v) (DMap.core k c' v') := by
  have e1 := h.lt hc hv.minCr
  have e2 := h.lt hc h.zero
  have e3 := h.lt h.zero hc
  have e4 := h.lt hv.maxCr hc
  unfold DMap.core
  rw [e1, e2, e3]
  by_cases c1 : (CCmp.lt c' v'.minCr && (CCmp.lt c' k.zero || CCmp.lt k.zero c')) = true
  · simp only [c1, if_true, e4]
    split
    · exact ⟨hc, hc, hv.crConf, hv.drConf, hv.dr⟩
    · exact ⟨hc, hv.maxCr, hv.crConf, hv.drConf, hv.dr⟩
  · simp only [c1, if_false, Bool.false_eq_true, e4]
    split
    · exact ⟨hv.minCr, hc, hv.crConf, hv.drConf, hv.dr⟩
    · exact hv

theorem pair_vrel (h : Between k R) {d d' : W} (hd : R d d') {v v' : DistVals W} (hv : VRel k R v v') : VRel k R (DMap.pair k d v) (DMap.pair k d' v') := by
  have e2 := h.lt hd h.zero
  have e3 := h.lt h.zero hd
  have e5 := h.nonneg hd
  rcases hv.dr with ⟨a1, a2, a3, a4⟩ | ⟨b1, b2⟩
  · cases hz : CCmp.lt k.zero d with
    | true =>
      obtain ⟨⟨p1, p2⟩, p3, p4⟩ := h.pos hd hz
      rw [hz] at e3
      have x : DMap.pair k d v = { v with minDr := d, maxDr := d } := by simp [DMap.pair, a1, p1, hz, a3, p2]
      have x' : DMap.pair k d' v' = { v' with minDr := d', maxDr := d' } := by simp [DMap.pair, a2, p3, ← e3, a4, p4]
      rw [x, x']
      exact ⟨hv.minCr, hv.maxCr, hv.crConf, hv.drConf, .inr ⟨hd, hd⟩⟩
    | false =>
      obtain ⟨p1, p2⟩ := h.null hd hz
      rw [hz] at e3
      rw [e5] at e2
      have x : DMap.pair k d v = v := by simp [DMap.pair, hz, e5, a3, p1]
      have x' : DMap.pair k d' v' = v' := by simp [DMap.pair, ← e3, ← e2, a4, p2]
      rw [x, x']
      exact hv
  · have e1 := h.lt hd b1
    have e4 := h.lt b2 hd
    unfold DMap.pair
    rw [e1, e2, e3]
    by_cases c1 : (CCmp.lt d' v'.minDr && (CCmp.lt d' k.zero || CCmp.lt k.zero d')) = true
    · simp only [c1, if_true, e4]
      split
      · exact ⟨hv.minCr, hv.maxCr, hv.crConf, hv.drConf, .inr ⟨hd, hd⟩⟩
      · exact ⟨hv.minCr, hv.maxCr, hv.crConf, hv.drConf, .inr ⟨hd, b2⟩⟩
    · simp only [c1, if_false, Bool.false_eq_true, e4]
      split
      · exact ⟨hv.minCr, hv.maxCr, hv.crConf, hv.drConf, .inr ⟨b1, hd⟩⟩
      · exact hv

section
variable {dis dis' : Distance W} {n : Nat} (h : Between k R) (hget : ∀ i j, i < n → j < n → ORel R (dis.get k.zero i j) (dis'.get k.zero i j))
  (hcore : ∀ i, i < n → ORel R (rdInit dis.coreDistances i) (rdInit dis'.coreDistances i))
include h hget

theorem pairs_vrel {i : Nat} (hi : i < n) : ∀ (l : List Nat) {v v' : DistVals W}, (∀ j ∈ l, j < n) → VRel k R v v' → ORel (VRel k R) (DMap.pairs k dis i l v) (DMap.pairs k dis' i l v')
  | [], _, _, _, hv => .ok hv
  | j :: r, v, v', hl, hv => by
    unfold DMap.pairs
    exact ORel.bind (hget i j hi (hl j (by simp))) fun d d' hd => pairs_vrel hi r (fun a ha => hl a (by simp [ha])) (pair_vrel h hd hv)

include hcore

theorem members_vrel : ∀ (l : List Nat) {v v' : Option (DistVals W)}, (∀ j ∈ l, j < n) → OptRel (VRel k R) v v' → ORel (OptRel (VRel k R)) (DMap.members k dis l v) (DMap.members k dis' l v')
  | [], _, _, _, hv => .ok hv
  | i :: r, v, v', hl, hv => by
    unfold DMap.members
    refine ORel.bind (hcore i (hl i (by simp))) fun c c' hc => ?_
    have hr : ∀ j ∈ r, j < n := fun a ha => hl a (by simp [ha])
    cases v <;> cases v'
    · exact ORel.bind (pairs_vrel h hget (hl i (by simp)) r hr (first_vrel h hc)) fun v2 v2' h2 => members_vrel r hr h2
    · exact hv.elim
    · exact hv.elim
    · exact ORel.bind (pairs_vrel h hget (hl i (by simp)) r hr (core_vrel h hc hv)) fun v2 v2' h2 => members_vrel r hr h2

end

/-- Related maps: the same keys and related records. -/
def MRel (k : DMap.Consts W) (R : W → W → Prop) : KMap (DistVals W) → KMap (DistVals W) → Prop := LRel fun e e' => e.1 = e'.1 ∧ VRel k R e.2 e'.2

omit [CCmp W] in
theorem MRel.keys {m m' : KMap (DistVals W)} (h : MRel k R m m') : m.keys = m'.keys := by
  induction h with
  | nil => rfl
  | cons h _ ih => exact congrArg₂ List.cons h.1 ih

omit [CCmp W] in
theorem MRel.length {m m' : KMap (DistVals W)} (h : MRel k R m m') : m.length = m'.length := LRel.length h

omit [CCmp W] in
theorem MRel.lookup {m m' : KMap (DistVals W)} (h : MRel k R m m') (c : Nat) : OptRel (VRel k R) (m.lookup c) (m'.lookup c) := by
  induction h with
  | nil => trivial
  | @cons e e' l l' h _ ih =>
    unfold KMap.lookup at ih ⊢
    rw [List.find?_cons, List.find?_cons, h.1]
    by_cases hc : e'.1 = c
    · simp only [hc, decide_true, Option.map_some]
      exact h.2
    · simp only [hc, decide_false]
      exact ih

omit [CCmp W] in
theorem MRel.insert {m m' : KMap (DistVals W)} (h : MRel k R m m') (c : Nat) {v v' : DistVals W} (hv : VRel k R v v') : MRel k R (m.insert c v) (m'.insert c v') := by
  induction h with
  | nil => exact .cons ⟨rfl, hv⟩ .nil
  | @cons e e' l l' h t ih =>
    obtain ⟨a, b⟩ := e
    obtain ⟨a', b'⟩ := e'
    obtain ⟨h1, h2⟩ := h
    dsimp only at h1
    subst h1
    unfold KMap.insert
    split
    · exact .cons ⟨rfl, hv⟩ (.cons ⟨rfl, h2⟩ t)
    split
    · exact .cons ⟨rfl, hv⟩ t
    · exact .cons ⟨rfl, h2⟩ ih

theorem minMax_mrel {dis dis' : Distance W} {n : Nat} (h : Between k R) (hget : ∀ i j, i < n → j < n → ORel R (dis.get k.zero i j) (dis'.get k.zero i j))
    (hcore : ∀ i, i < n → ORel R (rdInit dis.coreDistances i) (rdInit dis'.coreDistances i)) : ∀ (cl : KMap (List Nat)) {m m' : KMap (DistVals W)}, (∀ x ∈ cl, ∀ i ∈ x.2, i < n) → MRel k R m m' →
    ORel (MRel k R) (DMap.loop k dis cl m) (DMap.loop k dis' cl m')
  | [], _, _, _, hm => .ok hm
  | (key, l) :: r, m, m', hcl, hm => by
    unfold DMap.loop
    refine ORel.bind (members_vrel h hget hcore l (hcl _ List.mem_cons_self) (hm.lookup key)) fun v v' hv => ?_
    have hr : ∀ x ∈ r, ∀ i ∈ x.2, i < n := fun x hx => hcl x (List.mem_cons_of_mem _ hx)
    cases v <;> cases v'
    · exact minMax_mrel h hget hcore r hr hm
    · exact hv.elim
    · exact hv.elim
    · exact minMax_mrel h hget hcore r hr (hm.insert key hv)

/-! ### Statistics -/

section
variable {o : Stat.Ops W} (hdiv : ∀ {a a' b b'}, R a a' → R b b' → o.div a b = o.div a' b')
include hdiv

omit [CCmp W] in
theorem ratios_same {m m' : KMap (DistVals W)} (h : MRel k R m m') :
    m.map (fun e => Stat.crRatio o e.2) = m'.map (fun e => Stat.crRatio o e.2) ∧ m.map (fun e => Stat.drRatio o e.2) = m'.map (fun e => Stat.drRatio o e.2) := by
  induction h with
  | nil => exact ⟨rfl, rfl⟩
  | cons h _ ih =>
    refine ⟨congrArg₂ List.cons (hdiv h.2.maxCr h.2.minCr) ih.1, congrArg₂ List.cons ?_ ih.2⟩
    rcases h.2.dr with ⟨a1, a2, a3, a4⟩ | ⟨b1, b2⟩
    · simp only [Stat.drRatio, a1, a2, a3, a4]
    · exact hdiv b2 b1

theorem calculate_mrel {m m' : KMap (DistVals W)} (h : MRel k R m m') (old : Stat.Stats W) :
    ORel (fun a b => MRel k R a.1 b.1 ∧ a.2 = b.2) (Stat.calculate o m old) (Stat.calculate o m' old) := by
  obtain ⟨h1, h2⟩ := ratios_same hdiv h
  unfold Stat.calculate
  rw [h.length, h1, h2]
  refine ORel.bind_same _ fun core => ORel.bind_same _ fun intra => .ok ⟨?_, rfl⟩
  clear h1 h2
  induction h with
  | nil => exact .nil
  | @cons e e' _ _ h _ ih =>
    refine .cons ⟨h.1, h.2.minCr, h.2.maxCr, ?_, ?_, h.2.dr⟩ ih
    · show Stat.confidence o core.max (Stat.crRatio o e.2) = Stat.confidence o core.max (Stat.crRatio o e'.2)
      rw [Stat.crRatio, Stat.crRatio, hdiv h.2.maxCr h.2.minCr]
    · show Stat.confidence o intra.max (Stat.drRatio o e.2) = Stat.confidence o intra.max (Stat.drRatio o e'.2)
      rcases h.2.dr with ⟨a1, a2, a3, a4⟩ | ⟨b1, b2⟩
      · rw [Stat.drRatio, Stat.drRatio, a1, a2, a3, a4]
      · rw [Stat.drRatio, Stat.drRatio, hdiv b2 b1]

end

/-! ### Orders -/

omit [CCmp W] in
theorem conf_same {v v' : DistVals W} (h : VRel k R v v') (ct : Bool) : CSort.conf ct v = CSort.conf ct v' := by
  cases ct
  · exact h.drConf
  · exact h.crConf

omit [CCmp W] in
theorem fetch_same {m m' : KMap (DistVals W)} (h : MRel k R m m') (ct : Bool) : ∀ count i, CSort.fetch m ct count i = CSort.fetch m' ct count i
  | 0, _ => rfl
  | count + 1, i => by
    unfold CSort.fetch
    rw [h.keys]
    congr 1
    funext key
    have hl := h.lookup key
    cases e : m.lookup key <;> cases e' : m'.lookup key <;> rw [e, e'] at hl
    · exact hl.elim
    · exact hl.elim
    · simp only [fetch_same h ct count (i + 1), conf_same hl]

omit [CCmp W] in
theorem cppFetch_same {m m' : KMap (DistVals W)} (h : MRel k R m m') (ct : Bool) : ∀ l, CSort.cppFetch m ct l = CSort.cppFetch m' ct l
  | [] => rfl
  | key :: r => by
    unfold CSort.cppFetch
    have hl := h.lookup key
    cases e : m.lookup key <;> cases e' : m'.lookup key <;> rw [e, e'] at hl
    · exact hl.elim
    · exact hl.elim
    · simp only [cppFetch_same h ct r, conf_same hl]

omit [CCmp W] in
theorem confs_same {m m' : KMap (DistVals W)} (h : MRel k R m m') (ct : Bool) : m.map (fun e => CSort.conf ct e.2) = m'.map (fun e => CSort.conf ct e.2) := by
  induction h with
  | nil => rfl
  | cons h _ ih => exact congrArg₂ List.cons (conf_same h.2 ct) ih

theorem bySimilarity_same {m m' : KMap (DistVals W)} (h : MRel k R m m') (cl : Option (List Nat)) (ct : Bool) : CSort.bySimilarity m cl ct = CSort.bySimilarity m' cl ct := by
  unfold CSort.bySimilarity
  cases cl with
  | none => simp only [h.length, h.keys, confs_same h]
  | some cl => simp only [fetch_same h]

theorem cppBySimilarity_same {m m' : KMap (DistVals W)} (h : MRel k R m m') (cl : List Nat) (ct : Bool) : CSort.cppBySimilarity m cl ct = CSort.cppBySimilarity m' cl ct := by
  unfold CSort.cppBySimilarity
  simp only [h.keys, confs_same h, cppFetch_same h]

/-- Related reports. -/
structure RepRel (k : DMap.Consts W) (R : W → W → Prop) (r r' : Report.Report W) : Prop where
  map : r.map = r'.map
  distances : MRel k R r.distances r'.distances
  stats : r.stats = r'.stats
  byLength : r.byLength = r'.byLength
  bySimilarity : r.bySimilarity = r'.bySimilarity

section
variable {dis dis' : Distance W} {n : Nat} {labels : List Nat} {o : Stat.Ops W} (h : Between k R) (hget : ∀ i j, i < n → j < n → ORel R (dis.get k.zero i j) (dis'.get k.zero i j))
  (hcore : ∀ i, i < n → ORel R (rdInit dis.coreDistances i) (rdInit dis'.coreDistances i)) (hdiv : ∀ {a a' b b'}, R a a' → R b b' → o.div a b = o.div a' b') (old : Stat.Stats W) (ct : Bool)
include h hget hcore hdiv

theorem make_rel (hmap : ∀ m, CMap.create labels 0 n = .ok m → ∀ x ∈ m, ∀ i ∈ x.2, i < n) :
    ORel (RepRel k R) (Report.make k o labels n dis old ct) (Report.make k o labels n dis' old ct) := by
  unfold Report.make
  cases e : CMap.create labels 0 n with
  | ok map =>
    rw [Outcome.ok_bind, Outcome.ok_bind]
    refine ORel.bind (minMax_mrel h hget hcore map (hmap map e) .nil) fun d d' hd => ?_
    refine ORel.bind (calculate_mrel hdiv hd old) fun a b hab => ?_
    refine ORel.bind_same _ fun byLen => ?_
    rw [bySimilarity_same hab.1]
    exact ORel.bind_same _ fun bySim => .ok ⟨rfl, hab.1, hab.2, rfl, rfl⟩
  | ub s => exact .ub s
  | abort s => exact .abort s
  | diverge => exact .diverge

theorem cppMake_rel (hmap : ∀ m, CMap.cppCreate labels 0 n = .ok m → ∀ x ∈ m, ∀ i ∈ x.2, i < n) :
    ORel (RepRel k R) (Report.cppMake k o labels n dis old ct) (Report.cppMake k o labels n dis' old ct) := by
  unfold Report.cppMake
  cases e : CMap.cppCreate labels 0 n with
  | ok map =>
    rw [Outcome.ok_bind, Outcome.ok_bind]
    refine ORel.bind (minMax_mrel h hget hcore map (hmap map e) .nil) fun d d' hd => ?_
    refine ORel.bind (calculate_mrel hdiv hd old) fun a b hab => ?_
    refine ORel.bind_same _ fun byLen => ?_
    rw [cppBySimilarity_same hab.1]
    exact ORel.bind_same _ fun bySim => .ok ⟨rfl, hab.1, hab.2, rfl, rfl⟩
  | ub s => exact .ub s
  | abort s => exact .abort s
  | diverge => exact .diverge

end
end Verif.Param
