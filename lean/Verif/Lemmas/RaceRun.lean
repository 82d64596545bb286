import Verif.Model.RaceRun
import Verif.Props.Race
/-
Helper lemmas: the construction of the hierarchy does not look at the offsets of clusters.
-/
namespace Verif.Race
open Hier Spec
variable {D W S T : Type}

/-- A cluster whose offset was lost. -/
def drop (b : Bool) (c : Cl W S) : Cl W S := { c with offset := if b then 0 else c.offset }

/-- The clusters with the offsets of some of them lost. -/
def forget (lost : Nat → Bool) (cs : List (Option (Cl W S))) : List (Option (Cl W S)) := cs.mapIdx fun l c => c.map (drop (lost l))

variable {lost : Nat → Bool}

theorem forget_get (cs : List (Option (Cl W S))) (l : Nat) : (forget lost cs)[l]? = cs[l]?.map fun c => c.map (drop (lost l)) := by
  simp [forget, List.getElem?_mapIdx]

theorem forget_length (cs : List (Option (Cl W S))) : (forget lost cs).length = cs.length := by simp [forget]

theorem getCl_get {cs : List (Option (Cl W S))} {l : Nat} {c : Cl W S} (h : getCl cs l = .ok c) : cs[l]? = some (some c) := by
  unfold getCl rd at h
  cases hl : cs[l]? with
  | none => rw [hl] at h; cases h
  | some o =>
    rw [hl] at h
    cases o with
    | none => cases h
    | some c' => cases h; rfl

theorem getCl_forget {cs : List (Option (Cl W S))} {l : Nat} {c : Cl W S} (h : getCl cs l = .ok c) : getCl (forget lost cs) l = .ok (drop (lost l) c) := by
  refine getCl_ok ?_
  rw [forget_get, getCl_get h]
  rfl

theorem wr_forget {cs cs' : List (Option (Cl W S))} {l : Nat} {c : Cl W S} (h : wr cs l (some c) = .ok cs') : wr (forget lost cs) l (some (drop (lost l) c)) = .ok (forget lost cs') := by
  unfold wr at h ⊢
  rw [forget_length]
  split at h
  · rename_i hl
    rw [if_pos hl]
    cases h
    refine congrArg Outcome.ok (List.ext_getElem? fun k => ?_)
    rw [forget_get, List.getElem?_set, List.getElem?_set, forget_length, forget_get]
    by_cases hk : l = k
    · subst hk
      simp [hl]
    · simp [hk]
  · cases h

theorem forget_append (cs : List (Option (Cl W S))) (c : Cl W S) (hc : c.offset = 0) : forget lost (cs ++ [some c]) = forget lost cs ++ [some c] := by
  have : ∀ b, drop b c = c := by
    intro b
    cases c
    simp only at hc
    subst hc
    cases b <;> rfl
  simp [forget, this]

theorem detach_drop (ar : Arith W S) (b : Bool) (c : Cl W S) (k : Nat) (w : W) : ((drop b c).detach ar k w).1 = drop b (c.detach ar k w).1 := by
  by_cases h0 : subIndex c.numPoints k = 0
  · have h0' : subIndex (drop b c).numPoints k = 0 := h0
    simp only [Cl.detach, Cl.detachTo, if_pos h0, if_pos h0']
    rfl
  · have h0' : ¬ subIndex (drop b c).numPoints k = 0 := h0
    by_cases h1 : ((subIndex c.numPoints k : Nat) : Int) < 0
    · have h1' : ((subIndex (drop b c).numPoints k : Nat) : Int) < 0 := h1
      simp only [Cl.detach, Cl.detachTo, if_neg h0, if_pos h1, if_neg h0', if_pos h1']
      rfl
    · have h1' : ¬ ((subIndex (drop b c).numPoints k : Nat) : Int) < 0 := h1
      simp only [Cl.detach, Cl.detachTo, if_neg h0, if_neg h1, if_neg h0', if_neg h1']
      rfl

theorem detach_offset (ar : Arith W S) (c : Cl W S) (k : Nat) (w : W) : (c.detach ar k w).1.offset = c.offset := by
  by_cases h0 : subIndex c.numPoints k = 0
  · simp only [Cl.detach, Cl.detachTo, if_pos h0]
  · by_cases h1 : ((subIndex c.numPoints k : Nat) : Int) < 0
    · simp only [Cl.detach, Cl.detachTo, if_neg h0, if_pos h1]
    · simp only [Cl.detach, Cl.detachTo, if_neg h0, if_neg h1]

/-- A work state with offsets lost. -/
def forgetW (lost : Nat → Bool) (wk : Work W S) : Work W S := { wk with clusters := forget lost wk.clusters }

/-- The offsets of the clusters. -/
def offs (cs : List (Option (Cl W S))) : List (Option Nat) := cs.map fun c => c.map (·.offset)

/-- The clusters that were there at the beginning of the level have the offsets `base`; those born since then have no offset yet. -/
structure WInv (base : List (Option Nat)) (wk : Work W S) : Prop where
  next : wk.next = wk.clusters.length
  offs : offs wk.clusters = base ++ List.replicate wk.fresh.length (some 0)
  fresh : wk.fresh = List.range' base.length wk.fresh.length

variable {base : List (Option Nat)}

theorem offs_wr {cs cs' : List (Option (Cl W S))} {q : Nat} {c c' : Cl W S} (hc : getCl cs q = .ok c) (ho : c'.offset = c.offset)
    (hw : wr cs q (some c') = .ok cs') : cs'.length = cs.length ∧ offs cs' = offs cs := by
  unfold wr at hw
  split at hw
  · rename_i hq
    cases hw
    refine ⟨by simp, List.ext_getElem? fun l => ?_⟩
    simp only [offs, List.getElem?_map]
    by_cases hlq : q = l
    · subst hlq
      rw [getCl_get hc]
      simp [hq, ho]
    · rw [List.getElem?_set_ne hlq]
  · cases hw

theorem newCluster_forget {ar : Arith W S} {points : List Nat} {parent : Nat} {w : W} {wk wk' : Work W S} (h : newCluster ar points parent w wk = .ok wk') (hi : WInv base wk) :
    newCluster ar points parent w (forgetW lost wk) = .ok (forgetW lost wk') ∧ WInv base wk' := by
  unfold newCluster at h ⊢
  obtain ⟨cur, e1, h⟩ := Outcome.bind_eq_ok.mp h
  obtain ⟨c, e2, h⟩ := Outcome.bind_eq_ok.mp h
  obtain ⟨cs, e3, h⟩ := Outcome.bind_eq_ok.mp h
  cases h
  constructor
  · show (setAll wk.next points wk.cur >>= _) = _
    rw [e1, Outcome.ok_bind]
    show (getCl (forget lost wk.clusters) parent >>= _) = _
    rw [getCl_forget e2, Outcome.ok_bind]
    have := wr_forget (lost := lost) e3
    have hd : (drop (lost parent) { (c.detach ar points.length w).1 with hasChildren := true }) =
        { ((drop (lost parent) c).detach ar points.length w).1 with hasChildren := true } := by rw [detach_drop]; rfl
    rw [hd] at this
    show (wr (forget lost wk.clusters) parent _ >>= _) = _
    rw [this, Outcome.ok_bind]
    simp only [forgetW, Outcome.pure_eq]
    rw [forget_append _ _ rfl]
  · obtain ⟨hl, hn⟩ := offs_wr (c' := { (c.detach ar points.length w).1 with hasChildren := true }) e2 (detach_offset ar c points.length w) e3
    refine ⟨by simp [hi.next, hl], ?_, ?_⟩
    · have h0 : offs (cs ++ [some (Cl.init ar wk.next (some parent) (some w) points.length)]) = offs cs ++ [some 0] := by simp [offs, Cl.init]
      show offs (cs ++ [some (Cl.init ar wk.next (some parent) (some w) points.length)]) = base ++ List.replicate (wk.fresh ++ [wk.next]).length (some 0)
      rw [h0, hn, hi.offs, List.append_assoc, List.length_append, List.length_singleton, List.replicate_succ']
    · have hlen : wk.next = base.length + wk.fresh.length := by
        have := congrArg List.length hi.offs
        simp only [offs, List.length_map, List.length_append, List.length_replicate] at this
        rw [hi.next, this]
      show wk.fresh ++ [wk.next] = List.range' base.length (wk.fresh ++ [wk.next]).length
      rw [List.length_append, List.length_singleton, List.range'_concat, ← hi.fresh, hlen, Nat.one_mul]

theorem newNoise_forget {ar : Arith W S} {points : List Nat} {parent : Nat} {w : W} {wk wk' : Work W S} (h : newNoise ar points parent w wk = .ok wk') (hi : WInv base wk) :
    newNoise ar points parent w (forgetW lost wk) = .ok (forgetW lost wk') ∧ WInv base wk' := by
  unfold newNoise at h ⊢
  obtain ⟨cur, e1, h⟩ := Outcome.bind_eq_ok.mp h
  obtain ⟨c, e2, h⟩ := Outcome.bind_eq_ok.mp h
  obtain ⟨cs, e3, h⟩ := Outcome.bind_eq_ok.mp h
  obtain ⟨ns, e4, h⟩ := Outcome.bind_eq_ok.mp h
  obtain ⟨ls, e5, h⟩ := Outcome.bind_eq_ok.mp h
  cases h
  constructor
  · show (setAll 0 points wk.cur >>= _) = _
    rw [e1, Outcome.ok_bind]
    show (getCl (forget lost wk.clusters) parent >>= _) = _
    rw [getCl_forget e2, Outcome.ok_bind]
    have := wr_forget (lost := lost) e3
    have hd : drop (lost parent) ((c.detach ar points.length w).1.addVirtual points) = ((drop (lost parent) c).detach ar points.length w).1.addVirtual points := by rw [detach_drop]; rfl
    rw [hd] at this
    show (wr (forget lost wk.clusters) parent _ >>= _) = _
    rw [this, Outcome.ok_bind]
    show (setAll (some w) points wk.noise >>= _) = _
    rw [e4, Outcome.ok_bind]
    show (setAll (some parent) points wk.last >>= _) = _
    rw [e5, Outcome.ok_bind]
    rfl
  · obtain ⟨hl, hn⟩ := offs_wr (c' := (c.detach ar points.length w).1.addVirtual points) e2 (detach_offset ar c points.length w) e3
    exact ⟨by simp [hi.next, hl], hn.trans hi.offs, hi.fresh⟩

theorem settle_forget {ar : Arith W S} {m label : Nat} {w : W} {e e' : Ex} {wk wk' : Work W S} (h : settle ar m label w e wk = .ok (e', wk')) (hi : WInv base wk) :
    settle ar m label w e (forgetW lost wk) = .ok (e', forgetW lost wk') ∧ WInv base wk' := by
  unfold settle at h ⊢
  split at h
  · rename_i h1
    rw [if_pos h1]
    cases hg : e.first.getLast? with
    | none => rw [hg] at h; cases h
    | some x =>
      rw [hg] at h
      simp only at h ⊢
      split at h
      · rename_i h2
        rw [if_pos h2]
        cases h
        exact ⟨rfl, hi⟩
      · rename_i h2
        rw [if_neg h2]
        obtain ⟨wk1, e1, h⟩ := Outcome.bind_eq_ok.mp h
        cases h
        obtain ⟨a, b⟩ := newCluster_forget (lost := lost) e1 hi
        rw [a]
        exact ⟨rfl, b⟩
  · rename_i h1
    rw [if_neg h1]
    split at h
    · rename_i h2
      rw [if_pos h2]
      obtain ⟨wk1, e1, h⟩ := Outcome.bind_eq_ok.mp h
      cases h
      obtain ⟨a, b⟩ := newNoise_forget (lost := lost) e1 hi
      rw [a]
      exact ⟨rfl, b⟩
    · rename_i h2
      rw [if_neg h2]
      cases h
      exact ⟨rfl, hi⟩

theorem roots_forget {ar : Arith W S} {adj : List (List Nat)} {m label : Nat} {w : W} (fuel : Nat) : ∀ {e e' : Ex} {wk wk' : Work W S}, roots ar adj m label w fuel e wk = .ok (e', wk') → WInv base wk →
    roots ar adj m label w fuel e (forgetW lost wk) = .ok (e', forgetW lost wk') ∧ WInv base wk' := by
  induction fuel with
  | zero =>
    intro e e' wk wk' h hi
    unfold roots at h ⊢
    split at h
    · rename_i h1
      rw [if_pos h1]; cases h; exact ⟨rfl, hi⟩
    · cases h
  | succ k ih =>
    intro e e' wk wk' h hi
    unfold roots at h ⊢
    cases hg : e.examined.getLast? with
    | none => rw [hg] at h; cases h; exact ⟨rfl, hi⟩
    | some x =>
      rw [hg] at h
      simp only at h ⊢
      obtain ⟨e1, a1, h⟩ := Outcome.bind_eq_ok.mp h
      obtain ⟨⟨e2, wk1⟩, a2, h⟩ := Outcome.bind_eq_ok.mp h
      obtain ⟨b1, b2⟩ := settle_forget (lost := lost) a2 hi
      obtain ⟨c1, c2⟩ := ih h b2
      refine ⟨?_, c2⟩
      rw [a1, Outcome.ok_bind, b1, Outcome.ok_bind]
      exact c1

theorem finish_forget {ar : Arith W S} {adj : List (List Nat)} {label : Nat} {w : W} {e : Ex} {wk wk' : Work W S} (h : finish ar adj label w e wk = .ok wk') (hi : WInv base wk) :
    finish ar adj label w e (forgetW lost wk) = .ok (forgetW lost wk') ∧ WInv base wk' := by
  unfold finish at h ⊢
  split at h
  · rename_i h1
    rw [if_pos h1]
    obtain ⟨dd, a1, h⟩ := Outcome.bind_eq_ok.mp h
    obtain ⟨l, a2, h⟩ := Outcome.bind_eq_ok.mp h
    rw [a1, Outcome.ok_bind]
    show (rd wk.cur dd >>= _) = _ ∧ _
    rw [a2, Outcome.ok_bind]
    split at h
    · rename_i h2
      rw [if_pos h2]
      obtain ⟨first, a3, h⟩ := Outcome.bind_eq_ok.mp h
      rw [a3, Outcome.ok_bind]
      exact newCluster_forget h hi
    · rename_i h2
      rw [if_neg h2]; cases h; exact ⟨rfl, hi⟩
  · rename_i h1
    rw [if_neg h1]; cases h; exact ⟨rfl, hi⟩

theorem clustersLoop_forget {ar : Arith W S} {adj : List (List Nat)} {m : Nat} {w : W} (fuel : Nat) : ∀ {affL affV affV' : List Nat} {wk wk' : Work W S},
    clustersLoop ar adj m w fuel affL affV wk = .ok (affV', wk') → WInv base wk →
    clustersLoop ar adj m w fuel affL affV (forgetW lost wk) = .ok (affV', forgetW lost wk') ∧ WInv base wk' := by
  induction fuel with
  | zero =>
    intro affL affV affV' wk wk' h hi
    unfold clustersLoop at h ⊢
    split at h
    · rename_i h1
      rw [if_pos h1]; cases h; exact ⟨rfl, hi⟩
    · cases h
  | succ k ih =>
    intro affL affV affV' wk wk' h hi
    unfold clustersLoop at h ⊢
    cases hg : affL.getLast? with
    | none => rw [hg] at h; cases h; exact ⟨rfl, hi⟩
    | some x =>
      rw [hg] at h
      simp only at h ⊢
      obtain ⟨⟨ex, v1⟩, a1, h⟩ := Outcome.bind_eq_ok.mp h
      obtain ⟨⟨e1, wk1⟩, a2, h⟩ := Outcome.bind_eq_ok.mp h
      obtain ⟨wk2, a3, h⟩ := Outcome.bind_eq_ok.mp h
      obtain ⟨b1, b2⟩ := roots_forget (lost := lost) _ a2 hi
      obtain ⟨c1, c2⟩ := finish_forget (lost := lost) a3 b2
      obtain ⟨d1, d2⟩ := ih h c2
      refine ⟨?_, d2⟩
      show (collect wk.cur x affV [] [] >>= _) = _
      rw [a1, Outcome.ok_bind, b1, Outcome.ok_bind, c1, Outcome.ok_bind]
      exact d1

theorem setOffsets_set {lc : Nat} : ∀ {fresh : List Nat} {cs cs' : List (Option (Cl W S))}, setOffsets lc fresh cs = .ok cs' → OffsetsSet lc fresh cs cs'
  | [], cs, cs', h => by cases h; exact Props.offsets_nil _
  | l :: r, cs, cs', h => by
    unfold setOffsets at h
    obtain ⟨c, e1, h⟩ := Outcome.bind_eq_ok.mp h
    obtain ⟨cs1, e2, h⟩ := Outcome.bind_eq_ok.mp h
    have h1 : OffsetsSet lc [l] cs cs1 := by
      have hc := getCl_get e1
      have hl := (List.getElem?_eq_some_iff.1 hc).1
      rw [wr_ok hl] at e2
      cases e2
      intro k
      by_cases hk : k = l
      · subst hk
        rw [hc]
        simp [hl]
      · rw [List.getElem?_set_ne (by omega)]
        simp only [List.mem_singleton, hk, if_false, Option.map_id']
    exact Props.offsets_trans h1 (setOffsets_set h)

/-- The clusters in `lost` were born at some line, and at the same line a cluster was born that is not in `lost`. -/
structure RInv (lost : Nat → Bool) (cs : List (Option (Cl W S))) : Prop where
  kept : ∀ l, lost l = true → ∃ k l', k ≠ 0 ∧ (offs cs)[l]? = some (some k) ∧ (offs cs)[l']? = some (some k) ∧ lost l' = false

theorem WInv.new {wk : Work W S} (hi : WInv base wk) : ∀ l ∈ wk.fresh, ∃ c, wk.clusters[l]? = some (some c) ∧ c.offset = 0 := by
  intro l hl
  rw [hi.fresh, List.mem_range'_1] at hl
  obtain ⟨h1, h2⟩ := hl
  have := congrArg (·[l]?) hi.offs
  simp only [Race.offs, List.getElem?_map] at this
  rw [List.getElem?_append_right h1, List.getElem?_replicate, if_pos (by omega)] at this
  cases hx : wk.clusters[l]? with
  | none => rw [hx] at this; cases this
  | some o =>
    rw [hx] at this
    cases o with
    | none => cases this
    | some c => exact ⟨c, rfl, by simpa using this⟩

/-- Every interleaving of the loop has the effect of the sequential loop, apart from some offsets. -/
theorem offsets_forget {lc : Nat} {wk : Work W S} (hlc : wk.fresh ≠ [] → lc ≠ 0) (hi : WInv base wk) {cs cs' : List (Option (Cl W S))} (hr : RInv lost cs) (ho : offs cs = base)
    {acts : List Access} (ha : Interleaving wk.fresh.length acts) (h : setOffsets lc wk.fresh wk.clusters = .ok cs') :
    ∃ lost', offsets lc wk.fresh acts (forget lost wk.clusters) = .ok (forget lost' cs') ∧ RInv lost' cs' := by
  have hset := setOffsets_set h
  have hmem : ∀ l, l ∈ wk.fresh ↔ base.length ≤ l ∧ l < base.length + wk.fresh.length := by
    intro l
    conv_lhs => rw [hi.fresh]
    rw [List.mem_range'_1]
  have hnew := hi.new
  have hold : ∀ l k, (offs cs)[l]? = some (some k) → (offs cs')[l]? = some (some k) ∧ l ∉ wk.fresh := by
    intro l k hk
    rw [ho] at hk
    have hlt := (List.getElem?_eq_some_iff.1 hk).1
    have hn : l ∉ wk.fresh := fun hm => by have := ((hmem l).1 hm).1; omega
    refine ⟨?_, hn⟩
    have h1 : (offs wk.clusters)[l]? = some (some k) := by rw [hi.offs, List.getElem?_append_left hlt, hk]
    simp only [offs, List.getElem?_map] at h1 ⊢
    rw [hset l]
    simp only [hn, if_false, Option.map_id']
    exact h1
  have hoffnew : ∀ l ∈ wk.fresh, (offs cs')[l]? = some (some lc) := by
    intro l hl
    obtain ⟨c, hc, _⟩ := hnew l hl
    simp only [offs, List.getElem?_map]
    rw [hset l, hc]
    simp [hl]
  by_cases hne : wk.fresh = []
  · have hacts : acts = [] := by
      have := ha.once
      rw [hne] at this
      simpa using this
    rw [hne] at h ⊢
    cases h
    refine ⟨lost, ?_, ⟨fun l hl => ?_⟩⟩
    · subst hacts; rfl
    · obtain ⟨k, l', a, b, c, d⟩ := hr.kept l hl
      exact ⟨k, l', a, (hold l k b).1, (hold l' k c).1, d⟩
  · obtain ⟨cs2, part, e, hs, hp, hpf⟩ := Props.C37_every_interleaving lc wk.fresh hne (forget lost wk.clusters)
      (fun l hl => by
        obtain ⟨c, hc, _⟩ := hnew l hl
        exact ⟨drop (lost l) c, by rw [forget_get, hc]; rfl⟩) acts ha
    refine ⟨fun l => if l ∈ part then false else if l ∈ wk.fresh then true else lost l, ?_, ⟨?_⟩⟩
    · rw [e]
      refine congrArg Outcome.ok (List.ext_getElem? fun l => ?_)
      rw [hs l, forget_get, forget_get, hset l]
      by_cases h1 : l ∈ part
      · have h2 := hpf l h1
        obtain ⟨c, hc, _⟩ := hnew l h2
        rw [hc]
        simp [h1, h2, drop]
      · by_cases h2 : l ∈ wk.fresh
        · obtain ⟨c, hc, hc0⟩ := hnew l h2
          rw [hc]
          simp [h1, h2, drop, hc0]
        · cases wk.clusters[l]? with
          | none => rfl
          | some o => simp [h1, h2]
    · intro l hl
      by_cases h1 : l ∈ part
      · simp [h1] at hl
      · by_cases h2 : l ∈ wk.fresh
        · obtain ⟨x, hx⟩ := List.exists_mem_of_ne_nil _ hp
          exact ⟨lc, x, hlc hne, hoffnew l h2, hoffnew x (hpf x hx), by simp [hx]⟩
        · simp only [h1, h2, if_false] at hl
          obtain ⟨k, l', a, b, c, d⟩ := hr.kept l hl
          obtain ⟨c1, c2⟩ := hold l' k c
          have c3 : l' ∉ part := fun hm => c2 (hpf l' hm)
          exact ⟨k, l', a, (hold l k b).1, c1, by simp [c2, c3, d]⟩

/-- A state of the main loop with offsets lost. -/
def forgetS (lost : Nat → Bool) (st : St W S) : St W S := { st with wk := forgetW lost st.wk }

/-- One level, taken apart. -/
theorem level_cases [CCmp W] {ar : Arith W S} {m : Nat} {compact : Bool} {va vb : List Nat} {wt : List W} {k k' : Nat} {st st' : St W S}
    (h : Hier.level ar m compact va vb wt k st = .ok (k', st')) (hn : st.wk.next = st.wk.clusters.length) (hb : 2 ≤ st.wk.clusters.length) :
    st'.wk.next = st'.wk.clusters.length ∧ 2 ≤ st'.wk.clusters.length ∧ st.lineCount ≤ st'.lineCount ∧
    ((st'.wk.clusters = st.wk.clusters ∧ ∀ th lost, Race.level th ar m compact va vb wt k (forgetS lost st) = .ok (k', forgetS lost st')) ∨
      ∃ wk' : Work W S, ∃ lc, WInv (offs st.wk.clusters) wk' ∧ setOffsets lc wk'.fresh wk'.clusters = .ok st'.wk.clusters ∧
        (wk'.fresh ≠ [] → lc = st'.lineCount ∧ st.lineCount < lc) ∧
        ∀ th lost lost', offsets lc wk'.fresh (th lc wk'.fresh) (forget lost wk'.clusters) = .ok (forget lost' st'.wk.clusters) →
          Race.level th ar m compact va vb wt k (forgetS lost st) = .ok (k', forgetS lost' st')) := by
  unfold Hier.level at h
  unfold Race.level
  obtain ⟨w, e1, h⟩ := Outcome.bind_eq_ok.mp h
  obtain ⟨r, e2, h⟩ := Outcome.bind_eq_ok.mp h
  have e2' : ∀ lost, removeTied va vb wt (forgetS lost st).wk.cur w (k + 1) { k := k + 1, adj := (forgetS lost st).adj, affV := (forgetS lost st).affV, affL := [] } = .ok r :=
    fun _ => e2
  split at h
  · rename_i h0
    cases h
    refine ⟨hn, hb, Nat.le_refl _, .inl ⟨rfl, fun th lost => ?_⟩⟩
    rw [e1, Outcome.ok_bind, e2', Outcome.ok_bind, if_pos h0]
    rfl
  · rename_i h0
    obtain ⟨⟨affV', wk'⟩, e3, h⟩ := Outcome.bind_eq_ok.mp h
    obtain ⟨st1, e4, h⟩ := Outcome.bind_eq_ok.mp h
    cases h
    have hw0 : WInv (offs st.wk.clusters) { st.wk with fresh := [] } := ⟨hn, by simp, by simp⟩
    have f2 := (clustersLoop_forget (lost := fun _ => false) _ e3 hw0).2
    unfold Hier.endLevel at e4
    obtain ⟨cs, e5, e4⟩ := Outcome.bind_eq_ok.mp e4
    cases e4
    have hlen : cs.length = wk'.clusters.length := by
      have := setOffsets_set e5
      have hl : ∀ i, i < cs.length ↔ i < wk'.clusters.length := by
        intro i
        rw [← not_iff_not, not_lt, not_lt, ← List.getElem?_eq_none_iff, ← List.getElem?_eq_none_iff, this i]
        simp
      have a := hl cs.length
      have b := hl wk'.clusters.length
      omega
    have hbig : 2 ≤ wk'.clusters.length := by
      have := congrArg List.length f2.offs
      simp only [offs, List.length_map, List.length_append, List.length_replicate] at this
      omega
    refine ⟨by rw [hlen]; exact f2.next, by rw [hlen]; exact hbig, ?_, .inr ⟨wk', _, f2, e5, ?_, fun th lost lost' g1 => ?_⟩⟩
    · show st.lineCount ≤ if _ then st.lineCount + 1 else st.lineCount
      split
      · exact Nat.le_succ _
      · exact Nat.le_refl _
    · intro hne
      have : wk'.fresh.isEmpty = false := by simpa using hne
      refine ⟨rfl, ?_⟩
      simp [this]
    · have f1' : clustersLoop ar r.adj m w r.affL.length r.affL r.affV { (forgetS lost st).wk with fresh := [] } = .ok (affV', forgetW lost wk') :=
        (clustersLoop_forget (lost := lost) _ e3 hw0).1
      rw [e1, Outcome.ok_bind, e2', Outcome.ok_bind, if_neg h0, f1', Outcome.ok_bind]
      unfold Race.endLevel
      show ((offsets _ wk'.fresh (th _ wk'.fresh) (forget lost wk'.clusters) >>= _) >>= _) = _
      erw [g1]
      rfl

theorem level_forget [CCmp W] {th : Threads} (hth : ∀ lc l, Interleaving l.length (th lc l)) {ar : Arith W S} {m : Nat} {compact : Bool} {va vb : List Nat} {wt : List W} {k k' : Nat} {st st' : St W S}
    (h : Hier.level ar m compact va vb wt k st = .ok (k', st')) (hn : st.wk.next = st.wk.clusters.length) (hb : 2 ≤ st.wk.clusters.length) (hr : RInv lost st.wk.clusters) :
    st'.wk.next = st'.wk.clusters.length ∧ 2 ≤ st'.wk.clusters.length ∧
      ∃ lost', Race.level th ar m compact va vb wt k (forgetS lost st) = .ok (k', forgetS lost' st') ∧ RInv lost' st'.wk.clusters := by
  obtain ⟨h1, h2, _, ⟨e, h3⟩ | ⟨wk', lc, h3, h4, h5, h6⟩⟩ := level_cases h hn hb
  · exact ⟨h1, h2, lost, h3 th lost, by rw [e]; exact hr⟩
  · obtain ⟨lost', g1, g2⟩ := offsets_forget (lc := lc) (fun hne => by have := h5 hne; omega) h3 hr rfl (acts := th lc wk'.fresh) (hth _ _) h4
    exact ⟨h1, h2, lost', h6 th lost lost' g1, g2⟩

theorem mainLoop_forget [CCmp W] {th : Threads} (hth : ∀ lc l, Interleaving l.length (th lc l)) {ar : Arith W S} {m : Nat} {compact : Bool} {va vb : List Nat} {wt : List W} (fuel : Nat) :
    ∀ {lost : Nat → Bool} {k : Nat} {st st' : St W S}, Hier.mainLoop ar m compact va vb wt fuel k st = .ok st' → st.wk.next = st.wk.clusters.length → 2 ≤ st.wk.clusters.length →
      RInv lost st.wk.clusters → ∃ lost', Race.mainLoop th ar m compact va vb wt fuel k (forgetS lost st) = .ok (forgetS lost' st') ∧ RInv lost' st'.wk.clusters := by
  induction fuel with
  | zero =>
    intro lost k st st' h hn hb hr
    cases k with
    | zero => unfold Hier.mainLoop at h; cases h; exact ⟨lost, by unfold Race.mainLoop; rfl, hr⟩
    | succ k => unfold Hier.mainLoop at h; cases h
  | succ fuel ih =>
    intro lost k st st' h hn hb hr
    cases k with
    | zero => unfold Hier.mainLoop at h; cases h; exact ⟨lost, by unfold Race.mainLoop; rfl, hr⟩
    | succ k =>
      unfold Hier.mainLoop at h
      obtain ⟨⟨k', st1⟩, e, h⟩ := Outcome.bind_eq_ok.mp h
      obtain ⟨h1, h2, lost1, e', h3⟩ := level_forget hth e hn hb hr
      obtain ⟨lost', e2, h4⟩ := ih h h1 h2 h3
      refine ⟨lost', ?_, h4⟩
      unfold Race.mainLoop
      rw [e', Outcome.ok_bind]
      exact e2

theorem forget_none (cs : List (Option (Cl W S))) : forget (fun _ => false) cs = cs := by
  refine List.ext_getElem? fun l => ?_
  rw [forget_get]
  cases cs[l]? with
  | none => rfl
  | some o => cases o <;> rfl

/-- `compute` under every interleaving: the result of the sequential run, apart from some offsets. -/
theorem compute_forget [CCmp W] {th : Threads} (hth : ∀ lc l, Interleaving l.length (th lc l)) {ar : Arith W S} {m : Nat} {compact : Bool} {g : Graph W} {res : Result W S}
    (h : Hier.compute ar m compact g = .ok res) :
    ∃ lost, Race.compute th ar m compact g = .ok { res with clusters := forget lost res.clusters } ∧ RInv lost res.clusters := by
  unfold Hier.compute at h
  obtain ⟨st, e, h⟩ := Outcome.bind_eq_ok.mp h
  cases h
  obtain ⟨lost, e', hr⟩ := mainLoop_forget (lost := fun _ => false) hth _ e rfl (by simp [initial]) ⟨by simp⟩
  refine ⟨lost, ?_, hr⟩
  unfold Race.compute
  have : forgetS (fun _ => false) (initial ar g) = initial ar g := by
    simp only [forgetS, forgetW, forget_none]
  rw [this] at e'
  rw [e']
  rfl

/-! ### Every loss that spares one cluster per line can happen -/

/-- The iterations in `keep` are executed one after the other, between the two accesses of all other iterations. -/
def only (keep : Nat → Bool) (k : Nat) : List Access :=
  ((List.range k).filter (fun i => !keep i)).map .assign ++ (oneByOne ((List.range k).filter keep) ++ ((List.range k).filter (fun i => !keep i)).map .write)

theorem only_interleaving (keep : Nat → Bool) (k : Nat) : Interleaving k (only keep k) := by
  have hp : ∀ a b : List Nat, (a.map Access.assign ++ (oneByOne b ++ a.map Access.write)).Perm ((b ++ a).flatMap (fun i => [.assign i, .write i])) := by
    intro a b
    have h1 : ∀ l : List Nat, (l.map Access.assign ++ l.map Access.write).Perm (l.flatMap (fun i => [.assign i, .write i])) := by
      intro l
      induction l with
      | nil => exact .refl _
      | cons i l ih =>
        simp only [List.map_cons, List.cons_append, List.flatMap_cons, List.nil_append]
        exact (List.perm_middle.trans (ih.cons _)).cons _
    rw [List.flatMap_append]
    refine List.Perm.trans ?_ ((h1 a).append_left _)
    rw [← List.append_assoc, ← List.append_assoc]
    exact List.Perm.append_right _ List.perm_append_comm
  refine ⟨(hp _ _).trans (List.Perm.flatMap_right _ (List.filter_append_perm keep (List.range k))), fun i hi => ?_⟩
  by_cases hk : keep i = true
  · have : i ∈ (List.range k).filter keep := List.mem_filter.2 ⟨List.mem_range.2 hi, hk⟩
    obtain ⟨a, b, hab⟩ := List.append_of_mem this
    refine ⟨((List.range k).filter (fun i => !keep i)).map .assign ++ oneByOne a, [], oneByOne b ++ ((List.range k).filter (fun i => !keep i)).map .write, ?_⟩
    rw [only, hab]
    simp [oneByOne]
  · have : i ∈ (List.range k).filter (fun i => !keep i) := List.mem_filter.2 ⟨List.mem_range.2 hi, by simpa using hk⟩
    obtain ⟨a, b, hab⟩ := List.append_of_mem this
    refine ⟨a.map .assign, b.map .assign ++ (oneByOne ((List.range k).filter keep) ++ a.map .write), b.map .write, ?_⟩
    rw [only, hab]
    simp

theorem run_assigns (lc : Nat) (fresh : List Nat) (cs : List (Option (Cl W S))) : ∀ (l : List Nat) (p : Option Nat), (∀ i ∈ l, i < fresh.length) →
    ∃ q, run lc fresh (l.map .assign) (p, cs) = .ok (q, cs)
  | [], p, _ => ⟨p, rfl⟩
  | i :: l, p, h => by
    have hi := h i (by simp)
    obtain ⟨q, e⟩ := run_assigns lc fresh cs l (some fresh[i]) (fun j hj => h j (by simp [hj]))
    refine ⟨q, ?_⟩
    have : step lc fresh (.assign i) (p, cs) = .ok (some fresh[i], cs) := by simp [step, rd_ok hi]
    rw [List.map_cons, run, this, Outcome.ok_bind, e]

theorem run_writes (lc : Nat) (fresh : List Nat) (p : Nat) : ∀ (l : List Nat) (a : List (Option (Cl W S))), (∃ c : Cl W S, a[p]? = some (some c)) →
    ∃ b part, run lc fresh (l.map .write) (some p, a) = .ok (some p, b) ∧ OffsetsSet lc part a b ∧ ∀ x ∈ part, x = p
  | [], a, _ => ⟨a, [], rfl, Props.offsets_nil a, by simp⟩
  | i :: l, a, h => by
    obtain ⟨b, e, hb⟩ := Props.step_write lc fresh i p a h
    obtain ⟨c, part, e', hc, hp⟩ := run_writes lc fresh p l b (Props.offsets_some hb h)
    refine ⟨c, [p] ++ part, by rw [List.map_cons, run, e, Outcome.ok_bind, e'], Props.offsets_trans hb hc, ?_⟩
    intro x hx
    rcases List.mem_append.1 hx with h | h
    · exact List.mem_singleton.1 h
    · exact hp x h

theorem run_oneByOne (lc : Nat) (fresh : List Nat) : ∀ (ord : List Nat) (ptr : Option Nat) (a : List (Option (Cl W S))), (∀ l ∈ fresh, ∃ c : Cl W S, a[l]? = some (some c)) →
    (∀ i ∈ ord, i < fresh.length) → ord ≠ [] →
    ∃ p b, run lc fresh (oneByOne ord) (ptr, a) = .ok (some p, b) ∧ OffsetsSet lc (ord.filterMap (fun i => fresh[i]?)) a b ∧ p ∈ ord.filterMap (fun i => fresh[i]?)
  | [], _, _, _, _, h => absurd rfl h
  | i :: ord, ptr, a, ha, hi, _ => by
    have hif := hi i (by simp)
    have hget : fresh[i]? = some fresh[i] := List.getElem?_eq_getElem hif
    obtain ⟨b, e, hb⟩ := Props.step_write lc fresh i fresh[i] a (ha _ (List.getElem_mem hif))
    have hst : step lc fresh (.assign i) (ptr, a) = .ok (some fresh[i], a) := by simp [step, rd_ok hif]
    have hrun : ∀ ord', run lc fresh (oneByOne (i :: ord')) (ptr, a) = run lc fresh (oneByOne ord') (some fresh[i], b) := by
      intro ord'
      rw [oneByOne, List.flatMap_cons, ← oneByOne]
      simp only [List.cons_append, List.nil_append, run]
      rw [hst, Outcome.ok_bind, e, Outcome.ok_bind]
    cases ord with
    | nil => exact ⟨fresh[i], b, by rw [hrun]; rfl, by simpa [hget] using hb, by simp [hget]⟩
    | cons j ord =>
      obtain ⟨p, c, e', hc, hp⟩ := run_oneByOne lc fresh (j :: ord) (some fresh[i]) b (fun l hl => Props.offsets_some hb (ha l hl)) (fun k hk => hi k (by simp [hk])) (by simp)
      refine ⟨p, c, by rw [hrun, e'], ?_, ?_⟩
      · rw [List.filterMap_cons, hget]
        exact Props.offsets_trans hb hc
      · rw [List.filterMap_cons, hget]
        exact List.mem_cons_of_mem _ hp

/-- The interleaving `only` sets exactly the offsets of the clusters in `keep`, if there are any. -/
theorem offsets_only (lc : Nat) (fresh : List Nat) (keep : Nat → Bool) (cs : List (Option (Cl W S))) (hf : ∀ l ∈ fresh, ∃ c : Cl W S, cs[l]? = some (some c))
    (hk : ∃ i, i < fresh.length ∧ keep i = true) :
    ∃ cs', offsets lc fresh (only keep fresh.length) cs = .ok cs' ∧ OffsetsSet lc (((List.range fresh.length).filter keep).filterMap (fun i => fresh[i]?)) cs cs' := by
  obtain ⟨i, hi, hki⟩ := hk
  obtain ⟨q, e1⟩ := run_assigns lc fresh cs ((List.range fresh.length).filter (fun i => !keep i)) none (fun j hj => List.mem_range.1 (List.mem_filter.1 hj).1)
  obtain ⟨p, b, e2, h2, hp⟩ := run_oneByOne lc fresh ((List.range fresh.length).filter keep) q cs hf (fun j hj => List.mem_range.1 (List.mem_filter.1 hj).1)
    (List.ne_nil_of_mem (List.mem_filter.2 ⟨List.mem_range.2 hi, hki⟩))
  have hpf : p ∈ fresh := by
    obtain ⟨j, _, hj⟩ := List.mem_filterMap.1 hp
    exact List.mem_of_getElem? hj
  obtain ⟨c, part, e3, h3, h4⟩ := run_writes lc fresh p ((List.range fresh.length).filter (fun i => !keep i)) b (Props.offsets_some h2 (hf p hpf))
  refine ⟨c, ?_, Props.offsets_congr (fun l => ?_) (Props.offsets_trans h2 h3)⟩
  · simp only [offsets, only, Props.run_append, e1, Outcome.ok_bind, e2, e3, Outcome.pure_eq]
  · rw [List.mem_append]
    constructor
    · rintro (h | h)
      · exact h
      · rw [h4 l h]; exact hp
    · exact .inl

/-- The threads that lose exactly the offsets of the clusters in `lost`. -/
def losing (lost : Nat → Bool) : Threads := fun _ fresh => only (fun i => !(fresh[i]?.elim false lost)) fresh.length

theorem losing_interleaving (lost : Nat → Bool) (lc : Nat) (l : List Nat) : Interleaving l.length (losing lost lc l) := only_interleaving _ _

theorem offsets_losing (lost : Nat → Bool) (lc : Nat) {wk : Work W S} (hi : WInv base wk) {cs' : List (Option (Cl W S))} (h : setOffsets lc wk.fresh wk.clusters = .ok cs')
    (hk : wk.fresh ≠ [] → ∃ l ∈ wk.fresh, lost l = false) :
    offsets lc wk.fresh (losing lost lc wk.fresh) (forget lost wk.clusters) = .ok (forget lost cs') := by
  have hnew := hi.new
  by_cases hne : wk.fresh = []
  · rw [hne] at h ⊢
    cases h
    rfl
  · obtain ⟨l, hl, hlo⟩ := hk hne
    obtain ⟨i, hil⟩ := List.mem_iff_getElem?.1 hl
    have hlt := (List.getElem?_eq_some_iff.1 hil).1
    obtain ⟨cs2, e, hs⟩ := offsets_only lc wk.fresh (fun i => !(wk.fresh[i]?.elim false lost)) (forget lost wk.clusters)
      (fun l hl => by
        obtain ⟨c, hc, _⟩ := hnew l hl
        exact ⟨drop (lost l) c, by rw [forget_get, hc]; rfl⟩) ⟨i, hlt, by simp [hil, hlo]⟩
    have e' : offsets lc wk.fresh (losing lost lc wk.fresh) (forget lost wk.clusters) = .ok cs2 := e
    rw [e']
    have hmem : ∀ x, x ∈ ((List.range wk.fresh.length).filter (fun i => !(wk.fresh[i]?.elim false lost))).filterMap (fun i => wk.fresh[i]?) ↔ x ∈ wk.fresh ∧ lost x = false := by
      intro x
      rw [List.mem_filterMap]
      constructor
      · rintro ⟨j, h1, h2⟩
        have := (List.mem_filter.1 h1).2
        rw [h2] at this
        exact ⟨List.mem_of_getElem? h2, by simpa using this⟩
      · rintro ⟨h1, h2⟩
        obtain ⟨j, hj⟩ := List.mem_iff_getElem?.1 h1
        exact ⟨j, List.mem_filter.2 ⟨List.mem_range.2 (List.getElem?_eq_some_iff.1 hj).1, by simp [hj, h2]⟩, hj⟩
    refine congrArg Outcome.ok (List.ext_getElem? fun x => ?_)
    rw [hs x, forget_get, forget_get, setOffsets_set h x]
    simp only [hmem]
    by_cases h1 : x ∈ wk.fresh
    · obtain ⟨c, hc, hc0⟩ := hnew x h1
      rw [hc]
      cases hx : lost x <;> simp [h1, drop, hc0]
    · cases wk.clusters[x]? with
      | none => rfl
      | some o => simp [h1]

/-- How the offsets change in the main loop. -/
theorem mainLoop_losing [CCmp W] {ar : Arith W S} {m : Nat} {compact : Bool} {va vb : List Nat} {wt : List W} (lost : Nat → Bool) (fuel : Nat) :
    ∀ {k : Nat} {st st' : St W S}, Hier.mainLoop ar m compact va vb wt fuel k st = .ok st' → st.wk.next = st.wk.clusters.length → 2 ≤ st.wk.clusters.length →
      (∀ (l j : Nat), (offs st.wk.clusters)[l]? = some (some j) → j ≤ st.lineCount) → RInv lost st'.wk.clusters →
      (∃ rest, offs st'.wk.clusters = offs st.wk.clusters ++ rest ∧ ∀ x ∈ rest, ∃ j, x = some j ∧ st.lineCount < j) ∧
      Race.mainLoop (losing lost) ar m compact va vb wt fuel k (forgetS lost st) = .ok (forgetS lost st') := by
  induction fuel with
  | zero =>
    intro k st st' h hn hb ho hr
    cases k with
    | zero => unfold Hier.mainLoop at h; cases h; exact ⟨⟨[], by simp, by simp⟩, by unfold Race.mainLoop; rfl⟩
    | succ k => unfold Hier.mainLoop at h; cases h
  | succ fuel ih =>
    intro k st st' h hn hb ho hr
    cases k with
    | zero => unfold Hier.mainLoop at h; cases h; exact ⟨⟨[], by simp, by simp⟩, by unfold Race.mainLoop; rfl⟩
    | succ k =>
      unfold Hier.mainLoop at h
      obtain ⟨⟨k', st1⟩, e, h⟩ := Outcome.bind_eq_ok.mp h
      obtain ⟨h1, h2, hmono, ⟨e1, h3⟩ | ⟨wk', lc, h3, h4, h5, h6⟩⟩ := level_cases e hn hb
      · obtain ⟨⟨rest, r1, r2⟩, r3⟩ := ih h h1 h2 (fun l j hj => by rw [e1] at hj; exact Nat.le_trans (ho l j hj) hmono) hr
        refine ⟨⟨rest, by rw [r1, e1], fun x hx => ?_⟩, ?_⟩
        · obtain ⟨j, a, b⟩ := r2 x hx
          exact ⟨j, a, by omega⟩
        · unfold Race.mainLoop
          rw [h3, Outcome.ok_bind]
          exact r3
      · have hoff : offs st1.wk.clusters = offs st.wk.clusters ++ List.replicate wk'.fresh.length (some lc) := by
          have hset := setOffsets_set h4
          refine List.ext_getElem? fun l => ?_
          have h0 := congrArg (·[l]?) h3.offs
          simp only [offs, List.getElem?_map] at h0
          simp only [offs, List.getElem?_map]
          rw [hset l]
          by_cases hl : l < st.wk.clusters.length
          · have hnf : l ∉ wk'.fresh := fun hm => by
              rw [h3.fresh, List.mem_range'_1] at hm
              simp only [offs, List.length_map] at hm
              omega
            rw [List.getElem?_append_left (by simpa [offs] using hl)] at h0 ⊢
            rw [← h0]
            simp [hnf]
          · rw [List.getElem?_append_right (by simp; omega)] at h0 ⊢
            rw [List.getElem?_replicate] at h0 ⊢
            split at h0
            · rename_i hlt
              rw [if_pos hlt]
              have hf : l ∈ wk'.fresh := by
                rw [h3.fresh, List.mem_range'_1]
                simp only [offs, List.length_map] at hlt ⊢
                omega
              cases hx : wk'.clusters[l]? with
              | none => rw [hx] at h0; cases h0
              | some o =>
                rw [hx] at h0
                cases o with
                | none => cases h0
                | some c => simp [hf]
            · rename_i hlt
              rw [if_neg hlt]
              cases hx : wk'.clusters[l]? with
              | none => rfl
              | some o => rw [hx] at h0; cases h0
        have ho1 : ∀ (l j : Nat), (offs st1.wk.clusters)[l]? = some (some j) → j ≤ st1.lineCount := by
          intro l j hj
          rw [hoff] at hj
          by_cases hl : l < (offs st.wk.clusters).length
          · rw [List.getElem?_append_left hl] at hj
            exact Nat.le_trans (ho l j hj) hmono
          · rw [List.getElem?_append_right (by omega), List.getElem?_replicate] at hj
            split at hj
            · rename_i hlt
              cases hj
              have hne : wk'.fresh ≠ [] := fun hx => by rw [hx] at hlt; simp at hlt
              exact Nat.le_of_eq (h5 hne).1
            · cases hj
        obtain ⟨⟨rest, r1, r2⟩, r3⟩ := ih h h1 h2 ho1 hr
        refine ⟨⟨List.replicate wk'.fresh.length (some lc) ++ rest, by rw [r1, hoff, List.append_assoc], fun x hx => ?_⟩, ?_⟩
        · rcases List.mem_append.1 hx with hx | hx
          · obtain ⟨a, b⟩ := List.mem_replicate.1 hx
            have hne : wk'.fresh ≠ [] := fun hy => a (by simp [hy])
            exact ⟨lc, b, (h5 hne).2⟩
          · obtain ⟨j, a, b⟩ := r2 x hx
            exact ⟨j, a, by omega⟩
        · unfold Race.mainLoop
          have hk : wk'.fresh ≠ [] → ∃ l ∈ wk'.fresh, lost l = false := by
            intro hne
            obtain ⟨l, hl⟩ := List.exists_mem_of_ne_nil _ hne
            cases hlo : lost l with
            | false => exact ⟨l, hl, hlo⟩
            | true =>
              obtain ⟨lc1, lc2⟩ := h5 hne
              have hfin : ∀ x, x ∈ wk'.fresh → (offs st'.wk.clusters)[x]? = some (some lc) := by
                intro x hx
                rw [h3.fresh, List.mem_range'_1] at hx
                rw [r1, hoff, List.append_assoc, List.getElem?_append_right hx.1, List.getElem?_append_left (by simp; omega), List.getElem?_replicate, if_pos (by omega)]
              obtain ⟨j, l', a, b, c, d⟩ := hr.kept l hlo
              rw [hfin l hl] at b
              cases b
              refine ⟨l', ?_, d⟩
              rw [h3.fresh, List.mem_range'_1]
              rw [r1, hoff, List.append_assoc] at c
              constructor
              · by_contra hc
                rw [List.getElem?_append_left (by omega)] at c
                have := ho l' lc c
                omega
              · by_contra hc
                rw [List.getElem?_append_right (by omega), List.getElem?_append_right (by simp; omega)] at c
                obtain ⟨j', a', b'⟩ := r2 _ (List.mem_of_getElem? c)
                cases a'
                omega
          rw [h6 (losing lost) lost lost (offsets_losing lost lc h3 h4 hk), Outcome.ok_bind]
          exact r3

/-- Every loss that spares a cluster of every line happens under some interleaving. -/
theorem compute_losing [CCmp W] {ar : Arith W S} {m : Nat} {compact : Bool} {g : Graph W} {res : Result W S} (h : Hier.compute ar m compact g = .ok res) {lost : Nat → Bool}
    (hr : RInv lost res.clusters) : Race.compute (losing lost) ar m compact g = .ok { res with clusters := forget lost res.clusters } := by
  unfold Hier.compute at h
  obtain ⟨st, e, h⟩ := Outcome.bind_eq_ok.mp h
  cases h
  obtain ⟨_, e'⟩ := mainLoop_losing lost _ e rfl (by simp [initial])
    (by
      intro l j hj
      match l with
      | 0 => simp [initial, offs] at hj
      | 1 => simp [initial, offs, Cl.init] at hj; omega
      | l + 2 => simp [initial, offs] at hj) hr
  unfold Race.compute
  have : forgetS lost (initial ar g) = initial ar g := by
    have h0 : forget lost (initial ar g).wk.clusters = (initial ar g).wk.clusters := by
      refine List.ext_getElem? fun l => ?_
      rw [forget_get]
      match l with
      | 0 => rfl
      | 1 =>
        show some (some (drop (lost 1) (Cl.init ar 1 none none g.numVertices))) = some (some (Cl.init ar 1 none none g.numVertices))
        unfold drop Cl.init
        cases lost 1 <;> rfl
      | l + 2 => rfl
    simp only [forgetS, forgetW, h0]
  rw [this] at e'
  rw [e']
  rfl

/-! ### The stages after the hierarchy -/

theorem ownLowest_drop [CCmp W] (ar : Arith W S) (b : Bool) (c : Cl W S) : (drop b c).ownLowest ar = drop b (c.ownLowest ar) := rfl

theorem passLowest_drop [CCmp W] (b b' : Bool) (c p : Cl W S) : Cl.passLowest (drop b c) (drop b' p) = drop b' (Cl.passLowest c p) := rfl

theorem choose_drop [CCmp S] (ar : Arith W S) (b b' : Bool) (c p : Cl W S) : Cl.choose ar (drop b c) (drop b' p) = drop b' (Cl.choose ar c p) := by
  by_cases h1 : c.hasChildren = false ∨ c.ncs > c.pncs
  · have h1' : (drop b c).hasChildren = false ∨ (drop b c).ncs > (drop b c).pncs := h1
    rw [Cl.choose, Cl.choose, if_pos h1, if_pos h1']; rfl
  · have h1' : ¬ ((drop b c).hasChildren = false ∨ (drop b c).ncs > (drop b c).pncs) := h1
    rw [Cl.choose, Cl.choose, if_neg h1, if_neg h1']
    by_cases h2 : c.ncs < c.pncs
    · have h2' : (drop b c).ncs < (drop b c).pncs := h2
      rw [if_pos h2, if_pos h2']; rfl
    · have h2' : ¬ (drop b c).ncs < (drop b c).pncs := h2
      rw [if_neg h2, if_neg h2']
      by_cases h3 : CCmp.le c.propStability c.stability = true
      · have h3' : CCmp.le (drop b c).propStability (drop b c).stability = true := h3
        rw [if_pos h3, if_pos h3']; rfl
      · have h3' : ¬ CCmp.le (drop b c).propStability (drop b c).stability = true := h3
        rw [if_neg h3, if_neg h3']; rfl

theorem choose_offset [CCmp S] (ar : Arith W S) (c p : Cl W S) : (Cl.choose ar c p).offset = p.offset := by
  unfold Cl.choose
  split
  · rfl
  · split
    · rfl
    · split <;> rfl

theorem propagate_forget [CCmp W] [CCmp S] {ar : Arith W S} {cs cs' : List (Option (Cl W S))} {x : Nat} (h : Sel.propagate ar cs x = .ok cs') :
    Sel.propagate ar (forget lost cs) x = .ok (forget lost cs') ∧ offs cs' = offs cs := by
  unfold Sel.propagate at h ⊢
  obtain ⟨c, e1, h⟩ := Outcome.bind_eq_ok.mp h
  rw [getCl_forget e1, Outcome.ok_bind]
  have hp : (drop (lost x) c).parent = c.parent := rfl
  simp only [hp]
  cases hq : c.parent with
  | none => rw [hq] at h; cases h; exact ⟨rfl, rfl⟩
  | some q =>
    rw [hq] at h
    simp only at h ⊢
    obtain ⟨cs1, e2, h⟩ := Outcome.bind_eq_ok.mp h
    obtain ⟨p, e3, h⟩ := Outcome.bind_eq_ok.mp h
    have h1 := wr_forget (lost := lost) e2
    have h2 := getCl_forget (lost := lost) e3
    have h3 := wr_forget (lost := lost) h
    rw [ownLowest_drop, h1, Outcome.ok_bind, h2, Outcome.ok_bind, passLowest_drop, choose_drop, h3]
    refine ⟨rfl, ?_⟩
    rw [(offs_wr e3 (choose_offset ar (c.ownLowest ar) (Cl.passLowest (c.ownLowest ar) p)) h).2]
    exact (offs_wr (c' := c.ownLowest ar) e1 rfl e2).2

theorem leaves_forget {cs : List (Option (Cl W S))} : ∀ {order : List Nat} {s r : List Nat × List Bool}, Sel.leaves cs order s = .ok r → Sel.leaves (forget lost cs) order s = .ok r
  | [], s, r, h => h
  | i :: o, (ex, added), r, h => by
    unfold Sel.leaves at h ⊢
    obtain ⟨c, e1, h⟩ := Outcome.bind_eq_ok.mp h
    have hrd : rd (forget lost cs) i = .ok (c.map (drop (lost i))) := by
      unfold rd at e1 ⊢
      rw [forget_get]
      cases hx : cs[i]? with
      | none => rw [hx] at e1; cases e1
      | some y => rw [hx] at e1; cases e1; rfl
    rw [hrd, Outcome.ok_bind]
    cases c with
    | none => exact leaves_forget h
    | some c =>
      simp only [Option.map_some] at h ⊢
      by_cases hc : c.hasChildren = false
      · have hc' : (drop (lost i) c).hasChildren = false := hc
        rw [if_pos hc] at h
        rw [if_pos hc']
        obtain ⟨a, e2, h⟩ := Outcome.bind_eq_ok.mp h
        have : wr added (drop (lost i) c).label true = .ok a := e2
        rw [this, Outcome.ok_bind]
        exact leaves_forget h
      · have hc' : ¬ (drop (lost i) c).hasChildren = false := hc
        rw [if_neg hc] at h
        rw [if_neg hc']
        exact leaves_forget h

theorem queueParent_forget {cs : List (Option (Cl W S))} {parent : Option Nat} {ex : List Nat} {added : List Bool} {r : List Nat × List Bool}
    (h : Sel.queueParent cs parent ex added = .ok r) : Sel.queueParent (forget lost cs) parent ex added = .ok r := by
  unfold Sel.queueParent at h ⊢
  cases parent with
  | none => exact h
  | some q =>
    simp only at h ⊢
    obtain ⟨p, e1, h⟩ := Outcome.bind_eq_ok.mp h
    rw [getCl_forget e1, Outcome.ok_bind]
    exact h

/-- A state of the propagation with offsets lost. -/
def forgetT (lost : Nat → Bool) (s : Sel.St W S) : Sel.St W S := { s with clusters := forget lost s.clusters }

theorem examine_forget [CCmp W] [CCmp S] {ar : Arith W S} {smax : S} (fuel : Nat) : ∀ {s r : Sel.St W S}, Sel.examine ar smax fuel s = .ok r →
    Sel.examine ar smax fuel (forgetT lost s) = .ok (forgetT lost r) ∧ offs r.clusters = offs s.clusters := by
  induction fuel with
  | zero =>
    intro s r h
    unfold Sel.examine at h ⊢
    split at h
    · rename_i h1
      have h1' : (forgetT lost s).ex = [] := h1
      rw [if_pos h1']; cases h; exact ⟨rfl, rfl⟩
    · cases h
  | succ fuel ih =>
    intro s r h
    unfold Sel.examine at h ⊢
    have hex : (forgetT lost s).ex = s.ex := rfl
    simp only [hex]
    cases hg : s.ex.getLast? with
    | none => rw [hg] at h; cases h; exact ⟨rfl, rfl⟩
    | some x =>
      rw [hg] at h
      simp only at h ⊢
      obtain ⟨cs, e1, h⟩ := Outcome.bind_eq_ok.mp h
      obtain ⟨c, e2, h⟩ := Outcome.bind_eq_ok.mp h
      obtain ⟨⟨ex, added⟩, e3, h⟩ := Outcome.bind_eq_ok.mp h
      obtain ⟨p1, p2⟩ := propagate_forget (lost := lost) e1
      obtain ⟨q1, q2⟩ := ih h
      refine ⟨?_, q2.trans p2⟩
      show (Sel.propagate ar (forget lost s.clusters) x >>= _) = _
      rw [p1, Outcome.ok_bind, getCl_forget e2, Outcome.ok_bind]
      show (Sel.queueParent (forget lost cs) c.parent s.ex.dropLast s.added >>= _) = _
      rw [queueParent_forget e3, Outcome.ok_bind]
      exact q1

theorem propagateTree_forget [CCmp W] [CCmp S] {ar : Arith W S} {smax : S} {order : List Nat} {cs : List (Option (Cl W S))} {s : Sel.St W S}
    (h : Sel.propagateTree ar smax order cs = .ok s) : Sel.propagateTree ar smax order (forget lost cs) = .ok (forgetT lost s) ∧ offs s.clusters = offs cs := by
  unfold Sel.propagateTree at h ⊢
  obtain ⟨⟨ex, added⟩, e1, h⟩ := Outcome.bind_eq_ok.mp h
  rw [forget_length, leaves_forget e1, Outcome.ok_bind]
  exact examine_forget _ h

theorem scoreOf_forget [CCmp W] {zeroW : W} {ops : Outlier.Ops W T} {cs : List (Option (Cl W S))} {noise : List (Option W)} {last : List (Option Nat)} {i : Nat} {t : T}
    (h : Outlier.scoreOf zeroW ops cs noise last i = .ok t) : Outlier.scoreOf zeroW ops (forget lost cs) noise last i = .ok t := by
  unfold Outlier.scoreOf at h ⊢
  obtain ⟨l, e1, h⟩ := Outcome.bind_eq_ok.mp h
  obtain ⟨c, e2, h⟩ := Outcome.bind_eq_ok.mp h
  rw [e1, Outcome.ok_bind, getCl_forget e2, Outcome.ok_bind]
  exact h

theorem fill_forget [CCmp W] {zeroW : W} {ops : Outlier.Ops W T} {cs : List (Option (Cl W S))} {noise : List (Option W)} {last : List (Option Nat)} {core : List (Option W)} :
    ∀ {order : List Nat} {a r : List (Option (OScore W T))}, Outlier.fill zeroW ops cs noise last core order a = .ok r →
      Outlier.fill zeroW ops (forget lost cs) noise last core order a = .ok r
  | [], _, _, h => h
  | i :: o, a, r, h => by
    unfold Outlier.fill at h ⊢
    obtain ⟨t, e1, h⟩ := Outcome.bind_eq_ok.mp h
    obtain ⟨c, e2, h⟩ := Outcome.bind_eq_ok.mp h
    obtain ⟨a', e3, h⟩ := Outcome.bind_eq_ok.mp h
    rw [scoreOf_forget e1, Outcome.ok_bind, e2, Outcome.ok_bind, e3, Outcome.ok_bind]
    exact fill_forget h

theorem scores_forget [CCmp W] [CCmp T] {qsort : (OScore W T → OScore W T → Int) → List (OScore W T) → List (OScore W T)} {zeroW : W} {ops : Outlier.Ops W T} {order : List Nat}
    {cs : List (Option (Cl W S))} {noise : List (Option W)} {last : List (Option Nat)} {core : List (Option W)} {n : Nat} {r : List (OScore W T)}
    (h : Outlier.scores qsort zeroW ops order cs noise last core n = .ok r) : Outlier.scores qsort zeroW ops order (forget lost cs) noise last core n = .ok r := by
  unfold Outlier.scores at h ⊢
  obtain ⟨a, e1, h⟩ := Outcome.bind_eq_ok.mp h
  rw [fill_forget e1, Outcome.ok_bind]
  exact h

end Verif.Race
