import Verif.Spec.Compact
import Verif.Lemmas.RaceRun
/-
Helper lemmas: nothing but the lines depends on the numbering of the lines.
-/
namespace Verif.Compact
open Hier Spec
open Race hiding level mainLoop compute endLevel full doRun rerun reruns fresh
variable {D W S T : Type}

/-- A cluster with its offset renumbered. -/
def shift (f : Nat → Nat) (c : Cl W S) : Cl W S := { c with offset := f c.offset }

/-- The clusters with their offsets renumbered. -/
def reoff (f : Nat → Nat) (cs : List (Option (Cl W S))) : List (Option (Cl W S)) := cs.map (Option.map (shift f))

/-- A work state with renumbered offsets. -/
def reoffW (f : Nat → Nat) (wk : Work W S) : Work W S := { wk with clusters := reoff f wk.clusters }

variable {f : Nat → Nat}

theorem reoff_get (cs : List (Option (Cl W S))) (l : Nat) : (reoff f cs)[l]? = cs[l]?.map fun c => c.map (shift f) := by
  simp [reoff]

theorem reoff_append (hf : f 0 = 0) (cs : List (Option (Cl W S))) (c : Cl W S) (hc : c.offset = 0) : reoff f (cs ++ [some c]) = reoff f cs ++ [some c] := by
  have : shift f c = c := by
    cases c
    simp only at hc
    subst hc
    simp [shift, hf]
  simp [reoff, this]

variable {base : List (Option Nat)}

theorem reoff_length (cs : List (Option (Cl W S))) : (reoff f cs).length = cs.length := by simp [reoff]

theorem getCl_reoff {cs : List (Option (Cl W S))} {l : Nat} {c : Cl W S} (h : getCl cs l = .ok c) : getCl (reoff f cs) l = .ok (shift f c) := by
  refine getCl_ok ?_
  rw [reoff_get, getCl_get h]
  rfl

theorem wr_reoff {cs cs' : List (Option (Cl W S))} {l : Nat} {c : Cl W S} (h : wr cs l (some c) = .ok cs') : wr (reoff f cs) l (some (shift f c)) = .ok (reoff f cs') := by
  unfold wr at h ⊢
  rw [reoff_length]
  split at h
  · rename_i hl
    rw [if_pos hl]
    cases h
    refine congrArg Outcome.ok (List.ext_getElem? fun k => ?_)
    rw [reoff_get, List.getElem?_set, List.getElem?_set, reoff_length, reoff_get]
    by_cases hk : l = k
    · subst hk
      simp [hl]
    · simp [hk]
  · cases h

theorem detach_shift (ar : Arith W S) (f : Nat → Nat) (c : Cl W S) (k : Nat) (w : W) : ((shift f c).detach ar k w).1 = shift f (c.detach ar k w).1 := by
  by_cases h0 : subIndex c.numPoints k = 0
  · have h0' : subIndex (shift f c).numPoints k = 0 := h0
    simp only [Cl.detach, Cl.detachTo, if_pos h0, if_pos h0']
    rfl
  · have h0' : ¬ subIndex (shift f c).numPoints k = 0 := h0
    by_cases h1 : ((subIndex c.numPoints k : Nat) : Int) < 0
    · have h1' : ((subIndex (shift f c).numPoints k : Nat) : Int) < 0 := h1
      simp only [Cl.detach, Cl.detachTo, if_neg h0, if_pos h1, if_neg h0', if_pos h1']
      rfl
    · have h1' : ¬ ((subIndex (shift f c).numPoints k : Nat) : Int) < 0 := h1
      simp only [Cl.detach, Cl.detachTo, if_neg h0, if_neg h1, if_neg h0', if_neg h1']
      rfl

theorem newCluster_reoff (hf : f 0 = 0) {ar : Arith W S} {points : List Nat} {parent : Nat} {w : W} {wk wk' : Work W S} (h : newCluster ar points parent w wk = .ok wk') (hi : WInv base wk) :
    newCluster ar points parent w (reoffW f wk) = .ok (reoffW f wk') ∧ WInv base wk' := by
  unfold newCluster at h ⊢
  obtain ⟨cur, e1, h⟩ := Outcome.bind_eq_ok.mp h
  obtain ⟨c, e2, h⟩ := Outcome.bind_eq_ok.mp h
  obtain ⟨cs, e3, h⟩ := Outcome.bind_eq_ok.mp h
  cases h
  constructor
  · show (setAll wk.next points wk.cur >>= _) = _
    rw [e1, Outcome.ok_bind]
    show (getCl (reoff f wk.clusters) parent >>= _) = _
    rw [getCl_reoff e2, Outcome.ok_bind]
    have := wr_reoff (f := f) e3
    have hd : (shift f { (c.detach ar points.length w).1 with hasChildren := true }) =
        { ((shift f c).detach ar points.length w).1 with hasChildren := true } := by rw [detach_shift]; rfl
    rw [hd] at this
    show (wr (reoff f wk.clusters) parent _ >>= _) = _
    rw [this, Outcome.ok_bind]
    simp only [reoffW, Outcome.pure_eq]
    rw [reoff_append hf _ _ rfl]
  · obtain ⟨hl, hn⟩ := offs_wr (c' := { (c.detach ar points.length w).1 with hasChildren := true }) e2 (detach_offset ar c points.length w) e3
    refine ⟨by simp [hi.next, hl], ?_, ?_⟩
    · have h0 : offs (cs ++ [some (Cl.init ar wk.next (some parent) (some w) points.length)]) = offs cs ++ [some 0] := by simp [offs, Cl.init]
      show offs (cs ++ [some (Cl.init ar wk.next (some parent) (some w) points.length)]) = base ++ List.replicate (wk.fresh ++ [wk.next]).length (some 0)
      rw [h0, hn, hi.offs, List.append_assoc, List.length_append, List.length_singleton, List.replicate_succ']
    · have hlen : wk.next = base.length + wk.fresh.length := by
        have := congrArg List.length hi.offs
        simp only [offs, List.length_map, List.length_append, List.length_replicate] at this
        rw [hi.next, this]
      show wk.fresh ++ [wk.next] = List.range' base.length (wk.fresh ++ [wk.next]).length
      rw [List.length_append, List.length_singleton, List.range'_concat, ← hi.fresh, hlen, Nat.one_mul]

theorem newNoise_reoff {ar : Arith W S} {points : List Nat} {parent : Nat} {w : W} {wk wk' : Work W S} (h : newNoise ar points parent w wk = .ok wk') (hi : WInv base wk) :
    newNoise ar points parent w (reoffW f wk) = .ok (reoffW f wk') ∧ WInv base wk' := by
  unfold newNoise at h ⊢
  obtain ⟨cur, e1, h⟩ := Outcome.bind_eq_ok.mp h
  obtain ⟨c, e2, h⟩ := Outcome.bind_eq_ok.mp h
  obtain ⟨cs, e3, h⟩ := Outcome.bind_eq_ok.mp h
  obtain ⟨ns, e4, h⟩ := Outcome.bind_eq_ok.mp h
  obtain ⟨ls, e5, h⟩ := Outcome.bind_eq_ok.mp h
  cases h
  constructor
  · show (setAll 0 points wk.cur >>= _) = _
    rw [e1, Outcome.ok_bind]
    show (getCl (reoff f wk.clusters) parent >>= _) = _
    rw [getCl_reoff e2, Outcome.ok_bind]
    have := wr_reoff (f := f) e3
    have hd : shift f ((c.detach ar points.length w).1.addVirtual points) = ((shift f c).detach ar points.length w).1.addVirtual points := by rw [detach_shift]; rfl
    rw [hd] at this
    show (wr (reoff f wk.clusters) parent _ >>= _) = _
    rw [this, Outcome.ok_bind]
    show (setAll (some w) points wk.noise >>= _) = _
    rw [e4, Outcome.ok_bind]
    show (setAll (some parent) points wk.last >>= _) = _
    rw [e5, Outcome.ok_bind]
    rfl
  · obtain ⟨hl, hn⟩ := offs_wr (c' := (c.detach ar points.length w).1.addVirtual points) e2 (detach_offset ar c points.length w) e3
    exact ⟨by simp [hi.next, hl], hn.trans hi.offs, hi.fresh⟩

theorem settle_reoff (hf : f 0 = 0) {ar : Arith W S} {m label : Nat} {w : W} {e e' : Ex} {wk wk' : Work W S} (h : settle ar m label w e wk = .ok (e', wk')) (hi : WInv base wk) :
    settle ar m label w e (reoffW f wk) = .ok (e', reoffW f wk') ∧ WInv base wk' := by
  unfold settle at h ⊢
  split at h
  · rename_i h1
    rw [if_pos h1]
    cases hg : e.first.getLast? with
    | none => rw [hg] at h; cases h
    | some x =>
      rw [hg] at h
      simp only at h ⊢
      split at h
      · rename_i h2
        rw [if_pos h2]
        cases h
        exact ⟨rfl, hi⟩
      · rename_i h2
        rw [if_neg h2]
        obtain ⟨wk1, e1, h⟩ := Outcome.bind_eq_ok.mp h
        cases h
        obtain ⟨a, b⟩ := newCluster_reoff (f := f) hf e1 hi
        rw [a]
        exact ⟨rfl, b⟩
  · rename_i h1
    rw [if_neg h1]
    split at h
    · rename_i h2
      rw [if_pos h2]
      obtain ⟨wk1, e1, h⟩ := Outcome.bind_eq_ok.mp h
      cases h
      obtain ⟨a, b⟩ := newNoise_reoff (f := f) e1 hi
      rw [a]
      exact ⟨rfl, b⟩
    · rename_i h2
      rw [if_neg h2]
      cases h
      exact ⟨rfl, hi⟩

theorem roots_reoff (hf : f 0 = 0) {ar : Arith W S} {adj : List (List Nat)} {m label : Nat} {w : W} (fuel : Nat) : ∀ {e e' : Ex} {wk wk' : Work W S}, roots ar adj m label w fuel e wk = .ok (e', wk') → WInv base wk →
    roots ar adj m label w fuel e (reoffW f wk) = .ok (e', reoffW f wk') ∧ WInv base wk' := by
  induction fuel with
  | zero =>
    intro e e' wk wk' h hi
    unfold roots at h ⊢
    split at h
    · rename_i h1
      rw [if_pos h1]; cases h; exact ⟨rfl, hi⟩
    · cases h
  | succ k ih =>
    intro e e' wk wk' h hi
    unfold roots at h ⊢
    cases hg : e.examined.getLast? with
    | none => rw [hg] at h; cases h; exact ⟨rfl, hi⟩
    | some x =>
      rw [hg] at h
      simp only at h ⊢
      obtain ⟨e1, a1, h⟩ := Outcome.bind_eq_ok.mp h
      obtain ⟨⟨e2, wk1⟩, a2, h⟩ := Outcome.bind_eq_ok.mp h
      obtain ⟨b1, b2⟩ := settle_reoff (f := f) hf a2 hi
      obtain ⟨c1, c2⟩ := ih h b2
      refine ⟨?_, c2⟩
      rw [a1, Outcome.ok_bind, b1, Outcome.ok_bind]
      exact c1

theorem finish_reoff (hf : f 0 = 0) {ar : Arith W S} {adj : List (List Nat)} {label : Nat} {w : W} {e : Ex} {wk wk' : Work W S} (h : finish ar adj label w e wk = .ok wk') (hi : WInv base wk) :
    finish ar adj label w e (reoffW f wk) = .ok (reoffW f wk') ∧ WInv base wk' := by
  unfold finish at h ⊢
  split at h
  · rename_i h1
    rw [if_pos h1]
    obtain ⟨dd, a1, h⟩ := Outcome.bind_eq_ok.mp h
    obtain ⟨l, a2, h⟩ := Outcome.bind_eq_ok.mp h
    rw [a1, Outcome.ok_bind]
    show (rd wk.cur dd >>= _) = _ ∧ _
    rw [a2, Outcome.ok_bind]
    split at h
    · rename_i h2
      rw [if_pos h2]
      obtain ⟨first, a3, h⟩ := Outcome.bind_eq_ok.mp h
      rw [a3, Outcome.ok_bind]
      exact newCluster_reoff hf h hi
    · rename_i h2
      rw [if_neg h2]; cases h; exact ⟨rfl, hi⟩
  · rename_i h1
    rw [if_neg h1]; cases h; exact ⟨rfl, hi⟩

theorem clustersLoop_reoff (hf : f 0 = 0) {ar : Arith W S} {adj : List (List Nat)} {m : Nat} {w : W} (fuel : Nat) : ∀ {affL affV affV' : List Nat} {wk wk' : Work W S},
    clustersLoop ar adj m w fuel affL affV wk = .ok (affV', wk') → WInv base wk →
    clustersLoop ar adj m w fuel affL affV (reoffW f wk) = .ok (affV', reoffW f wk') ∧ WInv base wk' := by
  induction fuel with
  | zero =>
    intro affL affV affV' wk wk' h hi
    unfold clustersLoop at h ⊢
    split at h
    · rename_i h1
      rw [if_pos h1]; cases h; exact ⟨rfl, hi⟩
    · cases h
  | succ k ih =>
    intro affL affV affV' wk wk' h hi
    unfold clustersLoop at h ⊢
    cases hg : affL.getLast? with
    | none => rw [hg] at h; cases h; exact ⟨rfl, hi⟩
    | some x =>
      rw [hg] at h
      simp only at h ⊢
      obtain ⟨⟨ex, v1⟩, a1, h⟩ := Outcome.bind_eq_ok.mp h
      obtain ⟨⟨e1, wk1⟩, a2, h⟩ := Outcome.bind_eq_ok.mp h
      obtain ⟨wk2, a3, h⟩ := Outcome.bind_eq_ok.mp h
      obtain ⟨b1, b2⟩ := roots_reoff (f := f) hf _ a2 hi
      obtain ⟨c1, c2⟩ := finish_reoff (f := f) hf a3 b2
      obtain ⟨d1, d2⟩ := ih h c2
      refine ⟨?_, d2⟩
      show (collect wk.cur x affV [] [] >>= _) = _
      rw [a1, Outcome.ok_bind, b1, Outcome.ok_bind, c1, Outcome.ok_bind]
      exact d1

/-! ### The simulation -/

/-- `kept` in terms of the offsets. -/
theorem kept_iff {cs : List (Option (Cl W S))} {k : Nat} : kept cs k = true ↔ k = 0 ∨ ∃ o, some o ∈ offs cs ∧ (o = k ∨ o + 1 = k) := by
  simp only [kept, offs, Bool.or_eq_true, beq_iff_eq, List.any_eq_true, List.mem_map]
  refine or_congr Iff.rfl ⟨?_, ?_⟩
  · rintro ⟨x, hx, h⟩
    cases x with
    | none => simp at h
    | some c => exact ⟨c.offset, ⟨some c, hx, rfl⟩, by simpa using h⟩
  · rintro ⟨o, ⟨x, hx, h1⟩, h2⟩
    cases x with
    | none => cases h1
    | some c =>
      have : c.offset = o := by simpa using h1
      subst this
      exact ⟨some c, hx, by simpa using h2⟩

theorem number_zero (cs : List (Option (Cl W S))) : number cs 0 = 0 := rfl

theorem number_succ (cs : List (Option (Cl W S))) (k : Nat) : number cs (k + 1) = if kept cs (k + 1) then number cs k + 1 else number cs k := by
  unfold number
  rw [List.range_succ, List.filter_append, List.length_append]
  by_cases h : kept cs (k + 1) = true <;> simp [h]

theorem number_congr {cs cs' : List (Option (Cl W S))} {L : Nat} (h : ∀ k, k ≤ L → kept cs' k = kept cs k) : ∀ k, k ≤ L → number cs' k = number cs k := by
  intro k
  induction k with
  | zero => intro _; rfl
  | succ k ih =>
    intro hk
    rw [number_succ, number_succ, h _ hk, ih (by omega)]

theorem reoff_congr {f g : Nat → Nat} {cs : List (Option (Cl W S))} (h : ∀ o, some o ∈ offs cs → f o = g o) : reoff f cs = reoff g cs := by
  unfold reoff
  refine List.map_congr_left fun x hx => ?_
  cases x with
  | none => rfl
  | some c =>
    have := h c.offset (List.mem_map.2 ⟨some c, hx, rfl⟩)
    simp [shift, this]

theorem setOffsets_reoff {lc : Nat} : ∀ {fresh : List Nat} {cs cs' : List (Option (Cl W S))}, setOffsets lc fresh cs = .ok cs' → setOffsets (f lc) fresh (reoff f cs) = .ok (reoff f cs')
  | [], cs, cs', h => by cases h; rfl
  | l :: r, cs, cs', h => by
    unfold setOffsets at h ⊢
    obtain ⟨c, e1, h⟩ := Outcome.bind_eq_ok.mp h
    obtain ⟨cs1, e2, h⟩ := Outcome.bind_eq_ok.mp h
    have := wr_reoff (f := f) e2
    have hs : shift f { c with offset := lc } = { shift f c with offset := f lc } := rfl
    rw [hs] at this
    rw [getCl_reoff e1, Outcome.ok_bind, this, Outcome.ok_bind]
    exact setOffsets_reoff h

/-- The state of the compact construction that corresponds to a state of the full one. -/
structure CInv (a b : St W S) : Prop where
  next : a.wk.next = a.wk.clusters.length
  bound : ∀ o, some o ∈ offs a.wk.clusters → o ≤ a.lineCount
  root : some 0 ∈ offs a.wk.clusters
  sig : a.significant = true ↔ some a.lineCount ∈ offs a.wk.clusters
  seq : a.lines.map (·.1) = List.range' 1 a.lineCount
  adj : b.adj = a.adj
  wk : b.wk = reoffW (number a.wk.clusters) a.wk
  prev : b.prev = a.prev
  count : b.lineCount = number a.wk.clusters a.lineCount
  signif : b.significant = a.significant
  affV : b.affV = a.affV
  lines : b.lines = (a.lines.filter fun x => kept a.wk.clusters x.1).map fun x => (number a.wk.clusters x.1, x.2)

theorem CInv.nums {a b : St W S} (h : CInv a b) : ∀ x ∈ a.lines, x.1 ≤ a.lineCount := by
  intro x hx
  have : x.1 ∈ a.lines.map (·.1) := List.mem_map.2 ⟨x, hx, rfl⟩
  rw [h.seq, List.mem_range'_1] at this
  omega

theorem level_compact [CCmp W] {ar : Arith W S} {m : Nat} {va vb : List Nat} {wt : List W} {k k' : Nat} {a a' b : St W S} (h : level ar m false va vb wt k a = .ok (k', a')) (hi : CInv a b) :
    ∃ b', level ar m true va vb wt k b = .ok (k', b') ∧ CInv a' b' := by
  unfold level at h ⊢
  obtain ⟨w, e1, h⟩ := Outcome.bind_eq_ok.mp h
  obtain ⟨r, e2, h⟩ := Outcome.bind_eq_ok.mp h
  have hcur : b.wk.cur = a.wk.cur := by rw [hi.wk]; rfl
  rw [e1, Outcome.ok_bind, hcur, hi.adj, hi.affV, e2, Outcome.ok_bind]
  split at h
  · rename_i h0
    cases h
    rw [if_pos h0]
    refine ⟨_, rfl, ⟨hi.next, hi.bound, hi.root, hi.sig, hi.seq, rfl, ?_, hi.prev, hi.count, hi.signif, rfl, hi.lines⟩⟩
    rw [hi.wk]
    rfl
  · rename_i h0
    rw [if_neg h0]
    obtain ⟨⟨affV', wk'⟩, e3, h⟩ := Outcome.bind_eq_ok.mp h
    obtain ⟨st1, e4, h⟩ := Outcome.bind_eq_ok.mp h
    cases h
    have hw0 : WInv (offs a.wk.clusters) { a.wk with fresh := [] } := ⟨hi.next, by simp, by simp⟩
    obtain ⟨f1, f2⟩ := clustersLoop_reoff (f := number a.wk.clusters) (number_zero _) _ e3 hw0
    have f1' : clustersLoop ar r.adj m w r.affL.length r.affL r.affV { b.wk with fresh := [] } = .ok (affV', reoffW (number a.wk.clusters) wk') := by
      rw [hi.wk]; exact f1
    rw [f1', Outcome.ok_bind]
    unfold endLevel at e4 ⊢
    obtain ⟨cs, e5, e4⟩ := Outcome.bind_eq_ok.mp e4
    cases e4
    simp only [Bool.not_false, Bool.true_or, if_true] at e5
    -- the offsets after the level
    have hset := setOffsets_set e5
    have hlen : wk'.clusters.length = (offs a.wk.clusters).length + wk'.fresh.length := by
      have := congrArg List.length f2.offs
      simpa [offs] using this
    have hfm : ∀ l, l ∈ wk'.fresh ↔ (offs a.wk.clusters).length ≤ l ∧ l < (offs a.wk.clusters).length + wk'.fresh.length := by
      intro l
      conv_lhs => rw [f2.fresh]
      rw [List.mem_range'_1]
    have hoffs : offs cs = offs a.wk.clusters ++ List.replicate wk'.fresh.length (some (a.lineCount + 1)) := by
      refine List.ext_getElem? fun l => ?_
      have h1 : (offs wk'.clusters)[l]? = (offs a.wk.clusters ++ List.replicate wk'.fresh.length (some 0))[l]? := by rw [f2.offs]
      simp only [offs, List.getElem?_map] at h1
      simp only [offs, List.getElem?_map, hset l]
      by_cases hl : l ∈ wk'.fresh
      · obtain ⟨c, hc, _⟩ := f2.new l hl
        rw [hc]
        obtain ⟨x1, x2⟩ := (hfm l).1 hl
        have x1' : (a.wk.clusters.map fun c => c.map (·.offset)).length ≤ l := x1
        rw [List.getElem?_append_right x1', List.getElem?_replicate, if_pos (by simp only [offs] at x2; omega)]
        simp [hl]
      · simp only [hl, if_false, Option.map_id']
        rw [h1]
        by_cases hlt : l < (offs a.wk.clusters).length
        · have hlt' : l < (a.wk.clusters.map fun c => c.map (·.offset)).length := hlt
          rw [List.getElem?_append_left hlt', List.getElem?_append_left hlt']
        · have hge : (offs a.wk.clusters).length + wk'.fresh.length ≤ l := by
            by_contra hc
            exact hl ((hfm l).2 ⟨by omega, by omega⟩)
          have hge' : (a.wk.clusters.map fun c => c.map (·.offset)).length + wk'.fresh.length ≤ l := hge
          rw [List.getElem?_eq_none (by simp at hge' ⊢; omega), List.getElem?_eq_none (by simp at hge' ⊢; omega)]
    have hmem : ∀ o, some o ∈ offs cs ↔ some o ∈ offs a.wk.clusters ∨ (wk'.fresh ≠ [] ∧ o = a.lineCount + 1) := by
      intro o
      rw [hoffs, List.mem_append, List.mem_replicate]
      simp [List.length_eq_zero_iff]
    have hkept : ∀ k, k ≤ a.lineCount → kept cs k = kept a.wk.clusters k := by
      intro k hk
      rw [Bool.eq_iff_iff, kept_iff, kept_iff]
      refine or_congr Iff.rfl (exists_congr fun o => ?_)
      rw [hmem]
      constructor
      · rintro ⟨h1 | ⟨_, h1⟩, h2⟩
        · exact ⟨h1, h2⟩
        · omega
      · rintro ⟨h1, h2⟩
        exact ⟨.inl h1, h2⟩
    have hnum := number_congr hkept
    have hkl : kept cs (a.lineCount + 1) = (a.significant || !wk'.fresh.isEmpty) := by
      rw [Bool.eq_iff_iff, kept_iff, Bool.or_eq_true, hi.sig]
      have hfe : (!wk'.fresh.isEmpty) = true ↔ wk'.fresh ≠ [] := by simp
      rw [hfe]
      constructor
      · rintro (h1 | ⟨o, h1, h2⟩)
        · omega
        · rcases (hmem o).1 h1 with h3 | ⟨h3, _⟩
          · have := hi.bound o h3
            rcases h2 with h2 | h2
            · omega
            · have : o = a.lineCount := by omega
              subst this
              exact .inl h3
          · exact .inr h3
      · rintro (h1 | h1)
        · exact .inr ⟨_, (hmem _).2 (.inl h1), .inr rfl⟩
        · exact .inr ⟨_, (hmem _).2 (.inr ⟨h1, rfl⟩), .inl rfl⟩
    have hlc : (if (!true || a.significant || !wk'.fresh.isEmpty) = true then number a.wk.clusters a.lineCount + 1 else number a.wk.clusters a.lineCount) = number cs (a.lineCount + 1) := by
      rw [number_succ, hkl, hnum _ (Nat.le_refl _)]
      rfl
    have hre : reoff (number a.wk.clusters) wk'.clusters = reoff (number cs) wk'.clusters := by
      refine reoff_congr fun o ho => (hnum o ?_).symm
      rw [f2.offs, List.mem_append, List.mem_replicate] at ho
      rcases ho with h1 | ⟨_, h1⟩
      · exact hi.bound o h1
      · simp at h1; omega
    have hso := setOffsets_reoff (f := number cs) e5
    have hstep : setOffsets (number cs (a.lineCount + 1)) wk'.fresh (reoff (number a.wk.clusters) wk'.clusters) = .ok (reoff (number cs) cs) := by
      rw [hre]; exact hso
    have hsig : b.significant = a.significant := hi.signif
    have hcl : cs.length = wk'.clusters.length := by
      have := congrArg List.length hoffs
      simp only [offs, List.length_map, List.length_append, List.length_replicate] at this hlen
      omega
    simp only [reoffW, hsig, hi.count, hlc, hstep, Outcome.ok_bind, Outcome.pure_eq]
    refine ⟨_, rfl, ⟨hcl.symm ▸ f2.next, ?_, (hmem 0).2 (.inl hi.root), ?_, ?_, rfl, rfl, rfl, rfl, rfl, rfl, ?_⟩⟩
    · intro o ho
      show o ≤ a.lineCount + 1
      rcases (hmem o).1 ho with h1 | ⟨_, h1⟩
      · have := hi.bound o h1; omega
      · omega
    · show (!wk'.fresh.isEmpty) = true ↔ some (a.lineCount + 1) ∈ offs cs
      rw [hmem]
      constructor
      · intro h1; exact .inr ⟨by simpa using h1, rfl⟩
      · rintro (h1 | ⟨h1, _⟩)
        · have := hi.bound _ h1; omega
        · simpa using h1
    · show (a.lines ++ [(a.lineCount + 1, w, a.prev)]).map (·.1) = List.range' 1 (a.lineCount + 1)
      rw [List.map_append, hi.seq, List.range'_concat]
      simp [Nat.add_comm]
    · show _ = ((a.lines ++ [(a.lineCount + 1, w, a.prev)]).filter fun x => kept cs x.1).map fun x => (number cs x.1, x.2)
      have hold : b.lines = (a.lines.filter fun x => kept cs x.1).map fun x => (number cs x.1, x.2) := by
        rw [hi.lines]
        have h1 : (a.lines.filter fun x => kept cs x.1) = a.lines.filter fun x => kept a.wk.clusters x.1 :=
          List.filter_congr fun x hx => hkept _ (hi.nums x hx)
        rw [h1]
        refine List.map_congr_left fun x hx => ?_
        rw [hnum _ (hi.nums x (List.mem_filter.1 hx).1)]
      rw [List.filter_append, List.map_append, ← hold, hi.prev]
      have hw : (!true || a.significant || !wk'.fresh.isEmpty) = kept cs (a.lineCount + 1) := by rw [hkl]; rfl
      rw [hw]
      cases hk : kept cs (a.lineCount + 1) <;> simp [hk]

theorem mainLoop_compact [CCmp W] {ar : Arith W S} {m : Nat} {va vb : List Nat} {wt : List W} (fuel : Nat) : ∀ {k : Nat} {a a' b : St W S}, mainLoop ar m false va vb wt fuel k a = .ok a' → CInv a b →
    ∃ b', mainLoop ar m true va vb wt fuel k b = .ok b' ∧ CInv a' b' := by
  induction fuel with
  | zero =>
    intro k a a' b h hi
    cases k with
    | zero => unfold mainLoop at h ⊢; cases h; exact ⟨b, rfl, hi⟩
    | succ k => unfold mainLoop at h; cases h
  | succ fuel ih =>
    intro k a a' b h hi
    cases k with
    | zero => unfold mainLoop at h ⊢; cases h; exact ⟨b, rfl, hi⟩
    | succ k =>
      unfold mainLoop at h ⊢
      obtain ⟨⟨k', a1⟩, e, h⟩ := Outcome.bind_eq_ok.mp h
      obtain ⟨b1, e', hi'⟩ := level_compact e hi
      obtain ⟨b', e2, h2⟩ := ih h hi'
      refine ⟨b', ?_, h2⟩
      rw [e', Outcome.ok_bind]
      exact e2

/-- The compact construction gives the full one, with the lines that are kept and renumbered. -/
theorem compute_compact [CCmp W] {ar : Arith W S} {m : Nat} {g : Graph W} {res : Result W S} (h : compute ar m false g = .ok res) :
    compute ar m true g = .ok { res with
      clusters := reoff (number res.clusters) res.clusters
      hierarchy := (res.hierarchy.filter fun x => kept res.clusters x.1).map fun x => (number res.clusters x.1, x.2) } ∧
    ∃ L, res.hierarchy.map (·.1) = List.range' 1 L ++ [0] ∧ some 0 ∈ offs res.clusters := by
  unfold compute at h ⊢
  obtain ⟨st, e, h⟩ := Outcome.bind_eq_ok.mp h
  cases h
  have h0 : CInv (initial ar g) (initial ar g) := by
    refine ⟨rfl, ?_, ?_, ?_, ?_, rfl, ?_, rfl, rfl, rfl, rfl, rfl⟩
    · intro o ho; simpa [initial, offs, Cl.init] using ho
    · simp [initial, offs, Cl.init]
    · simp [initial, offs, Cl.init]
    · rfl
    · rfl
  obtain ⟨b, e', hi⟩ := mainLoop_compact _ e h0
  rw [e', Outcome.ok_bind, Outcome.pure_eq]
  have hk0 : kept st.wk.clusters 0 = true := kept_iff.2 (.inl rfl)
  refine ⟨?_, st.lineCount, by rw [List.map_append, hi.seq]; rfl, hi.root⟩
  simp only [hi.adj, hi.wk, hi.lines, reoffW, List.filter_append, List.map_append, List.filter_cons, List.filter_nil, hk0, if_true, List.map_cons, List.map_nil, number_zero]

/-! ### The stages after the hierarchy -/

theorem ownLowest_shift [CCmp W] (ar : Arith W S) (f : Nat → Nat) (c : Cl W S) : (shift f c).ownLowest ar = shift f (c.ownLowest ar) := rfl

theorem passLowest_shift [CCmp W] (f : Nat → Nat) (c p : Cl W S) : Cl.passLowest (shift f c) (shift f p) = shift f (Cl.passLowest c p) := rfl

theorem choose_shift [CCmp S] (ar : Arith W S) (f : Nat → Nat) (c p : Cl W S) : Cl.choose ar (shift f c) (shift f p) = shift f (Cl.choose ar c p) := by
  by_cases h1 : c.hasChildren = false ∨ c.ncs > c.pncs
  · have h1' : (shift f c).hasChildren = false ∨ (shift f c).ncs > (shift f c).pncs := h1
    rw [Cl.choose, Cl.choose, if_pos h1, if_pos h1']; rfl
  · have h1' : ¬ ((shift f c).hasChildren = false ∨ (shift f c).ncs > (shift f c).pncs) := h1
    rw [Cl.choose, Cl.choose, if_neg h1, if_neg h1']
    by_cases h2 : c.ncs < c.pncs
    · have h2' : (shift f c).ncs < (shift f c).pncs := h2
      rw [if_pos h2, if_pos h2']; rfl
    · have h2' : ¬ (shift f c).ncs < (shift f c).pncs := h2
      rw [if_neg h2, if_neg h2']
      by_cases h3 : CCmp.le c.propStability c.stability = true
      · have h3' : CCmp.le (shift f c).propStability (shift f c).stability = true := h3
        rw [if_pos h3, if_pos h3']; rfl
      · have h3' : ¬ CCmp.le (shift f c).propStability (shift f c).stability = true := h3
        rw [if_neg h3, if_neg h3']; rfl

theorem propagate_reoff [CCmp W] [CCmp S] {ar : Arith W S} {cs cs' : List (Option (Cl W S))} {x : Nat} (h : Sel.propagate ar cs x = .ok cs') :
    Sel.propagate ar (reoff f cs) x = .ok (reoff f cs') ∧ offs cs' = offs cs := by
  unfold Sel.propagate at h ⊢
  obtain ⟨c, e1, h⟩ := Outcome.bind_eq_ok.mp h
  rw [getCl_reoff e1, Outcome.ok_bind]
  have hp : (shift f c).parent = c.parent := rfl
  simp only [hp]
  cases hq : c.parent with
  | none => rw [hq] at h; cases h; exact ⟨rfl, rfl⟩
  | some q =>
    rw [hq] at h
    simp only at h ⊢
    obtain ⟨cs1, e2, h⟩ := Outcome.bind_eq_ok.mp h
    obtain ⟨p, e3, h⟩ := Outcome.bind_eq_ok.mp h
    have h1 := wr_reoff (f := f) e2
    have h2 := getCl_reoff (f := f) e3
    have h3 := wr_reoff (f := f) h
    rw [ownLowest_shift, h1, Outcome.ok_bind, h2, Outcome.ok_bind, passLowest_shift, choose_shift, h3]
    refine ⟨rfl, ?_⟩
    rw [(offs_wr e3 (choose_offset ar (c.ownLowest ar) (Cl.passLowest (c.ownLowest ar) p)) h).2]
    exact (offs_wr (c' := c.ownLowest ar) e1 rfl e2).2

theorem leaves_reoff {cs : List (Option (Cl W S))} : ∀ {order : List Nat} {s r : List Nat × List Bool}, Sel.leaves cs order s = .ok r → Sel.leaves (reoff f cs) order s = .ok r
  | [], s, r, h => h
  | i :: o, (ex, added), r, h => by
    unfold Sel.leaves at h ⊢
    obtain ⟨c, e1, h⟩ := Outcome.bind_eq_ok.mp h
    have hrd : rd (reoff f cs) i = .ok (c.map (shift f)) := by
      unfold rd at e1 ⊢
      rw [reoff_get]
      cases hx : cs[i]? with
      | none => rw [hx] at e1; cases e1
      | some y => rw [hx] at e1; cases e1; rfl
    rw [hrd, Outcome.ok_bind]
    cases c with
    | none => exact leaves_reoff h
    | some c =>
      simp only [Option.map_some] at h ⊢
      by_cases hc : c.hasChildren = false
      · have hc' : (shift f c).hasChildren = false := hc
        rw [if_pos hc] at h
        rw [if_pos hc']
        obtain ⟨a, e2, h⟩ := Outcome.bind_eq_ok.mp h
        have : wr added (shift f c).label true = .ok a := e2
        rw [this, Outcome.ok_bind]
        exact leaves_reoff h
      · have hc' : ¬ (shift f c).hasChildren = false := hc
        rw [if_neg hc] at h
        rw [if_neg hc']
        exact leaves_reoff h

theorem queueParent_reoff {cs : List (Option (Cl W S))} {parent : Option Nat} {ex : List Nat} {added : List Bool} {r : List Nat × List Bool}
    (h : Sel.queueParent cs parent ex added = .ok r) : Sel.queueParent (reoff f cs) parent ex added = .ok r := by
  unfold Sel.queueParent at h ⊢
  cases parent with
  | none => exact h
  | some q =>
    simp only at h ⊢
    obtain ⟨p, e1, h⟩ := Outcome.bind_eq_ok.mp h
    rw [getCl_reoff e1, Outcome.ok_bind]
    exact h

/-- A state of the propagation with renumbered offsets. -/
def reoffT (f : Nat → Nat) (s : Sel.St W S) : Sel.St W S := { s with clusters := reoff f s.clusters }

theorem examine_reoff [CCmp W] [CCmp S] {ar : Arith W S} {smax : S} (fuel : Nat) : ∀ {s r : Sel.St W S}, Sel.examine ar smax fuel s = .ok r →
    Sel.examine ar smax fuel (reoffT f s) = .ok (reoffT f r) ∧ offs r.clusters = offs s.clusters := by
  induction fuel with
  | zero =>
    intro s r h
    unfold Sel.examine at h ⊢
    split at h
    · rename_i h1
      have h1' : (reoffT f s).ex = [] := h1
      rw [if_pos h1']; cases h; exact ⟨rfl, rfl⟩
    · cases h
  | succ fuel ih =>
    intro s r h
    unfold Sel.examine at h ⊢
    have hex : (reoffT f s).ex = s.ex := rfl
    simp only [hex]
    cases hg : s.ex.getLast? with
    | none => rw [hg] at h; cases h; exact ⟨rfl, rfl⟩
    | some x =>
      rw [hg] at h
      simp only at h ⊢
      obtain ⟨cs, e1, h⟩ := Outcome.bind_eq_ok.mp h
      obtain ⟨c, e2, h⟩ := Outcome.bind_eq_ok.mp h
      obtain ⟨⟨ex, added⟩, e3, h⟩ := Outcome.bind_eq_ok.mp h
      obtain ⟨p1, p2⟩ := propagate_reoff (f := f) e1
      obtain ⟨q1, q2⟩ := ih h
      refine ⟨?_, q2.trans p2⟩
      show (Sel.propagate ar (reoff f s.clusters) x >>= _) = _
      rw [p1, Outcome.ok_bind, getCl_reoff e2, Outcome.ok_bind]
      show (Sel.queueParent (reoff f cs) c.parent s.ex.dropLast s.added >>= _) = _
      rw [queueParent_reoff e3, Outcome.ok_bind]
      exact q1

theorem propagateTree_reoff [CCmp W] [CCmp S] {ar : Arith W S} {smax : S} {order : List Nat} {cs : List (Option (Cl W S))} {s : Sel.St W S}
    (h : Sel.propagateTree ar smax order cs = .ok s) : Sel.propagateTree ar smax order (reoff f cs) = .ok (reoffT f s) ∧ offs s.clusters = offs cs := by
  unfold Sel.propagateTree at h ⊢
  obtain ⟨⟨ex, added⟩, e1, h⟩ := Outcome.bind_eq_ok.mp h
  rw [reoff_length, leaves_reoff e1, Outcome.ok_bind]
  exact examine_reoff _ h

theorem scoreOf_reoff [CCmp W] {zeroW : W} {ops : Outlier.Ops W T} {cs : List (Option (Cl W S))} {noise : List (Option W)} {last : List (Option Nat)} {i : Nat} {t : T}
    (h : Outlier.scoreOf zeroW ops cs noise last i = .ok t) : Outlier.scoreOf zeroW ops (reoff f cs) noise last i = .ok t := by
  unfold Outlier.scoreOf at h ⊢
  obtain ⟨l, e1, h⟩ := Outcome.bind_eq_ok.mp h
  obtain ⟨c, e2, h⟩ := Outcome.bind_eq_ok.mp h
  rw [e1, Outcome.ok_bind, getCl_reoff e2, Outcome.ok_bind]
  exact h

theorem fill_reoff [CCmp W] {zeroW : W} {ops : Outlier.Ops W T} {cs : List (Option (Cl W S))} {noise : List (Option W)} {last : List (Option Nat)} {core : List (Option W)} :
    ∀ {order : List Nat} {a r : List (Option (OScore W T))}, Outlier.fill zeroW ops cs noise last core order a = .ok r →
      Outlier.fill zeroW ops (reoff f cs) noise last core order a = .ok r
  | [], _, _, h => h
  | i :: o, a, r, h => by
    unfold Outlier.fill at h ⊢
    obtain ⟨t, e1, h⟩ := Outcome.bind_eq_ok.mp h
    obtain ⟨c, e2, h⟩ := Outcome.bind_eq_ok.mp h
    obtain ⟨a', e3, h⟩ := Outcome.bind_eq_ok.mp h
    rw [scoreOf_reoff e1, Outcome.ok_bind, e2, Outcome.ok_bind, e3, Outcome.ok_bind]
    exact fill_reoff h

theorem scores_reoff [CCmp W] [CCmp T] {qsort : (OScore W T → OScore W T → Int) → List (OScore W T) → List (OScore W T)} {zeroW : W} {ops : Outlier.Ops W T} {order : List Nat}
    {cs : List (Option (Cl W S))} {noise : List (Option W)} {last : List (Option Nat)} {core : List (Option W)} {n : Nat} {r : List (OScore W T)}
    (h : Outlier.scores qsort zeroW ops order cs noise last core n = .ok r) : Outlier.scores qsort zeroW ops order (reoff f cs) noise last core n = .ok r := by
  unfold Outlier.scores at h ⊢
  obtain ⟨a, e1, h⟩ := Outcome.bind_eq_ok.mp h
  rw [fill_reoff e1, Outcome.ok_bind]
  exact h

end Verif.Compact
