import Verif.Lemmas.Core
/-
Helper lemmas: core distances under an order preserving change of the distances.
-/
namespace Verif.Distance
variable {W : Type} [LinearOrder W]

/-- `θ` keeps the order of the values in `P`. -/
def Keeps (P : W → Prop) (θ : W → W) : Prop := ∀ a b, P a → P b → a < b → θ a < θ b

theorem Keeps.lt_iff {P : W → Prop} {θ : W → W} (h : Keeps P θ) {a b : W} (ha : P a) (hb : P b) : θ a < θ b ↔ a < b := by
  constructor
  · intro hl
    rcases lt_trichotomy a b with x | x | x
    · exact x
    · subst x; exact absurd hl (lt_irrefl _)
    · exact absurd (h b a hb ha x) (not_lt.2 hl.le)
  · exact h a b ha hb

theorem Keeps.eq_iff {P : W → Prop} {θ : W → W} (h : Keeps P θ) {a b : W} (ha : P a) (hb : P b) : θ a = θ b ↔ a = b := by
  constructor
  · intro he
    rcases lt_trichotomy a b with x | x | x
    · exact absurd (h a b ha hb x) (by rw [he]; exact lt_irrefl _)
    · exact x
    · exact absurd (h b a hb ha x) (by rw [he]; exact lt_irrefl _)
  · intro e; rw [e]

theorem rd_map {α : Type} (θ : α → α) {l : List α} {i : Nat} {x : α} (h : rd l i = .ok x) : rd (l.map θ) i = .ok (θ x) := by
  unfold rd at h ⊢
  rw [List.getElem?_map]
  cases hl : l[i]? with
  | none => rw [hl] at h; cases h
  | some y => rw [hl] at h; cases h; rfl

theorem rd_mem {α : Type} {l : List α} {i : Nat} {x : α} (h : rd l i = .ok x) : x ∈ l := by
  unfold rd at h
  cases hl : l[i]? with
  | none => rw [hl] at h; cases h
  | some y => rw [hl] at h; cases h; exact List.mem_of_getElem? hl

theorem searchPos_map {P : W → Prop} {θ : W → W} (h : Keeps P θ) {sd : List W} {t : W} (hs : ∀ x ∈ sd, P x) (ht : P t) (fuel : Nat) :
    ∀ low high r, searchPos sd t fuel low high = .ok r → searchPos (sd.map θ) (θ t) fuel low high = .ok r := by
  induction fuel with
  | zero => intro low high r e; cases e
  | succ k ih =>
    intro low high r e
    unfold searchPos at e ⊢
    obtain ⟨x, hx, e⟩ := Outcome.bind_eq_ok.mp e
    have hp := hs x (rd_mem hx)
    simp only [rd_map θ hx, Outcome.ok_bind]
    simp only [ccmp_lt, ccmp_eq, h.lt_iff ht hp, h.eq_iff hp ht] at e ⊢
    split at e
    · rename_i h1
      rw [if_pos h1]
      split at e
      · rename_i h2
        rw [if_pos h2]; exact ih _ _ _ e
      · rename_i h2
        rw [if_neg h2]; exact e
    · rename_i h1
      rw [if_neg h1]
      split at e
      · rename_i h2
        rw [if_pos h2]; exact e
      · rename_i h2
        rw [if_neg h2]
        split at e
        · rename_i h3
          rw [if_pos h3]; exact ih _ _ _ e
        · rename_i h3
          rw [if_neg h3]; exact e

theorem offer_map {P : W → Prop} {θ : W → W} (h : Keeps P θ) {sd sd' : List W} {t : W} (hs : ∀ x ∈ sd, P x) (ht : P t) {nn : Nat} (e : offer nn sd t = .ok sd') :
    offer nn (sd.map θ) (θ t) = .ok (sd'.map θ) := by
  unfold offer at e ⊢
  obtain ⟨x, hx, e⟩ := Outcome.bind_eq_ok.mp e
  have hp := hs x (rd_mem hx)
  rw [rd_map θ hx, Outcome.ok_bind]
  simp only [ccmp_lt, h.lt_iff hp ht] at e ⊢
  split at e
  · rename_i h1
    rw [if_pos h1]
    rw [← Outcome.ok.inj e]; rfl
  · rename_i h1
    rw [if_neg h1]
    obtain ⟨low, hl, e⟩ := Outcome.bind_eq_ok.mp e
    rw [searchPos_map h hs ht _ _ _ _ hl, Outcome.ok_bind]
    simp only [ccmp_eq, h.eq_iff hp ht] at e ⊢
    split at e
    · rename_i h2
      rw [if_pos h2, ← Outcome.ok.inj e]
      simp
    · rename_i h2
      rw [if_neg h2, ← Outcome.ok.inj e]; rfl

/-- The core distance of a point whose distances are changed by a map that keeps their order and `D_MAX`. -/
theorem coreOf_map {zero dmax : W} {dis dis' : Distance W} {i i' : Nat} {θ : W → W} {P : W → Prop} (hk : Keeps P θ) (hP : P dmax) (hθ : θ dmax = dmax)
    (hr : dis'.rows = dis.rows) (hn : dis'.numNeighbors = dis.numNeighbors) (hd : ∀ j, j < dis.rows → ∃ t, P t ∧ dis.get zero i j = .ok t ∧ dis'.get zero i' j = .ok (θ t)) {x : W}
    (hx : coreOf zero dmax dis i = .ok x) : coreOf zero dmax dis' i' = .ok (θ x) := by
  have key : ∀ (js : List Nat) (sd sd' : List W), (∀ j ∈ js, j < dis.rows) → (∀ x ∈ sd, P x) → sd.length = dis.numNeighbors + 1 → coreLoop zero dis i js sd = .ok sd' →
      coreLoop zero dis' i' js (sd.map θ) = .ok (sd'.map θ) := by
    intro js
    induction js with
    | nil => intro sd sd' _ _ _ e; rw [← Outcome.ok.inj e]; rfl
    | cons j r ih =>
      intro sd sd' hj hs hlen e
      unfold coreLoop at e ⊢
      obtain ⟨t, ht, g1, g2⟩ := hd j (hj j (by simp))
      rw [g1, Outcome.ok_bind] at e
      rw [g2, Outcome.ok_bind]
      obtain ⟨sd1, e1, l1, m1⟩ := offer_safe t hlen
      rw [e1, Outcome.ok_bind] at e
      rw [hn, offer_map hk hs ht e1, Outcome.ok_bind]
      exact ih sd1 sd' (fun j hj' => hj j (by simp [hj'])) (fun y hy => (m1 y hy).elim (fun e => e ▸ ht) (hs y)) l1 e
  unfold coreOf at hx ⊢
  obtain ⟨sd, e, e2⟩ := Outcome.bind_eq_ok.mp hx
  have := key _ _ _ (fun j hj => List.mem_range.1 hj) (fun x hx => by rw [List.eq_of_mem_replicate hx]; exact hP) (by simp) e
  rw [List.map_replicate, hθ] at this
  rw [hr, hn, this, Outcome.ok_bind]
  exact rd_map θ e2

end Verif.Distance
