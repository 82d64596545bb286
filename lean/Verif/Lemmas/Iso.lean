import Verif.Lemmas.Twin
import Verif.Props.Selection
/-
Helper lemmas: corresponding cluster trees have corresponding selections.
-/
namespace Verif.Corr
open Spec Relation Hier
variable {W S : Type}

/-- `φ` and `χ` are inverse to each other and respect the parents. -/
structure Iso (cs cs' : List (Option (Cl W S))) (φ χ : Nat → Nat) : Prop where
  lt : ∀ l, 1 ≤ l → l < cs.length → 1 ≤ φ l ∧ φ l < cs'.length
  lt' : ∀ l, 1 ≤ l → l < cs'.length → 1 ≤ χ l ∧ χ l < cs.length
  back : ∀ l, 1 ≤ l → l < cs.length → χ (φ l) = l
  forth : ∀ l, 1 ≤ l → l < cs'.length → φ (χ l) = l
  child : ∀ l q, IsChild cs l q → IsChild cs' (φ l) (φ q)
  child' : ∀ l q, IsChild cs' l q → IsChild cs (χ l) (χ q)

theorem Iso.symm {cs cs' : List (Option (Cl W S))} {φ χ : Nat → Nat} (h : Iso cs cs' φ χ) : Iso cs' cs χ φ :=
  ⟨h.lt', h.lt, h.forth, h.back, h.child', h.child⟩

section
variable {cs cs' : List (Option (Cl W S))} {φ χ : Nat → Nat}

theorem child_lt (ht : ClusterTree cs) {l q : Nat} (h : IsChild cs l q) : (1 ≤ l ∧ l < cs.length) ∧ 1 ≤ q ∧ q < cs.length := by
  have hup := ht.up l q h
  obtain ⟨c, hc, _⟩ := h
  have := (List.getElem?_eq_some_iff.1 hc).1
  omega

theorem Iso.above (h : Iso cs cs' φ χ) {a l : Nat} (ha : Above cs a l) : Above cs' (φ a) (φ l) :=
  TransGen.lift φ (fun x y hxy => h.child x y hxy) _ _ ha

theorem Iso.atOrAbove (h : Iso cs cs' φ χ) {a l : Nat} (ha : AtOrAbove cs a l) : AtOrAbove cs' (φ a) (φ l) :=
  ReflTransGen.lift φ (fun x y hxy => h.child x y hxy) _ _ ha

theorem Iso.leaf (h : Iso cs cs' φ χ) (ht : ClusterTree cs) {l : Nat} (hl : Leaf cs l) : Leaf cs' (φ l) := by
  obtain ⟨⟨q, hq⟩, h2⟩ := hl
  refine ⟨⟨φ q, h.child l q hq⟩, fun k hk => h2 (χ k) ?_⟩
  have := h.child' k _ hk
  rwa [h.back l (child_lt ht hq).1.1 (child_lt ht hq).1.2] at this

theorem sel_lt (ht : ClusterTree cs) {T : List Nat} (hT : Selection cs T) {t : Nat} (h : t ∈ T) : 1 ≤ t ∧ t < cs.length := by
  obtain ⟨q, hq⟩ := hT.notRoot t h
  exact (child_lt ht hq).1

theorem Iso.selection (h : Iso cs cs' φ χ) (ht : ClusterTree cs) (ht' : ClusterTree cs') {T : List Nat} (hT : Selection cs T) : Selection cs' (T.map φ) := by
  have hback : ∀ t ∈ T, χ (φ t) = t := fun t h1 => h.back t (sel_lt ht hT h1).1 (sel_lt ht hT h1).2
  refine ⟨?_, ?_, ?_, ?_⟩
  · refine List.Nodup.map_on ?_ hT.nodup
    intro x hx y hy he
    rw [← hback x hx, ← hback y hy, he]
  · intro t h0
    obtain ⟨t, h1, rfl⟩ := List.mem_map.1 h0
    obtain ⟨q, hq⟩ := hT.notRoot t h1
    exact ⟨φ q, h.child t q hq⟩
  · intro s hs0 t h0 ha
    obtain ⟨s, hs, rfl⟩ := List.mem_map.1 hs0
    obtain ⟨t, h1, rfl⟩ := List.mem_map.1 h0
    have := h.symm.above ha
    rw [hback s hs, hback t h1] at this
    exact hT.apart s hs t h1 this
  · intro l hl
    obtain ⟨t, h1, h2⟩ := hT.covers (χ l) (h.symm.leaf ht' hl)
    obtain ⟨q, hq⟩ := hl.1
    have := h.atOrAbove h2
    rw [h.forth l (child_lt ht' hq).1.1 (child_lt ht' hq).1.2] at this
    exact ⟨φ t, List.mem_map.2 ⟨t, h1, rfl⟩, this⟩

theorem atOrAbove_le (ht : ClusterTree cs) {a l : Nat} (h : AtOrAbove cs a l) : a ≤ l := by
  have key : ∀ x y, ReflTransGen (IsChild cs) x y → y ≤ x := by
    intro x y h
    induction h with
    | refl => exact le_refl _
    | tail _ h2 ih => have := ht.up _ _ h2; omega
  exact key _ _ h

theorem apart_eq {T : List Nat} (hT : Selection cs T) {s t : Nat} (hs : s ∈ T) (ht : t ∈ T) (h : AtOrAbove cs s t) : s = t := by
  rcases reflTransGen_iff_eq_or_transGen.1 h with h | h
  · exact h
  · exact absurd h (hT.apart s hs t ht)

/-- A set of selected clusters which is at least as good as every selection, with ties broken in favour of larger clusters. -/
structure Best [AddCommGroup S] [LinearOrder S] (cs : List (Option (Cl W S))) (D : List Nat) : Prop where
  sel : Selection cs D
  le : ∀ T, Selection cs T → (T.map (stabilityOf 0 cs)).sum ≤ (D.map (stabilityOf 0 cs)).sum
  ties : ∀ T, Selection cs T → (T.map (stabilityOf 0 cs)).sum = (D.map (stabilityOf 0 cs)).sum → ∀ t ∈ T, ∃ r ∈ D, AtOrAbove cs r t

variable [AddCommGroup S] [LinearOrder S]

theorem Iso.best_sub (h : Iso cs cs' φ χ) (ht : ClusterTree cs) (ht' : ClusterTree cs') (γ : S → S) (hγ : StrictMono γ) (g0 : γ 0 = 0) (gadd : ∀ a b, γ (a + b) = γ a + γ b)
    (hst : ∀ l q, IsChild cs l q → stabilityOf 0 cs' (φ l) = γ (stabilityOf 0 cs l)) {D D' : List Nat} (hD : Best cs D) (hD' : Best cs' D') :
    (∀ t ∈ D, φ t ∈ D') ∧ ∀ r ∈ D', χ r ∈ D := by
  have gsum : ∀ T : List Nat, (∀ t ∈ T, ∃ q, IsChild cs t q) → ((T.map φ).map (stabilityOf 0 cs')).sum = γ (T.map (stabilityOf 0 cs)).sum := by
    intro T
    induction T with
    | nil => intro _; simp [g0]
    | cons t T ih =>
      intro hT
      obtain ⟨q, hq⟩ := hT t (by simp)
      simp only [List.map_cons, List.sum_cons]
      rw [gadd, hst t q hq, ih fun x hx => hT x (by simp [hx])]
  have s1 := h.selection ht ht' hD.sel
  have s2 := h.symm.selection ht' ht hD'.sel
  have hback : ∀ t ∈ D, χ (φ t) = t := fun t h1 => h.back t (sel_lt ht hD.sel h1).1 (sel_lt ht hD.sel h1).2
  have hforth : ∀ t ∈ D', φ (χ t) = t := fun t h1 => h.forth t (sel_lt ht' hD'.sel h1).1 (sel_lt ht' hD'.sel h1).2
  have hmm : (D'.map χ).map φ = D' := by
    rw [List.map_map]
    conv_rhs => rw [← List.map_id D']
    exact List.map_congr_left fun t h1 => hforth t h1
  have e1 := gsum D hD.sel.notRoot
  have e2 := gsum (D'.map χ) s2.notRoot
  rw [hmm] at e2
  have le1 := hD'.le _ s1
  have le2 := hD.le _ s2
  rw [e1, e2] at le1
  have heq := le_antisymm le2 (hγ.le_iff_le.1 le1)
  have t1 := hD'.ties _ s1 (by rw [e1, e2, heq])
  have t2 := hD.ties _ s2 heq
  have step1 : ∀ t ∈ D, ∃ r ∈ D', φ t = r := by
    intro t h1
    obtain ⟨r, r1, r2⟩ := t1 (φ t) (List.mem_map.2 ⟨t, h1, rfl⟩)
    obtain ⟨u, u1, u2⟩ := t2 (χ r) (List.mem_map.2 ⟨r, r1, rfl⟩)
    have r2' := h.symm.atOrAbove r2
    rw [hback t h1] at r2'
    have := apart_eq hD.sel u1 h1 (ReflTransGen.trans r2' u2)
    subst this
    have a := atOrAbove_le ht u2
    have b := atOrAbove_le ht r2'
    refine ⟨r, r1, ?_⟩
    rw [← hforth r r1]
    congr 1
    omega
  refine ⟨fun t h1 => ?_, fun r r1 => ?_⟩
  · obtain ⟨r, r1, e⟩ := step1 t h1
    rw [e]; exact r1
  · obtain ⟨u, u1, u2⟩ := t2 (χ r) (List.mem_map.2 ⟨r, r1, rfl⟩)
    obtain ⟨r', r1', e⟩ := step1 u u1
    have u2' := h.atOrAbove u2
    rw [hforth r r1, e] at u2'
    have := apart_eq hD'.sel r1' r1 u2'
    rw [← this, ← e, hback u u1]
    exact u1

end
end Verif.Corr
