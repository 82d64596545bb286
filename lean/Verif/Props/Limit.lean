import Verif.Props.Api
import Verif.Model.Fp
/-
C17, C51: data sets of more than 65536 rows.
-/
namespace Verif.Props
open Verif Spec

variable {D W S T : Type}

/-- A difference of two values is computed, or undefined behaviour. -/
def Decided (ops : DistOps D W) : Prop := ∀ a b, (∃ w, ops.diff a b = .ok w) ∨ (ops.diff a b).IsUB

theorem decided_double : Decided doubleOps := fun _ _ => .inl ⟨_, rfl⟩

theorem decided_float : Decided floatOps := fun _ _ => .inl ⟨_, rfl⟩

theorem decided_integer (bits : Nat) : Decided (integerOps bits) := by
  intro a b
  by_cases h : -2 ^ (bits - 1) ≤ a - b ∧ a - b < 2 ^ (bits - 1)
  · exact .inl ⟨Fp.of ((a - b : ℤ) : ℚ), by show (if _ then _ else _) = _; rw [if_pos h]⟩
  · exact .inr ⟨"signed overflow", by show (if _ then _ else _) = _; rw [if_neg h]⟩

theorem bind_ub {A B : Type} {x : Outcome A} (k : A → Outcome B) (h : x.IsUB) : (x >>= k).IsUB := by
  obtain ⟨s, rfl⟩ := h
  exact ⟨s, rfl⟩

theorem rd_decided {A : Type} (l : List A) (i : Nat) : (∃ a, rd l i = .ok a) ∨ (rd l i).IsUB := by
  cases h : l[i]? with
  | none => exact .inr ⟨_, by rw [rd, h]⟩
  | some a => exact .inl ⟨a, by rw [rd, h]⟩

theorem sumFrom_decided {ops : DistOps D W} (ho : Decided ops) (data : List D) (cols i j : Nat) : ∀ (n k : Nat) (s : W), (∃ w, Distance.sumFrom ops data cols i j n k s = .ok w) ∨ (Distance.sumFrom ops data cols i j n k s).IsUB := by
  intro n
  induction n with
  | zero => exact fun k s => .inl ⟨s, rfl⟩
  | succ n ih =>
    intro k s
    rw [Distance.sumFrom]
    rcases rd_decided data (i * cols + k) with ⟨a, ha⟩ | ha
    · rcases rd_decided data (j * cols + k) with ⟨b, hb⟩ | hb
      · rcases ho a b with ⟨d, hd⟩ | hd
        · rw [ha, hb, Outcome.ok_bind, Outcome.ok_bind, hd, Outcome.ok_bind]
          exact ih _ _
        · rw [ha, hb, Outcome.ok_bind, Outcome.ok_bind]
          exact .inr (bind_ub _ hd)
      · rw [ha, Outcome.ok_bind]
        exact .inr (bind_ub _ hb)
    · exact .inr (bind_ub _ ha)

theorem computeLoop_large {ops : DistOps D W} (ho : Decided ops) {data : List D} {cols n : Nat} (i j : Nat) : ∀ (order : List (Nat × Nat)) (m : List (Option W)),
    (i, j) ∈ order → m.length ≤ cellSet n i j → (Distance.computeLoop ops data cols n order m).IsUB := by
  intro order
  induction order with
  | nil => intro m h; simp at h
  | cons p r ih =>
    intro m hm hlen
    obtain ⟨a, b⟩ := p
    rw [Distance.computeLoop, Distance.computeCell]
    rcases sumFrom_decided ho data cols a b cols 0 ops.zero with ⟨s, es⟩ | es
    · rw [es, Outcome.ok_bind]
      by_cases hc : cellSet n a b < m.length
      · rw [wr_ok hc, Outcome.ok_bind]
        refine ih _ ?_ (by rw [List.length_set]; exact hlen)
        rcases List.mem_cons.mp hm with h | h
        · obtain ⟨rfl, rfl⟩ := Prod.mk.inj h
          exact absurd hc (not_lt.mpr hlen)
        · exact h
      · rw [wr_ub hc]
        exact ⟨_, rfl⟩
    · exact bind_ub _ (bind_ub _ es)

/-- The last cell that is written lies outside the matrix. -/
theorem cell_outside (n : Nat) (h1 : 65536 < n) (h2 : n < 2 ^ 32) : subCells n ≤ cellSet n (n - 2) (n - 1) := by
  have hs : subCells n < 2 ^ 31 := by
    rw [subCells]
    have := Nat.mod_lt ((n * n) % 2 ^ 32 + 2 ^ 32 - n) (show 0 < 2 ^ 32 by decide)
    omega
  have ht : triangularH ((n - 2 + 1) % 2 ^ 32) < 2 ^ 31 := by
    rw [triangularH]
    have := Nat.mod_lt ((n - 2 + 1) % 2 ^ 32 * ((n - 2 + 1) % 2 ^ 32) + (n - 2 + 1) % 2 ^ 32) (show 0 < 2 ^ 32 by decide)
    omega
  obtain ⟨k, rfl⟩ : ∃ k, n = k + 2 := ⟨n - 2, by omega⟩
  have e1 : (k + 2 - 2) * (k + 2) + (k + 2 - 1) = k * (k + 2) + (k + 1) := by simp
  have lo : 65535 * 65537 ≤ k * (k + 2) := Nat.mul_le_mul (by omega) (by omega)
  have hi : k * (k + 2) + (k + 1) < 2 ^ 64 := by
    have a := Nat.mul_le_mul (show k ≤ 2 ^ 32 - 3 by omega) (show k + 2 ≤ 2 ^ 32 - 1 by omega)
    have b : (2 ^ 32 - 3) * (2 ^ 32 - 1) + 2 ^ 32 < 2 ^ 64 := by decide
    omega
  rw [cellSet, e1, Nat.mod_eq_of_lt hi, subSize]
  generalize triangularH ((k + 2 - 2 + 1) % 2 ^ 32) = t at ht
  generalize subCells (k + 2) = c at hs
  generalize hx : k * (k + 2) + (k + 1) = x at hi
  have hx2 : 65535 * 65537 ≤ x := by omega
  omega

/-- **C17 beyond the limit**, all sizes: for every number of rows above 65536, up to the largest `unsigned int`, `distance_compute` leaves the memory of the matrix or of the data, whatever the data,
the type of the values, the number of columns and the schedule. -/
theorem C17_beyond_violated [CCmp W] (ops : DistOps D W) (ho : Decided ops) (dmax : W) (data : List D) (rows cols nn : Nat) (h1 : 65536 < rows) (h2 : rows < 2 ^ 32)
    (order : List (Nat × Nat)) (corder : List Nat) (hp : order.Perm (Distance.pairs rows)) : (Distance.compute ops dmax order corder data rows cols nn).IsUB := by
  have hm : (rows - 2, rows - 1) ∈ order := hp.mem_iff.mpr (Distance.mem_pairs.mpr ⟨by omega, by omega⟩)
  rw [Distance.compute]
  exact bind_ub _ (computeLoop_large ho _ _ order _ hm (by rw [List.length_replicate]; exact cell_outside rows h1 h2))

/-- **C51 is violated** by every data set of more than 65536 rows too: the run is undefined behaviour, whatever the values and `minPoints` ≥ 2. -/
theorem C51_large_violated [CCmp W] [CCmp S] [CCmp T] (env : Api.Env D W S T) (ho : Decided env.dops) (data : List D) (rows cols : Nat) (rowwise : Bool) (h1 : 65536 < rows) (h2 : rows < 2 ^ 32) (m : Nat) (hm : 2 ≤ m)
    (par : Api.Par) (hp : par.pairs.Perm (Distance.pairs rows)) : (Api.fresh env par m data rows cols rowwise).IsUB := by
  rw [Api.fresh, Api.initObj, if_pos (by omega), Outcome.ok_bind, Api.run]
  exact bind_ub _ (C17_beyond_violated env.dops ho env.ar.dmax data rows cols _ h1 h2 par.pairs par.cores hp)

example : Decided doubleOps ∧ Decided floatOps ∧ Decided (integerOps 64) ∧ 65536 < 100000 ∧ 100000 < 2 ^ 32 := ⟨decided_double, decided_float, decided_integer 64, by decide, by decide⟩

end Verif.Props
