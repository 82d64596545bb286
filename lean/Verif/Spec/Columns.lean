import Verif.Model.Fp
import Verif.Spec.Api
/-
What the properties about the columns and the origin of a data set talk about. A data set of `rows` rows and `cols` columns is a list with the value of row `i` and column `k` at place `i * cols + k`.
-/
namespace Verif.Spec
variable {D W S T : Type}

/-- `data'` is the data set `data` with a further column at place `q` that has the value `c` in every row. -/
structure ConstantColumn (data data' : List D) (rows cols q : Nat) (c : D) : Prop where
  place : q ≤ cols
  before : ∀ i k, i < rows → k < q → data'[i * (cols + 1) + k]? = data[i * cols + k]?
  new : ∀ i, i < rows → data'[i * (cols + 1) + q]? = some c
  after : ∀ i k, i < rows → q ≤ k → k < cols → data'[i * (cols + 1) + (k + 1)]? = data[i * cols + k]?

/-- `data'` is the data set `data` with its columns in another order: column `k` of `data'` is column `σ k` of `data`. -/
structure Reordered (data data' : List D) (rows cols : Nat) (σ : Nat → Nat) : Prop where
  perm : ((List.range cols).map σ).Perm (List.range cols)
  same : ∀ i k, i < rows → k < cols → data'[i * cols + k]? = data[i * cols + σ k]?

/-- The squared distance of the rows `i` and `j` of whole numbers. -/
def squared (data : List ℤ) (cols i j : Nat) : ℤ := ((List.range cols).map fun k => (data.getD (i * cols + k) 0 - data.getD (j * cols + k) 0) ^ 2).sum

/-- The results `y` are those of `x` in every respect but the number of columns that the object remembers; a run that goes wrong goes wrong in the same way. -/
def SameRun (cols : Nat) (x y : Outcome (Api.Obj W S T)) : Prop := y = x >>= fun o => .ok { o with dis := { o.dis with cols := cols } }

/-- `y` is `x + t` without rounding, or the same NaN or infinity as `x`. -/
def Moved (t : ℚ) (x y : Dbl) : Prop := (∃ a b : Fin754 binary64, x = Fp.fin a ∧ y = Fp.fin b ∧ b.1 = a.1 + t) ∨ ((∀ a : Fin754 binary64, x ≠ Fp.fin a) ∧ y = x)

end Verif.Spec
