import Verif.Model.Fp
/-
What the property about mirror images talks about. A data set of `rows` rows and `cols` columns is a list with the value of row `i` and column `k` at place `i * cols + k`.
-/
namespace Verif.Spec
variable {D : Type}

/-- `data'` is the data set `data` with the columns that `flip` names multiplied by -1 (`neg`). -/
structure Mirrored (neg : D → D) (flip : Nat → Bool) (data data' : List D) (rows cols : Nat) : Prop where
  size : rows * cols ≤ data.length
  same : ∀ i k, i < rows → k < cols → data'[i * cols + k]? = (data[i * cols + k]?).map fun x => if flip k then neg x else x

end Verif.Spec
