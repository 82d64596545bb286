import Verif.Model.Layout
/-
Spec for structures shared between C and C++.
-/
namespace Verif.Spec
open Layout

/-- The values of an array of structures: every structure has a value for every member, with as many bytes as its type. -/
def Typed {B : Type} (d : Decl) (arr : List (List (List B))) : Prop := ∀ vs ∈ arr, vs.map List.length = d.fields.map (·.size)

/-- Member `j` of element `i` of an array. -/
def member {B : Type} (arr : List (List (List B))) (i j : Nat) : Option (List B) := (arr[i]?).bind (·[j]?)

end Verif.Spec
