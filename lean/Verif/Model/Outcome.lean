/-
Outcomes of a C computation.

`ok a`     : the call returns and produces `a`
`ub s`     : the abstract machine reaches undefined behaviour (out-of-bounds access, read of an indeterminate
             value, null or dangling pointer, signed overflow, ...); `s` says which
`abort s`  : an `assert` fails (the build of the library keeps asserts, see /repo/CMakeLists.txt: no NDEBUG)
`diverge`  : the loop fuel of the model was used up; theorems show that this never happens
-/
namespace Verif

inductive Outcome (α : Type) where
  | ok (a : α)
  | ub (why : String)
  | abort (why : String)
  | diverge
  deriving Repr, DecidableEq

namespace Outcome
variable {α β γ : Type}

def bind (x : Outcome α) (f : α → Outcome β) : Outcome β :=
  match x with
  | ok a => f a
  | ub s => ub s
  | abort s => abort s
  | diverge => diverge

instance : Monad Outcome where
  pure := ok
  bind := bind

@[simp] theorem pure_eq (a : α) : (pure a : Outcome α) = ok a := rfl
@[simp] theorem ok_bind (a : α) (f : α → Outcome β) : (ok a >>= f) = f a := rfl
@[simp] theorem ub_bind (s : String) (f : α → Outcome β) : ((ub s : Outcome α) >>= f) = ub s := rfl
@[simp] theorem abort_bind (s : String) (f : α → Outcome β) : ((abort s : Outcome α) >>= f) = abort s := rfl
@[simp] theorem diverge_bind (f : α → Outcome β) : ((diverge : Outcome α) >>= f) = diverge := rfl

theorem bind_assoc (x : Outcome α) (f : α → Outcome β) (g : β → Outcome γ) :
    (x >>= f >>= g) = (x >>= fun a => f a >>= g) := by
  cases x <;> rfl

theorem bind_eq_ok {x : Outcome α} {f : α → Outcome β} {b : β} :
    (x >>= f) = ok b ↔ ∃ a, x = ok a ∧ f a = ok b := by
  cases x <;> simp

/-- The call returns normally. -/
def Returns (x : Outcome α) : Prop := ∃ a, x = ok a

/-- The call runs into undefined behaviour. -/
def IsUB (x : Outcome α) : Prop := ∃ s, x = ub s

/-- The call fails an assertion. -/
def Aborts (x : Outcome α) : Prop := ∃ s, x = abort s

instance : LawfulMonad Outcome := LawfulMonad.mk'
  (id_map := by intro α x; cases x <;> rfl)
  (pure_bind := by intros; rfl)
  (bind_assoc := by intro α β γ x f g; cases x <;> rfl)

end Outcome

/-- Read `a[i]` of a C array of known length. -/
def rd {α : Type} (a : List α) (i : Nat) : Outcome α :=
  match a[i]? with
  | some x => .ok x
  | none => .ub "read out of bounds"

/-- Write `a[i] = x` to a C array of known length. -/
def wr {α : Type} (a : List α) (i : Nat) (x : α) : Outcome (List α) :=
  if i < a.length then .ok (a.set i x) else .ub "write out of bounds"

theorem rd_ok {α : Type} {a : List α} {i : Nat} (h : i < a.length) : rd a i = .ok a[i] := by
  simp [rd, h]

theorem wr_ok {α : Type} {a : List α} {i : Nat} {x : α} (h : i < a.length) : wr a i x = .ok (a.set i x) := by
  simp [wr, h]

theorem wr_ub {α : Type} {a : List α} {i : Nat} {x : α} (h : ¬ i < a.length) : (wr a i x) = .ub "write out of bounds" := by
  simp [wr, h]

end Verif
