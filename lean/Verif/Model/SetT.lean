import Verif.Model.AList
/-
Model of `set_t`, /repo/modules/collections/src/set.c: an `ArrayList` kept in order.
-/
namespace Verif.SetT
variable {α : Type}

/-- `set_init`, set.c 44-47: capacity 2. -/
def init : Outcome (AList α) := AList.init 2

/-- The search loop of `set_insert`, set.c 66-79. `none` stands for the early `return 0` (element present),
    `some low` for leaving the loop with insertion position `low`. -/
def insertPos (cmp : α → α → Int) (s : AList α) (x : α) : (fuel low high : Nat) → Outcome (Option Nat)
  | 0, _, _ => .diverge
  | fuel + 1, low, high => do
    let mid := low + (high - low) / 2
    let t ← s.readSlot mid
    let c := cmp t x
    if c < 0 then
      if mid + 1 < high then insertPos cmp s x fuel (mid + 1) high else return some (mid + 1)
    else if c > 0 then
      if low < mid then insertPos cmp s x fuel low mid else return some low
    else return none

/-- `set_insert`, set.c 59-83: return value (1 added, 0 already there) and new set. -/
def insert (cmp : α → α → Int) (s : AList α) (x : α) : Outcome (Int × AList α) := do
  let p ← if s.size > 0 then insertPos cmp s x (s.size + 1) 0 s.size else pure (some 0)
  match p with
  | none => return (0, s)
  | some low => do
    let s' ← s.insertAt x low
    return (1, s')

/-- `set_find`, set.c 96-99. -/
def find (cmp : α → α → Int) (s : AList α) (x : α) : Outcome Int := s.find cmp x true

/-- `set_remove`, set.c 85-94: -1 if absent, else 1. -/
def remove (cmp : α → α → Int) (s : AList α) (x : α) : Outcome (Int × AList α) := do
  let d ← find cmp s x
  if d < 0 then return (-1, s)
  else do
    let (o, s') ← s.removeAt d.toNat
    return (if o.isSome then 1 else 0, s')

/-- `set_value_at`, set.c 101-104. -/
def valueAt (s : AList α) (i : Nat) : Outcome (Option α) := s.valueAt i

/-- `set_remove_at`, set.c 106-109. -/
def removeAt (s : AList α) (i : Nat) : Outcome (Option α × AList α) := s.removeAt i

/-- `set_clear`, set.c 54-57: clears with resize. -/
def clear (s : AList α) : AList α := s.clear true

end Verif.SetT
