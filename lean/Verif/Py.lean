/-!
# Python run-time notions used by every model file

Not a model of a particular file of `/repo`: Python exceptions as values and Python list indexing.
-/

namespace Verif

/-- The Python exceptions that the modelled code can raise. -/
inductive Err where
  | assertionError
  | valueError
  | indexError
  | keyError
  | typeError
  | zeroDivisionError
  | attributeError
  /-- any exception raised by user code -/
  | user (code : Nat)
  deriving DecidableEq, Repr

/-- Python's resolution of a list index `i` for a list of length `n`: negative indices count from the end,
anything outside `-n ≤ i < n` raises `IndexError` (`none`). -/
def pyIdx (n : Nat) (i : Int) : Option Nat :=
  if 0 ≤ i then (if i.toNat < n then some i.toNat else none)
  else if 0 ≤ (n : Int) + i then some ((n : Int) + i).toNat else none

/-- Python `l[i]` with a non-negative index: `IndexError` when out of range. -/
def pyGet {α : Type _} (l : List α) (i : Nat) : Except Err α :=
  match l[i]? with
  | some a => .ok a
  | none => .error .indexError

/-- `xs` with position `i` replaced by `f` of the old value (`l[i] = f(l[i])`), unchanged when out of range. -/
def updAt {α : Type _} (l : List α) (i : Nat) (f : α → α) : List α := l.modify i f

end Verif
