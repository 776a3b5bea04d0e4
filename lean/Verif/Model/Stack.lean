import Verif.Model.Base

/-!
# stack.go

`Stack` wraps `container/list`, a list from front to back; values are pushed at and removed from the back.
-/

namespace Xgen

/-- stack.go:14-16: the wrapped list, front to back. -/
structure GoStack (α : Type) where
  list : List α := []
deriving DecidableEq, Repr

namespace GoStack
variable {α : Type}

/-- `NewStack`, stack.go:19-22 -/
def new : GoStack α := ⟨[]⟩

/-- `Push`, stack.go:25-27: `list.PushBack(value)` -/
def push (s : GoStack α) (v : α) : GoStack α := ⟨s.list ++ [v]⟩

/-- `Pop`, stack.go:30-37: `list.Back()`, then `list.Remove`; `none` is nil. -/
def pop (s : GoStack α) : Option α × GoStack α :=
  match s.list.getLast? with
  | some v => (some v, ⟨s.list.dropLast⟩)
  | none => (none, s)

/-- `Peek`, stack.go:40-46 -/
def peek (s : GoStack α) : Option α := s.list.getLast?

/-- `Len`, stack.go:49-51 -/
def len (s : GoStack α) : Nat := s.list.length

/-- `Empty`, stack.go:54-56 -/
def empty (s : GoStack α) : Bool := s.list.length == 0

end GoStack

/-- The representation of a stack (stack.go:14-16) inside the parser model: a list with the top at the head.  C01 proves that a
`GoStack` behaves like this list under every sequence of operations. -/
abbrev Stack (α : Type) := List α

/-- Assignment through the pointer returned by `Peek` (e.g. `opt.SimpleType.Peek().(*SimpleType).Base = ...`,
xmlRestriction.go:25). -/
def Stack.setTop {α : Type} (f : α → α) : Stack α → Stack α
  | [] => []
  | v :: rest => f v :: rest

end Xgen
