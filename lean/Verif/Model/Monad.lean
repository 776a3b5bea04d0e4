import Verif.Model.Base

/-!
# Effects

A Go call that can return an error, panic, call `os.Exit` or change state is a function from a state to an outcome.
-/

namespace Xgen

/-- The errors the modelled code (parser.go, xml*.go, gen*.go) can return. -/
inductive Err where
  /-- `os.Stat` failed (parser.go:67, 174) -/
  | stat (path : Str)
  /-- `os.Open` failed (parser.go:75) -/
  | open (path : Str)
  /-- `strconv.Atoi` failed (xmlElement.go:39, xmlChoice.go:24) -/
  | atoi (value : Str)
  /-- `os.Create` failed (genGo.go:70 and the other generators) -/
  | create (path : Str)
  /-- `format.Source` failed (genGo.go:89) -/
  | gofmt
deriving DecidableEq, Repr

/-- Abnormal ends (parser.go:137 and run-time panics, e.g. xmlComplexType.go:17). -/
inductive Halt where
  /-- a failed type assertion on nil, or a reflective call with a wrong argument type -/
  | panic
  /-- `os.Exit(code)` -/
  | exit (code : Nat)
  /-- not a Go outcome: the recursion budget of the model ran out (proved impossible, C22) -/
  | fuel
deriving DecidableEq, Repr

/-- Outcome of a call: normal result, returned error, or abnormal end, each with the state reached
(every handler in xml*.go has the form `func (opt *Options) …(…) (err error)`, e.g. xmlElement.go:17). -/
inductive Out (σ α : Type) where
  | ok (a : α) (s : σ)
  | err (e : Err) (s : σ)
  | halt (h : Halt) (s : σ)
deriving DecidableEq, Repr

/-- The state an outcome carries: what `opt` (parser.go:24) holds after the call. -/
def Out.state {σ α : Type} : Out σ α → σ
  | .ok _ s => s
  | .err _ s => s
  | .halt _ s => s

/-- A Go computation on state `σ` (e.g. a method of `*Options`, parser.go:64). -/
def Go (σ α : Type) : Type := σ → Out σ α

namespace Go
variable {σ α β : Type}

/-- Normal return (e.g. xmlElement.go:91). -/
def pure (a : α) : Go σ α := fun s => .ok a s

/-- Sequencing; an error returns at once (`if err != nil { return }`), state changes are kept
(e.g. xmlElement.go:22-25). -/
def bind (m : Go σ α) (f : α → Go σ β) : Go σ β := fun s =>
  match m s with
  | .ok a s => f a s
  | .err e s => .err e s
  | .halt h s => .halt h s

instance : Monad (Go σ) where
  pure := Go.pure
  bind := Go.bind

/-- `return err` (e.g. genC.go:50) -/
def throw (e : Err) : Go σ α := fun s => .err e s

/-- `if err != nil { return }` (e.g. xmlElement.go:23-25) -/
def throwOpt : Option Err → Go σ Unit
  | none => Go.pure ()
  | some e => throw e

/-- A run-time panic (e.g. xmlComplexType.go:17 on an empty stack). -/
def panic : Go σ α := fun s => .halt .panic s

/-- Assignments (e.g. parser.go:86-90). -/
def modify (f : σ → σ) : Go σ Unit := fun s => .ok () (f s)

/-- Reading the fields of `opt` (e.g. parser.go:113). -/
def get : Go σ σ := fun s => .ok s s

@[simp] theorem pure_apply (a : α) (s : σ) : (Pure.pure a : Go σ α) s = .ok a s := rfl
@[simp] theorem pure_apply' (a : α) (s : σ) : (Go.pure a : Go σ α) s = .ok a s := rfl
@[simp] theorem bind_apply (m : Go σ α) (f : α → Go σ β) (s : σ) :
    (m >>= f) s = match m s with
      | .ok a s => f a s
      | .err e s => .err e s
      | .halt h s => .halt h s := rfl
@[simp] theorem throw_apply (e : Err) (s : σ) : (Go.throw e : Go σ α) s = .err e s := rfl
@[simp] theorem throwOpt_none (s : σ) : Go.throwOpt none s = .ok () s := rfl
@[simp] theorem throwOpt_some (e : Err) (s : σ) : Go.throwOpt (some e) s = .err e s := rfl
@[simp] theorem panic_apply (s : σ) : (Go.panic : Go σ α) s = .halt .panic s := rfl
@[simp] theorem modify_apply (f : σ → σ) (s : σ) : Go.modify f s = .ok () (f s) := rfl
@[simp] theorem get_apply (s : σ) : (Go.get : Go σ σ) s = .ok s s := rfl

end Go
end Xgen
