import Verif.Model.Stack

/-! # C01: the stack is LIFO for every history -/

namespace Xgen.C01

/-- Calls on a stack (stack.go:25-56). -/
inductive Op (α : Type) where
  | push (v : α) | pop | peek | len | empty

/-- What a call answers. -/
inductive Ans (α : Type) where
  | unit | val (v : Option α) | num (n : Nat) | bool (b : Bool)
deriving DecidableEq

/-- Answer of the modelled code. -/
def goAns {α : Type} (s : GoStack α) : Op α → Ans α × GoStack α
  | .push v => (.unit, s.push v)
  | .pop => (.val s.pop.1, s.pop.2)
  | .peek => (.val s.peek, s)
  | .len => (.num s.len, s)
  | .empty => (.bool s.empty, s)

/-- The answers of stack.go to a sequence of calls. -/
def goRun {α : Type} : GoStack α → List (Op α) → List (Ans α)
  | _, [] => []
  | s, o :: os => (goAns s o).1 :: goRun (goAns s o).2 os

/-- Specification: the live values, most recent first. -/
def idealRun {α : Type} : List α → List (Op α) → List (Ans α)
  | _, [] => []
  | l, .push v :: os => .unit :: idealRun (v :: l) os
  | [], .pop :: os => .val none :: idealRun [] os
  | v :: l, .pop :: os => .val (some v) :: idealRun l os
  | l, .peek :: os => .val l.head? :: idealRun l os
  | l, .len :: os => .num l.length :: idealRun l os
  | l, .empty :: os => .bool l.isEmpty :: idealRun l os

theorem goRun_eq {α : Type} (ops : List (Op α)) (s : GoStack α) (l : List α) (h : s.list = l.reverse) :
    goRun s ops = idealRun l ops := by
  induction ops generalizing s l with
  | nil => rfl
  | cons o os ih =>
    cases o with
    | push v => simp [goRun, goAns, idealRun, GoStack.push]; exact ih _ _ (by simp [h])
    | pop =>
      cases l with
      | nil =>
        simp only [List.reverse_nil] at h
        simp [goRun, goAns, idealRun, GoStack.pop, h]; exact ih _ _ (by simp [h])
      | cons v l =>
        simp only [List.reverse_cons] at h
        simp [goRun, goAns, idealRun, GoStack.pop, h]; exact ih _ _ (by simp)
    | peek => simp [goRun, goAns, idealRun, GoStack.peek, h]; exact ih _ _ h
    | len => simp [goRun, goAns, idealRun, GoStack.len, h]; exact ih _ _ h
    | empty =>
      simp [goRun, goAns, idealRun, GoStack.empty, h]
      exact ⟨by cases l <;> simp, ih _ _ h⟩

/-- C01 -/
theorem stack_is_lifo {α : Type} (ops : List (Op α)) : goRun GoStack.new ops = idealRun [] ops :=
  goRun_eq ops _ _ rfl

example : goRun GoStack.new [.push 1, .push 2, .pop, .peek, .len, .pop, .pop, .empty] =
    [.unit, .unit, .val (some 2), .val (some 1), .num 1, .val (some 1), .val none, .bool true] := by decide

end Xgen.C01
