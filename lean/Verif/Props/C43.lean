import Verif.Props.C15

/-! # C43: generation is independent of history -/

namespace Xgen.C43
open Decl
variable [Uni]

/-- The five target languages. -/
inductive Target where
  | go | c | java | rust | ts
deriving DecidableEq, Repr

/-- The dispatch of each language. -/
def Target.step : Target → Tree → Node Element → Gen → Gen
  | .go => goStep
  | .c => cStep
  | .java => javaStep
  | .rust => rustStep
  | .ts => tsStep

/-- The declarative description of each language. -/
def Target.lang : Target → Tree → Lang
  | .go => C15.goLang
  | .c => C15.cLang
  | .java => C15.javaLang
  | .rust => C15.rustLang
  | .ts => C15.tsLang

/-- The result of each language's generator, as used by `Parse`. -/
def Target.gen : Target → Tree → Gen
  | .go => goGen
  | .c => cGen
  | .java => javaGen
  | .rust => rustGen
  | .ts => tsGen

/-- A process that generates code for several trees, one after the other, starting with the counter `count`: each
generation finds the counter the previous one left. -/
def session : GoMap Nat → List (Target × Tree) → List Gen
  | _, [] => []
  | count, (l, t) :: rest =>
    let g := genFrom count (l.step t) t
    g :: session g.count rest

/-- C43: in every process, every generation gives what it gives alone. -/
theorem independent (count : GoMap Nat) (todo : List (Target × Tree)) :
    session count todo = todo.map fun r => r.1.gen r.2 := by
  induction todo generalizing count with
  | nil => rfl
  | cons r rest ih =>
    obtain ⟨l, t⟩ := r
    rw [session, ih, List.map_cons]
    cases l <;> rfl

/-- The counter does carry numbers from one generation to the next: without the reset the second run would say `A2`. -/
example : (@genFrom [] (@goStep asciiUni []) [some (.complex { name := c!"A" })]).count = [(c!"A", 1)] := by decide

example : ((@session asciiUni [] [(.go, [some (.complex { name := c!"A" })]),
    (.ts, [some (.complex { name := c!"A" })]), (.go, [some (.complex { name := c!"A" })])]).map (fun g => g.count)) =
    [[(c!"A", 1)], [(c!"A", 1)], [(c!"A", 1)]] := by decide +kernel

end Xgen.C43
