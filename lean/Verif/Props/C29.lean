import Verif.Props.C22

/-! # C29: missing, unreadable and directory inputs -/

namespace Xgen.C29
variable [Uni]

/-- C29: the outcome of each of the three cases; the shared state (files written, registries) is unchanged. -/
theorem not_a_file (W : World) (cfg : Cfg) (sh : Shared) :
    (W.fs.get? cfg.filePath = none → Parse W cfg sh = .err (.stat cfg.filePath) sh) ∧
    (W.fs.get? cfg.filePath = some .noOpen → Parse W cfg sh = .err (.open cfg.filePath) sh) ∧
    (W.fs.get? cfg.filePath = some .dir → Parse W cfg sh = .ok cfg.tree0 sh) := by
  rw [C22.Parse_eq]
  refine ⟨?_, ?_, ?_⟩ <;> intro h <;> simp [parseWith, h]

example : Ex.parse (Ex.world []) "x.xsd" "Go" = .err (.stat c!"x.xsd") {} ∧
    Ex.parse (Ex.world [] [".", "d"]) "d" "Go" = .ok [] {} := by decide

end Xgen.C29
