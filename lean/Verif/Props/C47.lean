import Verif.Model.GenGo
import Verif.Model.GenC
import Verif.Model.GenJava
import Verif.Model.GenRust
import Verif.Model.GenTS

/-! # C47: field types are never empty -/

namespace Xgen.C47
variable [Uni]

theorem go_nonempty (name : Str) : genGoFieldType name ≠ [] := by
  unfold genGoFieldType
  split
  · rintro rfl; rename_i h; exact absurd h (by decide)
  · simp only; split <;> simp

theorem c_nonempty (name : Str) : genCFieldType name ≠ [] := by
  unfold genCFieldType
  split
  · rintro rfl; rename_i h; exact absurd h (by decide)
  · simp only; split
    · assumption
    · simp

theorem java_nonempty (name : Str) : genJavaFieldType name ≠ [] := by
  unfold genJavaFieldType
  split
  · rintro rfl; rename_i h; exact absurd h (by decide)
  · simp only; split
    · assumption
    · simp

theorem rust_nonempty (name : Str) : genRustFieldType name ≠ [] := by
  unfold genRustFieldType
  split
  · rintro rfl; rename_i h; exact absurd h (by decide)
  · split
    · assumption
    · simp

theorem ts_nonempty (name : Str) (plural : Bool) : genTypeScriptFieldType name plural ≠ [] := by
  unfold genTypeScriptFieldType
  split
  · rintro rfl; rename_i h; exact absurd h (by decide)
  · simp only
    split
    · simp
    · split
      · simp
      · rename_i h; simp at h; exact h.1

/-- C47, the empty name gets the neutral type of each language -/
theorem neutral : genGoFieldType [] = c!"interface{}" ∧ genCFieldType [] = c!"void" ∧ genJavaFieldType [] = c!"void" ∧
    genRustFieldType [] = c!"char" ∧ genTypeScriptFieldType [] false = c!"any" := by
  refine ⟨?_, ?_, ?_, ?_, ?_⟩ <;> rfl

/-- C47, all five at once -/
theorem types_nonempty (name : Str) : genGoFieldType name ≠ [] ∧ genCFieldType name ≠ [] ∧
    genJavaFieldType name ≠ [] ∧ genRustFieldType name ≠ [] ∧ ∀ p, genTypeScriptFieldType name p ≠ [] :=
  ⟨go_nonempty _, c_nonempty _, java_nonempty _, rust_nonempty _, ts_nonempty _⟩

/-- a name that consists of separators only -/
example : @genGoFieldType asciiUni c!"-._" = c!"interface{}" := by decide

end Xgen.C47
