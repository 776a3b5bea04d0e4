import Verif.Model.GenRust

/-! # C36: Rust field names are never keywords -/

namespace Xgen.C36
variable [Uni]

/-- Strict and reserved keywords of Rust (editions 2015 to 2021), from the Rust reference. -/
def rustReserved : List Str :=
  [c!"as", c!"break", c!"const", c!"continue", c!"crate", c!"else", c!"enum", c!"extern", c!"false", c!"fn", c!"for",
   c!"if", c!"impl", c!"in", c!"let", c!"loop", c!"match", c!"mod", c!"move", c!"mut", c!"pub", c!"ref", c!"return",
   c!"self", c!"Self", c!"static", c!"struct", c!"super", c!"trait", c!"true", c!"type", c!"unsafe", c!"use", c!"where",
   c!"while", c!"async", c!"await", c!"dyn", c!"abstract", c!"become", c!"box", c!"do", c!"final", c!"macro",
   c!"override", c!"priv", c!"typeof", c!"unsized", c!"virtual", c!"yield", c!"try"]

theorem reserved_listed : ∀ k ∈ rustReserved, rustKeywords.contains k = true := by decide

theorem suffixed_not_keyword : ∀ k ∈ rustKeywords, rustKeywords.contains (k ++ c!"_attr") = false := by decide

/-- C36 -/
theorem field_not_keyword (name : Str) : rustFieldName name ∉ rustReserved := by
  intro h
  have h' := reserved_listed _ h
  unfold rustFieldName at h'
  simp only at h'
  split at h'
  · rename_i hk
    rw [suffixed_not_keyword _ (by simpa using hk)] at h'
    exact absurd h' (by decide)
  · rename_i hk; exact hk h'

/-- only keywords are changed -/
theorem not_keyword_unchanged (name : Str) (h : rustKeywords.contains (toSnakeCase (dropChar '-' (baseName name))) = false) :
    rustFieldName name = toSnakeCase (dropChar '-' (baseName name)) := by
  simp only [rustFieldName, h, Bool.false_eq_true, if_false]

example : @rustFieldName asciiUni c!"type" = c!"type_attr" := by decide
example : @rustFieldName asciiUni c!"TypeName" = c!"type_name" := by decide

end Xgen.C36
