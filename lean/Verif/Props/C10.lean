import Verif.Lemmas.Str
import Verif.Model.Path

/-! # C10: output file names carry the extension exactly once -/

namespace Xgen.C10

/-- The extension with its dot. -/
def dotted (ext : Str) : Str := if ext.head? = some '.' then ext else '.' :: ext

theorem normalised (ext : Str) : (if hasPrefix ext c!"." then ext else '.' :: ext) = dotted ext := by
  cases ext with
  | nil => rfl
  | cons c cs => by_cases h : c = '.' <;> simp [hasPrefix, dotted, h]

theorem eq_spec (file ext : Str) :
    fileWithExtension file ext = if dotted ext <:+ file then file else file ++ dotted ext := by
  simp only [fileWithExtension, normalised]
  by_cases h : dotted ext <:+ file
  · rw [if_pos h, if_pos ((hasSuffix_iff _ _).2 h)]
  · rw [if_neg h, if_neg (fun h' => h ((hasSuffix_iff _ _).1 h'))]

/-- C10, the result ends with the extension -/
theorem ends_with (file ext : Str) : dotted ext <:+ fileWithExtension file ext := by
  rw [eq_spec]; split
  · assumption
  · exact ⟨file, rfl⟩

/-- C10, unchanged when it already ended so -/
theorem unchanged {file ext : Str} (h : dotted ext <:+ file) : fileWithExtension file ext = file := by
  rw [eq_spec, if_pos h]

/-- C10, otherwise appended -/
theorem appended {file ext : Str} (h : ¬ dotted ext <:+ file) : fileWithExtension file ext = file ++ dotted ext := by
  rw [eq_spec, if_neg h]

/-- C10, repeated application -/
theorem idem (file ext : Str) :
    fileWithExtension (fileWithExtension file ext) ext = fileWithExtension file ext := unchanged (ends_with file ext)

example : fileWithExtension c!"a/b.xsd" c!"go" = c!"a/b.xsd.go" := by decide
example : fileWithExtension c!"a/b.go" c!".go" = c!"a/b.go" := by decide

end Xgen.C10
