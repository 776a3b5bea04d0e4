import Verif.Props.C05
import Verif.Lemmas.Char
import Verif.Model.GenGo
import Verif.Model.GenC
import Verif.Model.GenJava
import Verif.Model.GenRust
import Verif.Model.GenTS

/-! # C06: built-in target types are rendered unchanged; C41, C42 on the table -/

namespace Xgen.C06
variable [Uni]

/-- The field-type generator of a language, by its documented name. -/
def renderType (lang t : Str) : Str :=
  if lang = c!"Go" then genGoFieldType t
  else if lang = c!"C" then genCFieldType t
  else if lang = c!"Java" then genJavaFieldType t
  else if lang = c!"Rust" then genRustFieldType t
  else genTypeScriptFieldType t false

omit [Uni] in
theorem column {value lang t : Str} (h : getBuildInTypeByLang value lang = some t) :
    ∃ e ∈ buildInTypes, e.2[langIndex lang]? = some t := by
  unfold getBuildInTypeByLang getBuildInTypeByLang? at h
  split at h
  · simp at h
  · rename_i row hr
    refine ⟨_, GoMap.mem_of_get? hr, ?_⟩
    split at h
    · simp at h
    · rename_i t' ht'; rw [ht']; simpa using h

theorem go_col : ∀ e ∈ buildInTypes, (e.2[0]?).all isGoBuiltInType = true := by decide
theorem c_col : ∀ e ∈ buildInTypes, (e.2[2]?).all (fun t => cBuildInType.contains t) = true := by decide
theorem java_col : ∀ e ∈ buildInTypes, (e.2[3]?).all isBuiltInJavaType = true := by decide
theorem rust_col : ∀ e ∈ buildInTypes, (e.2[4]?).all isRustBuiltInType = true := by decide

/-- C06 for Go, C, Java and Rust -/
theorem rendered_verbatim {value lang t : Str} (hl : lang ∈ [c!"Go", c!"C", c!"Java", c!"Rust"])
    (h : getBuildInTypeByLang value lang = some t) : renderType lang t = t := by
  obtain ⟨e, he, ht⟩ := column h
  simp only [List.mem_cons, List.not_mem_nil, or_false] at hl
  rcases hl with rfl | rfl | rfl | rfl
  · have := go_col e he
    change e.2[0]? = _ at ht
    rw [ht] at this
    simp only [Option.all_some] at this
    simp [renderType, genGoFieldType, this]
  · have := c_col e he
    change e.2[2]? = _ at ht
    rw [ht] at this
    simp only [Option.all_some] at this
    simp only [renderType, genCFieldType, this]; simp
  · have := java_col e he
    change e.2[3]? = _ at ht
    rw [ht] at this
    simp only [Option.all_some] at this
    simp only [renderType, genJavaFieldType, this]; simp
  · have := rust_col e he
    change e.2[4]? = _ at ht
    rw [ht] at this
    simp only [Option.all_some] at this
    simp only [renderType, genRustFieldType, this]; simp

/-- The TypeScript types of the table. -/
def tsTargets : List Str := [c!"string", c!"Array<string>", c!"any", c!"Uint8Array", c!"boolean", c!"number"]

theorem ts_col : ∀ e ∈ buildInTypes, (e.2[1]?).all (fun t => tsTargets.contains t) = true := by decide

/-- C06 for TypeScript (needs that upper-casing agrees with ASCII on ASCII) -/
theorem rendered_verbatim_ts [UniLaws] {value t : Str} (h : getBuildInTypeByLang value c!"TypeScript" = some t) :
    renderType c!"TypeScript" t = t := by
  obtain ⟨e, he, ht⟩ := column h
  have := ts_col e he
  change e.2[1]? = _ at ht
  rw [ht] at this
  simp only [Option.all_some, tsTargets, List.contains_iff_mem, List.mem_cons, List.not_mem_nil, or_false] at this
  rcases this with rfl | rfl | rfl | rfl | rfl | rfl <;>
    simp [renderType, genTypeScriptFieldType, isBuiltInTypeScriptType, typeScriptBuildInType, titleParts, splitOn,
      makeFirstUpperCase, toTitle, dropChar, UniLaws.upper_ascii, asciiUpper, isAsciiLower]

/-- C06, all five languages -/
theorem builtin_rendered_verbatim [UniLaws] {value lang t : Str}
    (hl : lang ∈ [c!"Go", c!"TypeScript", c!"C", c!"Java", c!"Rust"])
    (h : getBuildInTypeByLang value lang = some t) : renderType lang t = t := by
  by_cases ht : lang = c!"TypeScript"
  · subst ht; exact rendered_verbatim_ts h
  · refine rendered_verbatim ?_ h
    simp only [List.mem_cons, List.not_mem_nil, or_false] at hl ⊢
    rcases hl with h | h | h | h | h
    · exact .inl h
    · exact absurd h ht
    · exact .inr (.inl h)
    · exact .inr (.inr (.inl h))
    · exact .inr (.inr (.inr h))

/-- a non-trivial row: not a built-in of the TypeScript table, and changed by naive capitalisation -/
example : @renderType asciiUni c!"TypeScript" c!"any" = c!"any" :=
  @builtin_rendered_verbatim asciiUni asciiUniLaws c!"QName" _ _ (by decide) (by decide)
/-- and a user type is not left alone -/
example : @renderType asciiUni c!"Go" c!"myType" = c!"*MyType" := by decide

end Xgen.C06
