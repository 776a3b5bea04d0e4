import Verif.Lemmas.Map
import Verif.Model.Utils

/-! # C05: built-in type lookup is total and exact -/

namespace Xgen.C05

/-- Names of the XSD built-in types the generator supports, as given by the documentation of XML Schema part 2 plus the
four `xml:` attributes (independent of the table). -/
def xsdNames : List Str :=
  [c!"anyType", c!"ENTITIES", c!"ENTITY", c!"ID", c!"IDREF", c!"IDREFS", c!"NCName", c!"NMTOKEN", c!"NMTOKENS",
   c!"NOTATION", c!"Name", c!"QName", c!"anyURI", c!"base64Binary", c!"boolean", c!"byte", c!"date", c!"dateTime",
   c!"decimal", c!"double", c!"duration", c!"float", c!"gDay", c!"gMonth", c!"gMonthDay", c!"gYear", c!"gYearMonth",
   c!"hexBinary", c!"int", c!"integer", c!"language", c!"long", c!"negativeInteger", c!"nonNegativeInteger",
   c!"normalizedString", c!"nonPositiveInteger", c!"positiveInteger", c!"short", c!"string", c!"time", c!"token",
   c!"unsignedByte", c!"unsignedInt", c!"unsignedLong", c!"unsignedShort", c!"xml:lang", c!"xml:space", c!"xml:base",
   c!"xml:id"]

theorem rows_five : ∀ e ∈ buildInTypes, e.2.length = 5 := by decide

theorem langIndex_lt (lang : Str) : langIndex lang < 5 := by
  unfold langIndex; repeat' split
  all_goals omega

/-- C05, no out-of-range access for any name and any language string -/
theorem getBuildInTypeByLang_total (value lang : Str) : getBuildInTypeByLang? value lang ≠ none := by
  unfold getBuildInTypeByLang?
  split
  · simp
  · rename_i row h
    have := rows_five _ (GoMap.mem_of_get? h)
    have hl := langIndex_lt lang
    rw [List.getElem?_eq_getElem (by simp_all)]
    simp

/-- C05, exactly the listed names are found -/
theorem found_iff (value lang : Str) : (getBuildInTypeByLang value lang).isSome ↔ value ∈ xsdNames := by
  have hk : buildInTypes.keys = xsdNames := by decide
  rw [← hk, ← GoMap.has_iff]
  have ht := getBuildInTypeByLang_total value lang
  unfold getBuildInTypeByLang GoMap.has
  unfold getBuildInTypeByLang? at ht ⊢
  cases h : buildInTypes.get? value with
  | none => simp
  | some row =>
    simp only [h] at ht ⊢
    cases h2 : row[langIndex lang]? with
    | none => simp [h2] at ht
    | some t => simp

/-- C05, an unsupported language string behaves like Go -/
theorem unknown_lang (value lang : Str) (h : lang ∉ [c!"Go", c!"TypeScript", c!"C", c!"Java", c!"Rust"]) :
    getBuildInTypeByLang value lang = getBuildInTypeByLang value c!"Go" := by
  simp only [List.mem_cons, List.not_mem_nil, or_false, not_or] at h
  have : langIndex lang = langIndex c!"Go" := by
    obtain ⟨h1, h2, h3, h4, h5⟩ := h
    simp [langIndex, h1, h2, h3, h4, h5]
  simp [getBuildInTypeByLang, getBuildInTypeByLang?, this]

/-- the hypotheses are met: a real name, an unknown language (lower-case "java") -/
example : getBuildInTypeByLang c!"unsignedInt" c!"java" = some c!"uint32" := by decide
example : getBuildInTypeByLang c!"unsignedInt" c!"C" = some c!"unsigned int" := by decide
example : getBuildInTypeByLang c!"myType" c!"Go" = none := by decide

end Xgen.C05
