import Verif.Props.C06
import Verif.Props.C07
import Verif.Props.C41
import Verif.Props.C17
import Verif.Spec.Example

/-! # C51: built-in typed fields keep their built-in type

The generators look the type of a field up in the tree once more, although the parser has already replaced it by a type of
the target language.  A declaration named like that type captures the field (`captured`).  Without such a declaration the
property holds. -/

namespace Xgen.C51
variable [Uni]

/-- The type text the generator of a language writes for a component of the given type. -/
def declared (lang : Str) (tree : Tree) (type : Str) : Str := C06.renderType lang (resolveIn tree type)

/-- Target types contain no prefix. -/
theorem no_prefix {value lang t : Str} (hl : lang ∈ C41.langs) (h : getBuildInTypeByLang value lang = some t) :
    trimNSPrefix t = t := by
  obtain ⟨e, he, ht⟩ := C06.column h
  have key : ∀ l ∈ C41.langs, ∀ e ∈ buildInTypes, (e.2[langIndex l]?).all (fun t => trimNSPrefix t = t) = true := by decide
  have := key lang hl e he
  rw [ht] at this
  simpa using this

/-- C51 for trees in which no simple type, element or attribute is named like the target type. -/
theorem kept_partial [UniLaws] {value lang t : Str} (tree : Tree) (hl : lang ∈ C41.langs)
    (h : getBuildInTypeByLang value lang = some t) (hd : ∀ n ∈ tree, ∀ u, C07.declares n ≠ some (t, u)) :
    declared lang tree t = t := by
  unfold declared resolveIn
  rw [no_prefix hl h, C07.resolves_none t tree hd]
  exact C06.builtin_rendered_verbatim hl h

/-- Exactly: the type is that of the first declaration of the target name, rendered. -/
theorem exact [UniLaws] {value lang t : Str} (tree : Tree) (hl : lang ∈ C41.langs)
    (h : getBuildInTypeByLang value lang = some t) :
    declared lang tree t = match (tree.filterMap C07.declares).find? (fun d => d.1 = t) with
      | some d => C06.renderType lang d.2
      | none => t := by
  unfold declared resolveIn
  rw [no_prefix hl h, C07.resolves_to_first]
  cases (tree.filterMap C07.declares).find? (fun d => d.1 = t) with
  | some d => rfl
  | none => exact C06.builtin_rendered_verbatim hl h

/-- The property. -/
def Kept (lang : Str) : Prop := ∀ (value t : Str) (tree : Tree), getBuildInTypeByLang value lang = some t → declared lang tree t = t

open Ex in
/-- A schema with its own type "int" (a restricted string) and an element of the XSD type int. -/
def doc : List Token :=
  [on "schema"] ++ [on "simpleType" [("name", "int")], on "restriction" [("base", "xs:string")], off "restriction", off "simpleType",
   on "complexType" [("name", "T")]] ++ leaf "element" [("name", "e"), ("type", "xs:int")] ++ [off "complexType", off "schema"]

/-- The types of the fields of the Go structs. -/
def goTypes : Out Shared Tree → List Str
  | .ok t _ => (C17.read (@goGen asciiUni t).field).map (·.type)
  | _ => []

open Ex in
/-- In the generated Go code the element of type xs:int is a string. -/
theorem captured_schema : goTypes (Ex.parse (world [("s.xsd", doc)]) "s.xsd" "Go") = [c!"string"] := by decide +kernel

/-- C51 is false. -/
theorem captured : ¬ @Kept asciiUni c!"Go" := by
  intro h
  have := h c!"int" c!"int" [some (.simple { name := c!"int", base := c!"string" })] (by decide)
  revert this
  decide +kernel

/-! ## Examples -/

example : @declared asciiUni c!"Java" [some (.simple { name := c!"a", base := c!"Integer" })] c!"Integer" = c!"Integer" := by
  decide +kernel

example : getBuildInTypeByLang c!"int" c!"Java" = some c!"Integer" := by decide

end Xgen.C51
