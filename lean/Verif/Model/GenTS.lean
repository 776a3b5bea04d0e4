import Verif.Model.Gen

/-! # genTypeScript.go -/

namespace Xgen
variable [Uni]

/-- `typeScriptBuildInType`, genTypeScript.go:18-26 -/
def typeScriptBuildInType : List Str :=
  [c!"boolean", c!"number", c!"string", c!"void", c!"null", c!"undefined", c!"Uint8Array"]

/-- `isBuiltInTypeScriptType`, genTypeScript.go:189-192 -/
def isBuiltInTypeScriptType (t : Str) : Bool := typeScriptBuildInType.contains t

/-- `genTypeScriptFieldName(name, false)`, genTypeScript.go:50-67 -/
def tsName (name : Str) : Str := dropChar '-' (baseName name)

/-- `genTypeScriptFieldType`, genTypeScript.go:69-85 (a built-in returns before `plural` is looked at) -/
def genTypeScriptFieldType (name : Str) (plural : Bool) : Str :=
  if isBuiltInTypeScriptType name then name
  else
    let fieldType := makeFirstUpperCase (dropChar '-' (titleParts '.' name))
    let fieldType := if fieldType = [] || fieldType = c!"Any" then c!"any" else fieldType
    if plural then c!"Array<" ++ fieldType ++ c!">" else fieldType

/-- genTypeScript.go:107-110 -/
def tsMemberLine (tree : Tree) (m : Str × Str) : Str :=
  c!"\t" ++ tsName m.1 ++ c!": " ++ genTypeScriptFieldType (memberType tree m) false ++ c!";\n"

/-- genTypeScript.go:123-130 -/
def tsEnumLine (baseType value : Str) : Str :=
  if baseType = c!"string" then c!"\t" ++ value ++ c!" = '" ++ value ++ c!"',\n"
  else if baseType = c!"number" then c!"\tEnum" ++ value ++ c!" = " ++ value ++ c!",\n"
  else c!"\tEnum" ++ value ++ c!" = '" ++ value ++ c!"',\n"

/-- The comment of a declaration (e.g. genTypeScript.go:96, 115, 133) -/
def tsComment (fieldName doc : Str) : Str := genFieldComment fieldName doc c!"//"

/-- genTypeScript.go:115, 209, 228 -/
def tsClass (fieldName doc content : Str) : Str := tsComment fieldName doc ++ c!"export class " ++ fieldName ++ content

/-- genTypeScript.go:140, 237, 246 -/
def tsAlias (fieldName doc content : Str) : Str :=
  tsComment fieldName doc ++ c!"export type " ++ fieldName ++ c!" =" ++ content

/-- `TypeScriptSimpleType`, genTypeScript.go:89-142.  An enumeration is emitted without consulting or updating
`StructAST`. -/
def tsSimpleType (tree : Tree) (v : SimpleType) (g : Gen) : Gen :=
  if v.list && !g.ast.has v.name then
    let content := c!" = " ++ genTypeScriptFieldType (resolveIn tree v.base) true ++ c!";\n"
    let (fieldName, g) := uniqueName (tsName v.name) g
    g.emit v.name content (tsComment fieldName v.doc ++ c!"export type " ++ fieldName ++ content)
  else if v.union && v.memberTypes.length > 0 then
    if g.ast.has v.name then g
    else
      let content := c!" {\n" ++ (toSortedPairs v.memberTypes).flatMap (tsMemberLine tree) ++ c!"}\n"
      let (fieldName, g) := uniqueName (tsName v.name) g
      g.emit v.name content (tsClass fieldName v.doc content)
  else if v.enum.length > 0 then
    let baseType := genTypeScriptFieldType (resolveIn tree v.base) false
    let content := v.enum.flatMap (tsEnumLine baseType)
    let (fieldName, g) := uniqueName (tsName v.name) g
    { g with field := g.field ++ (tsComment fieldName v.doc ++ c!"export enum " ++ fieldName ++ c!" {\n" ++ content ++ c!"}\n") }
  else if g.ast.has v.name then g
  else
    let content := c!" " ++ genTypeScriptFieldType (resolveIn tree v.base) false ++ c!";\n"
    let (fieldName, g) := uniqueName (tsName v.name) g
    g.emit v.name content (tsAlias fieldName v.doc content)

/-- genTypeScript.go:149-152 -/
def tsAttrGroupLine (tree : Tree) (a : AttributeGroup) : Str :=
  c!"\t" ++ tsName a.name ++ c!": " ++ genTypeScriptFieldType (resolveIn tree a.ref) false ++ c!";\n"

/-- genTypeScript.go:154-161 and 218-224 -/
def tsAttrLine (tree : Tree) (a : Attribute) : Str :=
  c!"\t" ++ tsName a.name ++ c!"Attr: " ++ genTypeScriptFieldType (resolveIn tree a.type) a.plural ++
    (if a.optional then c!" | null" else []) ++ c!";\n"

/-- genTypeScript.go:162-164 and 202-204 -/
def tsGroupLine (tree : Tree) (r : GroupRef) : Str :=
  c!"\t" ++ tsName r.name ++ c!": " ++ genTypeScriptFieldType (resolveIn tree r.ref) r.plural ++ c!";\n"

/-- genTypeScript.go:166-169 and 198-200 -/
def tsElemLine (tree : Tree) (e : Element) : Str :=
  c!"\t" ++ tsName e.name ++ c!": " ++ genTypeScriptFieldType (resolveIn tree e.type) e.plural ++ c!";\n"

/-- genTypeScript.go:171-174 -/
def tsValueLine (tree : Tree) (base : Str) : Str :=
  if base ≠ [] && isBuiltInTypeScriptType base then
    c!"\tValue: " ++ genTypeScriptFieldType (resolveIn tree base) false ++ c!";\n"
  else []

/-- genTypeScript.go:178-183 (the `content +=` there is dead: `StructAST` was set before) -/
def tsExtends (tree : Tree) (base : Str) : Str :=
  if base ≠ [] && !isBuiltInTypeScriptType base then
    c!" extends " ++ genTypeScriptFieldType (resolveIn tree base) false ++ c!" "
  else []

/-- genTypeScript.go:148-175 -/
def tsComplexContent (tree : Tree) (v : ComplexType) : Str :=
  c!" {\n" ++ v.attributeGroup.flatMap (tsAttrGroupLine tree) ++ v.attributes.flatMap (tsAttrLine tree) ++
    v.groups.flatMap (tsGroupLine tree) ++ v.elements.flatMap (tsElemLine tree) ++ tsValueLine tree v.base ++ c!"}\n"

/-- `TypeScriptComplexType`, genTypeScript.go:146-187 -/
def tsComplexType (tree : Tree) (v : ComplexType) (g : Gen) : Gen :=
  if g.ast.has v.name then g
  else
    let content := tsComplexContent tree v
    let (fieldName, g) := uniqueName (tsName v.name) g
    g.emit v.name content
      (tsComment fieldName v.doc ++ c!"export class " ++ fieldName ++ tsExtends tree v.base ++ content)

/-- `TypeScriptGroup`, genTypeScript.go:195-211 -/
def tsGroup (tree : Tree) (v : Group) (g : Gen) : Gen :=
  if g.ast.has v.name then g
  else
    let content := c!" {\n" ++ v.elements.flatMap (tsElemLine tree) ++ v.groups.flatMap (tsGroupLine tree) ++ c!"}\n"
    let (fieldName, g) := uniqueName (tsName v.name) g
    g.emit v.name content (tsClass fieldName v.doc content)

/-- `TypeScriptAttributeGroup`, genTypeScript.go:215-230 -/
def tsAttributeGroup (tree : Tree) (v : AttributeGroup) (g : Gen) : Gen :=
  if g.ast.has v.name then g
  else
    let content := c!" {\n" ++ v.attributes.flatMap (tsAttrLine tree) ++ c!"}\n"
    let (fieldName, g) := uniqueName (tsName v.name) g
    g.emit v.name content (tsClass fieldName v.doc content)

/-- `TypeScriptElement`, genTypeScript.go:233-239 -/
def tsElement (tree : Tree) (v : Element) (g : Gen) : Gen :=
  if g.ast.has v.name then g
  else
    let content := c!" " ++ genTypeScriptFieldType (resolveIn tree v.type) v.plural ++ c!";\n"
    let (fieldName, g) := uniqueName (tsName v.name) g
    g.emit v.name content (tsAlias fieldName v.doc content)

/-- `TypeScriptAttribute`, genTypeScript.go:242-248 -/
def tsAttribute (tree : Tree) (v : Attribute) (g : Gen) : Gen :=
  if g.ast.has v.name then g
  else
    let content := c!" " ++ genTypeScriptFieldType (resolveIn tree v.type) v.plural ++ c!";\n"
    let (fieldName, g) := uniqueName (tsName v.name) g
    g.emit v.name content (tsAlias fieldName v.doc content)

/-- Dispatch, genTypeScript.go:36-37 -/
def tsStep (tree : Tree) : Node Element → Gen → Gen
  | .simple v => tsSimpleType tree v
  | .attr v => tsAttribute tree v
  | .elem v => tsElement tree v
  | .complex v => tsComplexType tree v
  | .group v => tsGroup tree v
  | .attrGroup v => tsAttributeGroup tree v

/-- The loop of `GenTypeScript`, genTypeScript.go:31-38 -/
def tsGen (tree : Tree) : Gen := genLoop (tsStep tree) tree

/-- genTypeScript.go:44 -/
def tsSource (tree : Tree) : Str := copyright ++ c!"\n" ++ (tsGen tree).field

end Xgen
