import Verif.Model.Gen

/-! # genGo.go -/

namespace Xgen
variable [Uni]

/-- `goBuildinType`, genGo.go:32-57 -/
def goBuildinType : List Str :=
  [c!"xml.Name", c!"byte", c!"[]byte", c!"bool", c!"[]bool", c!"complex64", c!"complex128", c!"float32", c!"float64",
   c!"int", c!"int8", c!"int16", c!"int32", c!"int64", c!"interface", c!"[]interface{}", c!"string", c!"[]string",
   c!"time.Time", c!"uint", c!"uint8", c!"uint16", c!"uint32", c!"uint64"]

/-- `isGoBuiltInType`, genGo.go:243-246 -/
def isGoBuiltInType (t : Str) : Bool := goBuildinType.contains t

/-- `genGoFieldName(name, false)`, genGo.go:98-115 -/
def goName (name : Str) : Str := dropChar '_' (dropChar '-' (baseName name))

/-- `genGoFieldType`, genGo.go:117-130 -/
def genGoFieldType (name : Str) : Str :=
  if isGoBuiltInType name then name
  else
    let fieldType := dropChar '_' (makeFirstUpperCase (dropChar '-' (titleParts '.' name)))
    if fieldType ≠ [] then '*' :: fieldType else c!"interface{}"

/-- genGo.go:154 and 187, 255, 287: the `XMLName` line, written when the Go name differs from the schema name. -/
def goXMLNameLine (fieldName name : Str) : Str :=
  if fieldName ≠ name then c!"\tXMLName\txml.Name\t`xml:\"" ++ name ++ c!"\"`\n" else []

/-- Comment and declaration (e.g. genGo.go:144, 167, 175, 239) -/
def goDecl (fieldName doc content : Str) : Str :=
  genFieldComment fieldName doc c!"//" ++ c!"type " ++ fieldName ++ content

/-- `plural = "[]"`, genGo.go:209-212, 217-220, 258-261, 266-269, 305-308, 319-322 -/
def goPlural (b : Bool) : Str := if b then c!"[]" else []

/-- genGo.go:163 -/
def goMemberLine (tree : Tree) (m : Str × Str) : Str :=
  c!"\t" ++ goName m.1 ++ c!"\t" ++ genGoFieldType (memberType tree m) ++ c!"\n"

/-- `GoSimpleType`, genGo.go:134-177.  (A list whose name is already in `StructAST` falls through to the later tests,
which then do nothing.) -/
def goSimpleType (tree : Tree) (v : SimpleType) (g : Gen) : Gen :=
  if g.ast.has v.name then g
  else if v.list then
    let fieldType := genGoFieldType (resolveIn tree v.base)
    let g := if fieldType = c!"time.Time" then { g with importTime := true } else g
    let content := c!" []" ++ genGoFieldType fieldType ++ c!"\n"
    let (fieldName, g) := uniqueName (goName v.name) g
    g.emit v.name content (goDecl fieldName v.doc content)
  else if v.union && v.memberTypes.length > 0 then
    let (fieldName, g) := uniqueName (goName v.name) g
    let g := if fieldName ≠ v.name then { g with importEncodingXML := true } else g
    let content := c!" struct {\n" ++ goXMLNameLine fieldName v.name ++
      (toSortedPairs v.memberTypes).flatMap (goMemberLine tree) ++ c!"}\n"
    g.emit v.name content (goDecl fieldName v.doc content)
  else
    let content := c!" " ++ genGoFieldType (resolveIn tree v.base) ++ c!"\n"
    let (fieldName, g) := uniqueName (goName v.name) g
    g.emit v.name content (goDecl fieldName v.doc content)

/-- genGo.go:190-194 -/
def goAttrGroupLine (tree : Tree) (a : AttributeGroup) : Str :=
  c!"\t" ++ goName a.name ++ c!"\t" ++ genGoFieldType (resolveIn tree a.ref) ++ c!"\n"

/-- genGo.go:198-206 and 290-294 -/
def goAttrLine (tree : Tree) (a : Attribute) : Str :=
  c!"\t" ++ goName a.name ++ c!"Attr\t" ++ genGoFieldType (resolveIn tree a.type) ++ c!"\t`xml:\"" ++ a.name ++
    c!",attr" ++ (if a.optional then c!",omitempty" else []) ++ c!"\"`\n"

/-- genGo.go:209-213 and 266-270 -/
def goGroupLine (tree : Tree) (r : GroupRef) : Str :=
  c!"\t" ++ goName r.name ++ c!"\t" ++ goPlural r.plural ++ genGoFieldType (resolveIn tree r.ref) ++ c!"\n"

/-- genGo.go:217-225 -/
def goElemLine (tree : Tree) (e : Element) : Str :=
  c!"\t" ++ goName e.name ++ c!"\t" ++ goPlural e.plural ++ genGoFieldType (resolveIn tree e.type) ++ c!"\t`xml:\"" ++
    e.name ++ c!"\"`\n"

/-- genGo.go:227-236 -/
def goBaseLine (base : Str) : Str :=
  if base ≠ [] then
    if isGoBuiltInType base then c!"\tValue\t" ++ genGoFieldType base ++ c!"\t`xml:\",chardata\"`\n"
    else c!"\t" ++ genGoFieldType base ++ c!"\n"
  else []

/-- The `gen.ImportTime = true` assignments of `GoComplexType`, genGo.go:191-193, 203-205, 222-224. -/
def goComplexUsesTime (tree : Tree) (v : ComplexType) : Bool :=
  v.attributeGroup.any (fun a => resolveIn tree a.ref = c!"time.Time") ||
  v.attributes.any (fun a => genGoFieldType (resolveIn tree a.type) = c!"time.Time") ||
  v.elements.any (fun e => genGoFieldType (resolveIn tree e.type) = c!"time.Time")

/-- genGo.go:183-237: the struct body -/
def goComplexContent (tree : Tree) (fieldName : Str) (v : ComplexType) : Str :=
  c!" struct {\n" ++ goXMLNameLine fieldName v.name ++
    v.attributeGroup.flatMap (goAttrGroupLine tree) ++
    v.attributes.flatMap (goAttrLine tree) ++
    v.groups.flatMap (goGroupLine tree) ++
    v.elements.flatMap (goElemLine tree) ++
    goBaseLine v.base ++ c!"}\n"

/-- `GoComplexType`, genGo.go:181-241 -/
def goComplexType (tree : Tree) (v : ComplexType) (g : Gen) : Gen :=
  if g.ast.has v.name then g
  else
    let (fieldName, g) := uniqueName (goName v.name) g
    let g := if fieldName ≠ v.name then { g with importEncodingXML := true } else g
    let g := if goComplexUsesTime tree v then { g with importTime := true } else g
    let content := goComplexContent tree fieldName v
    g.emit v.name content (goDecl fieldName v.doc content)

/-- genGo.go:258-262: no XML tag here, unlike `GoComplexType` -/
def goGroupElemLine (tree : Tree) (e : Element) : Str :=
  c!"\t" ++ goName e.name ++ c!"\t" ++ goPlural e.plural ++ genGoFieldType (resolveIn tree e.type) ++ c!"\n"

/-- `GoGroup`, genGo.go:249-277 -/
def goGroup (tree : Tree) (v : Group) (g : Gen) : Gen :=
  if g.ast.has v.name then g
  else
    let (fieldName, g) := uniqueName (goName v.name) g
    let g := if fieldName ≠ v.name then { g with importEncodingXML := true } else g
    let content := c!" struct {\n" ++ goXMLNameLine fieldName v.name ++
      v.elements.flatMap (goGroupElemLine tree) ++ v.groups.flatMap (goGroupLine tree) ++ c!"}\n"
    g.emit v.name content (goDecl fieldName v.doc content)

/-- `GoAttributeGroup`, genGo.go:281-300 -/
def goAttributeGroup (tree : Tree) (v : AttributeGroup) (g : Gen) : Gen :=
  if g.ast.has v.name then g
  else
    let (fieldName, g) := uniqueName (goName v.name) g
    let g := if fieldName ≠ v.name then { g with importEncodingXML := true } else g
    let content := c!" struct {\n" ++ goXMLNameLine fieldName v.name ++
      v.attributes.flatMap (goAttrLine tree) ++ c!"}\n"
    g.emit v.name content (goDecl fieldName v.doc content)

/-- `GoElement`, genGo.go:303-314: the name is not made unique -/
def goElement (tree : Tree) (v : Element) (g : Gen) : Gen :=
  if g.ast.has v.name then g
  else
    let content := c!"\t" ++ goPlural v.plural ++ genGoFieldType (resolveIn tree v.type) ++ c!"\n"
    g.emit v.name content (goDecl (goName v.name) v.doc content)

/-- `GoAttribute`, genGo.go:317-328 -/
def goAttribute (tree : Tree) (v : Attribute) (g : Gen) : Gen :=
  if g.ast.has v.name then g
  else
    let content := c!"\t" ++ goPlural v.plural ++ genGoFieldType (resolveIn tree v.type) ++ c!"\n"
    let (fieldName, g) := uniqueName (goName v.name) g
    g.emit v.name content (goDecl fieldName v.doc content)

/-- Dispatch on the node kind by method name "Go" + kind, genGo.go:67-68. -/
def goStep (tree : Tree) : Node Element → Gen → Gen
  | .simple v => goSimpleType tree v
  | .attr v => goAttribute tree v
  | .elem v => goElement tree v
  | .complex v => goComplexType tree v
  | .group v => goGroup tree v
  | .attrGroup v => goAttributeGroup tree v

/-- Code body and import flags for a tree (genGo.go:62-69). -/
def goGen (tree : Tree) : Gen := genLoop (goStep tree) tree

/-- `importPackage`, genGo.go:75-84 -/
def goImports (g : Gen) : Str :=
  let packages := (if g.importTime then c!"\t\"time\"\n" else []) ++
    (if g.importEncodingXML then c!"\t\"encoding/xml\"\n" else [])
  if packages ≠ [] then c!"import (\n" ++ packages ++ c!")" else []

/-- genGo.go:85-88 (and genJava.go:48-51) -/
def packageName (pkg : Str) : Str := if pkg = [] then c!"schema" else pkg

/-- The source handed to `format.Source`, genGo.go:89 -/
def goSource (pkg : Str) (tree : Tree) : Str :=
  copyright ++ c!"\n\npackage " ++ packageName pkg ++ c!"\n" ++ goImports (goGen tree) ++ (goGen tree).field

/-- What is written when formatting fails, genGo.go:91 (no copyright line) -/
def goRawSource (pkg : Str) (tree : Tree) : Str :=
  c!"package " ++ packageName pkg ++ c!"\n" ++ goImports (goGen tree) ++ (goGen tree).field

end Xgen
