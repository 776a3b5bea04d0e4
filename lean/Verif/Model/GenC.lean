import Verif.Model.Gen

/-! # genC.go -/

namespace Xgen
variable [Uni]

/-- `cBuildInType`, genC.go:18-35 -/
def cBuildInType : List Str :=
  [c!"bool", c!"char", c!"unsigned char", c!"signed char", c!"char[]", c!"float", c!"double", c!"long double", c!"int",
   c!"unsigned int", c!"short", c!"unsigned short", c!"long", c!"unsigned long", c!"void", c!"enum"]

/-- `innerArray`, genC.go:58-63 -/
def innerArray (dataType : Str) : Str × Bool :=
  if hasSuffix dataType c!"[]" then (trimSuffix dataType c!"[]", true) else (dataType, false)

/-- `genCFieldName(name, false)`, genC.go:65-82 -/
def cName (name : Str) : Str := dropChar '-' (baseName name)

/-- `genCFieldType`, genC.go:84-97 -/
def genCFieldType (name : Str) : Str :=
  if cBuildInType.contains name then name
  else
    let fieldType := makeFirstUpperCase (dropChar '-' (titleParts '.' name))
    if fieldType ≠ [] then fieldType else c!"void"

/-- `plural = "[]"`, genC.go:122-126, 163-167, 172-175, 180-184, 201-204, 209-212, 229-236, 249-253, 262-266 -/
def cPlural (b : Bool) : Str := if b then c!"[]" else []

/-- genC.go:115-127 -/
def cMemberLine (tree : Tree) (m : Str × Str) : Str :=
  let r := innerArray (genCFieldType (memberType tree m))
  c!"\t" ++ r.1 ++ c!" " ++ cName m.1 ++ cPlural r.2 ++ c!";\n"

/-- `typedef <content> <name>;` genC.go:132, 192, 219, 242 -/
def cDecl (fieldName doc content : Str) : Str :=
  genFieldComment fieldName doc c!"//" ++ c!"typedef " ++ content ++ c!" " ++ fieldName ++ c!";\n"

/-- `CSimpleType`, genC.go:101-146 -/
def cSimpleType (tree : Tree) (v : SimpleType) (g : Gen) : Gen :=
  if g.ast.has v.name then g
  else if v.list then
    let fieldType := genCFieldType (resolveIn tree v.base)
    let content := genCFieldType fieldType ++ c!" " ++ cName v.name ++ c!"[];\n"
    let (fieldName, g) := uniqueName (cName v.name) g
    g.emit v.name content (genFieldComment fieldName v.doc c!"//" ++ c!"typedef " ++ content)
  else if v.union && v.memberTypes.length > 0 then
    let content := c!"struct {\n" ++ (toSortedPairs v.memberTypes).flatMap (cMemberLine tree) ++ c!"}"
    let (fieldName, g) := uniqueName (cName v.name) g
    g.emit v.name content (cDecl fieldName v.doc content)
  else
    let r := innerArray (genCFieldType (resolveIn tree v.base))
    let content := r.1 ++ c!" " ++ cName v.name ++ cPlural r.2
    let (fieldName, g) := uniqueName (cName v.name) g
    g.emit v.name content (genFieldComment fieldName v.doc c!"//" ++ c!"typedef " ++ content ++ c!";\n")

/-- genC.go:153-156 -/
def cAttrGroupLine (tree : Tree) (a : AttributeGroup) : Str :=
  c!"\t" ++ genCFieldType (resolveIn tree a.ref) ++ c!" " ++ cName a.name ++ c!";\n"

/-- genC.go:158-169 and 228-238 -/
def cAttrLine (tree : Tree) (a : Attribute) : Str :=
  let r := innerArray (genCFieldType (resolveIn tree a.type))
  c!"\t" ++ r.1 ++ c!" " ++ cName a.name ++ c!"Attr" ++ cPlural r.2 ++ c!"; // attr" ++
    (if a.optional then c!", optional" else []) ++ c!"\n"

/-- genC.go:171-177 and 208-214 -/
def cGroupLine (tree : Tree) (r : GroupRef) : Str :=
  c!"\t" ++ genCFieldType (resolveIn tree r.ref) ++ c!" " ++ cName r.name ++ cPlural r.plural ++ c!";\n"

/-- genC.go:179-186 -/
def cElemLine (tree : Tree) (e : Element) : Str :=
  let r := innerArray (genCFieldType (resolveIn tree e.type))
  c!"\t" ++ r.1 ++ c!" " ++ cName e.name ++ cPlural (r.2 || e.plural) ++ c!";\n"

/-- The struct body, genC.go:152-189 -/
def cComplexContent (tree : Tree) (v : ComplexType) : Str :=
  c!"struct {\n" ++ v.attributeGroup.flatMap (cAttrGroupLine tree) ++ v.attributes.flatMap (cAttrLine tree) ++
    v.groups.flatMap (cGroupLine tree) ++ v.elements.flatMap (cElemLine tree) ++ c!"}"

/-- `CComplexType`, genC.go:150-194 (the base type is ignored) -/
def cComplexType (tree : Tree) (v : ComplexType) (g : Gen) : Gen :=
  if g.ast.has v.name then g
  else
    let content := cComplexContent tree v
    let (fieldName, g) := uniqueName (cName v.name) g
    g.emit v.name content (cDecl fieldName v.doc content)

/-- genC.go:200-206 (the inner array is not split off here, unlike `CComplexType`) -/
def cGroupElemLine (tree : Tree) (e : Element) : Str :=
  c!"\t" ++ genCFieldType (resolveIn tree e.type) ++ c!" " ++ cName e.name ++ cPlural e.plural ++ c!";\n"

/-- `CGroup`, genC.go:197-221 -/
def cGroup (tree : Tree) (v : Group) (g : Gen) : Gen :=
  if g.ast.has v.name then g
  else
    let content := c!"struct {\n" ++ v.elements.flatMap (cGroupElemLine tree) ++
      v.groups.flatMap (cGroupLine tree) ++ c!"}"
    let (fieldName, g) := uniqueName (cName v.name) g
    g.emit v.name content (cDecl fieldName v.doc content)

/-- `CAttributeGroup`, genC.go:225-244 -/
def cAttributeGroup (tree : Tree) (v : AttributeGroup) (g : Gen) : Gen :=
  if g.ast.has v.name then g
  else
    let content := c!"struct {\n" ++ v.attributes.flatMap (cAttrLine tree) ++ c!"}"
    let (fieldName, g) := uniqueName (cName v.name) g
    g.emit v.name content (cDecl fieldName v.doc content)

/-- `CElement`, genC.go:247-257: no comment, name not made unique -/
def cElement (tree : Tree) (v : Element) (g : Gen) : Gen :=
  if g.ast.has v.name then g
  else
    let r := innerArray (genCFieldType (resolveIn tree v.type))
    let content := r.1 ++ c!" " ++ cName v.name ++ cPlural (r.2 || v.plural)
    g.emit v.name content (c!"\ntypedef " ++ content ++ c!";\n")

/-- `CAttribute`, genC.go:260-271 -/
def cAttribute (tree : Tree) (v : Attribute) (g : Gen) : Gen :=
  if g.ast.has v.name then g
  else
    let r := innerArray (genCFieldType (resolveIn tree v.type))
    let content := r.1 ++ c!" " ++ cName v.name ++ cPlural (r.2 || v.plural)
    let (fieldName, g) := uniqueName (cName v.name) g
    g.emit v.name content (genFieldComment fieldName v.doc c!"//" ++ c!"typedef " ++ content ++ c!";\n")

/-- Dispatch, genC.go:45-46 -/
def cStep (tree : Tree) : Node Element → Gen → Gen
  | .simple v => cSimpleType tree v
  | .attr v => cAttribute tree v
  | .elem v => cElement tree v
  | .complex v => cComplexType tree v
  | .group v => cGroup tree v
  | .attrGroup v => cAttributeGroup tree v

/-- The loop of `GenC`, genC.go:40-47 -/
def cGen (tree : Tree) : Gen := genLoop (cStep tree) tree

/-- genC.go:53 -/
def cSource (tree : Tree) : Str := copyright ++ c!"\n" ++ (cGen tree).field

end Xgen
