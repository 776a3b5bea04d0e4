import Verif.Model.Gen
import Verif.Model.GenGo

/-! # genJava.go -/

namespace Xgen
variable [Uni]

/-- `javaBuildInType`, genJava.go:18-30 -/
def javaBuildInType : List Str :=
  [c!"Boolean", c!"Byte", c!"Character", c!"List<String>", c!"List<Byte>", c!"Float", c!"Integer", c!"Short",
   c!"String", c!"QName", c!"Long"]

/-- `isBuiltInJavaType`, genJava.go:194-197 -/
def isBuiltInJavaType (t : Str) : Bool := javaBuildInType.contains t

/-- `genJavaFieldName(name, false)`, genJava.go:66-83 -/
def javaName (name : Str) : Str := dropChar '-' (baseName name)

/-- `genJavaFieldType`, genJava.go:85-98 -/
def genJavaFieldType (name : Str) : Str :=
  if isBuiltInJavaType name then name
  else
    let fieldType := makeFirstUpperCase (dropChar '-' (titleParts '.' name))
    if fieldType ≠ [] then fieldType else c!"void"

/-- `fmt.Sprintf("List<%s>", fieldType)` when plural, genJava.go:161-163 etc. -/
def javaPlural (b : Bool) (t : Str) : Str := if b then c!"List<" ++ t ++ c!">" else t

/-- genJava.go:119-123 -/
def javaMemberLine (tree : Tree) (m : Str × Str) : Str :=
  c!"\t@XmlElement(required = true)\n\tprotected " ++ genJavaFieldType (memberType tree m) ++ c!" " ++ javaName m.1 ++
    c!";\n"

/-- genJava.go:128, 222, 242 -/
def javaDecl (fieldName doc content : Str) : Str :=
  genFieldComment fieldName doc c!"//" ++ c!"public class " ++ fieldName ++ content

/-- A one-field wrapper class, genJava.go:108, 137, 255, 268 -/
def javaWrapper (kind name fieldName content : Str) : Str :=
  c!"@XmlAccessorType(XmlAccessType.FIELD)\n@" ++ kind ++ c!"(required = true, name = \"" ++ name ++
    c!"\")\npublic class " ++ fieldName ++ c!" {\n" ++ content ++ c!"}\n"

/-- `JavaSimpleType`, genJava.go:102-139 -/
def javaSimpleType (tree : Tree) (v : SimpleType) (g : Gen) : Gen :=
  if g.ast.has v.name then g
  else if v.list then
    let fieldType := genJavaFieldType (resolveIn tree v.base)
    let content := c!"\tprotected List<" ++ fieldType ++ c!"> " ++ javaName v.name ++ c!";\n"
    let (fieldName, g) := uniqueName (javaName v.name) g
    g.emit v.name content (c!"\n" ++ javaWrapper c!"XmlAttribute" v.name fieldName content)
  else if v.union && v.memberTypes.length > 0 then
    let content := c!" {\n" ++ (toSortedPairs v.memberTypes).flatMap (javaMemberLine tree) ++ c!"}\n"
    let (fieldName, g) := uniqueName (javaName v.name) g
    g.emit v.name content (javaDecl fieldName v.doc content)
  else
    let fieldType := genJavaFieldType (resolveIn tree v.base)
    let content := c!"\tprotected " ++ fieldType ++ c!" " ++ javaName v.name ++ c!";\n"
    let (fieldName, g) := uniqueName (javaName v.name) g
    g.emit v.name content
      (genFieldComment fieldName v.doc c!"//" ++ javaWrapper c!"XmlAttribute" v.name fieldName content)

/-- genJava.go:146-149 -/
def javaAttrGroupLine (tree : Tree) (a : AttributeGroup) : Str :=
  c!"\t@XmlElement(required = true)\n\tprotected " ++ genJavaFieldType (resolveIn tree a.ref) ++ c!" " ++
    javaName a.name ++ c!";\n"

/-- genJava.go:151-158 -/
def javaAttrLine (tree : Tree) (a : Attribute) : Str :=
  c!"\t@XmlAttribute(name = \"" ++ a.name ++ c!"\"" ++ (if a.optional then [] else c!", required = true") ++
    c!")\n\tprotected " ++ genJavaFieldType (resolveIn tree a.type) ++ c!" " ++ javaName a.name ++ c!"Attr;\n"

/-- genJava.go:159-165 and 211-217 -/
def javaGroupLine (tree : Tree) (r : GroupRef) : Str :=
  c!"\tprotected " ++ javaPlural r.plural (genJavaFieldType (resolveIn tree r.ref)) ++ c!" " ++ javaName r.name ++ c!";\n"

/-- genJava.go:167-173 and 203-209 -/
def javaElemLine (tree : Tree) (e : Element) : Str :=
  c!"\t@XmlElement(required = true, name = \"" ++ e.name ++ c!"\")\n\tprotected " ++
    javaPlural e.plural (genJavaFieldType (resolveIn tree e.type)) ++ c!" " ++ javaName e.name ++ c!";\n"

/-- genJava.go:175-178 -/
def javaValueLine (tree : Tree) (base : Str) : Str :=
  if base ≠ [] && isBuiltInJavaType base then
    c!"\t@XmlValue\n\tprotected " ++ genJavaFieldType (resolveIn tree base) ++ c!" value;\n"
  else []

/-- genJava.go:184-188 -/
def javaExtends (tree : Tree) (base : Str) : Str :=
  if base ≠ [] && !isBuiltInJavaType base then c!" extends " ++ genJavaFieldType (resolveIn tree base) ++ c!" " else []

/-- genJava.go:145-180 -/
def javaComplexContent (tree : Tree) (v : ComplexType) : Str :=
  c!" {\n" ++ v.attributeGroup.flatMap (javaAttrGroupLine tree) ++ v.attributes.flatMap (javaAttrLine tree) ++
    v.groups.flatMap (javaGroupLine tree) ++ v.elements.flatMap (javaElemLine tree) ++ javaValueLine tree v.base ++
    c!"}\n"

/-- `JavaComplexType`, genJava.go:143-192 -/
def javaComplexType (tree : Tree) (v : ComplexType) (g : Gen) : Gen :=
  if g.ast.has v.name then g
  else
    let content := javaComplexContent tree v
    let (fieldName, g) := uniqueName (javaName v.name) g
    g.emit v.name content
      (genFieldComment fieldName v.doc c!"//" ++ c!"public class " ++ fieldName ++ javaExtends tree v.base ++ content)

/-- `JavaGroup`, genJava.go:200-224 -/
def javaGroup (tree : Tree) (v : Group) (g : Gen) : Gen :=
  if g.ast.has v.name then g
  else
    let content := c!" {\n" ++ v.elements.flatMap (javaElemLine tree) ++ v.groups.flatMap (javaGroupLine tree) ++ c!"}\n"
    let (fieldName, g) := uniqueName (javaName v.name) g
    g.emit v.name content (javaDecl fieldName v.doc content)

/-- genJava.go:231-238: the suffix `Attr` is attached to the type, not to the name -/
def javaAttrGroupAttrLine (tree : Tree) (a : Attribute) : Str :=
  c!"\t@XmlAttribute(name = \"" ++ a.name ++ c!"\"" ++ (if a.optional then [] else c!", required = true") ++
    c!")\n\tprotected " ++ genJavaFieldType (resolveIn tree a.type) ++ c!"Attr " ++ javaName a.name ++ c!";\n"

/-- `JavaAttributeGroup`, genJava.go:228-244 -/
def javaAttributeGroup (tree : Tree) (v : AttributeGroup) (g : Gen) : Gen :=
  if g.ast.has v.name then g
  else
    let content := c!" {\n" ++ v.attributes.flatMap (javaAttrGroupAttrLine tree) ++ c!"}\n"
    let (fieldName, g) := uniqueName (javaName v.name) g
    g.emit v.name content (javaDecl fieldName v.doc content)

/-- `JavaElement`, genJava.go:247-257 -/
def javaElement (tree : Tree) (v : Element) (g : Gen) : Gen :=
  if g.ast.has v.name then g
  else
    let fieldType := javaPlural v.plural (genJavaFieldType (resolveIn tree v.type))
    let content := c!"\tprotected " ++ fieldType ++ c!" " ++ javaName v.name ++ c!";\n"
    let (fieldName, g) := uniqueName (javaName v.name) g
    g.emit v.name content (c!"\n" ++ javaWrapper c!"XmlElement" v.name fieldName content)

/-- `JavaAttribute`, genJava.go:260-270 -/
def javaAttribute (tree : Tree) (v : Attribute) (g : Gen) : Gen :=
  if g.ast.has v.name then g
  else
    let fieldType := javaPlural v.plural (genJavaFieldType (resolveIn tree v.type))
    let content := c!"\tprotected " ++ fieldType ++ c!" " ++ javaName v.name ++ c!";\n"
    let (fieldName, g) := uniqueName (javaName v.name) g
    g.emit v.name content (c!"\n" ++ javaWrapper c!"XmlAttribute" v.name fieldName content)

/-- Dispatch, genJava.go:40-41 -/
def javaStep (tree : Tree) : Node Element → Gen → Gen
  | .simple v => javaSimpleType tree v
  | .attr v => javaAttribute tree v
  | .elem v => javaElement tree v
  | .complex v => javaComplexType tree v
  | .group v => javaGroup tree v
  | .attrGroup v => javaAttributeGroup tree v

/-- The loop of `GenJava`, genJava.go:35-42 -/
def javaGen (tree : Tree) : Gen := genLoop (javaStep tree) tree

/-- genJava.go:52-60 -/
def javaImports : Str :=
  c!"import java.util.ArrayList;\nimport java.util.List;\nimport javax.xml.bind.annotation.XmlAccessType;\nimport javax.xml.bind.annotation.XmlAccessorType;\nimport javax.xml.bind.annotation.XmlAttribute;\nimport javax.xml.bind.annotation.XmlElement;\nimport javax.xml.bind.annotation.XmlSchemaType;\nimport javax.xml.bind.annotation.XmlType;\nimport javax.xml.bind.annotation.XmlValue;"

/-- genJava.go:62 -/
def javaSource (pkg : Str) (tree : Tree) : Str :=
  copyright ++ c!"\n\npackage " ++ packageName pkg ++ c!";\n\n" ++ javaImports ++ c!"\n" ++ (javaGen tree).field

end Xgen
