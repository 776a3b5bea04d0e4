import Verif.Model.Gen

/-! # genRust.go -/

namespace Xgen
variable [Uni]

/-- `rustBuildinType`, genRust.go:19-40 -/
def rustBuildinType : List Str :=
  [c!"i8", c!"i16", c!"i32", c!"i64", c!"i128", c!"isize", c!"u8", c!"u16", c!"u32", c!"u64", c!"u128", c!"usize",
   c!"f32", c!"f64", c!"Vec<char>", c!"Vec<String>", c!"Vec<u8>", c!"bool", c!"char", c!"String"]

/-- `rustKeywords`, genRust.go:41-93 -/
def rustKeywords : List Str :=
  [c!"as", c!"break", c!"const", c!"continue", c!"crate", c!"dyn", c!"else", c!"enum", c!"extern", c!"false", c!"fn",
   c!"for", c!"if", c!"impl", c!"in", c!"let", c!"loop", c!"match", c!"mod", c!"move", c!"mut", c!"pub", c!"ref",
   c!"return", c!"Self", c!"self", c!"static", c!"struct", c!"super", c!"trait", c!"true", c!"type", c!"unsafe", c!"use",
   c!"where", c!"while", c!"abstract", c!"async", c!"await", c!"become", c!"box", c!"do", c!"final", c!"macro",
   c!"override", c!"priv", c!"try", c!"typeof", c!"unsized", c!"virtual", c!"yield"]

/-- `isRustBuiltInType`, genRust.go:266-269 -/
def isRustBuiltInType (t : Str) : Bool := rustBuildinType.contains t

/-- `genRustFieldName`, genRust.go:124-138 -/
def rustFieldName (name : Str) : Str :=
  let fieldName := toSnakeCase (dropChar '-' (baseName name))
  if rustKeywords.contains fieldName then fieldName ++ c!"_attr" else fieldName

/-- `genRustStructName(name, false)`, genRust.go:141-158 -/
def rustStructName (name : Str) : Str := (baseName name).filter (fun c => c ≠ '-' && c ≠ '_')

/-- `genRustFieldType`, genRust.go:161-170 -/
def genRustFieldType (name : Str) : Str :=
  if isRustBuiltInType name then name
  else if rustStructName name ≠ [] then rustStructName name else c!"char"

/-- The two lines of a field: `#[serde(rename = "...")]` and `pub name: type,` (genRust.go:178 etc.). -/
def rustField (xmlName fieldName type : Str) : Str :=
  c!"\t#[serde(rename = \"" ++ xmlName ++ c!"\")]\n\tpub " ++ fieldName ++ c!": " ++ type ++ c!",\n"

/-- `Vec<%s>`, genRust.go:178, 218, 232, 241, 279, 288, 308, 323, 337 -/
def rustVec (t : Str) : Str := c!"Vec<" ++ t ++ c!">"
/-- `Option<%s>`, genRust.go:223, 244, 306 -/
def rustOption (t : Str) : Str := c!"Option<" ++ t ++ c!">"

/-- `#[derive(...)]` and the struct, without comment (genRust.go:198) -/
def rustStruct (structName content : Str) : Str :=
  c!"#[derive(Debug, Deserialize, Serialize, PartialEq)]\npub struct " ++ structName ++ c!" {\n" ++ content ++ c!"}\n"

/-- genRust.go:181, 207, 262, 295, 313, 327, 341 -/
def rustDecl (structName doc content : Str) : Str :=
  c!"\n" ++ genFieldComment structName doc c!"//" ++ rustStruct structName content

/-- genRust.go:188-196: every member is renamed to the name of the union -/
def rustMemberLine (tree : Tree) (unionName : Str) (m : Str × Str) : Str :=
  rustField unionName (rustFieldName m.1) (genRustFieldType (memberType tree m))

/-- `RustSimpleType`, genRust.go:174-209 -/
def rustSimpleType (tree : Tree) (v : SimpleType) (g : Gen) : Gen :=
  if g.ast.has v.name then g
  else if v.list then
    let content := rustField v.name (rustFieldName v.name) (rustVec (genRustFieldType (resolveIn tree v.base)))
    let (fieldName, g) := uniqueName (rustStructName v.name) g
    g.emit v.name content (rustDecl fieldName v.doc content)
  else if v.union && v.memberTypes.length > 0 then
    let content := (toSortedPairs v.memberTypes).flatMap (rustMemberLine tree v.name)
    let (fieldName, g) := uniqueName (rustStructName v.name) g
    g.emit v.name content (c!"\n" ++ rustStruct fieldName content)
  else
    let content := rustField v.name (rustFieldName v.name) (genRustFieldType (resolveIn tree v.base))
    let (fieldName, g) := uniqueName (rustStructName v.name) g
    g.emit v.name content (rustDecl fieldName v.doc content)

/-- genRust.go:216-219: always a `Vec` -/
def rustAttrGroupLine (tree : Tree) (a : AttributeGroup) : Str :=
  rustField a.name (rustFieldName a.name) (rustVec (genRustFieldType (resolveIn tree a.ref)))

/-- genRust.go:220-227 -/
def rustAttrLine (tree : Tree) (a : Attribute) : Str :=
  let t := genRustFieldType (resolveIn tree a.type)
  rustField a.name (rustFieldName a.name) (if a.optional then rustOption t else t)

/-- genRust.go:228-236 -/
def rustGroupLine (tree : Tree) (r : GroupRef) : Str :=
  let t := genRustFieldType (resolveIn tree r.ref)
  rustField r.name (rustFieldName r.name) (if r.plural then rustVec t else t)

/-- genRust.go:237-249 -/
def rustElemLine (tree : Tree) (e : Element) : Str :=
  let t := genRustFieldType (resolveIn tree e.type)
  rustField e.name (rustFieldName e.name)
    (if e.plural then rustVec t else if e.optional then rustOption t else t)

/-- genRust.go:250-259 -/
def rustBaseLine (tree : Tree) (base : Str) : Str :=
  if base ≠ [] then
    let t := genRustFieldType (resolveIn tree base)
    if isRustBuiltInType base then rustField c!"$value" c!"value" t
    else c!"\t#[serde(flatten)]\n\tpub " ++ rustFieldName t ++ c!": " ++ t ++ c!",\n"
  else []

/-- genRust.go:215-259 -/
def rustComplexContent (tree : Tree) (v : ComplexType) : Str :=
  v.attributeGroup.flatMap (rustAttrGroupLine tree) ++ v.attributes.flatMap (rustAttrLine tree) ++
    v.groups.flatMap (rustGroupLine tree) ++ v.elements.flatMap (rustElemLine tree) ++ rustBaseLine tree v.base

/-- `RustComplexType`, genRust.go:213-264 -/
def rustComplexType (tree : Tree) (v : ComplexType) (g : Gen) : Gen :=
  if g.ast.has v.name then g
  else
    let content := rustComplexContent tree v
    let (fieldName, g) := uniqueName (rustStructName v.name) g
    g.emit v.name content (rustDecl fieldName v.doc content)

/-- genRust.go:275-283 and 284-292: the plurality tested is the group's (`v.Plural`), not the member's -/
def rustGroupMember (tree : Tree) (plural : Bool) (name type : Str) : Str :=
  let t := genRustFieldType (resolveIn tree type)
  rustField name (rustFieldName name) (if plural then rustVec t else t)

/-- `RustGroup`, genRust.go:272-297 -/
def rustGroup (tree : Tree) (v : Group) (g : Gen) : Gen :=
  if g.ast.has v.name then g
  else
    let content := v.elements.flatMap (fun e => rustGroupMember tree v.plural e.name e.type) ++
      v.groups.flatMap (fun r => rustGroupMember tree v.plural r.name r.ref)
    let (fieldName, g) := uniqueName (rustStructName v.name) g
    g.emit v.name content (rustDecl fieldName v.doc content)

/-- genRust.go:304-310: a required attribute becomes a `Vec` -/
def rustAttrGroupAttrLine (tree : Tree) (a : Attribute) : Str :=
  let t := genRustFieldType (resolveIn tree a.type)
  rustField a.name (rustFieldName a.name) (if a.optional then rustOption t else rustVec t)

/-- `RustAttributeGroup`, genRust.go:301-315 -/
def rustAttributeGroup (tree : Tree) (v : AttributeGroup) (g : Gen) : Gen :=
  if g.ast.has v.name then g
  else
    let content := v.attributes.flatMap (rustAttrGroupAttrLine tree)
    let (fieldName, g) := uniqueName (rustStructName v.name) g
    g.emit v.name content (rustDecl fieldName v.doc content)

/-- `RustElement`, genRust.go:318-329: the struct is named with the field name, not made unique -/
def rustElement (tree : Tree) (v : Element) (g : Gen) : Gen :=
  if g.ast.has v.name then g
  else
    let content := rustGroupMember tree v.plural v.name v.type
    g.emit v.name content (rustDecl (rustFieldName v.name) v.doc content)

/-- `RustAttribute`, genRust.go:332-343 -/
def rustAttribute (tree : Tree) (v : Attribute) (g : Gen) : Gen :=
  if g.ast.has v.name then g
  else
    let content := rustGroupMember tree v.plural v.name v.type
    g.emit v.name content (rustDecl (rustFieldName v.name) v.doc content)

/-- Dispatch, genRust.go:104-105 -/
def rustStep (tree : Tree) : Node Element → Gen → Gen
  | .simple v => rustSimpleType tree v
  | .attr v => rustAttribute tree v
  | .elem v => rustElement tree v
  | .complex v => rustComplexType tree v
  | .group v => rustGroup tree v
  | .attrGroup v => rustAttributeGroup tree v

/-- The loop of `GenRust`, genRust.go:99-106 -/
def rustGen (tree : Tree) : Gen := genLoop (rustStep tree) tree

/-- genRust.go:112-118 -/
def rustSource (tree : Tree) : Str :=
  copyright ++ c!"\n\n#[macro_use]\nextern crate serde_derive;\nextern crate serde;\nextern crate serde_xml_rs;\n\nuse serde_xml_rs::from_reader;\n" ++
    (rustGen tree).field

end Xgen
