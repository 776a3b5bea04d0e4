import Verif.Model.Base

/-!
# proto.go: the schema components

Fields that no code reads or writes are left out: `SimpleType.Anonymous`, `Element.{Wildcard, Abstract, Nillable,
Default}`, `Attribute.Default`, `ComplexType.{Anonymous, Choice, Mixed}`, `Choice.{ID, Choice}` and all of
`Restriction` except `Enum` (the facet handlers never store the facet).
-/

namespace Xgen

/-- proto.go:16-25 -/
structure SimpleType where
  doc : Str := []
  name : Str := []
  base : Str := []
  list : Bool := false
  union : Bool := false
  /-- `map[string]string` -/
  memberTypes : GoMap Str := []
  /-- `Restriction.Enum`, proto.go:132 -/
  enum : List Str := []
deriving DecidableEq, Repr

/-- proto.go:34-44 -/
structure Element where
  doc : Str := []
  name : Str := []
  type : Str := []
  plural : Bool := false
  /-- never set by the parser (minOccurs is not read), read by genRust.go:243 -/
  optional : Bool := false
deriving DecidableEq, Repr

/-- proto.go:50-57 -/
structure Attribute where
  name : Str := []
  doc : Str := []
  type : Str := []
  /-- never set by the parser, read by the generators -/
  plural : Bool := false
  optional : Bool := false
deriving DecidableEq, Repr

/-- proto.go:119-124 -/
structure AttributeGroup where
  doc : Str := []
  name : Str := []
  ref : Str := []
  attributes : List Attribute := []
deriving DecidableEq, Repr

/-- A group reference as stored in `Group.Groups` / `ComplexType.Groups`.  Go uses the recursive struct `Group`
(proto.go:88-95); the entries appended at xmlGroup.go:48 and :55 are fresh values whose `Elements`, `Groups` and
`Doc` are empty and never change, so only name, ref and plurality are kept. -/
structure GroupRef where
  name : Str := []
  plural : Bool := false
  ref : Str := []
deriving DecidableEq, Repr

/-- proto.go:88-95 (a group definition) -/
structure Group where
  doc : Str := []
  name : Str := []
  elements : List Element := []
  groups : List GroupRef := []
  plural : Bool := false
  ref : Str := []
deriving DecidableEq, Repr

/-- proto.go:70-81 -/
structure ComplexType where
  doc : Str := []
  name : Str := []
  base : Str := []
  elements : List Element := []
  attributes : List Attribute := []
  groups : List GroupRef := []
  attributeGroup : List AttributeGroup := []
deriving DecidableEq, Repr

/-- proto.go:104-108 -/
structure Choice where
  plural : Bool := false
deriving DecidableEq, Repr

/-- An entry of `ProtoTree []interface{}` (parser.go:37).  `ε` is the representation of `*Element`: a heap address while the
parser that owns it is running, the element itself afterwards. -/
inductive Node (ε : Type) where
  | simple (v : SimpleType)
  | attr (v : Attribute)
  | elem (v : ε)
  | complex (v : ComplexType)
  | group (v : Group)
  | attrGroup (v : AttributeGroup)
deriving DecidableEq, Repr

/-- `ProtoTree []interface{}`, parser.go:37; `none` is a nil entry (appended when an empty stack is popped). -/
abbrev Tree := List (Option (Node Element))

/-- A tree (parser.go:37) whose elements are heap addresses. -/
abbrev PTree := List (Option (Node Nat))

end Xgen
