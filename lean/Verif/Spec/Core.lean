import Verif.Spec.Local
import Verif.Spec.Occurs

/-! # Core schemas: their tags, and the components they declare

A schema of the fragment is described by an abstract syntax that leaves out the tags without meaning for the parser
(sequences, annotations, …), white space and comments: C40 allows those anywhere. -/

namespace Xgen.Core

/-! ## Syntax -/

/-- A facet: its tag and attributes. -/
structure Facet where
  tag : Str
  as : List Attr
deriving Repr

/-- The content of a simple type. -/
inductive SimpleBody where
  | restriction (as : List Attr) (facets : List Facet)
  | list (as : List Attr)
  | union (as : List Attr)
deriving Repr

/-- What stands inside complex types, groups and attribute groups, with the XML attributes of each tag: first child and
next sibling. -/
inductive Content where
  | nil
  /-- an element with a type or a reference -/
  | elem (as : List Attr) (next : Content)
  /-- an element with an anonymous complex type -/
  | anon (as cas : List Attr) (body next : Content)
  /-- an element with an anonymous restriction -/
  | elemAnon (as ras : List Attr) (facets : List Facet) (next : Content)
  | choice (as : List Attr) (body next : Content)
  | group (as : List Attr) (next : Content)
  | attrGroup (as : List Attr) (next : Content)
  | «attribute» (as : List Attr) (next : Content)
  /-- an attribute with an anonymous simple type -/
  | attrAnon (as : List Attr) (body : SimpleBody) (next : Content)
  | ext (as : List Attr) (body next : Content)
  /-- the restriction of a simple or complex content -/
  | restr (as : List Attr) (facets : List Facet) (body next : Content)
deriving Repr

/-- A top-level declaration. -/
inductive Decl where
  | simple (as : List Attr) (body : SimpleBody)
  | complex (as : List Attr) (body : Content)
  /-- an element with a type or a reference -/
  | element (as : List Attr)
  /-- an element with an anonymous complex type -/
  | anon (as cas : List Attr) (body : Content)
  /-- an element with an anonymous restriction -/
  | elemAnon (as ras : List Attr) (facets : List Facet)
  | group (as : List Attr) (body : Content)
  | attrGroup (as : List Attr) (body : Content)
  | «attribute» (as : List Attr)
  /-- an attribute with an anonymous restriction -/
  | attrAnon (as ras : List Attr) (facets : List Facet)
deriving Repr

/-! ## Tokens -/

/-- A tag pair around tokens. -/
def tag (n : Str) (as : List Attr) (inner : List Token) : List Token := .start n as :: (inner ++ [.stop n])

/-- The tags of facets. -/
def facetTokens (fs : List Facet) : List Token := fs.flatMap fun f => tag f.tag f.as []

/-- The tags of the content of a simple type. -/
def SimpleBody.tokens : SimpleBody → List Token
  | .restriction as fs => tag c!"restriction" as (facetTokens fs)
  | .list as => tag c!"list" as []
  | .union as => tag c!"union" as []

/-- The tags of contents. -/
def Content.tokens : Content → List Token
  | .nil => []
  | .elem as k => tag c!"element" as [] ++ k.tokens
  | .anon as cas b k => tag c!"element" as (tag c!"complexType" cas b.tokens) ++ k.tokens
  | .elemAnon as ras fs k => tag c!"element" as (tag c!"simpleType" [] (tag c!"restriction" ras (facetTokens fs))) ++ k.tokens
  | .choice as b k => tag c!"choice" as b.tokens ++ k.tokens
  | .group as k => tag c!"group" as [] ++ k.tokens
  | .attrGroup as k => tag c!"attributeGroup" as [] ++ k.tokens
  | .attribute as k => tag c!"attribute" as [] ++ k.tokens
  | .attrAnon as b k => tag c!"attribute" as (tag c!"simpleType" [] b.tokens) ++ k.tokens
  | .ext as b k => tag c!"extension" as b.tokens ++ k.tokens
  | .restr as fs b k => tag c!"restriction" as (facetTokens fs ++ b.tokens) ++ k.tokens

/-- The tags of a declaration. -/
def Decl.tokens : Decl → List Token
  | .simple as b => tag c!"simpleType" as b.tokens
  | .complex as b => tag c!"complexType" as b.tokens
  | .element as => tag c!"element" as []
  | .anon as cas b => tag c!"element" as (tag c!"complexType" cas b.tokens)
  | .elemAnon as ras fs => tag c!"element" as (tag c!"simpleType" [] (tag c!"restriction" ras (facetTokens fs)))
  | .group as b => tag c!"group" as b.tokens
  | .attrGroup as b => tag c!"attributeGroup" as b.tokens
  | .attribute as => tag c!"attribute" as []
  | .attrAnon as ras fs => tag c!"attribute" as (tag c!"simpleType" [] (tag c!"restriction" ras (facetTokens fs)))

/-- The tags of a schema. -/
def schemaTokens (as : List Attr) (ds : List Decl) : List Token := tag c!"schema" as (ds.flatMap Decl.tokens)

/-! ## Meaning -/

/-- The value of an XML attribute. -/
def attr? (as : List Attr) (n : Str) : Option Str := (as.find? fun a => a.local = n).map (·.value)

/-- The name a tag gives: its reference or its name. -/
def nameOf (as : List Attr) : Str := ((attr? as c!"ref").or (attr? as c!"name")).getD []

instance (v : Str) : Decidable (Occurs.Many v) := decidable_of_iff _ (Occurs.many_iff v)
instance (v : Str) : Decidable (Occurs.Legal v) := decidable_of_iff _ (Occurs.legal_iff v)

/-- Whether a value of maxOccurs allows several occurrences. -/
def many (v : Str) : Bool := Occurs.Many v

/-- Whether a tag asks for several occurrences by maxOccurs. -/
def repeated (as : List Attr) : Bool := (attr? as c!"maxOccurs").any many

section
-- The meaning of a type reference at this point of the schema.
variable (ty : Str → Str)

/-- An element, inside repeated choices or not.  (Besides maxOccurs the parser knows an attribute `unbounded`.) -/
def elementOf (inside : Bool) (as : List Attr) : Element :=
  { name := nameOf as
    type := match (attr? as c!"ref").or (attr? as c!"type") with
      | some t => ty t
      | none => ty (nameOf as)
    plural := repeated as || (attr? as c!"unbounded").any (fun v => v ≠ c!"0") || inside }

/-- The type an anonymous restriction gives: its base, resolved three times. -/
def inlineType (ras : List Attr) : Str := ty (((attr? ras c!"base").map fun t => ty (ty t)).getD [])

/-- An element with an anonymous restriction. -/
def elemAnonOf (inside : Bool) (as ras : List Attr) : Element := { elementOf ty inside as with type := inlineType ty ras }

/-- An attribute. -/
def attributeOf (as : List Attr) : Attribute :=
  { name := nameOf as
    type := (((attr? as c!"ref").or (attr? as c!"type")).map ty).getD []
    optional := attr? as c!"use" ≠ some c!"required" }

/-- An attribute with an anonymous simple type: the base of a restriction, resolved three times; the item type of a list;
nothing for a union. -/
def attrAnonOf (as : List Attr) (b : SimpleBody) : Attribute :=
  { attributeOf ty as with
    type := match b with
      | .restriction ras _ => ty (((attr? ras c!"base").map fun t => ty (ty t)).getD [])
      | .list las => ((attr? las c!"itemType").map ty).getD []
      | .union _ => [] }

/-- A reference to an attribute group. -/
def attrGroupOf (as : List Attr) : AttributeGroup :=
  { name := nameOf as, ref := ((attr? as c!"ref").map ty).getD [] }

/-- A reference to a group: plural iff it has a maxOccurs other than "0", or is inside a repeated choice. -/
def groupOf (inside : Bool) (as : List Attr) : GroupRef :=
  { name := nameOf as, ref := ((attr? as c!"ref").map ty).getD []
    plural := (attr? as c!"maxOccurs").any (fun v => v ≠ c!"0") || inside }

/-- The elements declared directly in contents, in document order. -/
def elements : Bool → Content → List Element
  | _, .nil => []
  | p, .elem as k => elementOf ty p as :: elements p k
  | p, .anon as _ _ k => elementOf ty p as :: elements p k
  | p, .elemAnon as ras _ k => elemAnonOf ty p as ras :: elements p k
  | p, .choice as b k => elements (repeated as || p) b ++ elements p k
  | p, .group _ k => elements p k
  | p, .attrGroup _ k => elements p k
  | p, .attribute _ k => elements p k
  | p, .attrAnon _ _ k => elements p k
  | p, .ext _ b k => elements p b ++ elements p k
  | p, .restr _ _ b k => elements p b ++ elements p k

/-- The references to groups. -/
def groups : Bool → Content → List GroupRef
  | _, .nil => []
  | p, .elem _ k => groups p k
  | p, .anon _ _ _ k => groups p k
  | p, .elemAnon _ _ _ k => groups p k
  | p, .choice as b k => groups (repeated as || p) b ++ groups p k
  | p, .group as k => groupOf ty p as :: groups p k
  | p, .attrGroup _ k => groups p k
  | p, .attribute _ k => groups p k
  | p, .attrAnon _ _ k => groups p k
  | p, .ext _ b k => groups p b ++ groups p k
  | p, .restr _ _ b k => groups p b ++ groups p k

/-- The attributes. -/
def attributes : Content → List Attribute
  | .nil => []
  | .elem _ k => attributes k
  | .anon _ _ _ k => attributes k
  | .elemAnon _ _ _ k => attributes k
  | .choice _ b k => attributes b ++ attributes k
  | .group _ k => attributes k
  | .attrGroup _ k => attributes k
  | .attribute as k => attributeOf ty as :: attributes k
  | .attrAnon as b k => attrAnonOf ty as b :: attributes k
  | .ext _ b k => attributes b ++ attributes k
  | .restr _ _ b k => attributes b ++ attributes k

/-- The references to attribute groups. -/
def attrGroups : Content → List AttributeGroup
  | .nil => []
  | .elem _ k => attrGroups k
  | .anon _ _ _ k => attrGroups k
  | .elemAnon _ _ _ k => attrGroups k
  | .choice _ b k => attrGroups b ++ attrGroups k
  | .group _ k => attrGroups k
  | .attrGroup as k => attrGroupOf ty as :: attrGroups k
  | .attribute _ k => attrGroups k
  | .attrAnon _ _ k => attrGroups k
  | .ext _ b k => attrGroups b ++ attrGroups k
  | .restr _ _ b k => attrGroups b ++ attrGroups k

/-- The base types of the extensions (XSD allows one), resolved twice; the base of a restriction is forgotten. -/
def bases : Content → List Str
  | .nil => []
  | .elem _ k => bases k
  | .anon _ _ _ k => bases k
  | .elemAnon _ _ _ k => bases k
  | .choice _ b k => bases b ++ bases k
  | .group _ k => bases k
  | .attrGroup _ k => bases k
  | .attribute _ k => bases k
  | .attrAnon _ _ k => bases k
  | .ext as b k => ((attr? as c!"base").map fun t => ty (ty t)).toList ++ bases b ++ bases k
  | .restr _ _ b k => bases b ++ bases k

/-- Adds an element declaration: a second declaration of the same name and type only makes the first one plural. -/
def addElement (e : Element) : List Element → List Element
  | [] => [e]
  | x :: xs =>
    if x.name = e.name then
      if x.type = e.type then { x with plural := x.plural || e.plural } :: xs else x :: xs ++ [e]
    else x :: addElement e xs

/-- Adds a group reference unless there is one of the same name. -/
def addGroup (g : GroupRef) (gs : List GroupRef) : List GroupRef := if gs.any (fun x => x.name = g.name) then gs else gs ++ [g]

/-- A complex type with further contents. -/
def extend (p : Bool) (b : Content) (c : ComplexType) : ComplexType :=
  { c with
    base := (bases ty b).getLast?.getD c.base
    elements := (elements ty p b).foldl (fun es e => addElement e es) c.elements
    attributes := c.attributes ++ attributes ty b
    groups := (groups ty p b).foldl (fun gs g => addGroup g gs) c.groups
    attributeGroup := c.attributeGroup ++ attrGroups ty b }

/-- The complex type with a name and contents. -/
def complexOf (p : Bool) (name : Str) (b : Content) : ComplexType := extend ty p b { name := name }

/-- The anonymous complex types inside contents, inner before outer; each is named after its element. -/
def nested : Bool → Content → List ComplexType
  | _, .nil => []
  | p, .elem _ k => nested p k
  | p, .anon as _ b k => nested p b ++ [complexOf ty p (nameOf as) b] ++ nested p k
  | p, .elemAnon _ _ _ k => nested p k
  | p, .choice as b k => nested (repeated as || p) b ++ nested p k
  | p, .group _ k => nested p k
  | p, .attrGroup _ k => nested p k
  | p, .attribute _ k => nested p k
  | p, .attrAnon _ _ k => nested p k
  | p, .ext _ b k => nested p b ++ nested p k
  | p, .restr _ _ b k => nested p b ++ nested p k

/-- A simple type. -/
def simpleOf (as : List Attr) : SimpleBody → SimpleType
  | .restriction ras fs =>
    { name := nameOf as, base := ((attr? ras c!"base").map fun t => ty (ty t)).getD []
      enum := fs.flatMap fun f => if f.tag = c!"enumeration" then (attr? f.as c!"value").toList else [] }
  | .list las => { name := nameOf as, list := true, base := ((attr? las c!"itemType").map ty).getD [] }
  | .union uas =>
    { name := nameOf as, union := true
      memberTypes := (((attr? uas c!"memberTypes").map fun v => splitOn ' ' v).getD []).foldl
        (fun m t => m.set (Names.localPart t) (ty t)) [] }

/-- The components a declaration adds to the tree. -/
def Decl.nodes : Decl → List (Node Element)
  | .simple as b => [.simple (simpleOf ty as b)]
  | .complex as b => (nested ty false b).map .complex ++ [.complex (complexOf ty false (nameOf as) b)]
  | .element as => [.elem (elementOf ty false as)]
  | .anon as _ b => (nested ty false b).map .complex ++ [.complex (complexOf ty false (nameOf as) b), .elem (elementOf ty false as)]
  | .elemAnon as ras _ => [.elem (elemAnonOf ty false as ras)]
  | .group as b =>
    let g := groupOf ty false as
    [.group { name := g.name, plural := g.plural, ref := g.ref, elements := elements ty false b, groups := groups ty false b }]
  | .attrGroup as b => (attrGroups ty b).map .attrGroup ++ [.attrGroup { attrGroupOf ty as with attributes := attributes ty b }]
  | .attribute as => [.attr (attributeOf ty as)]
  | .attrAnon as ras fs => [.attr (attrAnonOf ty as (.restriction ras fs))]

end

/-- The tree of a list of declarations, where `ref t` is the meaning of type references after the components `t`. -/
def treeOf (ref : Tree → Str → Str) : Tree → List Decl → Tree
  | t, [] => t
  | t, d :: ds => treeOf ref (t ++ (d.nodes (ref t)).map some) ds

/-! ## Regular use -/

/-- No attribute twice. -/
def Distinct (as : List Attr) : Prop := (as.map (·.local)).Nodup

/-- A reference has no name and no type of its own. -/
def RefAlone (as : List Attr) : Prop :=
  (attr? as c!"ref").isSome → attr? as c!"name" = none ∧ attr? as c!"type" = none

/-- A legal maxOccurs. -/
def OccursOk (as : List Attr) : Prop := ∀ v, attr? as c!"maxOccurs" = some v → Occurs.Legal v

/-- A legal tag. -/
def TagOk (as : List Attr) : Prop := Distinct as ∧ RefAlone as

section
variable (ty : Str → Str)

/-- An element with a type or reference that means something. -/
def Typed (as : List Attr) : Prop := ∃ t, (attr? as c!"ref").or (attr? as c!"type") = some t ∧ ty t ≠ []

/-- An element with neither type nor reference, but with a name. -/
def Untyped (as : List Attr) : Prop := attr? as c!"ref" = none ∧ attr? as c!"type" = none ∧ nameOf as ≠ []

/-- The facets of XSD. -/
def facetNames : List Str :=
  [c!"enumeration", c!"fractionDigits", c!"length", c!"maxExclusive", c!"maxInclusive", c!"maxLength", c!"minExclusive",
   c!"minInclusive", c!"minLength", c!"pattern", c!"totalDigits", c!"whiteSpace"]

/-- Regular facets. -/
def FacetsOk (fs : List Facet) : Prop := ∀ f ∈ fs, f.tag ∈ facetNames ∧ Distinct f.as

/-- Regular contents of a simple type. -/
def SimpleBody.Regular : SimpleBody → Prop
  | .restriction as fs => Distinct as ∧ FacetsOk fs
  | .list as => Distinct as
  | .union as => Distinct as

/-- A regular anonymous restriction of an element: a base and at least one facet (without facets the element keeps its own
name as type, see C68). -/
def Inline (ras : List Attr) (fs : List Facet) : Prop :=
  Distinct ras ∧ (attr? ras c!"base").isSome ∧ FacetsOk fs ∧ fs ≠ []

/-- Regular contents of a complex type. -/
def Content.Regular : Content → Prop
  | .nil => True
  | .elem as k => TagOk as ∧ OccursOk as ∧ Typed ty as ∧ k.Regular
  | .anon as cas b k => TagOk as ∧ OccursOk as ∧ Untyped as ∧ attr? cas c!"name" = none ∧ b.Regular ∧ k.Regular
  | .elemAnon as ras fs k => TagOk as ∧ OccursOk as ∧ Untyped as ∧ Inline ras fs ∧ k.Regular
  | .choice as b k => TagOk as ∧ OccursOk as ∧ b.Regular ∧ k.Regular
  | .group as k => TagOk as ∧ k.Regular
  | .attrGroup as k => TagOk as ∧ k.Regular
  | .attribute as k => TagOk as ∧ k.Regular
  | .attrAnon as b k => TagOk as ∧ b.Regular ∧ k.Regular
  | .ext as b k => TagOk as ∧ b.Regular ∧ k.Regular
  | .restr as fs b k => Distinct as ∧ FacetsOk fs ∧ b.Regular ∧ k.Regular

/-- Not a restriction. -/
def SimpleBody.Quiet : SimpleBody → Prop
  | .restriction .. => False
  | _ => True

/-- Whether contents have elements with anonymous restrictions. -/
def Content.inline : Content → Bool
  | .nil => false
  | .elem _ k => k.inline
  | .anon _ _ b k => b.inline || k.inline
  | .elemAnon .. => true
  | .choice _ b k => b.inline || k.inline
  | .group _ k => k.inline
  | .attrGroup _ k => k.inline
  | .attribute _ k => k.inline
  | .attrAnon _ _ k => k.inline
  | .ext _ b k => b.inline || k.inline
  | .restr _ _ b k => b.inline || k.inline

/-- What elements with anonymous restrictions have left behind: nothing, elements, or elements and a simple type. -/
inductive Mode where
  | clean
  | elements
  | types
deriving Repr, DecidableEq

/-- What an anonymous restriction leaves behind: a facet other than an enumeration removes the simple type. -/
def leaves (fs : List Facet) : Mode := if fs.all (fun f => f.tag = c!"enumeration") then .types else .elements

/-- What is left behind after contents. -/
def Content.after : Content → Mode → Mode
  | .nil, m => m
  | .elem _ k, m => k.after m
  | .anon _ _ b k, m => k.after (b.after m)
  | .elemAnon _ _ fs k, _ => k.after (leaves fs)
  | .choice _ b k, m => k.after (b.after m)
  | .group _ k, m => k.after m
  | .attrGroup _ k, m => k.after m
  | .attribute _ k, m => k.after m
  | .attrAnon _ _ k, m => k.after m
  | .ext _ b k, m => k.after (b.after m)
  | .restr _ _ b k, m => k.after (b.after m)

/-- Contents that are not affected by what is left behind.  As long as an element without type is left, the end of a
restriction changes the last element of the type, and its facets change the type of the element; a simple type left behind
lends its base to the next one. -/
def Content.Safe : Content → Mode → Prop
  | .nil, _ => True
  | .elem _ k, m => k.Safe m
  | .anon _ _ b k, m => b.Safe m ∧ k.Safe (b.after m)
  | .elemAnon _ _ fs k, _ => k.Safe (leaves fs)
  | .choice _ b k, m => b.Safe m ∧ k.Safe (b.after m)
  | .group _ k, m => k.Safe m
  | .attrGroup _ k, m => k.Safe m
  | .attribute _ k, m => k.Safe m
  | .attrAnon _ b k, m => (m = .clean ∨ m = .elements ∧ b.Quiet) ∧ k.Safe m
  | .ext _ b k, m => b.Safe m ∧ k.Safe (b.after m)
  | .restr _ _ b k, m => m = .clean ∧ b.inline = false ∧ b.Safe m ∧ k.Safe m

/-- The names of the elements declared directly in contents. -/
def elementNames : Content → List Str
  | .nil => []
  | .elem as k => nameOf as :: elementNames k
  | .anon as _ _ k => nameOf as :: elementNames k
  | .elemAnon as _ _ k => nameOf as :: elementNames k
  | .choice _ b k => elementNames b ++ elementNames k
  | .group _ k => elementNames k
  | .attrGroup _ k => elementNames k
  | .attribute _ k => elementNames k
  | .attrAnon _ _ k => elementNames k
  | .ext _ b k => elementNames b ++ elementNames k
  | .restr _ _ b k => elementNames b ++ elementNames k

/-- Elements with anonymous restrictions have names of their own: different from those declared before in the same type. -/
def Content.Apart : Content → List Str → Prop
  | .nil, _ => True
  | .elem as k, ns => k.Apart (ns ++ [nameOf as])
  | .anon as _ b k, ns => b.Apart [] ∧ k.Apart (ns ++ [nameOf as])
  | .elemAnon as _ _ k, ns => nameOf as ∉ ns ∧ k.Apart (ns ++ [nameOf as])
  | .choice _ b k, ns => b.Apart ns ∧ k.Apart (ns ++ elementNames b)
  | .group _ k, ns => k.Apart ns
  | .attrGroup _ k, ns => k.Apart ns
  | .attribute _ k, ns => k.Apart ns
  | .attrAnon _ _ k, ns => k.Apart ns
  | .ext _ b k, ns => b.Apart ns ∧ k.Apart (ns ++ elementNames b)
  | .restr _ _ b k, ns => b.Apart ns ∧ k.Apart (ns ++ elementNames b)

/-- Regular contents of a group: typed elements, references to groups, and choices of them. -/
def Content.GroupRegular : Content → Prop
  | .nil => True
  | .elem as k => TagOk as ∧ OccursOk as ∧ Typed ty as ∧ k.GroupRegular
  | .choice as b k => TagOk as ∧ OccursOk as ∧ b.GroupRegular ∧ k.GroupRegular
  | .group as k => TagOk as ∧ k.GroupRegular
  | _ => False

/-- Regular contents of an attribute group. -/
def Content.AttrRegular : Content → Prop
  | .nil => True
  | .attrGroup as k => TagOk as ∧ k.AttrRegular
  | .attribute as k => TagOk as ∧ k.AttrRegular
  | .attrAnon as b k => TagOk as ∧ b.Regular ∧ k.AttrRegular
  | _ => False

/-- A named tag. -/
def Named (as : List Attr) : Prop := TagOk as ∧ nameOf as ≠ [] ∧ attr? as c!"ref" = none

/-- Regular declarations. -/
def Decl.Regular : Decl → Prop
  | .simple as b => Named as ∧ b.Regular
  | .complex as b => Named as ∧ b.Regular ty ∧ b.Apart []
  | .element as => TagOk as ∧ OccursOk as ∧ Typed ty as
  | .anon as cas b => TagOk as ∧ OccursOk as ∧ Untyped as ∧ attr? cas c!"name" = none ∧ b.Regular ty ∧ b.Apart []
  | .elemAnon as ras fs => TagOk as ∧ OccursOk as ∧ Untyped as ∧ Inline ras fs
  | .group as b => Named as ∧ b.GroupRegular ty
  | .attrGroup as b => TagOk as ∧ b.AttrRegular
  | .attribute as => TagOk as
  | .attrAnon as ras fs => TagOk as ∧ Distinct ras ∧ FacetsOk fs

end

/-- What is left behind together with the element of an open declaration. -/
def Mode.within : Mode → Mode
  | .clean => .elements
  | m => m

/-- Declarations that are not affected by what is left behind: besides those of contents, the end of an element in a group
takes an element that was left behind for its own, and so does the end of an element with an anonymous complex type. -/
def Decl.Safe : Decl → Mode → Prop
  | .simple _ b, m => m = .clean ∨ m = .elements ∧ b.Quiet
  | .complex _ b, m => b.Safe m
  | .element _, _ => True
  | .anon _ _ b, m => b.Safe m.within ∧ b.inline = false
  | .elemAnon .., _ => True
  | .group .., m => m = .clean
  | .attrGroup _ b, m => b.Safe m
  | .attribute _, _ => True
  | .attrAnon .., m => m = .clean

/-- What is left behind after a declaration. -/
def Decl.after : Decl → Mode → Mode
  | .complex _ b, m => b.after m
  | .elemAnon _ _ fs, _ => leaves fs
  | _, m => m

/-- Every declaration is regular at its place. -/
def Placed (ref : Tree → Str → Str) : Tree → List Decl → Prop
  | _, [] => True
  | t, d :: ds => d.Regular (ref t) ∧ Placed ref (t ++ (d.nodes (ref t)).map some) ds

/-- No declaration is affected by what those before it have left behind. -/
def Safe : Mode → List Decl → Prop
  | _, [] => True
  | m, d :: ds => d.Safe m ∧ Safe (d.after m) ds

/-- Regular schemas. -/
structure Regular (ref : Tree → Str → Str) (t : Tree) (ds : List Decl) : Prop where
  placed : Placed ref t ds
  safe : Safe .clean ds

end Xgen.Core
