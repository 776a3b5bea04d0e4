import Verif.Spec.Core
import Verif.Spec.GoXml

/-! # Schemas with their sequences, and the documents that are valid against them

`Spec/Core.lean` describes what the parser sees of a schema, and that does not include sequences.  Here they are added, for
schemas without groups, attribute groups, references and restrictions of complex types, and it is said which documents are
valid (XML Schema Part 1: Structures, 3.3.4, 3.4.4 and 3.8.4).  Elements of the same name in one type have the same type ("Element
Declarations Consistent", 3.8.6), so that the names of the children and the types of the children can be treated apart.

Simplifications: facets are not looked at, so that more documents are valid than for XSD; mixed content, substitution groups,
wildcards and `xsi:` attributes are left out; `fixed` and `default` are left out. -/

namespace Xgen.Xsd
open Core GoXml

/-! ## Syntax -/

/-- What stands inside a complex type: first child and next sibling. -/
inductive Body where
  | nil
  /-- an element with a type -/
  | elem (as : List Attr) (next : Body)
  /-- an element with an anonymous complex type, which extends another if `ext` is given -/
  | anon (as cas : List Attr) (ext : Option (List Attr)) (body next : Body)
  /-- an element with an anonymous restriction -/
  | elemAnon (as ras : List Attr) (facets : List Facet) (next : Body)
  | seq (as : List Attr) (body next : Body)
  | all (as : List Attr) (body next : Body)
  | choice (as : List Attr) (body next : Body)
  | «attribute» (as : List Attr) (next : Body)
  /-- an attribute with an anonymous restriction -/
  | attrAnon (as ras : List Attr) (facets : List Facet) (next : Body)
deriving Repr

/-- A complex type: the attributes of the tag `extension`, if it extends a type, and the rest. -/
structure Complex where
  ext : Option (List Attr)
  body : Body
deriving Repr

/-- A top-level declaration. -/
inductive Top where
  | simple (as : List Attr) (body : SimpleBody)
  | complex (as : List Attr) (type : Complex)
  /-- an element with an anonymous complex type -/
  | root (as cas : List Attr) (type : Complex)
  /-- an element with a type -/
  | element (as : List Attr)
deriving Repr

/-! ## Tokens -/

/-- The tags of an extension.  (Of a simple type it stands in `simpleContent`; C77 takes no notice of either.) -/
def extTokens (ext : Option (List Attr)) (inner : List Token) : List Token :=
  match ext with
  | none => inner
  | some eas => tag c!"complexContent" [] (tag c!"extension" eas inner)

/-- The tags of contents. -/
def Body.tokens : Body → List Token
  | .nil => []
  | .elem as k => tag c!"element" as [] ++ k.tokens
  | .anon as cas ext b k => tag c!"element" as (tag c!"complexType" cas (extTokens ext b.tokens)) ++ k.tokens
  | .elemAnon as ras fs k => tag c!"element" as (tag c!"simpleType" [] (tag c!"restriction" ras (facetTokens fs))) ++ k.tokens
  | .seq as b k => tag c!"sequence" as b.tokens ++ k.tokens
  | .all as b k => tag c!"all" as b.tokens ++ k.tokens
  | .choice as b k => tag c!"choice" as b.tokens ++ k.tokens
  | .attribute as k => tag c!"attribute" as [] ++ k.tokens
  | .attrAnon as ras fs k => tag c!"attribute" as (tag c!"simpleType" [] (tag c!"restriction" ras (facetTokens fs))) ++ k.tokens

/-- The tags of a declaration. -/
def Top.tokens : Top → List Token
  | .simple as b => tag c!"simpleType" as b.tokens
  | .complex as c => tag c!"complexType" as (extTokens c.ext c.body.tokens)
  | .root as cas c => tag c!"element" as (tag c!"complexType" cas (extTokens c.ext c.body.tokens))
  | .element as => tag c!"element" as []

/-- The tags of a schema. -/
def tokens (as : List Attr) (ds : List Top) : List Token := tag c!"schema" as (ds.flatMap Top.tokens)

/-! ## What the parser sees -/

/-- The contents of an extension. -/
def extErase (ext : Option (List Attr)) (inner : Content) : Content :=
  match ext with
  | none => inner
  | some eas => .ext eas inner .nil

/-- Contents without sequences, before other contents. -/
def Body.onto : Body → Content → Content
  | .nil, c => c
  | .elem as k, c => .elem as (k.onto c)
  | .anon as cas ext b k, c => .anon as cas (extErase ext (b.onto .nil)) (k.onto c)
  | .elemAnon as ras fs k, c => .elemAnon as ras fs (k.onto c)
  | .seq _ b k, c => b.onto (k.onto c)
  | .all _ b k, c => b.onto (k.onto c)
  | .choice as b k, c => .choice as (b.onto .nil) (k.onto c)
  | .attribute as k, c => .attribute as (k.onto c)
  | .attrAnon as ras fs k, c => .attrAnon as (.restriction ras fs) (k.onto c)

/-- A complex type without sequences. -/
def Complex.erase (c : Complex) : Content := extErase c.ext (c.body.onto .nil)

/-- A declaration without sequences. -/
def Top.erase : Top → Core.Decl
  | .simple as b => .simple as b
  | .complex as c => .complex as c.erase
  | .root as cas c => .anon as cas c.erase
  | .element as => .element as

/-! ## Elements and attributes -/

/-- What the type of an element is. -/
inductive Kind where
  | type (v : Str)
  | anon (c : Complex)
  | restriction (base : Str)
deriving Repr

/-- The elements declared directly in contents: name and type. -/
def parts : Body → List (Str × Kind)
  | .nil => []
  | .elem as k => (nameOf as, .type ((attr? as c!"type").getD [])) :: parts k
  | .anon as _ ext b k => (nameOf as, .anon ⟨ext, b⟩) :: parts k
  | .elemAnon as ras _ k => (nameOf as, .restriction ((attr? ras c!"base").getD [])) :: parts k
  | .seq _ b k => parts b ++ parts k
  | .all _ b k => parts b ++ parts k
  | .choice _ b k => parts b ++ parts k
  | .attribute _ k => parts k
  | .attrAnon _ _ _ k => parts k

/-- An attribute: name, type, and whether it must be there. -/
structure Attrib where
  name : Str
  type : Str
  required : Bool
deriving Repr, DecidableEq

/-- The attributes declared directly in contents. -/
def attribs : Body → List Attrib
  | .nil => []
  | .elem _ k => attribs k
  | .anon _ _ _ _ k => attribs k
  | .elemAnon _ _ _ k => attribs k
  | .seq _ b k => attribs b ++ attribs k
  | .all _ b k => attribs b ++ attribs k
  | .choice _ b k => attribs b ++ attribs k
  | .attribute as k => ⟨nameOf as, (attr? as c!"type").getD [], attr? as c!"use" = some c!"required"⟩ :: attribs k
  | .attrAnon as ras _ k => ⟨nameOf as, (attr? ras c!"base").getD [], attr? as c!"use" = some c!"required"⟩ :: attribs k

/-! ## Types -/

/-- What a type is: a built-in type, a list of one, or a complex type. -/
inductive Ty where
  | text (k : Str)
  | list (k : Str)
  | complex (c : Complex)
deriving Repr

/-- A simple type. -/
def Ty.simple : Ty → Bool
  | .complex _ => false
  | _ => true

/-- What a type reference leads to.  `builtin` are the names of the built-in types. -/
inductive Denotes (builtin : Str → Prop) (ds : List Top) : Str → Ty → Prop
  | builtin {v : Str} : builtin (Names.localPart v) → Denotes builtin ds v (.text (Names.localPart v))
  | restriction {v w : Str} {as ras : List Attr} {fs : List Facet} {τ : Ty} : .simple as (.restriction ras fs) ∈ ds →
      nameOf as = Names.localPart v → attr? ras c!"base" = some w → Denotes builtin ds w τ → τ.simple = true → Denotes builtin ds v τ
  | list {v w : Str} {as las : List Attr} {k : Str} : .simple as (.list las) ∈ ds →
      nameOf as = Names.localPart v → attr? las c!"itemType" = some w → Denotes builtin ds w (.text k) → Denotes builtin ds v (.list k)
  | complex {v : Str} {as : List Attr} {c : Complex} : .complex as c ∈ ds → nameOf as = Names.localPart v → Denotes builtin ds v (.complex c)

/-- What the type of an element is. -/
inductive Has (builtin : Str → Prop) (ds : List Top) : Kind → Ty → Prop
  | type {v : Str} {τ : Ty} : Denotes builtin ds v τ → Has builtin ds (.type v) τ
  | anon {c : Complex} : Has builtin ds (.anon c) (.complex c)
  | restriction {v : Str} {τ : Ty} : Denotes builtin ds v τ → τ.simple = true → Has builtin ds (.restriction v) τ

/-- A complex type with those it extends, up to one that extends none or a simple type, which is then the type of the text. -/
inductive Bases (builtin : Str → Prop) (ds : List Top) : Complex → List Complex → Option Ty → Prop
  | none {c : Complex} : c.ext = none → Bases builtin ds c [c] none
  | simple {c : Complex} {eas : List Attr} {v : Str} {τ : Ty} : c.ext = some eas → attr? eas c!"base" = some v →
      Denotes builtin ds v τ → τ.simple = true → Bases builtin ds c [c] (some τ)
  | complex {c d : Complex} {eas : List Attr} {v : Str} {l : List Complex} {t : Option Ty} : c.ext = some eas →
      attr? eas c!"base" = some v → Denotes builtin ds v (.complex d) → Bases builtin ds d l t → Bases builtin ds c (c :: l) t

/-! ## Validity -/

/-- A number of occurrences that a tag allows. -/
structure Allowed (as : List Attr) (n : Nat) : Prop where
  min : match attr? as c!"minOccurs" with
    | none => 1 ≤ n
    | some v => ∀ m, Occurs.Numeral v m → m ≤ n
  max : match attr? as c!"maxOccurs" with
    | none => n ≤ 1
    | some v => v = c!"unbounded" ∨ ∃ m : Int, Occurs.Int64 v m ∧ n ≤ m

/-- One after the other, or (in a choice) one of the two. -/
def joined (choice : Bool) (P Q : List Str → Prop) (w : List Str) : Prop :=
  if choice then P w ∨ Q w else ∃ u v, w = u ++ v ∧ P u ∧ Q v

/-- The sequences of element names that contents allow; in a choice, those that one of the siblings allows. -/
def Lang : Bool → Body → List Str → Prop
  | choice, .nil, w => choice = false ∧ w = []
  | choice, .elem as k, w => joined choice (fun u => (∀ x ∈ u, x = nameOf as) ∧ Allowed as u.length) (Lang choice k) w
  | choice, .anon as _ _ _ k, w => joined choice (fun u => (∀ x ∈ u, x = nameOf as) ∧ Allowed as u.length) (Lang choice k) w
  | choice, .elemAnon as _ _ k, w => joined choice (fun u => (∀ x ∈ u, x = nameOf as) ∧ Allowed as u.length) (Lang choice k) w
  | choice, .seq as b k, w => joined choice (fun u => ∃ us : List (List Str), u = us.flatten ∧ Allowed as us.length ∧ ∀ x ∈ us, Lang false b x) (Lang choice k) w
  | choice, .all as b k, w =>
    joined choice (fun u => ∃ us : List (List Str), u = us.flatten ∧ Allowed as us.length ∧ ∀ x ∈ us, ∃ y, x.Perm y ∧ Lang false b y) (Lang choice k) w
  | choice, .choice as b k, w => joined choice (fun u => ∃ us : List (List Str), u = us.flatten ∧ Allowed as us.length ∧ ∀ x ∈ us, Lang true b x) (Lang choice k) w
  | choice, .attribute _ k, w => Lang choice k w
  | choice, .attrAnon _ _ _ k, w => Lang choice k w

/-- The element names that a type and those it extends allow: first those of the type that is extended. -/
def Words : List Complex → List Str → Prop
  | [], w => w = []
  | c :: l, w => ∃ u v, w = u ++ v ∧ Words l u ∧ Lang false c.body v

/-- The attributes of an element are valid: declared, given once, with values of their types; required ones are there. -/
structure AttrsValid (builtin : Str → Prop) (ds : List Top) (values : Ty → Str → Prop) (l : List Complex) (item : Item) : Prop where
  once : (item.attrs.map (·.1)).Nodup
  declared : ∀ a ∈ item.attrs, ∃ c ∈ l, ∃ d ∈ attribs c.body, d.name = a.1
  values : ∀ a ∈ item.attrs, ∀ c ∈ l, ∀ d ∈ attribs c.body, d.name = a.1 → ∃ τ, Denotes builtin ds d.type τ ∧ τ.simple = true ∧ values τ a.2
  required : ∀ c ∈ l, ∀ d ∈ attribs c.body, d.required = true → d.name ∈ item.attrs.map (·.1)

/-- A document is valid against a type.  `values` are the texts that simple types allow. -/
inductive Valid (builtin : Str → Prop) (values : Ty → Str → Prop) (ds : List Top) : Ty → Item → Prop
  | text {τ : Ty} {n x : Str} : τ.simple = true → values τ x → Valid builtin values ds τ (.leaf n x)
  | complex {c : Complex} {l : List Complex} {t : Option Ty} {item : Item} : Bases builtin ds c l t →
      AttrsValid builtin ds values l item → (match t with | none => item.text = [] | some τ => values τ item.text) →
      Words l (item.children.map (·.name)) →
      (∀ x ∈ item.children, ∀ d ∈ l, ∀ p ∈ parts d.body, p.1 = x.name → ∀ τ, Has builtin ds p.2 τ → Valid builtin values ds τ x) →
      Valid builtin values ds (.complex c) item

end Xgen.Xsd
