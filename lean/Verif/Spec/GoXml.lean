import Verif.Props.C58

/-! # Go types and `encoding/xml`

The generated Go files are used with `xml.Unmarshal` and `xml.Marshal` (/repo/xml_test.go:36-50 checks that the two are
symmetric for one document).  This file says what a Go file means to these functions.  It is written from their
documentation and source, and knows nothing about the generators.

Simplifications: name spaces, comments and processing instructions are left out; the text of an element is one string,
apart from its children (no mixed content), and white space around children is not part of it; how values of Go's basic
types are read and written is a parameter (`Scalars`); `xml.Name` and types that do not exist count as errors. -/

namespace Xgen.GoXml
open C17 (Field)

/-! ## Documents -/

/-- An element of a document: name, attributes, text and child elements. -/
inductive Item where
  | mk (name : Str) (attrs : List (Str × Str)) (text : Str) (children : List Item)
deriving Repr

namespace Item

/-- The name. -/
def name : Item → Str
  | .mk n _ _ _ => n

/-- The attributes. -/
def attrs : Item → List (Str × Str)
  | .mk _ as _ _ => as

/-- The text. -/
def text : Item → Str
  | .mk _ _ t _ => t

/-- The child elements. -/
def children : Item → List Item
  | .mk _ _ _ cs => cs

/-- An element with nothing but text. -/
def leaf (n s : Str) : Item := .mk n [] s []

/-- The elements of a name among others, in order. -/
def named (n : Str) (cs : List Item) : List Item := cs.filter fun c => c.name = n

end Item

/-! ## Programs -/

/-- Go types. -/
inductive Ty where
  /-- basic types and `time.Time` -/
  | scalar (t : Str)
  | iface
  | ptr (t : Ty)
  | slice (t : Ty)
  | named (n : Str)
deriving Repr, DecidableEq

/-- The types whose values are read from and written to text. -/
def scalarTypes : List Str :=
  [c!"string", c!"bool", c!"float32", c!"float64", c!"int", c!"int8", c!"int16", c!"int32", c!"int64", c!"uint", c!"uint8",
   c!"uint16", c!"uint32", c!"uint64", c!"byte", c!"time.Time"]

/-- Reading a type. -/
def parseTy : Str → Ty
  | '*' :: r => .ptr (parseTy r)
  | '[' :: ']' :: r => .slice (parseTy r)
  | s => if s ∈ scalarTypes then .scalar s else if s = c!"interface{}" then .iface else .named s

/-- Slices of bytes are text for `encoding/xml`. -/
def Ty.bytes : Ty → Bool
  | .scalar t => t = c!"uint8" || t = c!"byte"
  | _ => false

/-- What a type declaration says. -/
inductive Def where
  | struct (fs : List Field)
  | syn (t : Ty)
deriving Repr, DecidableEq

/-- The type declarations of a Go file. -/
abbrev Prog := List (Str × Def)

/-- The declaration of a name. -/
def Prog.find (P : Prog) (n : Str) : Option Def := (List.find? (fun d => d.1 = n) P).map (·.2)

/-- Reading a declaration, given its head line and fields. -/
def readDecl (d : Str × List Field) : Str × Def :=
  let p : Char → Bool := fun c => c ≠ ' ' && c ≠ '\t'
  let rest := (d.1.drop 5).dropWhile p
  ((d.1.drop 5).takeWhile p, if rest = c!" struct {" then .struct d.2 else .syn (parseTy (rest.drop 1)))

/-- Reading a Go file. -/
def program [Uni] (text : Str) : Prog := (C58.Go.declsOf text).map readDecl

/-! ## What `encoding/xml` knows about a type -/

/-- What a field stands for. -/
inductive Mode where
  | element
  | «attribute»
  | chardata
deriving Repr, DecidableEq

/-- A field: the embedded types it is in, and its XML name (`fieldInfo` of typeinfo.go in encoding/xml). -/
structure Info where
  path : List Str := []
  mode : Mode
  xml : Str
  omitempty : Bool := false
  type : Ty
deriving Repr, DecidableEq

/-- The XML name in the field `XMLName`. -/
def xmlNameOf (fs : List Field) : Option Str :=
  match fs.find? (fun f => f.name = c!"XMLName") with
  | some f => match f.tag with
    | some (n, _) => if n = [] then none else some n
    | none => none
  | none => none

/-- The XML name that a struct, or a pointer to one, carries itself (`lookupXMLName`). -/
def lookupXMLName (P : Prog) : Nat → Ty → Option Str
  | 0, _ => none
  | k + 1, .ptr t => lookupXMLName P k t
  | k + 1, .named n => match P.find n with
    | some (.struct fs) => xmlNameOf fs
    | some (.syn t) => lookupXMLName P k t
    | none => none
  | _ + 1, _ => none

/-- The options of a tag. -/
def modeOf (opts : List Str) : Mode :=
  if c!"attr" ∈ opts then .attribute else if c!"chardata" ∈ opts then .chardata else .element

/-- The type of an embedded field, as a name. -/
def embeddedName (f : Field) : Str := f.type.dropWhile (· = '*')

/-- A field that is not an embedded struct (`structFieldInfo`).  An element must not contradict the XML name of its type. -/
def infoOf (P : Prog) (k : Nat) (f : Field) : Option Info :=
  let ty := parseTy f.type
  let tag := f.tag.getD ([], [])
  let x := lookupXMLName P k ty
  let i (n : Str) : Info := { mode := modeOf tag.2, xml := n, omitempty := c!"omitempty" ∈ tag.2, type := ty }
  if tag.1 = [] then some (i (x.getD (if f.name = [] then embeddedName f else f.name)))
  else if modeOf tag.2 = .element ∧ x.any (· ≠ tag.1) then none
  else some (i tag.1)

/-- Adds a field: fields of outer structs hide those of embedded ones; two fields for one thing at the same depth are an error
(`addFieldInfo`). -/
def addInfo (is : List Info) (i : Info) : Option (List Info) :=
  let same (j : Info) : Bool := j.mode = i.mode && j.xml = i.xml
  if is.any (fun j => same j && decide (j.path.length < i.path.length)) then some is
  else if is.any (fun j => same j && decide (j.path.length = i.path.length)) then none
  else some (is.filter (fun j => !same j) ++ [i])

/-- Adds several fields. -/
def addAll : List Info → List Info → Option (List Info)
  | is, [] => some is
  | is, j :: js => (addInfo is j).bind fun is => addAll is js

/-- The fields of an embedded struct. -/
def embedded (P : Prog) (f : Field) : Option (List Field) :=
  if f.name = [] then
    match P.find (embeddedName f) with
    | some (.struct fs) => some fs
    | _ => none
  else none

/-- The XML name and the fields of a struct (`getTypeInfo`), with the embedding at most `k` deep. -/
def typeInfo (P : Prog) : Nat → List Field → Option (Option Str × List Info)
  | 0, _ => none
  | k + 1, fs => fs.foldlM (init := (none, [])) fun (acc : Option Str × List Info) f =>
    if f.name = c!"XMLName" then some (xmlNameOf [f], acc.2)
    else match embedded P f with
      | some inner => (typeInfo P k inner).bind fun r =>
        (addAll acc.2 (r.2.map fun j => { j with path := embeddedName f :: j.path })).map fun is => (acc.1.or r.1, is)
      | none => (infoOf P k f).bind fun i => (addInfo acc.2 i).map fun is => (acc.1, is)

/-! ## Values -/

/-- Go values as far as they can arise. -/
inductive Val where
  /-- the value of a basic type, as the text it is written as -/
  | text (s : Str)
  /-- nil, and any other zero value that no document has changed -/
  | nil
  /-- a field of an embedded struct that has not been allocated -/
  | absent
  | ptr (v : Val)
  | list (vs : List Val)
  | record (xml : Option Str) (is : List Info) (vs : List Val)
deriving Repr

/-- How the values of basic types are read and written: the text that is written for the value read from a text (`none`: an
error), the text of the zero value, and whether `omitempty` leaves a value out. -/
structure Scalars where
  canon : Str → Str → Option Str
  zero : Str → Str
  empty : Str → Str → Bool

/-- The zero value of a field. -/
def zero (S : Scalars) : Ty → Val
  | .scalar t => .text (S.zero t)
  | .slice t => if t.bytes then .text [] else .nil
  | _ => .nil

/-- What a pointer points to. -/
def Val.deref : Val → Val
  | .ptr v => v
  | _ => .nil

/-- What a slice contains. -/
def Val.items : Val → List Val
  | .list vs => vs
  | _ => []

/-- Whether a field is out of reach. -/
def Val.isAbsent : Val → Bool
  | .absent => true
  | _ => false

/-- The results of all, if there are no errors. -/
def allSome {α : Type} : List (Option α) → Option (List α)
  | [] => some []
  | some a :: l => (allSome l).map (a :: ·)
  | none :: _ => none

/-! ## Unmarshal -/

/-- Reading an attribute (`unmarshalAttr`; slices grow) or the text of a struct (`copyValue`; slices are an error). -/
def textInto (S : Scalars) (P : Prog) (grow : Bool) : Nat → Ty → Val → Str → Option Val
  | 0, _, _, _ => none
  | _ + 1, .scalar t, _, s => (S.canon t s).map .text
  | k + 1, .ptr t, old, s => (textInto S P grow k t old.deref s).map .ptr
  | k + 1, .slice t, old, s =>
    if t.bytes then some (.text s)
    else if grow then (textInto S P grow k t .nil s).map fun v => .list (old.items ++ [v]) else none
  | k + 1, .named n, old, s => match P.find n with
    | some (.syn t) => textInto S P grow k t old s
    | _ => none
  | _ + 1, .iface, _, _ => none

/-- Whether a document sets a field.  The text of an element is always stored. -/
def touched (item : Item) (i : Info) : Bool :=
  match i.mode with
  | .attribute => item.attrs.any fun a => a.1 = i.xml
  | .element => item.children.any fun c => c.name = i.xml
  | .chardata => true

/-- Whether the struct a field is in exists, after a document has been read: embedded structs are allocated when one of their
fields is set. -/
def reached (is : List Info) (item : Item) (i : Info) : Bool := is.any fun j => touched item j && i.path.isPrefixOf j.path

/-- The value of a field before it is set. -/
def start (S : Scalars) (is : List Info) (item : Item) (i : Info) (old : Val) : Val :=
  if old.isAbsent && reached is item i then zero S i.type else old

/-- Reading an element into a variable of a type with a value (`unmarshal`), at most `k` deep.  The attributes and child
elements that match a field are stored in it, one after the other; the others are skipped. -/
def unmarshal (S : Scalars) (P : Prog) : Nat → Ty → Val → Item → Option Val
  | 0, _, _, _ => none
  | _ + 1, .scalar t, _, item => (S.canon t item.text).map .text
  | _ + 1, .iface, _, _ => some .nil
  | k + 1, .ptr t, old, item => (unmarshal S P k t old.deref item).map .ptr
  | k + 1, .slice t, old, item =>
    if t.bytes then some (.text item.text)
    else (unmarshal S P k t .nil item).map fun v => .list (old.items ++ [v])
  | k + 1, .named n, old, item => match P.find n with
    | none => none
    | some (.syn t) => unmarshal S P k t old item
    | some (.struct fs) =>
      match typeInfo P k fs with
      | none => none
      | some (xml, is) =>
        if xml.any (· ≠ item.name) then none
        else
          let olds := match old with
            | .record _ _ vs => vs
            | _ => is.map fun i => if i.path = [] then zero S i.type else .absent
          (allSome ((is.zip olds).map fun x =>
            match x.1.mode with
            | .attribute => (item.attrs.filter fun a => a.1 = x.1.xml).foldlM
                (fun v a => textInto S P true k x.1.type v a.2) (start S is item x.1 x.2)
            | .element => (Item.named x.1.xml item.children).foldlM
                (fun v c => unmarshal S P k x.1.type v c) (start S is item x.1 x.2)
            | .chardata => textInto S P false k x.1.type (start S is item x.1 x.2) item.text)).map
          (.record xml is)

/-! ## Marshal -/

/-- Whether `omitempty` leaves a value out. -/
def isEmpty (S : Scalars) : Ty → Val → Bool
  | .scalar t, .text s => S.empty t s
  | _, .text s => s = []
  | _, .list vs => vs.isEmpty
  | _, .ptr _ => false
  | _, .record .. => false
  | _, _ => true

/-- The values of an attribute (`marshalAttr`): nil pointers are left out, slices give several; structs and fields out of reach
are errors. -/
def attrTexts : Val → Option (List Str)
  | .text s => some [s]
  | .nil => some []
  | .ptr v => attrTexts v
  | .list vs => texts vs
  | _ => none
where
  /-- one after the other -/
  texts : List Val → Option (List Str)
    | [] => some []
    | v :: vs => (attrTexts v).bind fun s => (texts vs).map (s ++ ·)

/-- The attributes of a struct. -/
def attrsOut (S : Scalars) : List Info → List Val → Option (List (Str × Str))
  | i :: is, v :: vs =>
    if i.mode = .attribute ∧ ¬ (i.omitempty = true ∧ isEmpty S i.type v = true) then
      (attrTexts v).bind fun ss => (attrsOut S is vs).map ((ss.map fun s => (i.xml, s)) ++ ·)
    else attrsOut S is vs
  | _, _ => some []

/-- The text of a struct. -/
def textOut : List Info → List Val → Str
  | i :: is, v :: vs => (match i.mode, v with
    | .chardata, .text s => s
    | _, _ => []) ++ textOut is vs
  | _, _ => []

mutual

/-- Writing a value as elements of a name (`marshalValue`); structs with an XML name of their own use that. -/
def marshal (S : Scalars) (name : Str) : Val → Option (List Item)
  | .text s => some [Item.leaf name s]
  | .nil => some []
  | .absent => some []
  | .ptr v => marshal S name v
  | .list vs => marshalAll S name vs
  | .record xml is vs =>
    (attrsOut S is vs).bind fun as => (marshalFields S is vs).map fun cs => [.mk (xml.getD name) as (textOut is vs) cs]

/-- Writing the values of a slice. -/
def marshalAll (S : Scalars) (name : Str) : List Val → Option (List Item)
  | [] => some []
  | v :: vs => (marshal S name v).bind fun cs => (marshalAll S name vs).map (cs ++ ·)

/-- Writing the elements of a struct. -/
def marshalFields (S : Scalars) : List Info → List Val → Option (List Item)
  | i :: is, v :: vs =>
    if i.mode = .element then (marshal S i.xml v).bind fun cs => (marshalFields S is vs).map (cs ++ ·)
    else marshalFields S is vs
  | _, _ => some []

end

/-- The name under which a value is written that is not a field: that of its type, behind pointers. -/
def rootName (P : Prog) : Nat → Str → Str
  | 0, n => n
  | k + 1, n => match P.find n with
    | some (.syn (.ptr (.named m))) => rootName P k m
    | _ => n

/-- Reading a document into a variable of a declared type, and writing the variable. -/
def roundTrip (S : Scalars) (P : Prog) (k : Nat) (type : Str) (item : Item) : Option (List Item) :=
  (unmarshal S P k (.named type) .nil item).bind (marshal S (rootName P k type))

end Xgen.GoXml
