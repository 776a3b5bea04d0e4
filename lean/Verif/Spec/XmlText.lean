import Verif.Model.State
import Verif.Model.Xml

/-! # XML documents as text

A document is written down as a tree: elements contain their content, so tags match.  All layout that XML leaves open is part of
the tree: white space in tags, the kind of quotes, characters written as references, sections, comments, instructions, the document
type.  `Nodes.written` is the text, `Nodes.tokens` the tokens that a reader has to see.  Only the two tables of
characters beyond ASCII are shared with the model of the decoder. -/

namespace Xgen.Text
open Xgen.Xml (NameChars)

/-- Characters of XML 1.0. -/
def Allowed (c : Char) : Prop :=
  c = '\t' ∨ c = '\n' ∨ c = '\r' ∨ (0x20 ≤ c.toNat ∧ c.toNat ≠ 0xFFFE ∧ c.toNat ≠ 0xFFFF)

/-- White space of XML. -/
def Blank (s : Str) : Prop := ∀ c ∈ s, c ∈ c!" \t\r\n"

/-- The letters with which names begin. -/
def NameStart [NameChars] (c : Char) : Prop :=
  ('a' ≤ c ∧ c ≤ 'z') ∨ ('A' ≤ c ∧ c ≤ 'Z') ∨ c = '_' ∨ (128 ≤ c.toNat ∧ NameChars.first c = true)

/-- The further characters of names. -/
def NamePart [NameChars] (c : Char) : Prop :=
  NameStart c ∨ ('0' ≤ c ∧ c ≤ '9') ∨ c = '-' ∨ c = '.' ∨ (128 ≤ c.toNat ∧ NameChars.second c = true)

/-- A name without a colon. -/
def NCName [NameChars] (s : Str) : Prop := ∃ c cs, s = c :: cs ∧ NameStart c ∧ ∀ c ∈ cs, NamePart c

/-- A name with or without a prefix. -/
structure QName where
  pre : Str := []
  loc : Str

/-- A name as written. -/
def QName.written (q : QName) : Str := if q.pre = [] then q.loc else q.pre ++ ':' :: q.loc
/-- Well-formed names. -/
def QName.Ok [NameChars] (q : QName) : Prop := (q.pre = [] ∨ NCName q.pre) ∧ NCName q.loc

/-- One character of character data or of an attribute value, as written: itself, a line end of Windows, a named entity, a numeric
reference by its digits. -/
inductive Piece where
  | char (c : Char)
  | crlf
  | named (e : Str × Char)
  | number (hex upper : Bool) (digits : List Nat)
deriving DecidableEq

/-- The five entities every document has. -/
def predefined : List (Str × Char) := [(c!"lt", '<'), (c!"gt", '>'), (c!"amp", '&'), (c!"apos", '\''), (c!"quot", '"')]

/-- A digit as written. -/
def digit (upper : Bool) (n : Nat) : Char := (if upper then c!"0123456789ABCDEF" else c!"0123456789abcdef").getD n '0'

/-- The number that digits stand for. -/
def value (base : Nat) : List Nat → Nat
  | [] => 0
  | d :: ds => d * base ^ ds.length + value base ds

/-- The text of a piece. -/
def Piece.written : Piece → Str
  | .char c => [c]
  | .crlf => c!"\r\n"
  | .named e => '&' :: e.1 ++ [';']
  | .number hex upper ds => (if hex then c!"&#x" else c!"&#") ++ ds.map (digit upper) ++ [';']

/-- The character a piece stands for. -/
def Piece.means : Piece → Char
  | .char c => c
  | .crlf => '\n'
  | .named e => e.2
  | .number hex _ ds => Char.ofNat (value (if hex then 16 else 10) ds)

/-- Pieces that may stand in character data, or in an attribute value with the given quote. -/
def Piece.Ok (quote : Option Char) : Piece → Prop
  | .char c => Allowed c ∧ c ≠ '<' ∧ c ≠ '&' ∧ c ≠ '\r' ∧ some c ≠ quote
  | .crlf => True
  | .named e => e ∈ predefined
  | .number hex _ ds =>
    ds ≠ [] ∧ (∀ d ∈ ds, d < if hex then 16 else 10) ∧ (value (if hex then 16 else 10) ds).isValidChar ∧
      Allowed (Char.ofNat (value (if hex then 16 else 10) ds))

/-- The text of some pieces. -/
def pieces (ps : List Piece) : Str := ps.flatMap Piece.written

/-- `]]>`, which may not stand in character data. -/
def bracket : List Piece := [.char ']', .char ']', .char '>']

/-- An attribute as written. -/
structure AttrText where
  sep : Str := c!" "
  name : QName
  before : Str := []
  after : Str := []
  quote : Char := '"'
  value : List Piece

/-- The text of an attribute. -/
def AttrText.written (a : AttrText) : Str :=
  a.sep ++ a.name.written ++ a.before ++ '=' :: a.after ++ a.quote :: pieces a.value ++ [a.quote]

/-- Well-formed attributes. -/
def AttrText.Ok [NameChars] (a : AttrText) : Prop :=
  a.sep ≠ [] ∧ Blank a.sep ∧ a.name.Ok ∧ Blank a.before ∧ Blank a.after ∧ (a.quote = '"' ∨ a.quote = '\'') ∧
    ∀ p ∈ a.value, p.Ok (some a.quote)

/-- A start tag. -/
structure Tag where
  name : QName
  attrs : List AttrText := []
  space : Str := []

/-- A start tag as written, without its brackets. -/
def Tag.written (t : Tag) : Str := t.name.written ++ t.attrs.flatMap AttrText.written ++ t.space

/-- Well-formed start tags. -/
def Tag.Ok [NameChars] (t : Tag) : Prop := t.name.Ok ∧ (∀ a ∈ t.attrs, a.Ok) ∧ Blank t.space

/-- The namespaces in scope, the innermost first. -/
abbrev Scope := List (Str × Str)

/-- The namespaces a start tag declares; the prefix of the default namespace is empty. -/
def Tag.declares (t : Tag) : Scope :=
  t.attrs.filterMap fun a =>
    if a.name.pre = c!"xmlns" then some (a.name.loc, a.value.map Piece.means)
    else if a.name.pre = [] ∧ a.name.loc = c!"xmlns" then some ([], a.value.map Piece.means)
    else none

/-- The namespaces in scope inside of an element. -/
def Tag.scope (t : Tag) (s : Scope) : Scope := t.declares.reverse ++ s

/-- The namespace of an attribute by its prefix: none without a prefix; declarations keep their prefix; an undeclared prefix stands
for itself. -/
def space (s : Scope) (pre : Str) : Str :=
  if pre = [] ∨ pre = c!"xmlns" then pre
  else if pre = c!"xml" then c!"http://www.w3.org/XML/1998/namespace"
  else match s.find? (fun e => e.1 = pre) with
    | some e => e.2
    | none => pre

/-- The attribute a reader sees. -/
def AttrText.means (s : Scope) (a : AttrText) : Attr := ⟨space s a.name.pre, a.name.loc, a.value.map Piece.means⟩

/-- The inside of a document type declaration: characters, quoted texts, comments, and declarations such as `<!ENTITY ...>`. -/
inductive Inner where
  | nil
  | char (c : Char) (next : Inner)
  | quoted (q : Char) (s : Str) (next : Inner)
  | comment (s : Str) (next : Inner)
  | nested (c : Char) (body next : Inner)

/-- The text of the inside of a document type declaration. -/
def Inner.written : Inner → Str
  | .nil => []
  | .char c n => c :: n.written
  | .quoted q s n => q :: s ++ q :: n.written
  | .comment s n => c!"<!--" ++ s ++ c!"-->" ++ n.written
  | .nested c b n => '<' :: '!' :: c :: b.written ++ '>' :: n.written

/-- A character of a declaration without meaning for its end. -/
def Dull (c : Char) : Prop := c ≠ '<' ∧ c ≠ '>' ∧ c ≠ '"' ∧ c ≠ '\''

/-- Text that may stand in a comment. -/
def CommentOk (s : Str) : Prop := ¬ c!"--" <:+: s ∧ s.getLast? ≠ some '-'

/-- Well-formed insides of document type declarations. -/
def Inner.Ok : Inner → Prop
  | .nil => True
  | .char c n => Dull c ∧ n.Ok
  | .quoted q s n => (q = '"' ∨ q = '\'') ∧ q ∉ s ∧ n.Ok
  | .comment s n => CommentOk s ∧ n.Ok
  | .nested c b n => Dull c ∧ c ≠ '-' ∧ b.Ok ∧ n.Ok

/-- The content of an element, or a whole document. -/
inductive Nodes where
  | nil
  | elem (tag : Tag) (body : Nodes) (space : Str) (next : Nodes)
  | empty (tag : Tag) (next : Nodes)
  | text (ps : List Piece) (next : Nodes)
  | cdata (ps : List Piece) (next : Nodes)
  | comment (s : Str) (next : Nodes)
  | instruction (target space s : Str) (next : Nodes)
  | declaration (quote : Char) (s : Str) (next : Nodes)
  | doctype (inner : Inner) (next : Nodes)

/-- The text of a document. -/
def Nodes.written : Nodes → Str
  | .nil => []
  | .elem t b sp n => '<' :: t.written ++ '>' :: b.written ++ '<' :: '/' :: t.name.written ++ sp ++ '>' :: n.written
  | .empty t n => '<' :: t.written ++ '/' :: '>' :: n.written
  | .text ps n => pieces ps ++ n.written
  | .cdata ps n => c!"<![CDATA[" ++ pieces ps ++ c!"]]>" ++ n.written
  | .comment s n => c!"<!--" ++ s ++ c!"-->" ++ n.written
  | .instruction t sp s n => c!"<?" ++ t ++ sp ++ s ++ c!"?>" ++ n.written
  | .declaration q s n => c!"<?xml version=" ++ q :: c!"1.0" ++ q :: s ++ c!"?>" ++ n.written
  | .doctype i n => c!"<!DOCTYPE" ++ i.written ++ '>' :: n.written

/-- The tokens of a document: elements by their local names, attributes with their namespaces and values. -/
def Nodes.tokens (s : Scope) : Nodes → List Token
  | .nil => []
  | .elem t b _ n =>
    .start t.name.loc (t.attrs.map (AttrText.means (t.scope s))) :: b.tokens (t.scope s) ++ .stop t.name.loc :: n.tokens s
  | .empty t n => .start t.name.loc (t.attrs.map (AttrText.means (t.scope s))) :: .stop t.name.loc :: n.tokens s
  | .text ps n => .text (ps.map Piece.means) :: n.tokens s
  | .cdata ps n => .text (ps.map Piece.means) :: n.tokens s
  | .comment _ n => .other :: n.tokens s
  | .instruction _ _ _ n => .other :: n.tokens s
  | .declaration _ _ n => .other :: n.tokens s
  | .doctype _ n => .other :: n.tokens s

/-- A document does not begin with character data. -/
def Nodes.NoText : Nodes → Prop
  | .text _ _ => False
  | _ => True

/-- Well-formed documents. -/
def Nodes.Ok [NameChars] : Nodes → Prop
  | .nil => True
  | .elem t b sp n => t.Ok ∧ b.Ok ∧ Blank sp ∧ n.Ok
  | .empty t n => t.Ok ∧ n.Ok
  | .text ps n => ps ≠ [] ∧ (∀ p ∈ ps, p.Ok none) ∧ ¬ bracket <:+: ps ∧ n.NoText ∧ n.Ok
  | .cdata ps n =>
    (∀ p ∈ ps, p = .crlf ∨ ∃ c, p = .char c ∧ Allowed c ∧ c ≠ '\r') ∧ ¬ bracket <:+: ps ∧ n.Ok
  | .comment s n => CommentOk s ∧ n.Ok
  | .instruction t sp s n =>
    NCName t ∧ t ≠ c!"xml" ∧ Blank sp ∧ '?' ∉ s ∧ (∀ c, s.head? = some c → sp ≠ [] ∧ ¬ Blank [c]) ∧ n.Ok
  | .declaration q s n => (q = '"' ∨ q = '\'') ∧ '?' ∉ s ∧ n.Ok
  | .doctype i n => i.Ok ∧ n.Ok

end Xgen.Text
