import Verif.Spec.Alphabet

/-! # Go source files, by the language specification

The lexical rules and the grammar of Go (The Go Programming Language Specification, sections "Source code representation",
"Lexical elements", "Types", "Declarations and scope", "Packages"), for files that consist of a package clause, one group of
imports and type declarations.  Only less is accepted here than by the language: letters are those of ASCII and of `Alphabet`, and forms of types, of
literals and of declarations that are not needed are left out. -/

namespace Xgen.GoSyntax

/-- A token. -/
inductive Tok where
  | ident (s : Str)
  | keyword (s : Str)
  /-- operators and punctuation; a semicolon may be one that is not in the text -/
  | op (c : Char)
  /-- a string between backquotes -/
  | raw (s : Str)
  /-- a string between double quotes, without escapes -/
  | str (s : Str)
deriving DecidableEq, Repr

/-- Section "Keywords". -/
def keywords : List Str :=
  [c!"break", c!"case", c!"chan", c!"const", c!"continue", c!"default", c!"defer", c!"else", c!"fallthrough", c!"for", c!"func",
   c!"go", c!"goto", c!"if", c!"import", c!"interface", c!"map", c!"package", c!"range", c!"return", c!"select", c!"struct",
   c!"switch", c!"type", c!"var"]

/-- Section "Characters": a letter, among those of `Alphabet`. -/
def letter (c : Char) : Bool := (65 ≤ c.toNat && c.toNat ≤ 90) || (97 ≤ c.toNat && c.toNat ≤ 122) || c.toNat = 95 || Alphabet.national c

/-- What a name may go on with. -/
def wordChar (c : Char) : Bool := letter c || (48 ≤ c.toNat && c.toNat ≤ 57)

/-- The token of a word. -/
def word (w : Str) : Tok := if w ∈ keywords then .keyword w else .ident w

/-- Section "Semicolons": words after which a line break is a semicolon. -/
def closes (w : Str) : Bool := w ∉ keywords || w ∈ [c!"break", c!"continue", c!"fallthrough", c!"return"]

/-- Where the reader is.  The flag says whether a line break is a semicolon here. -/
inductive Mode where
  | gap (semi : Bool)
  | word (w : Str)
  /-- after a slash -/
  | slash (semi : Bool)
  /-- in a comment to the end of the line -/
  | note (semi : Bool)
  | raw (s : Str)
  | str (s : Str)
deriving DecidableEq, Repr

/-- A line break. -/
def newline (semi : Bool) : List Tok := if semi then [.op ';'] else []

/-- A character outside of words, comments and strings. -/
def start (semi : Bool) (c : Char) : Option (List Tok × Mode) :=
  if c = ' ' ∨ c = '\t' ∨ c = '\r' then some ([], .gap semi)
  else if c = '\n' then some (newline semi, .gap false)
  else if letter c then some ([], .word [c])
  else if c = '`' then some ([], .raw [])
  else if c = '"' then some ([], .str [])
  else if c = '/' then some ([], .slash semi)
  else if c ∈ [')', ']', '}'] then some ([.op c], .gap true)
  else if c ∈ ['(', '[', '{', '*', '.', ',', ';'] then some ([.op c], .gap false)
  else none

/-- Section "Source code representation": no character 0, and no byte order mark but at the very start. -/
def banned (c : Char) : Bool := c.toNat = 0 || c.toNat = 0xFEFF

/-- One character. -/
def step (m : Mode) (c : Char) : Option (List Tok × Mode) :=
  if banned c then none
  else match m with
    | .gap semi => start semi c
    | .word w => if wordChar c then some ([], .word (w ++ [c])) else (start (closes w) c).map fun x => (word w :: x.1, x.2)
    | .slash semi => if c = '/' then some ([], .note semi) else none
    | .note semi => if c = '\n' then some (newline semi, .gap false) else some ([], .note semi)
    | .raw s => if c = '`' then some ([.raw s], .gap true) else if c = '\r' then none else some ([], .raw (s ++ [c]))
    | .str s => if c = '"' then some ([.str s], .gap true) else if c = '\n' ∨ c = '\\' then none else some ([], .str (s ++ [c]))

/-- The end of the text. -/
def finish : Mode → Option (List Tok)
  | .gap semi => some (newline semi)
  | .word w => some (word w :: newline (closes w))
  | .note semi => some (newline semi)
  | _ => none

/-- The tokens of a text. -/
def lex (m : Mode) : Str → Option (List Tok)
  | [] => finish m
  | c :: s => match step m c with
    | none => none
    | some (ts, m') => (lex m' s).map (ts ++ ·)

/-- A type that is no struct, as its text without blanks: `Type = TypeName | "*" Type | "[" "]" Type | "interface" "{" "}"`. -/
def type : List Tok → Option (Str × List Tok)
  | .op '*' :: r => (type r).map fun x => ('*' :: x.1, x.2)
  | .op '[' :: .op ']' :: r => (type r).map fun x => (c!"[]" ++ x.1, x.2)
  | .keyword k :: .op '{' :: .op '}' :: r => if k = c!"interface" then some (c!"interface{}", r) else none
  | .ident a :: .op '.' :: .ident b :: r => some (a ++ '.' :: b, r)
  | .ident a :: r => some (a, r)
  | _ => none

/-- A field of a struct; the name of an embedded field is empty. -/
structure Field where
  name : Str
  type : Str
  tag : Option Str
deriving DecidableEq, Repr

/-- `FieldDecl = ( identifier Type | [ "*" ] identifier ) [ Tag ]`; embedded fields have no tag here. -/
def field : List Tok → Option (Field × List Tok)
  | .op '*' :: .ident n :: r => some (⟨[], '*' :: n, none⟩, r)
  | .ident n :: .op ';' :: r => some (⟨[], n, none⟩, .op ';' :: r)
  | .ident n :: r => match type r with
    | some (t, .raw g :: r) => some (⟨n, t, some g⟩, r)
    | some (t, r) => some (⟨n, t, none⟩, r)
    | none => none
  | _ => none

/-- `{ FieldDecl ";" } "}"`; the number bounds the number of fields. -/
def fields : Nat → List Tok → Option (List Field × List Tok)
  | 0, _ => none
  | k + 1, ts => match ts with
    | .op '}' :: r => some ([], r)
    | ts => match field ts with
      | some (f, .op ';' :: r) => (fields k r).map fun x => (f :: x.1, x.2)
      | _ => none

/-- What a type is declared to be. -/
inductive Body where
  | type (t : Str)
  | struct (fs : List Field)
deriving DecidableEq, Repr

/-- A type declaration. -/
structure Decl where
  name : Str
  body : Body
deriving DecidableEq, Repr

/-- `TypeDecl ";"`, where `TypeDecl = "type" identifier Type` and `StructType = "struct" "{" { FieldDecl ";" } "}"`. -/
def decl : List Tok → Option (Decl × List Tok)
  | .keyword k :: .ident n :: .keyword k' :: .op '{' :: r =>
    if k = c!"type" ∧ k' = c!"struct" then match fields (r.length + 1) r with
      | some (fs, .op ';' :: r) => some (⟨n, .struct fs⟩, r)
      | _ => none
    else if k = c!"type" then match type (.keyword k' :: .op '{' :: r) with
      | some (t, .op ';' :: r) => some (⟨n, .type t⟩, r)
      | _ => none
    else none
  | .keyword k :: .ident n :: r =>
    if k = c!"type" then match type r with
      | some (t, .op ';' :: r) => some (⟨n, .type t⟩, r)
      | _ => none
    else none
  | _ => none

/-- `{ TypeDecl ";" }`; the number bounds the number of declarations. -/
def decls : Nat → List Tok → Option (List Decl)
  | 0, _ => none
  | _ + 1, [] => some []
  | k + 1, ts => match decl ts with
    | some (d, r) => (decls k r).map (d :: ·)
    | none => none

/-- `{ ImportPath ";" } ")"` -/
def paths : List Tok → Option (List Str × List Tok)
  | .str p :: .op ';' :: r => (paths r).map fun x => (p :: x.1, x.2)
  | .op ')' :: r => some ([], r)
  | _ => none

/-- `[ "import" "(" { ImportPath ";" } ")" ";" ]` -/
def imports : List Tok → Option (List Str × List Tok)
  | .keyword k :: .op '(' :: r =>
    if k = c!"import" then match paths r with
      | some (ps, .op ';' :: r) => some (ps, r)
      | _ => none
    else none
  | ts => some ([], ts)

/-- A source file. -/
structure File where
  package : Str
  imports : List Str
  decls : List Decl
deriving DecidableEq, Repr

/-- `SourceFile = "package" identifier ";" [ ImportDecl ";" ] { TypeDecl ";" }`; the package is not called `_`. -/
def file : List Tok → Option File
  | .keyword k :: .ident p :: .op ';' :: r =>
    if k = c!"package" ∧ p ≠ c!"_" then match imports r with
      | some (is, r) => (decls (r.length + 1) r).map fun ds => ⟨p, is, ds⟩
      | none => none
    else none
  | _ => none

/-- Reading a text as a Go source file. -/
def parse (text : Str) : Option File := (lex (.gap false) text).bind file

example : parse c!"// x\n\npackage schema\nimport (\n\t\"time\"\n\t\"encoding/xml\"\n)\r\n// T is a\r\n// b\r\ntype T struct {\n\tXMLName\txml.Name\t`xml:\"t\"`\n\tA\t[]*B\n\t*U\n}\n\r\n// U ...\r\ntype U []interface{}\n" =
    some ⟨c!"schema", [c!"time", c!"encoding/xml"], [⟨c!"T", .struct [⟨c!"XMLName", c!"xml.Name", some c!"xml:\"t\""⟩, ⟨c!"A", c!"[]*B", none⟩,
      ⟨[], c!"*U", none⟩]⟩, ⟨c!"U", .type c!"[]interface{}"⟩]⟩ := by decide +kernel
example : parse c!"package p" = some ⟨c!"p", [], []⟩ := by decide +kernel
/-- Not Go: a keyword as a type, a line break within a declaration, two declarations in a line, an open comment, a name with a hyphen. -/
example : parse c!"package p\ntype T interface\n" = none ∧ parse c!"package p\ntype T\nint\n" = none ∧
    parse c!"package p\ntype T int type U int\n" = none ∧ parse c!"package p\n/ x\n" = none ∧ parse c!"package p\ntype A-B int\n" = none ∧
    parse c!"package p\ntype T []*Interface{}\n" = none ∧ parse c!"package p\ntype T struct {\n\tA int\n" = none ∧
    parse c!"package p\n// ﻿\n" = none := by decide +kernel

end Xgen.GoSyntax
