import Verif.Spec.Alphabet
import Verif.Spec.Comments

/-! # Source files of C, Java, Rust and TypeScript, by the grammars of the languages

The lexical rules and the grammars (ISO C 6.4, 6.7 and 6.9; the Java Language Specification, chapters 3, 7, 8 and 9.7; the Rust
Reference, "Lexical structure", "Items", "Attributes" and "Type expressions", for editions up to 2021; ECMAScript 12 and 15, and
the TypeScript handbook for types, enumerations and modules), for files that consist of declarations of types.  Comments go
first, by `Comments.seen`; then the lines are split into tokens and the tokens follow the grammar.  Only less is accepted here
than by the languages: letters are those of ASCII and of `Alphabet`, strings have no escapes, no string goes over several lines, and forms of types, of
literals and of declarations that are not needed are left out. -/

namespace Xgen.Syntax
open Comments (Lang)

/-- A token. -/
inductive Tok where
  | ident (s : Str)
  | keyword (s : Str)
  | num (s : Str)
  | op (c : Char)
  /-- two colons -/
  | path
  /-- a string, with its quotes -/
  | str (q : Char) (s : Str)
deriving DecidableEq, Repr

/-- Words that are no names.  (ISO C 6.4.1; Java 3.9, with the literals that look like names; Rust: strict and reserved keywords;
ECMAScript 12.7.2, in strict mode.) -/
def keywords : Lang → List Str
  | .c => [c!"alignas", c!"alignof", c!"auto", c!"bool", c!"break", c!"case", c!"char", c!"const", c!"constexpr", c!"continue", c!"default", c!"do",
      c!"double", c!"else", c!"enum", c!"extern", c!"false", c!"float", c!"for", c!"goto", c!"if", c!"inline", c!"int", c!"long", c!"nullptr",
      c!"register", c!"restrict", c!"return", c!"short", c!"signed", c!"sizeof", c!"static", c!"static_assert", c!"struct", c!"switch",
      c!"thread_local", c!"true", c!"typedef", c!"typeof", c!"typeof_unqual", c!"union", c!"unsigned", c!"void", c!"volatile", c!"while",
      c!"_Alignas", c!"_Alignof", c!"_Atomic", c!"_BitInt", c!"_Bool", c!"_Complex", c!"_Decimal128", c!"_Decimal32", c!"_Decimal64",
      c!"_Generic", c!"_Imaginary", c!"_Noreturn", c!"_Static_assert", c!"_Thread_local"]
  | .java => [c!"abstract", c!"assert", c!"boolean", c!"break", c!"byte", c!"case", c!"catch", c!"char", c!"class", c!"const", c!"continue",
      c!"default", c!"do", c!"double", c!"else", c!"enum", c!"extends", c!"final", c!"finally", c!"float", c!"for", c!"goto", c!"if",
      c!"implements", c!"import", c!"instanceof", c!"int", c!"interface", c!"long", c!"native", c!"new", c!"package", c!"private",
      c!"protected", c!"public", c!"return", c!"short", c!"static", c!"strictfp", c!"super", c!"switch", c!"synchronized", c!"this",
      c!"throw", c!"throws", c!"transient", c!"try", c!"void", c!"volatile", c!"while", c!"_", c!"true", c!"false", c!"null"]
  | .rust => [c!"as", c!"async", c!"await", c!"break", c!"const", c!"continue", c!"crate", c!"dyn", c!"else", c!"enum", c!"extern", c!"false",
      c!"fn", c!"for", c!"if", c!"impl", c!"in", c!"let", c!"loop", c!"match", c!"mod", c!"move", c!"mut", c!"pub", c!"ref", c!"return",
      c!"self", c!"Self", c!"static", c!"struct", c!"super", c!"trait", c!"true", c!"type", c!"unsafe", c!"use", c!"where", c!"while",
      c!"abstract", c!"become", c!"box", c!"do", c!"final", c!"macro", c!"override", c!"priv", c!"try", c!"typeof", c!"unsized",
      c!"virtual", c!"yield", c!"_"]
  | .ts => [c!"await", c!"break", c!"case", c!"catch", c!"class", c!"const", c!"continue", c!"debugger", c!"default", c!"delete", c!"do",
      c!"else", c!"enum", c!"export", c!"extends", c!"false", c!"finally", c!"for", c!"function", c!"if", c!"import", c!"in",
      c!"instanceof", c!"new", c!"null", c!"return", c!"super", c!"switch", c!"this", c!"throw", c!"true", c!"try", c!"typeof", c!"var",
      c!"void", c!"while", c!"with", c!"yield", c!"implements", c!"interface", c!"let", c!"package", c!"private", c!"protected",
      c!"public", c!"static"]

/-- What names start with, among the letters of `Alphabet`. -/
def letter (c : Char) : Bool := (65 ≤ c.toNat && c.toNat ≤ 90) || (97 ≤ c.toNat && c.toNat ≤ 122) || c.toNat = 95 || Alphabet.national c

/-- A digit. -/
def digit (c : Char) : Bool := 48 ≤ c.toNat && c.toNat ≤ 57

/-- What names go on with. -/
def wordChar (c : Char) : Bool := letter c || digit c

/-- The token of a word: a name, a keyword or a number. -/
def word (L : Lang) (w : Str) : Option Tok := match w with
  | [] => none
  | c :: r => if letter c then some (if w ∈ keywords L then .keyword w else .ident w)
    else if r.all digit ∧ (c ≠ '0' ∨ r = []) then some (.num w) else none

/-- Where the reader is in a line. -/
inductive Mode where
  | gap
  | word (w : Str)
  /-- after a colon -/
  | colon
  | str (q : Char) (s : Str)
deriving DecidableEq, Repr

/-- A character outside of words and strings. -/
def start (L : Lang) (c : Char) : Option (List Tok × Mode) :=
  if c = ' ' ∨ c = '\t' then some ([], .gap)
  else if wordChar c then some ([], .word [c])
  else if c = ':' then some ([], .colon)
  else if c = '"' ∨ (c = '\'' ∧ L = .ts) then some ([], .str c [])
  else if c ∈ ['(', ')', '[', ']', '{', '}', '<', '>', '.', ',', ';', '=', '|', '@', '#'] then some ([.op c], .gap)
  else none

/-- One character. -/
def step (L : Lang) (m : Mode) (c : Char) : Option (List Tok × Mode) := match m with
  | .gap => start L c
  | .word w => if wordChar c then some ([], .word (w ++ [c])) else match word L w, start L c with
    | some t, some x => some (t :: x.1, x.2)
    | _, _ => none
  | .colon => if c = ':' then some ([.path], .gap) else (start L c).map fun x => (.op ':' :: x.1, x.2)
  | .str q s => if c = q then some ([.str q s], .gap) else if c ∈ ['\\', '\n', '\r', '\u2028', '\u2029'] then none else some ([], .str q (s ++ [c]))

/-- The end of a line. -/
def finish (L : Lang) : Mode → Option (List Tok)
  | .gap => some []
  | .word w => (word L w).map fun t => [t]
  | .colon => some [.op ':']
  | .str _ _ => none

/-- The tokens of a line. -/
def lex (L : Lang) (m : Mode) : Str → Option (List Tok)
  | [] => finish L m
  | c :: s => match step L m c with
    | none => none
    | some (ts, m') => (lex L m' s).map (ts ++ ·)

/-- The tokens of lines. -/
def lexAll (L : Lang) : List Str → Option (List Tok)
  | [] => some []
  | l :: ls => match lex L .gap l, lexAll L ls with
    | some ts, some ts' => some (ts ++ ts')
    | _, _ => none

/-- The tokens of a text. -/
def tokens (L : Lang) (text : Str) : Option (List Tok) := lexAll L (Comments.seen L text)

example : tokens .rust c!"// x\n\tpub a: Vec<u8>, // y\nuse a::b;\n#[x(y = \"z\")]" = some [.keyword c!"pub", .ident c!"a", .op ':', .ident c!"Vec", .op '<',
    .ident c!"u8", .op '>', .op ',', .keyword c!"use", .ident c!"a", .path, .ident c!"b", .op ';', .op '#', .op '[', .ident c!"x", .op '(', .ident c!"y",
    .op '=', .str '"' c!"z", .op ')', .op ']'] := by decide +kernel
example : tokens .ts c!"a1 = 12, b = 'c'" = some [.ident c!"a1", .op '=', .num c!"12", .op ',', .ident c!"b", .op '=', .str '\'' c!"c"] ∧
    tokens .ts c!"1a" = none ∧ tokens .ts c!"012" = none ∧ tokens .c c!"a-b" = none ∧ tokens .java c!"'x'" = none := by decide +kernel

/-! ## Sequences -/

/-- Things of a kind up to a closing token; the number bounds how many. -/
def upTo {α : Type} (close : Tok) (item : List Tok → Option (α × List Tok)) : Nat → List Tok → Option (List α × List Tok)
  | 0, _ => none
  | _ + 1, [] => none
  | k + 1, t :: r => if t = close then some ([], r) else match item (t :: r) with
    | some (a, r) => (upTo close item k r).map fun x => (a :: x.1, x.2)
    | none => none

/-- Things of a kind up to the end; the number bounds how many. -/
def all {α : Type} (item : List Tok → Option (α × List Tok)) : Nat → List Tok → Option (List α)
  | 0, _ => none
  | _ + 1, [] => some []
  | k + 1, t :: r => match item (t :: r) with
    | some (a, r) => (all item k r).map (a :: ·)
    | none => none

/-! ## Rust -/

namespace Rust

/-- A type, as its text without blanks: a name, with a type in angle brackets or without. -/
def type : List Tok → Option (Str × List Tok)
  | .ident a :: .op '<' :: r => match type r with
    | some (t, .op '>' :: r) => some (a ++ '<' :: t ++ c!">", r)
    | _ => none
  | .ident a :: r => some (a, r)
  | _ => none

/-- What is between the parentheses of an attribute, as its text: names, or a name and a string. -/
def inputs : List Tok → Option (Str × List Tok)
  | .ident a :: .op '=' :: .str '"' s :: .op ')' :: r => some (a ++ c!" = \"" ++ s ++ c!"\"", r)
  | .ident a :: .op ',' :: r => (inputs r).map fun x => (a ++ c!", " ++ x.1, x.2)
  | .ident a :: .op ')' :: r => some (a, r)
  | _ => none

/-- An attribute behind the number sign, as its text. -/
def attr : List Tok → Option (Str × List Tok)
  | .op '[' :: .ident a :: .op ']' :: r => some (c!"#[" ++ a ++ c!"]", r)
  | .op '[' :: .ident a :: .op '(' :: r => match inputs r with
    | some (s, .op ']' :: r) => some (c!"#[" ++ a ++ c!"(" ++ s ++ c!")]", r)
    | _ => none
  | _ => none

/-- At most one attribute. -/
def attrs : List Tok → Option (Option Str × List Tok)
  | .op '#' :: r => (attr r).map fun x => (some x.1, x.2)
  | ts => some (none, ts)

/-- A field. -/
structure Field where
  attr : Option Str
  name : Str
  type : Str
deriving DecidableEq, Repr

/-- `StructField ","` with `StructField = OuterAttribute* "pub" IDENTIFIER ":" Type`. -/
def field (ts : List Tok) : Option (Field × List Tok) := match attrs ts with
  | some (a, .keyword k :: .ident n :: .op ':' :: r) => if k = c!"pub" then match type r with
      | some (t, .op ',' :: r) => some (⟨a, n, t⟩, r)
      | _ => none
    else none
  | _ => none

/-- An item. -/
inductive Body where
  | crate (name : Str)
  | use (path : List Str)
  | struct (name : Str) (fields : List Field)
deriving DecidableEq, Repr

/-- An item with its attribute. -/
structure Item where
  attr : Option Str
  body : Body
deriving DecidableEq, Repr

/-- `Item = OuterAttribute* ( "extern" "crate" IDENTIFIER ";" | "use" IDENTIFIER "::" IDENTIFIER ";" | "pub" "struct" IDENTIFIER "{" StructField* "}" )` -/
def item (ts : List Tok) : Option (Item × List Tok) := match attrs ts with
  | some (a, .keyword k :: .keyword k' :: .ident n :: .op c :: r) =>
    if k = c!"extern" ∧ k' = c!"crate" ∧ c = ';' then some (⟨a, .crate n⟩, r)
    else if k = c!"pub" ∧ k' = c!"struct" ∧ c = '{' then match upTo (.op '}') field (r.length + 1) r with
      | some (fs, r) => some (⟨a, .struct n fs⟩, r)
      | none => none
    else none
  | some (a, .keyword k :: .ident n :: .path :: .ident n' :: .op ';' :: r) => if k = c!"use" then some (⟨a, .use [n, n']⟩, r) else none
  | _ => none

/-- Reading a text as a Rust source file. -/
def parse (text : Str) : Option (List Item) := (tokens .rust text).bind fun ts => all item (ts.length + 1) ts

example : parse c!"#[macro_use]\nextern crate a;\nuse a::b;\n// c\n#[derive(Debug, Eq)]\npub struct T {\n\t#[serde(rename = \"x\")]\n\tpub x: Vec<Option<u8>>,\n\tpub y: U,\n}\npub struct U {\n}\n" =
    some [⟨some c!"#[macro_use]", .crate c!"a"⟩, ⟨none, .use [c!"a", c!"b"]⟩,
      ⟨some c!"#[derive(Debug, Eq)]", .struct c!"T" [⟨some c!"#[serde(rename = \"x\")]", c!"x", c!"Vec<Option<u8>>"⟩, ⟨none, c!"y", c!"U"⟩]⟩,
      ⟨none, .struct c!"U" []⟩] := by decide +kernel
/-- Not Rust: a keyword as a name, a missing type, an open attribute, a name with a dot. -/
example : parse c!"pub struct Self {\n}\n" = none ∧ parse c!"pub struct A {\n\tpub b: ,\n}\n" = none ∧ parse c!"#[a\npub struct A {\n}\n" = none ∧
    parse c!"pub struct A.B {\n}\n" = none ∧ parse c!"pub struct A {\n\tpub match: u8,\n}\n" = none := by decide +kernel

end Rust

/-! ## Java -/

namespace Java

/-- A type, as its text without blanks. -/
def type : List Tok → Option (Str × List Tok)
  | .ident a :: .op '<' :: r => match type r with
    | some (t, .op '>' :: r) => some (a ++ '<' :: t ++ c!">", r)
    | _ => none
  | .ident a :: r => some (a, r)
  | _ => none

/-- The value of an element of an annotation, as its text. -/
def value : List Tok → Option (Str × List Tok)
  | .str '"' s :: r => some ('"' :: s ++ c!"\"", r)
  | .keyword k :: r => if k = c!"true" then some (k, r) else none
  | .ident a :: .op '.' :: .ident b :: r => some (a ++ '.' :: b, r)
  | _ => none

/-- `ElementValuePair { "," ElementValuePair } ")"`, as its text; the number bounds how many. -/
def pairs : Nat → List Tok → Option (Str × List Tok)
  | 0, _ => none
  | k + 1, ts => match ts with
    | .ident a :: .op '=' :: r => match value r with
      | some (v, .op ',' :: r) => (pairs k r).map fun x => (a ++ c!" = " ++ v ++ c!", " ++ x.1, x.2)
      | some (v, .op ')' :: r) => some (a ++ c!" = " ++ v, r)
      | _ => none
    | _ => none

/-- `Annotation = "@" Identifier [ "(" ( ElementValuePairList | ElementValue ) ")" ]`, behind the `@` and as its text. -/
def annotation : List Tok → Option (Str × List Tok)
  | .ident a :: .op '(' :: r => match value r with
    | some (v, .op ')' :: r) => some ('@' :: a ++ c!"(" ++ v ++ c!")", r)
    | _ => match pairs (r.length + 1) r with
      | some (s, r) => some ('@' :: a ++ c!"(" ++ s ++ c!")", r)
      | none => none
  | .ident a :: r => some ('@' :: a, r)
  | _ => none

/-- Annotations; the number bounds how many. -/
def annotations : Nat → List Tok → Option (List Str × List Tok)
  | 0, _ => none
  | k + 1, ts => match ts with
    | .op '@' :: r => match annotation r with
      | some (a, r) => (annotations k r).map fun x => (a :: x.1, x.2)
      | none => none
    | ts => some ([], ts)

/-- A field. -/
structure Field where
  annotations : List Str
  type : Str
  name : Str
deriving DecidableEq, Repr

/-- `FieldDeclaration = { Annotation } "protected" Type Identifier ";"` -/
def field (ts : List Tok) : Option (Field × List Tok) := match annotations (ts.length + 1) ts with
  | some (as, .keyword k :: r) => if k = c!"protected" then match type r with
      | some (t, .ident n :: .op ';' :: r) => some (⟨as, t, n⟩, r)
      | _ => none
    else none
  | _ => none

/-- A class. -/
structure Class where
  annotations : List Str
  name : Str
  base : Option Str
  fields : List Field
deriving DecidableEq, Repr

/-- `[ "extends" Type ]` -/
def extends_ : List Tok → Option (Option Str × List Tok)
  | .keyword k :: r => if k = c!"extends" then (type r).map fun x => (some x.1, x.2) else none
  | ts => some (none, ts)

/-- `ClassDeclaration = { Annotation } "public" "class" Identifier [ "extends" Type ] "{" { FieldDeclaration } "}"` -/
def decl (ts : List Tok) : Option (Class × List Tok) := match annotations (ts.length + 1) ts with
  | some (as, .keyword k :: .keyword k' :: .ident n :: r) =>
    if k = c!"public" ∧ k' = c!"class" then match extends_ r with
      | some (b, .op '{' :: r) => match upTo (.op '}') field (r.length + 1) r with
        | some (fs, r) => some (⟨as, n, b, fs⟩, r)
        | none => none
      | _ => none
    else none
  | _ => none

/-- `Identifier { "." Identifier } ";"`, as its text. -/
def name : List Tok → Option (Str × List Tok)
  | .ident a :: .op '.' :: r => (name r).map fun x => (a ++ '.' :: x.1, x.2)
  | .ident a :: .op ';' :: r => some (a, r)
  | _ => none

/-- `{ "import" TypeName ";" }`; the number bounds how many. -/
def imports : Nat → List Tok → Option (List Str × List Tok)
  | 0, _ => none
  | k + 1, ts => match ts with
    | .keyword w :: .ident a :: r => if w = c!"import" then match name (.ident a :: r) with
        | some (n, r) => (imports k r).map fun x => (n :: x.1, x.2)
        | none => none
      else some ([], ts)
    | ts => some ([], ts)

/-- A source file. -/
structure File where
  package : Str
  imports : List Str
  classes : List Class
deriving DecidableEq, Repr

/-- `"package" Name ";" { ImportDeclaration } { ClassDeclaration }` -/
def file : List Tok → Option File
  | .keyword k :: r => if k = c!"package" then match name r with
      | some (p, r) => match imports (r.length + 1) r with
        | some (is, r) => (all decl (r.length + 1) r).map fun ds => ⟨p, is, ds⟩
        | none => none
      | none => none
    else none
  | _ => none

/-- Reading a text as a Java source file. -/
def parse (text : Str) : Option File := (tokens .java text).bind file

example : parse c!"package a.b;\nimport java.util.List;\n// x\n@XmlAccessorType(XmlAccessType.FIELD)\n@XmlElement(required = true, name = \"t\")\npublic class T extends U  {\n\tprotected List<String> X;\n\t@XmlValue\n\tprotected Integer value;\n}\npublic class U {\n}\n" =
    some ⟨c!"a.b", [c!"java.util.List"], [⟨[c!"@XmlAccessorType(XmlAccessType.FIELD)", c!"@XmlElement(required = true, name = \"t\")"], c!"T", some c!"U",
      [⟨[], c!"List<String>", c!"X"⟩, ⟨[c!"@XmlValue"], c!"Integer", c!"value"⟩]⟩, ⟨[], c!"U", none, []⟩]⟩ := by decide +kernel
/-- Not Java: fields of the type `void`, keywords as names, names with hyphens, an escape in a string. -/
example : parse c!"package p;\npublic class T {\n\tprotected void X;\n}\n" = none ∧ parse c!"package p;\npublic class for {\n}\n" = none ∧
    parse c!"package p;\npublic class a-b {\n}\n" = none ∧ parse c!"package p;\n@A(n = \"\\\")\npublic class a {\n}\n" = none ∧
    parse c!"package int;\n" = none := by decide +kernel

end Java

/-! ## C -/

namespace C

/-- ISO C 6.7.2: the sets of keywords that are types (some of them). -/
def specifiers : List Str :=
  [c!"void", c!"bool", c!"char", c!"signed char", c!"unsigned char", c!"short", c!"unsigned short", c!"int", c!"unsigned int", c!"long",
   c!"unsigned long", c!"float", c!"double", c!"long double"]

/-- A type, as its text: a name, one keyword or two. -/
def type : List Tok → Option (Str × List Tok)
  | .keyword a :: .keyword b :: r => if a ++ ' ' :: b ∈ specifiers then some (a ++ ' ' :: b, r) else none
  | .keyword a :: r => if a ∈ specifiers then some (a, r) else none
  | .ident a :: r => some (a, r)
  | _ => none

/-- A type and a declarator. -/
structure Member where
  type : Str
  name : Str
  array : Bool
deriving DecidableEq, Repr

/-- `identifier [ "[" "]" ] ";"` -/
def declarator : List Tok → Option ((Str × Bool) × List Tok)
  | .ident n :: .op '[' :: .op ']' :: .op ';' :: r => some ((n, true), r)
  | .ident n :: .op ';' :: r => some ((n, false), r)
  | _ => none

/-- `type-specifier declarator ";"` -/
def member (ts : List Tok) : Option (Member × List Tok) := match type ts with
  | some (t, r) => match declarator r with
    | some ((n, b), r) => some (⟨t, n, b⟩, r)
    | none => none
  | none => none

/-- A definition of a type. -/
inductive Decl where
  | alias (m : Member)
  | struct (name : Str) (members : List Member)
deriving DecidableEq, Repr

/-- `"typedef" ( type-specifier declarator | "struct" "{" struct-declaration-list "}" identifier ) ";"`; a structure has at least one member. -/
def decl : List Tok → Option (Decl × List Tok)
  | .keyword k :: .keyword k' :: .op '{' :: r => if k = c!"typedef" ∧ k' = c!"struct" then match upTo (.op '}') member (r.length + 1) r with
      | some (ms, .ident n :: .op ';' :: r) => if ms = [] then none else some (.struct n ms, r)
      | _ => none
    else none
  | .keyword k :: r => if k = c!"typedef" then (member r).map fun x => (.alias x.1, x.2) else none
  | _ => none

/-- Reading a text as a C source file; there is at least one declaration in it. -/
def parse (text : Str) : Option (List Decl) := (tokens .c text).bind fun ts => if ts = [] then none else all decl (ts.length + 1) ts

example : parse c!"// x\r\n// T is a\r\ntypedef struct {\n\tunsigned int A[]; // attr\n\tU B;\n} T;\ntypedef char U[];\n" =
    some [.struct c!"T" [⟨c!"unsigned int", c!"A", true⟩, ⟨c!"U", c!"B", false⟩], .alias ⟨c!"char", c!"U", true⟩] := by decide +kernel
/-- Not C: brackets behind the type, keywords that are no type, structures and files without anything in them. -/
example : parse c!"typedef char[] U;\n" = none ∧ parse c!"typedef enum U;\n" = none ∧ parse c!"typedef bool double U;\n" = none ∧
    parse c!"typedef struct {\n} U;\n" = none ∧ parse c!"\n" = none := by decide +kernel

end C

/-! ## TypeScript -/

namespace TS

/-- A type, as its text: a name, with a type in angle brackets or without, `void` or `null`. -/
def single : List Tok → Option (Str × List Tok)
  | .ident a :: .op '<' :: r => match single r with
    | some (t, .op '>' :: r) => some (a ++ '<' :: t ++ c!">", r)
    | _ => none
  | .ident a :: r => some (a, r)
  | .keyword k :: r => if k = c!"void" ∨ k = c!"null" then some (k, r) else none
  | _ => none

/-- A type, or two with a bar in between, as its text. -/
def type (ts : List Tok) : Option (Str × List Tok) := match single ts with
  | some (t, .op '|' :: r) => (single r).map fun x => (t ++ c!" | " ++ x.1, x.2)
  | x => x

/-- A field of a class. -/
structure Field where
  name : Str
  type : Str
deriving DecidableEq, Repr

/-- `PropertyName ":" Type ";"`; no field is called `constructor`. -/
def field : List Tok → Option (Field × List Tok)
  | .ident n :: .op ':' :: r => if n = c!"constructor" then none else match type r with
    | some (t, .op ';' :: r) => some (⟨n, t⟩, r)
    | _ => none
  | _ => none

/-- A member of an enumeration. -/
structure Value where
  name : Str
  literal : Str
deriving DecidableEq, Repr

/-- `PropertyName "=" Literal ","`; the name may be a keyword. -/
def value : List Tok → Option (Value × List Tok)
  | .ident n :: .op '=' :: .str q s :: .op ',' :: r => some (⟨n, q :: s ++ [q]⟩, r)
  | .keyword n :: .op '=' :: .str q s :: .op ',' :: r => some (⟨n, q :: s ++ [q]⟩, r)
  | .ident n :: .op '=' :: .num s :: .op ',' :: r => some (⟨n, s⟩, r)
  | _ => none

/-- What is declared. -/
inductive Body where
  | type (t : Str)
  | class (base : Option Str) (fields : List Field)
  | enum (values : List Value)
deriving DecidableEq, Repr

/-- A declaration. -/
structure Decl where
  name : Str
  body : Body
deriving DecidableEq, Repr

/-- Types that have their names from the language. -/
def predefined : List Str :=
  [c!"any", c!"unknown", c!"never", c!"number", c!"bigint", c!"boolean", c!"string", c!"symbol", c!"object", c!"undefined"]

/-- `[ "extends" TypeReference ] "{" { Field } "}"`; classes do not extend types of the language that have no constructor. -/
def classBody : List Tok → Option (Body × List Tok)
  | .op '{' :: r => (upTo (.op '}') field (r.length + 1) r).map fun x => (.class none x.1, x.2)
  | .keyword k :: r => if k = c!"extends" then match single r with
      | some (t, .op '{' :: r) => if t ∈ c!"void" :: c!"null" :: predefined then none
        else (upTo (.op '}') field (r.length + 1) r).map fun x => (.class (some t) x.1, x.2)
      | _ => none
    else none
  | _ => none

/-- `"export" ( "type" Identifier "=" Type ";" | "class" Identifier ClassTail | "enum" Identifier "{" { Member "," } "}" )` -/
def decl : List Tok → Option (Decl × List Tok)
  | .keyword e :: .ident k :: .ident n :: .op '=' :: r =>
    if e = c!"export" ∧ k = c!"type" ∧ n ∉ predefined then match type r with
      | some (t, .op ';' :: r) => some (⟨n, .type t⟩, r)
      | _ => none
    else none
  | .keyword e :: .keyword k :: .ident n :: r =>
    if e = c!"export" ∧ k = c!"class" ∧ n ∉ predefined then (classBody r).map fun x => (⟨n, x.1⟩, x.2)
    else if e = c!"export" ∧ k = c!"enum" ∧ n ∉ predefined then match r with
      | .op '{' :: r => (upTo (.op '}') value (r.length + 1) r).map fun x => (⟨n, .enum x.1⟩, x.2)
      | _ => none
    else none
  | _ => none

/-- Reading a text as a TypeScript source file. -/
def parse (text : Str) : Option (List Decl) := (tokens .ts text).bind fun ts => all decl (ts.length + 1) ts

example : parse c!"// x\r\nexport type A = Array<B>;\nexport class C extends D  {\n\tX: string | null;\n}\nexport enum E {\n\tdefault = 'default',\n\tEnum1 = 1,\n}\n" =
    some [⟨c!"A", .type c!"Array<B>"⟩, ⟨c!"C", .class (some c!"D") [⟨c!"X", c!"string | null"⟩]⟩,
      ⟨c!"E", .enum [⟨c!"default", c!"'default'"⟩, ⟨c!"Enum1", c!"1"⟩]⟩] := by decide +kernel
/-- Not TypeScript: names with blanks or hyphens, numbers that are none, names of the language. -/
example : parse c!"export enum E {\n\ta b = 'a b',\n}\n" = none ∧ parse c!"export enum E {\n\ta-b = 'a-b',\n}\n" = none ∧
    parse c!"export enum E {\n\tEnum1 = 1x,\n}\n" = none ∧ parse c!"export type string = A;\n" = none ∧ parse c!"export class class {\n}\n" = none ∧
    parse c!"export class A extends string  {\n}\n" = none := by
  decide +kernel

end TS

end Xgen.Syntax
