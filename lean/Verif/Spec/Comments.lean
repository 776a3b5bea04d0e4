import Verif.Model.Base

/-! # Comments, by the lexical rules of C, Java, Rust and TypeScript

What a compiler sees of a text: its lines without comments and without the lines that are blank then.  The rules are those of
the languages: ISO C 5.1.1.2 and 6.4 (a backslash at the end of a line joins it with the next; trigraphs are left out), the
Java Language Specification 3.3, 3.4, 3.7 and 3.10 (`\u` escapes are replaced before anything else; text blocks are left out),
the Rust Reference, "Comments" and "Tokens" (single quotes are taken for ordinary characters, and block comments do not nest
here), ECMAScript 12.3, 12.4 and 12.9 (regular expressions and what is between braces in templates are left out).  For C a
carriage return ends a line, as the common compilers have it. -/

namespace Xgen.Comments

/-- The languages. -/
inductive Lang where
  | c | java | rust | ts
deriving DecidableEq, Repr

/-- The characters that end a line. -/
def ends : Lang → List Char
  | .c => ['\n', '\r']
  | .java => ['\n', '\r']
  | .rust => ['\n']
  | .ts => ['\n', '\r', '\u2028', '\u2029']

/-- The quotes around strings. -/
def quotes : Lang → List Char
  | .c => ['"', '\'']
  | .java => ['"', '\'']
  | .rust => ['"']
  | .ts => ['"', '\'', '`']

/-- The quotes around strings that may go on over several lines. -/
def wide : Lang → List Char
  | .c => []
  | .java => []
  | .rust => ['"']
  | .ts => ['`']

/-! ## Before tokens are formed -/

/-- What has been read of a line joint or of an escape. -/
inductive Ahead where
  | none
  /-- a backslash -/
  | back
  /-- C: a backslash and a carriage return -/
  | joint
  /-- Java: a backslash and at least one `u` -/
  | escape
  /-- Java: `n` hexadecimal digits with the value `v` -/
  | digits (n v : Nat)
deriving DecidableEq, Repr

/-- The value of a hexadecimal digit. -/
def hex (c : Char) : Option Nat :=
  if 48 ≤ c.toNat ∧ c.toNat ≤ 57 then some (c.toNat - 48)
  else if 65 ≤ c.toNat ∧ c.toNat ≤ 70 then some (c.toNat - 55)
  else if 97 ≤ c.toNat ∧ c.toNat ≤ 102 then some (c.toNat - 87)
  else none

/-- Where no line joint and no escape has begun. -/
def fresh (c : Char) : Ahead × Str := if c = '\\' then (.back, []) else (.none, [c])

/-- Line joints: a backslash before the end of a line. -/
def joining : Ahead → Char → Ahead × Str
  | .back, c => if c = '\n' then (.none, []) else if c = '\r' then (.joint, []) else ((fresh c).1, '\\' :: (fresh c).2)
  | .joint, c => if c = '\n' then (.none, []) else fresh c
  | _, c => fresh c

/-- Unicode escapes: a backslash, `u` once or more often, and four hexadecimal digits.  Of two backslashes the second begins no
escape.  (What is no escape after `\u` is an error; here it is passed on.) -/
def escapes : Ahead → Char → Ahead × Str
  | .back, c => if c = 'u' then (.escape, []) else (.none, ['\\', c])
  | .escape, c => if c = 'u' then (.escape, []) else match hex c with
    | some v => (.digits 1 v, [])
    | Option.none => (.none, ['\\', 'u', c])
  | .digits n v, c => match hex c with
    | some w => if n = 3 then (.none, [Char.ofNat (16 * v + w)]) else (.digits (n + 1) (16 * v + w), [])
    | Option.none => (.none, [c])
  | _, c => fresh c

/-- What a character becomes. -/
def before : Lang → Ahead → Char → Ahead × Str
  | .c => joining
  | .java => escapes
  | .rust => fun _ c => (.none, [c])
  | .ts => fun _ c => (.none, [c])

/-! ## Comments and strings -/

/-- Where the reader is. -/
inductive Mode where
  | code
  | slash
  /-- a comment up to the end of the line -/
  | note
  | block
  /-- in a block comment after an asterisk -/
  | star
  | str (q : Char)
  | esc (q : Char)
deriving DecidableEq, Repr

/-- What has been read: the lines with code, the code in the line at hand, and where the reader is. -/
structure Reading where
  lines : List Str := []
  line : Str := []
  mode : Mode := .code
deriving DecidableEq, Repr

/-- A line without code. -/
def blank (l : Str) : Bool := l.all fun c => c = ' ' || c = '\t' || c = '\r'

/-- The end of a line. -/
def newline (r : Reading) : Reading := { lines := r.lines ++ (if blank r.line then [] else [r.line]) }

/-- A character of the code. -/
def put (r : Reading) (c : Char) (m : Mode) : Reading := { r with line := r.line ++ [c], mode := m }

/-- A character outside of comments and strings. -/
def plain (L : Lang) (r : Reading) (c : Char) : Reading :=
  if c ∈ ends L then newline r
  else if c = '/' then { r with mode := .slash }
  else if c ∈ quotes L then put r c (.str c)
  else put r c .code

/-- One character. -/
def step (L : Lang) (r : Reading) (c : Char) : Reading := match r.mode with
  | .code => plain L r c
  | .slash => if c = '/' then { r with mode := .note } else if c = '*' then { r with mode := .block } else plain L (put r '/' .code) c
  | .note => if c ∈ ends L then newline r else r
  | .block => if c = '*' then { r with mode := .star } else r
  | .star => if c = '/' then { r with mode := .code } else if c = '*' then r else { r with mode := .block }
  | .str q => if c = q then put r c .code else if c = '\\' then put r c (.esc q)
    else if c ∈ ends L ∧ q ∉ wide L then newline r else put r c (.str q)
  | .esc q => put r c (.str q)

/-- One character of the text. -/
def read (L : Lang) (s : Ahead × Reading) (c : Char) : Ahead × Reading :=
  ((before L s.1 c).1, (before L s.1 c).2.foldl (step L) s.2)

/-- A text. -/
def run (L : Lang) (s : Ahead × Reading) (text : Str) : Ahead × Reading := text.foldl (read L) s

/-- The lines of a text with code, without the comments in them. -/
def seen (L : Lang) (text : Str) : List Str := (newline (run L (.none, {}) text).2).lines

example : seen .c c!"// a \\\nint x;\nint y; // b\n/* c\n*/ int z;\nchar *s = \"//\";\n\n" = [c!"int y; ", c!" int z;", c!"char *s = \"//\";"] := by
  decide +kernel
example : seen .java c!"// a \\u000a int x;\n// b\r int y;\n// \\\\u000a int z;\n" = [c!" int x;", c!" int y;"] := by decide +kernel
example : seen .ts c!"// a\u2028x\n`// b`\n'// c\ny // d" = [c!"x", c!"`// b`", c!"'// c", c!"y "] := by decide +kernel
example : seen .rust c!"// a\rx\n\"\n// b\"\n" = [c!"\"\n// b\""] := by decide +kernel

/-! ## Tidy code -/

/-- The reader is outside of strings and of block comments, and no line joint or escape has begun. -/
def settled (s : Ahead × Reading) : Bool := s.1 = .none && (s.2.mode = .code || s.2.mode = .slash || s.2.mode = .note)

/-- No line feed is in a string or in a block comment or joins lines. -/
def tidy (L : Lang) (s : Ahead × Reading) : Str → Bool
  | [] => true
  | c :: text => (c != '\n' || settled s) && tidy L (read L s c) text

example : tidy .c (.none, {}) c!"typedef struct {\n\tchar X[]; // \"\n} T;\n" = true ∧ tidy .c (.none, {}) c!"int x; /*\n*/\n" = false ∧
    tidy .rust (.none, {}) c!"\"\n\"" = false ∧ tidy .c (.none, {}) c!"#define x \\\ny\n" = false := by decide +kernel

end Xgen.Comments
