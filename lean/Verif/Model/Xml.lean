import Verif.Model.State
import Verif.Model.Url

/-! # The decoder (parser.go:100-106), with the parts of encoding/xml it reaches

`xml.NewDecoder` and `Decoder.Token` are modelled from the source of the standard library (encoding/xml/xml.go, Go 1.17 to
1.24), in strict mode and without additional entities, as parser.go:100 leaves them.  The text of a file is a list of characters, so
conversion from other encodings (parser.go:101) has already happened, and invalid UTF-8 cannot occur.  An error ends the
tokens, whatever it is (parser.go:103-106), so errors are `none`. -/

namespace Xgen.Xml

/-- The characters beyond ASCII that names may begin with and contain: the tables `first` and `second` (encoding/xml, reached from
parser.go:103).  All theorems hold for any tables. -/
class NameChars where
  first : Char → Bool
  second : Char → Bool

/-- `xml.Name` as written: prefix and local part (parser.go:111, 118). -/
structure Name where
  space : Str := []
  «local» : Str
deriving DecidableEq, Repr

/-- The byte 0, with which the variables `b0` and `b1` begin (encoding/xml, reached from parser.go:103). -/
def nul : Char := '\x00'

/-- White space in `Decoder.space` (encoding/xml, reached from parser.go:103). -/
def isBlank (c : Char) : Bool := c = ' ' || c = '\r' || c = '\n' || c = '\t'

/-- `Decoder.space` (encoding/xml, reached from parser.go:103). -/
def skip (s : Str) : Str := s.dropWhile isBlank

/-- `isNameByte`, or a byte of a character beyond ASCII (encoding/xml, reached from parser.go:103). -/
def inName (c : Char) : Bool :=
  isAsciiLetter c || isAsciiDigit c || c = '_' || c = ':' || c = '.' || c = '-' || 128 ≤ c.toNat

/-- `isInCharacterRange` (encoding/xml, reached from parser.go:103).  A character is no surrogate. -/
def inRange (c : Char) : Bool :=
  c = '\t' || c = '\n' || c = '\r' || (32 ≤ c.toNat && c.toNat ≤ 0xFFFD) || 0x10000 ≤ c.toNat

section
variable [NameChars]

/-- `unicode.Is(first, c)` (encoding/xml, reached from parser.go:103). -/
def isFirst (c : Char) : Bool := if c.toNat < 128 then isAsciiLetter c || c = '_' || c = ':' else NameChars.first c
/-- `unicode.Is(second, c)` (encoding/xml, reached from parser.go:103). -/
def isSecond (c : Char) : Bool := if c.toNat < 128 then isAsciiDigit c || c = '.' || c = '-' else NameChars.second c

/-- `isName` (encoding/xml, reached from parser.go:103). -/
def isName : Str → Bool
  | [] => false
  | c :: cs => isFirst c && cs.all fun c => isFirst c || isSecond c

/-- `Decoder.readName` (encoding/xml, reached from parser.go:103): at least one byte of a name, and one more. -/
def readName (s : Str) : Option (Str × Str) :=
  match s.takeWhile inName, s.dropWhile inName with
  | [], _ => none
  | _, [] => none
  | n, r => some (n, r)

/-- `Decoder.name` (encoding/xml, reached from parser.go:103). -/
def name (s : Str) : Option (Str × Str) :=
  match readName s with
  | none => none
  | some (n, r) => if isName n then some (n, r) else none

/-- `Decoder.nsname` (encoding/xml, reached from parser.go:103). -/
def nsname (s : Str) : Option (Name × Str) :=
  match name s with
  | none => none
  | some (n, r) =>
    if n.count ':' > 1 then none
    else
      let space := n.takeWhile (· ≠ ':')
      let rest := (n.dropWhile (· ≠ ':')).drop 1
      if ':' ∉ n ∨ space = [] ∨ rest = [] then some (⟨[], n⟩, r) else some (⟨space, rest⟩, r)

/-- The table `entity` (encoding/xml, reached from parser.go:103). -/
def entity (s : Str) : Option Char :=
  if s = c!"lt" then some '<' else if s = c!"gt" then some '>' else if s = c!"amp" then some '&'
  else if s = c!"apos" then some '\'' else if s = c!"quot" then some '"' else none

/-- `string(rune(n))` (encoding/xml, reached from parser.go:103). -/
def rune (n : Nat) : Char := if n.isValidChar then Char.ofNat n else '�'

/-- The digits of a character reference, up to the semicolon (`Decoder.text` in encoding/xml, reached from parser.go:103): the
character, and the number of characters read.  Numbers that do not fit 64 bits are errors like all that exceed `MaxRune`. -/
def number (base : Nat) (ok : Char → Bool) (k : Nat) (s : Str) : Option (Char × Nat) :=
  let ds := s.takeWhile ok
  match ds, s.dropWhile ok with
  | _ :: _, c :: _ =>
    let n := ds.foldl (fun v d => v * base + unhex d) 0
    if c = ';' ∧ n ≤ 0x10FFFF then some (rune n, k + ds.length + 1) else none
  | _, _ => none

/-- What stands after an ampersand (`Decoder.text` in encoding/xml, reached from parser.go:103): the character, and the number of
characters read. -/
def reference (s : Str) : Option (Char × Nat) :=
  match s with
  | [] => none
  | c :: r =>
    if c = '#' then
      match r with
      | [] => none
      | d :: r' => if d = 'x' then number 16 isHex 2 r' else number 10 isAsciiDigit 1 r
    else
      match readName s with
      | some (n, c :: _) => if c = ';' ∧ isName n = true then (entity n).map fun c => (c, n.length + 1) else none
      | _ => none

/-- `Decoder.text` (encoding/xml, reached from parser.go:103), without the last lines, which check the characters: what is read, and
what remains.  The argument `quote` is the quote in an attribute value; the number counts characters of a reference that are left
out; `b0` and `b1` are the last two characters.  At the end of a CDATA section the result contains its brackets. -/
def chars (quote : Option Char) (cdata : Bool) : Nat → Char → Char → Str → Option (Str × Str)
  | _, _, _, [] => if cdata then none else some ([], [])
  | k + 1, b0, b1, _ :: cs => chars quote cdata k b0 b1 cs
  | 0, b0, b1, c :: cs =>
    if quote = none ∧ b0 = ']' ∧ b1 = ']' ∧ c = '>' then if cdata then some ([], cs) else none
    else if c = '<' ∧ cdata = false then if quote = none then some ([], c :: cs) else none
    else if quote = some c then some ([], cs)
    else if c = '&' ∧ cdata = false then
      match reference cs with
      | none => none
      | some (r, n) => (chars quote cdata n nul nul cs).map fun x => (r :: x.1, x.2)
    else
      (chars quote cdata 0 b1 c cs).map fun x =>
        (if c = '\r' then '\n' :: x.1 else if b1 = '\r' ∧ c = '\n' then x.1 else c :: x.1, x.2)

/-- `Decoder.text(quote, false)` (encoding/xml, reached from parser.go:103). -/
def text (quote : Option Char) (s : Str) : Option (Str × Str) :=
  match chars quote false 0 nul nul s with
  | none => none
  | some (data, r) => if data.all inRange then some (data, r) else none

/-- `Decoder.text(-1, true)` (encoding/xml, reached from parser.go:103). -/
def cdata (s : Str) : Option (Str × Str) :=
  match chars none true 0 nul nul s with
  | none => none
  | some (data, r) => if data.dropLast.dropLast.all inRange then some (data.dropLast.dropLast, r) else none

/-- `Decoder.attrval` (encoding/xml, reached from parser.go:103). -/
def attrval (s : Str) : Option (Str × Str) :=
  match s with
  | [] => none
  | q :: r => if q = '"' ∨ q = '\'' then text (some q) r else none

/-- The attributes of a start tag, up to its end (`Decoder.rawToken` in encoding/xml, reached from parser.go:103); whether the
element is empty; what remains.  The number bounds the number of attributes. -/
def attrs : Nat → Str → Option (List (Name × Str) × Bool × Str)
  | 0, _ => none
  | n + 1, s =>
    match skip s with
    | [] => none
    | b :: r =>
      if b = '/' then
        match r with
        | [] => none
        | c :: r => if c = '>' then some ([], true, r) else none
      else if b = '>' then some ([], false, r)
      else
        match nsname (b :: r) with
        | none => none
        | some (a, r) =>
          match skip r with
          | [] => none
          | e :: r =>
            if e ≠ '=' then none
            else
              match attrval (skip r) with
              | none => none
              | some (v, r) => (attrs n r).map fun x => ((a, v) :: x.1, x.2)

end

/-- The rest of a comment (`Decoder.rawToken` in encoding/xml, reached from parser.go:103): what remains behind it. -/
def comment : Char → Char → Str → Option Str
  | _, _, [] => none
  | b0, b1, c :: cs => if b0 = '-' ∧ b1 = '-' then if c = '>' then some cs else none else comment b1 c cs

/-- The rest of a processing instruction, with its end (`Decoder.rawToken` in encoding/xml, reached from parser.go:103). -/
def instruction : Char → Str → Option (Str × Str)
  | _, [] => none
  | b0, c :: cs => if b0 = '?' ∧ c = '>' then some ([c], cs) else (instruction c cs).map fun x => (c :: x.1, x.2)

/-- `procInst` (encoding/xml, reached from parser.go:103): the value of a parameter in an XML declaration. -/
def param (p : Str) : Str → Str
  | [] => []
  | c :: cs =>
    if hasPrefix (c :: cs) (p ++ c!"=") then
      match (c :: cs).drop (p.length + 1) with
      | [] => []
      | q :: r =>
        if q = '\'' ∨ q = '"' then if q ∈ r then r.takeWhile (· ≠ q) else []
        else param p cs
    else param p cs

/-- Where a directive such as `<!DOCTYPE ...>` is being read (`Decoder.rawToken` in encoding/xml, reached from parser.go:103):
anywhere, in quotes, behind `<` and some characters of `!--`, in a comment. -/
inductive In where
  | plain
  | quote (q : Char)
  | angle (k : Nat)
  | comment (b0 b1 : Char)

/-- One character of a directive, which is not its end (`Decoder.rawToken` in encoding/xml, reached from parser.go:103). -/
def directiveChar (depth : Nat) (b : Char) : In × Nat :=
  if b = '\'' ∨ b = '"' then (.quote b, depth)
  else if b = '>' then (.plain, depth - 1)
  else if b = '<' then (.angle 0, depth)
  else (.plain, depth)

/-- The rest of a directive (`Decoder.rawToken` in encoding/xml, reached from parser.go:103): what remains behind it. -/
def directive : In → Nat → Str → Option Str
  | _, _, [] => none
  | .plain, depth, b :: cs =>
    if b = '>' ∧ depth = 0 then some cs
    else
      let x := directiveChar depth b
      directive x.1 x.2 cs
  | .quote q, depth, b :: cs => directive (if b = q then .plain else .quote q) depth cs
  | .angle k, depth, b :: cs =>
    if some b = c!"!--"[k]? then directive (if k = 2 then .comment nul nul else .angle (k + 1)) depth cs
    else
      let x := directiveChar (depth + 1) b
      directive x.1 x.2 cs
  | .comment b0 b1, depth, b :: cs => directive (if b0 = '-' ∧ b1 = '-' ∧ b = '>' then .plain else .comment b1 b) depth cs

/-- `xml.Decoder` (parser.go:100): what remains to be read, the bindings of prefixes, the open elements with the bindings outside of
them, and the empty element whose end tag is still to be delivered.  (The decoder keeps the bindings that it overwrites on the same
stack and restores them one by one.) -/
structure Dec where
  rest : Str
  ns : GoMap Str := []
  stack : List (Name × GoMap Str) := []
  close : Option Name := none

/-- The bindings of a start tag (`Decoder.Token` in encoding/xml, reached from parser.go:103). -/
def bindings (as : List (Name × Str)) (ns : GoMap Str) : GoMap Str :=
  as.foldl (fun ns a =>
    if a.1.space = c!"xmlns" then ns.set a.1.local a.2
    else if a.1.space = [] ∧ a.1.local = c!"xmlns" then ns.set [] a.2
    else ns) ns

/-- `Decoder.translate` for the name of an attribute (encoding/xml, reached from parser.go:103). -/
def translate (ns : GoMap Str) (a : Name × Str) : Attr :=
  if a.1.space = c!"xmlns" ∨ a.1.space = [] then ⟨a.1.space, a.1.local, a.2⟩
  else if a.1.space = c!"xml" then ⟨c!"http://www.w3.org/XML/1998/namespace", a.1.local, a.2⟩
  else ⟨(ns.get? a.1.space).getD a.1.space, a.1.local, a.2⟩

/-- `Decoder.popElement` (encoding/xml, reached from parser.go:103). -/
def popElement (n : Name) (d : Dec) : Option (Token × Dec) :=
  match d.stack with
  | [] => none
  | (m, ns) :: st => if m = n then some (.stop n.local, { d with stack := st, ns := ns }) else none

section
variable [NameChars]

/-- `Decoder.Token` behind `<` (`Decoder.rawToken` in encoding/xml, reached from parser.go:103). -/
def markup (d : Dec) (s : Str) : Option (Token × Dec) :=
  match s with
  | [] => none
  | b :: r =>
    if b = '/' then
      match nsname r with
      | none => none
      | some (n, r) =>
        match skip r with
        | [] => none
        | c :: r => if c = '>' then popElement n { d with rest := r } else none
    else if b = '?' then
      match name r with
      | none => none
      | some (target, r) =>
        match instruction nul (skip r) with
        | none => none
        | some (data, r) =>
          if target = c!"xml" ∧ param c!"version" data.dropLast.dropLast ≠ [] ∧ param c!"version" data.dropLast.dropLast ≠ c!"1.0" then none
          else some (.other, { d with rest := r })
    else if b = '!' then
      match r with
      | [] => none
      | c :: r' =>
        if c = '-' then
          match r' with
          | [] => none
          | c :: r => if c = '-' then (comment nul nul r).map fun r => (.other, { d with rest := r }) else none
        else if c = '[' then
          if hasPrefix r' c!"CDATA[" then (cdata (r'.drop 6)).map fun x => (.text x.1, { d with rest := x.2 }) else none
        else (directive .plain 0 r').map fun r => (.other, { d with rest := r })
    else
      match nsname s with
      | none => none
      | some (n, r) =>
        match attrs (r.length + 1) r with
        | none => none
        | some (as, empty, r) =>
          let ns := bindings as d.ns
          some (.start n.local (as.map (translate ns)),
            { rest := r, ns := ns, stack := (n, d.ns) :: d.stack, close := if empty then some n else none })

/-- `Decoder.Token` (encoding/xml, called at parser.go:103); `none` is a nil token. -/
def token (d : Dec) : Option (Token × Dec) :=
  match d.close with
  | some n => popElement n { d with close := none }
  | none =>
    match d.rest with
    | [] => none
    | c :: r =>
      if c = '<' then markup d r
      else (text none (c :: r)).map fun x => (.text x.1, { d with rest := x.2 })

/-- The first tokens of a decoder (parser.go:102-106). -/
def tokens : Nat → Dec → List Token
  | 0, _ => []
  | n + 1, d =>
    match token d with
    | none => []
    | some (t, d) => t :: tokens n d

/-- The tokens of a text, up to the first nil token (parser.go:100-106).  The bound is no bound (C81). -/
def decode (s : Str) : List Token := tokens (2 * s.length + 1) { rest := s }

end

end Xgen.Xml
