import Verif.Model.Xml

/-! # The bytes of a file and their encoding (parser.go:100-101)

`Model/Xml.lean` reads a list of characters.  Here the decoder reads bytes.  It takes them as UTF-8 until an XML declaration names
another encoding; then it hands the label and the reader to `charset.NewReaderLabel` (parser.go:101), and reads what that delivers.

A byte that does not belong to a UTF-8 sequence becomes the character U+FFFF.  This is exact: the decoder takes no character of
more than one byte for markup; in character data and attribute values both are errors (`isInCharacterRange` excludes U+FFFF); a
name that contains either is no name (the tables of encoding/xml, for which `NameChars` stands, do not contain U+FFFF); in comments, instructions and
directives the decoder accepts both and the parser drops them. -/

namespace Xgen.Bytes

open Xgen.Xml

/-- A byte of a file (parser.go:75). -/
abbrev Byte := Fin 256

/-- A number as a byte (`byte(n)` in unicode/utf8, reached from parser.go:103). -/
def byte (n : Nat) : Byte := Fin.ofNat 256 n

/-- A continuation byte in the given range (unicode/utf8 `acceptRange`, reached from parser.go:103). -/
def within (lo hi : Nat) (b : Byte) : Bool := lo ≤ b.val && b.val ≤ hi

/-- `utf8.DecodeRune` (unicode/utf8, reached from parser.go:103): the code point and the number of its bytes; `none` is
`RuneError` with size 1. -/
def decodeRune : List Byte → Option (Nat × Nat)
  | [] => none
  | b0 :: bs =>
    if b0.val < 0x80 then some (b0.val, 1)
    else if within 0xC2 0xDF b0 then
      match bs with
      | b1 :: _ => if within 0x80 0xBF b1 then some ((b0.val - 0xC0) * 64 + (b1.val - 0x80), 2) else none
      | _ => none
    else if within 0xE0 0xEF b0 then
      match bs with
      | b1 :: b2 :: _ =>
        if within (if b0.val = 0xE0 then 0xA0 else 0x80) (if b0.val = 0xED then 0x9F else 0xBF) b1 && within 0x80 0xBF b2 then
          some ((b0.val - 0xE0) * 4096 + (b1.val - 0x80) * 64 + (b2.val - 0x80), 3)
        else none
      | _ => none
    else if within 0xF0 0xF4 b0 then
      match bs with
      | b1 :: b2 :: b3 :: _ =>
        if within (if b0.val = 0xF0 then 0x90 else 0x80) (if b0.val = 0xF4 then 0x8F else 0xBF) b1 && within 0x80 0xBF b2 &&
            within 0x80 0xBF b3 then
          some ((b0.val - 0xF0) * 262144 + (b1.val - 0x80) * 4096 + (b2.val - 0x80) * 64 + (b3.val - 0x80), 4)
        else none
      | _ => none
    else none

/-- What stands for a byte that is not UTF-8 (see above; parser.go:103). -/
def bad : Char := '￿'

/-- The characters of a file, each with the number of its bytes (parser.go:103).  The number counts the bytes of the last character
that are left out. -/
def split : Nat → List Byte → List (Char × Nat)
  | _, [] => []
  | k + 1, _ :: bs => split k bs
  | 0, b :: bs =>
    match decodeRune (b :: bs) with
    | none => (bad, 1) :: split 0 bs
    | some (n, k) => (rune n, k) :: split (k - 1) bs

/-- The characters of a file (parser.go:103). -/
def chars (bs : List Byte) : Str := (split 0 bs).map (·.1)

/-- What remains behind the first characters (parser.go:103). -/
def behind (k : Nat) (bs : List Byte) : List Byte := bs.drop (((split 0 bs).take k).map (·.2)).sum

/-- `utf8.EncodeRune` (unicode/utf8, used by golang.org/x/text, reached from parser.go:101). -/
def utf8 (c : Char) : List Byte :=
  let n := c.toNat
  if n < 0x80 then [byte n]
  else if n < 0x800 then [byte (0xC0 + n / 64), byte (0x80 + n % 64)]
  else if n < 0x10000 then [byte (0xE0 + n / 4096), byte (0x80 + n / 64 % 64), byte (0x80 + n % 64)]
  else [byte (0xF0 + n / 262144), byte (0x80 + n / 4096 % 64), byte (0x80 + n / 64 % 64), byte (0x80 + n % 64)]

/-- The encoding of a text in UTF-8 (golang.org/x/text, reached from parser.go:101). -/
def encode (s : Str) : List Byte := s.flatMap utf8

/-- The encodings other than the two below that golang.org/x/net/html/charset knows (parser.go:101): what a label makes of the bytes
that follow.  All theorems hold for any such table. -/
class Charsets where
  other : Str → Option (List Byte → List Byte)

/-- The characters of the bytes 80 to 9F (golang.org/x/text/encoding/charmap `Windows1252`, reached from parser.go:101). -/
def high : List Nat :=
  [0x20AC, 0x81, 0x201A, 0x0192, 0x201E, 0x2026, 0x2020, 0x2021, 0x02C6, 0x2030, 0x0160, 0x2039, 0x0152, 0x8D, 0x017D, 0x8F,
   0x90, 0x2018, 0x2019, 0x201C, 0x201D, 0x2022, 0x2013, 0x2014, 0x02DC, 0x2122, 0x0161, 0x203A, 0x0153, 0x9D, 0x017E, 0x0178]

/-- The character of a byte (golang.org/x/text/encoding/charmap `Windows1252`, reached from parser.go:101). -/
def windows1252 (b : Byte) : Char := rune (if within 0x80 0x9F b then high.getD (b.val - 0x80) 0 else b.val)

/-- `strings.ToLower(strings.TrimSpace(label))` (golang.org/x/text/encoding/htmlindex, reached from parser.go:101).  Only letters and
spaces in ASCII are considered: the labels below contain no others and no letter k, to which the Kelvin sign is lowered. -/
def canonical (label : Str) : Str :=
  let blank := fun c : Char => c = ' ' || c = '\t' || c = '\n' || c = '\r' || c = '\x0b' || c = '\x0c'
  ((((label.dropWhile blank).reverse).dropWhile blank).reverse).map fun c =>
    if 'A' ≤ c ∧ c ≤ 'Z' then Char.ofNat (c.toNat + 32) else c

/-- The labels of windows-1252 (golang.org/x/text/encoding/htmlindex, reached from parser.go:101). -/
def latin : List Str :=
  [c!"ansi_x3.4-1968", c!"ascii", c!"cp1252", c!"cp819", c!"csisolatin1", c!"ibm819", c!"iso-8859-1", c!"iso-ir-100", c!"iso8859-1",
   c!"iso88591", c!"iso_8859-1", c!"iso_8859-1:1987", c!"l1", c!"latin1", c!"us-ascii", c!"windows-1252", c!"x-cp1252"]

/-- `charset.NewReaderLabel` (golang.org/x/net/html/charset, parser.go:101): what is read for the bytes that follow; `none` is an
unknown label.  The UTF-8 decoder replaces bytes that are no UTF-8 by U+FFFD. -/
def newReaderLabel [Charsets] (label : Str) : Option (List Byte → List Byte) :=
  let l := canonical label
  if l ∈ latin then some fun bs => encode (bs.map windows1252)
  else if l = c!"utf-8" ∨ l = c!"utf8" ∨ l = c!"unicode-1-1-utf-8" then
    some fun bs => encode ((split 0 bs).map fun e => if e = (bad, 1) then '�' else e.1)
  else Charsets.other l

/-- The bytes to be read, and the decoder (parser.go:100); its `rest` is not used. -/
structure Reader where
  bytes : List Byte
  dec : Dec

section
variable [NameChars]

/-- The encoding that an XML declaration at the beginning of a text asks for (`Decoder.rawToken` in encoding/xml, reached from
parser.go:103), unless it is UTF-8 (`strings.EqualFold`, for which no character outside of ASCII is a letter of utf). -/
def declared (s : Str) : Option Str :=
  match s with
  | '<' :: '?' :: r =>
    match name r with
    | none => none
    | some (target, r) =>
      if target = c!"xml" then
        match instruction nul (skip r) with
        | none => none
        | some (data, _) =>
          let e := param c!"encoding" data.dropLast.dropLast
          if e = [] ∨ (e.map fun c => if 'A' ≤ c ∧ c ≤ 'Z' then Char.ofNat (c.toNat + 32) else c) = c!"utf-8" then none else some e
      else none
  | _ => none

variable [Charsets]

/-- `Decoder.Token` on bytes (encoding/xml, called at parser.go:103); `none` is a nil token. -/
def token (r : Reader) : Option (Token × Reader) :=
  let s := chars r.bytes
  match Xml.token { r.dec with rest := s } with
  | none => none
  | some (t, d) =>
    let bs := behind (s.length - d.rest.length) r.bytes
    match (if r.dec.close = none then declared s else none) with
    | none => some (t, ⟨bs, d⟩)
    | some label => (newReaderLabel label).map fun f => (t, ⟨f bs, d⟩)

/-- The first tokens of a reader (parser.go:102-106). -/
def tokens : Nat → Reader → List Token
  | 0, _ => []
  | n + 1, r =>
    match token r with
    | none => []
    | some (t, r) => t :: tokens n r

/-- The tokens that a file with these bytes delivers before its first nil token (parser.go:100-106). -/
def Delivers (bs : List Byte) (ts : List Token) : Prop := ∃ n, ∀ m, n ≤ m → tokens m ⟨bs, { rest := [] }⟩ = ts

end

end Xgen.Bytes
