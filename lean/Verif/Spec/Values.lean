import Verif.Model.Utils

/-! # Values of the built-in types of XML Schema and of the target languages

Written from XML Schema Part 2 (1.1, where the exponents of `float` and `double` are those of IEEE 754) and the language
definitions; nothing here mentions the generator.  Texts stand for all values that are compared as texts (names, dates,
durations); which texts are legal is left open: every text is taken as a value, and `sample` gives for each type a value that
is legal. -/

namespace Xgen.Values

/-- A value. -/
inductive Value where
  | text (s : Str)
  | int (n : Int)
  /-- the fraction `n / d` -/
  | real (n : Int) (d : Nat)
  /-- INF, -INF and NaN -/
  | special (s : Str)
  | truth (b : Bool)
  | bytes (l : List Nat)
  | texts (l : List Str)
  | name (space : Str) (l : Str)
deriving Repr

/-- `n / d = m * 2^e` for some `m` and `e` within the bounds of a binary floating point format. -/
def Floating (p : Nat) (lo hi : Int) (n : Int) (d : Nat) : Prop :=
  ∃ m e : Int, m.natAbs < 2 ^ p ∧ lo ≤ e ∧ e ≤ hi ∧ n * 2 ^ (-e).toNat = m * 2 ^ e.toNat * d

/-- The sets of values of the built-in types of XML Schema. -/
inductive Space where
  | text
  | texts
  /-- integers between two bounds, if there are any -/
  | whole (lo hi : Option Int)
  | decimal
  | floating (p : Nat) (lo hi : Int)
  | truth
  | bytes
  | name

/-- The values in a space. -/
def Space.In : Space → Value → Prop
  | .text, v => ∃ s, v = .text s
  | .texts, v => ∃ l, v = .texts l
  | .whole lo hi, v => ∃ n, v = .int n ∧ (∀ l, lo = some l → l ≤ n) ∧ (∀ h, hi = some h → n ≤ h)
  | .decimal, v => ∃ n k, v = .real n (10 ^ k)
  | .floating p lo hi, v => (∃ s, v = .special s) ∨ ∃ n d, v = .real n d ∧ 0 < d ∧ Floating p lo hi n d
  | .truth, v => ∃ b, v = .truth b
  | .bytes, v => ∃ l, v = .bytes l
  | .name, v => ∃ s l, v = .name s l

/-- XML Schema Part 2, section 3 (the space of each built-in type), and the attributes of the `xml:` name space. -/
def spaces : List (Str × Space) :=
  [(c!"anyType", .text), (c!"ENTITIES", .texts), (c!"ENTITY", .text), (c!"ID", .text), (c!"IDREF", .text),
   (c!"IDREFS", .texts), (c!"NCName", .text), (c!"NMTOKEN", .text), (c!"NMTOKENS", .texts), (c!"NOTATION", .text),
   (c!"Name", .text), (c!"QName", .name), (c!"anyURI", .text), (c!"base64Binary", .bytes), (c!"boolean", .truth),
   (c!"byte", .whole (some (-128)) (some 127)), (c!"date", .text), (c!"dateTime", .text), (c!"decimal", .decimal),
   (c!"double", .floating 53 (-1074) 971), (c!"duration", .text), (c!"float", .floating 24 (-149) 104), (c!"gDay", .text),
   (c!"gMonth", .text), (c!"gMonthDay", .text), (c!"gYear", .text), (c!"gYearMonth", .text), (c!"hexBinary", .bytes),
   (c!"int", .whole (some (-2147483648)) (some 2147483647)), (c!"integer", .whole none none), (c!"language", .text),
   (c!"long", .whole (some (-9223372036854775808)) (some 9223372036854775807)),
   (c!"negativeInteger", .whole none (some (-1))), (c!"nonNegativeInteger", .whole (some 0) none),
   (c!"normalizedString", .text), (c!"nonPositiveInteger", .whole none (some 0)), (c!"positiveInteger", .whole (some 1) none),
   (c!"short", .whole (some (-32768)) (some 32767)), (c!"string", .text), (c!"time", .text), (c!"token", .text),
   (c!"unsignedByte", .whole (some 0) (some 255)), (c!"unsignedInt", .whole (some 0) (some 4294967295)),
   (c!"unsignedLong", .whole (some 0) (some 18446744073709551615)), (c!"unsignedShort", .whole (some 0) (some 65535)),
   (c!"xml:lang", .text), (c!"xml:space", .text), (c!"xml:base", .text), (c!"xml:id", .text)]

/-- The space of a built-in type. -/
def spaceOf (n : Str) : Option Space := (spaces.find? fun e => e.1 = n).map (·.2)

/-- What a type of a target language can hold. -/
inductive Target where
  /-- a string of any length (or any value at all): holds every value, in its literal form -/
  | literal
  /-- one `char` of C: one character, or a number that every implementation can represent -/
  | char
  /-- a list of strings, also a single one -/
  | strings
  | whole (lo hi : Int)
  | floating (p : Nat) (lo hi : Int)
  | truth
  | bytes
  | name
  /-- `time.Time` of Go, read from RFC 3339 texts: the date, which takes ten characters, is followed by `T` -/
  | instant

/-- The values a type of a target language can hold. -/
def Target.Holds : Target → Value → Prop
  | .literal, _ => True
  | .char, .text s => s.length ≤ 1
  | .char, .int n => 0 ≤ n ∧ n ≤ 127
  | .char, _ => False
  | .strings, .text _ => True
  | .strings, .texts _ => True
  | .strings, _ => False
  | .whole lo hi, .int n => lo ≤ n ∧ n ≤ hi
  | .whole _ _, _ => False
  | .floating p lo hi, .int n => Floating p lo hi n 1
  | .floating p lo hi, .real n d => Floating p lo hi n d
  | .floating _ _ _, .special _ => True
  | .floating _ _ _, _ => False
  | .truth, .truth _ => True
  | .truth, _ => False
  | .bytes, .bytes _ => True
  | .bytes, _ => False
  | .name, .name _ _ => True
  | .name, _ => False
  | .instant, .text s => s[10]? = some 'T'
  | .instant, _ => False

/-- IEEE 754 binary32 and binary64. -/
def f32 : Target := .floating 24 (-149) 104
/-- IEEE 754 binary64. -/
def f64 : Target := .floating 53 (-1074) 971
/-- A signed integer type of the given width. -/
def signed (bits : Nat) : Target := .whole (-(2 ^ (bits - 1))) (2 ^ (bits - 1) - 1)
/-- An unsigned integer type of the given width. -/
def unsigned (bits : Nat) : Target := .whole 0 (2 ^ bits - 1)

/-- The types of the target languages.  `int` of Go has 64 bits and `int` of C has 32, as on the usual 64-bit platforms. -/
def targets : List (Str × List (Str × Target)) :=
  [(c!"Go", [(c!"string", .literal), (c!"[]string", .strings), (c!"xml.Name", .name), (c!"bool", .truth), (c!"int8", signed 8),
     (c!"int16", signed 16), (c!"int", signed 64), (c!"int64", signed 64), (c!"uint8", unsigned 8), (c!"uint16", unsigned 16),
     (c!"uint32", unsigned 32), (c!"uint64", unsigned 64), (c!"float32", f32), (c!"float64", f64), (c!"time.Time", .instant)]),
   (c!"TypeScript", [(c!"string", .literal), (c!"any", .literal), (c!"Array<string>", .strings), (c!"Uint8Array", .bytes),
     (c!"boolean", .truth), (c!"number", f64)]),
   (c!"C", [(c!"char", .char), (c!"char[]", .literal), (c!"bool", .truth), (c!"float", f32), (c!"int", signed 32),
     (c!"unsigned int", unsigned 32)]),
   (c!"Java", [(c!"String", .literal), (c!"List<String>", .strings), (c!"QName", .name), (c!"List<Byte>", .bytes),
     (c!"Boolean", .truth), (c!"Byte", signed 8), (c!"Short", signed 16), (c!"Integer", signed 32), (c!"Long", signed 64),
     (c!"Float", f32)]),
   (c!"Rust", [(c!"String", .literal), (c!"Vec<String>", .strings), (c!"bool", .truth), (c!"u8", unsigned 8),
     (c!"u16", unsigned 16), (c!"u32", unsigned 32), (c!"u64", unsigned 64), (c!"i16", signed 16), (c!"i32", signed 32),
     (c!"i64", signed 64), (c!"f64", f64)])]

/-- What the type with the given text can hold, if the language has it. -/
def targetOf (lang t : Str) : Option Target :=
  (targets.find? fun e => e.1 = lang).bind fun e => (e.2.find? fun x => x.1 = t).map (·.2)

/-- A legal value of each type, chosen large. -/
def sample (n : Str) : Value :=
  if n ∈ [c!"integer", c!"nonNegativeInteger", c!"positiveInteger"] then .int (2 ^ 64 + 1)
  else if n ∈ [c!"negativeInteger", c!"nonPositiveInteger"] then .int (-(2 ^ 64 + 1))
  else if n = c!"byte" then .int (-1)
  else if n = c!"unsignedByte" then .int 255
  else if n = c!"unsignedShort" then .int 65535
  else if n = c!"unsignedInt" then .int 4294967295
  else if n = c!"unsignedLong" then .int 18446744073709551615
  else if n = c!"long" then .int 9223372036854775807
  else if n = c!"int" then .int 2147483647
  else if n = c!"short" then .int 32767
  else if n = c!"decimal" then .real 1 10
  else if n = c!"double" then .real 16777217 1
  else if n = c!"float" then .real 1 2
  else if n = c!"QName" then .name c!"urn:a" c!"name"
  else if n = c!"boolean" then .truth true
  else if n ∈ [c!"base64Binary", c!"hexBinary"] then .bytes [255, 0]
  else if n ∈ [c!"ENTITIES", c!"IDREFS", c!"NMTOKENS"] then .texts [c!"ab", c!"cd"]
  else if n = c!"date" then .text c!"2020-02-29"
  else if n = c!"dateTime" then .text c!"2020-02-29T12:30:00"
  else if n = c!"time" then .text c!"12:30:00"
  else if n = c!"duration" then .text c!"P1D"
  else if n = c!"gDay" then .text c!"---29"
  else if n = c!"gMonth" then .text c!"--02"
  else if n = c!"gMonthDay" then .text c!"--02-29"
  else if n = c!"gYear" then .text c!"2020"
  else if n = c!"gYearMonth" then .text c!"2020-02"
  else if n = c!"xml:space" then .text c!"default"
  else .text c!"en"

end Xgen.Values
