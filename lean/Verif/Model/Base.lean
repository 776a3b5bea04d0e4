import Lean.Elab.Term

/-!
# Strings

Go strings that reach the modelled code come from the XML decoder, which only delivers valid UTF-8, from the
command line or from literals.  A valid UTF-8 string is modelled by its list of runes.  (Simplification: strings
that are not valid UTF-8 are not modelled.)  UTF-8 preserves code-point order, so Go's byte-wise `<` on strings is
the lexicographic order of rune lists.
-/

namespace Xgen

/-- A Go `string` (valid UTF-8), as its runes; the string type used everywhere in *.go. -/
abbrev Str := List Char

open Lean Elab Term in
/-- `c!"abc"` is the rune list `['a', 'b', 'c']` (a literal the kernel can compute with cheaply). -/
elab:max "c!" s:str : term => do
  let nil := mkApp (mkConst ``List.nil [Level.zero]) (mkConst ``Char)
  return s.getString.toList.foldr
    (fun c acc => mkApp3 (mkConst ``List.cons [Level.zero]) (mkConst ``Char) (toExpr c) acc) nil

/-- The two Unicode tables the code consults: `unicode.ToUpper` (utils.go:197) and `unicode.ToLower`
(via `strings.ToLower`, utils.go:38).  Left abstract: every theorem holds for all tables, or for all tables with
the facts stated in `UniLaws`. -/
class Uni where
  upper : Char → Char
  lower : Char → Char

/-- The class `[A-Z]` of the regular expressions at utils.go:28-29. -/
def isAsciiUpper (c : Char) : Bool := 65 ≤ c.toNat && c.toNat ≤ 90
/-- The class `[a-z]` of the regular expressions at utils.go:28-29. -/
def isAsciiLower (c : Char) : Bool := 97 ≤ c.toNat && c.toNat ≤ 122
/-- The class `[0-9]` of the regular expression at utils.go:29; also a digit of `strconv.Atoi` (xmlElement.go:39). -/
def isAsciiDigit (c : Char) : Bool := 48 ≤ c.toNat && c.toNat ≤ 57
/-- ASCII letters (not in the code; used to state facts about utils.go:34-39 and 191-203). -/
def isAsciiLetter (c : Char) : Bool := isAsciiUpper c || isAsciiLower c

/-- `unicode.ToUpper` (utils.go:197) on ASCII runes. -/
def asciiUpper (c : Char) : Char := if isAsciiLower c then Char.ofNat (c.toNat - 32) else c
/-- `unicode.ToLower` (via `strings.ToLower`, utils.go:38) on ASCII runes. -/
def asciiLower (c : Char) : Char := if isAsciiUpper c then Char.ofNat (c.toNat + 32) else c

/-- Facts about Go's Unicode tables assumed by the theorems that mention this class (trusted base;
used at utils.go:38 and 197): the tables agree with ASCII on ASCII; a non-ASCII rune is mapped to a non-ASCII rune or to an ASCII letter
(e.g. 'ı' ↦ 'I', 'K' (Kelvin) ↦ 'k'); mapping twice is mapping once; and lower-casing yields no
ASCII upper-case letter. -/
class UniLaws [Uni] : Prop where
  upper_ascii : ∀ c : Char, c.toNat < 128 → Uni.upper c = asciiUpper c
  lower_ascii : ∀ c : Char, c.toNat < 128 → Uni.lower c = asciiLower c
  upper_nonascii : ∀ c : Char, 128 ≤ c.toNat → 128 ≤ (Uni.upper c).toNat ∨ isAsciiUpper (Uni.upper c) = true
  lower_nonascii : ∀ c : Char, 128 ≤ c.toNat → 128 ≤ (Uni.lower c).toNat ∨ isAsciiLower (Uni.lower c) = true
  upper_idem : ∀ c : Char, Uni.upper (Uni.upper c) = Uni.upper c
  lower_idem : ∀ c : Char, Uni.lower (Uni.lower c) = Uni.lower c

/-- Concrete tables (ASCII only) used by the executable examples in place of those consulted at utils.go:38 and 197; they
satisfy `UniLaws`. -/
@[reducible] def asciiUni : Uni := ⟨asciiUpper, asciiLower⟩

/-! ## Package `strings` -/

/-- `strings.Split(s, sep)` for a one-rune separator (all separators in the code are: ":" "." " ";
genGo.go:99, 103, 122 and the same lines of the other generators, utils.go:168, 177, xmlUnion.go:28; "/" serves the model of
path/filepath). -/
def splitOn (sep : Char) : Str → List Str
  | [] => [[]]
  | c :: cs =>
    if c = sep then [] :: splitOn sep cs
    else match splitOn sep cs with
      | [] => [[c]]
      | p :: ps => (c :: p) :: ps

/-- `strings.HasPrefix(s, p)`, genGo.go:331. -/
def hasPrefix : (s p : Str) → Bool
  | _, [] => true
  | [], _ :: _ => false
  | c :: cs, p :: ps => c = p && hasPrefix cs ps

/-- `strings.HasSuffix(s, p)`, genGo.go:334, genC.go:59. -/
def hasSuffix (s p : Str) : Bool := hasPrefix s.reverse p.reverse

/-- `strings.TrimPrefix(s, p)`, parser.go:134. -/
def trimPrefix (s p : Str) : Str := if hasPrefix s p then s.drop p.length else s

/-- `strings.TrimSuffix(s, p)`, genC.go:60. -/
def trimSuffix (s p : Str) : Str := if hasSuffix s p then s.take (s.length - p.length) else s

/-- `unicode.IsSpace`: the white-space runes of Go's tables (complete list); used through
`strings.TrimSpace`, xmlCharData.go:17-20. -/
def isSpace (c : Char) : Bool :=
  let n := c.toNat
  (9 ≤ n && n ≤ 13) || n = 0x20 || n = 0x85 || n = 0xA0 || n = 0x1680 || (0x2000 ≤ n && n ≤ 0x200a) ||
  n = 0x2028 || n = 0x2029 || n = 0x202f || n = 0x205f || n = 0x3000

/-- `strings.TrimSpace`, xmlCharData.go:17, 20. -/
def trimSpace (s : Str) : Str := ((s.dropWhile isSpace).reverse.dropWhile isSpace).reverse

/-- `strings.Replace(s, "x", "", -1)` for a one-rune `x`, genGo.go:107, 125, genC.go:74, 92,
genJava.go:75, 93, genRust.go:133, genTypeScript.go:59, 77. -/
def dropChar (x : Char) (s : Str) : Str := s.filter (fun c => c ≠ x)

/-- `%d` of a non-negative int, genGo.go:111 and the same line of the other generators. -/
def decimal (n : Nat) : Str := Nat.toDigits 10 n

/-- Go's `<` on strings (and `strings.Compare`), utils.go:276. -/
def strLt : Str → Str → Bool
  | [], [] => false
  | [], _ :: _ => true
  | _ :: _, [] => false
  | a :: as, b :: bs => if a = b then strLt as bs else decide (a.toNat < b.toNat)

/-! ## Go maps

A Go map is an association list without repeated keys; iteration order is never read off the list order except
through an explicit oracle or a permutation argument. -/

/-- A Go `map[string]α` (parser.go:32-36, genGo.go:29, utils.go:30, 79, proto.go:22). -/
abbrev GoMap (α : Type) := List (Str × α)

namespace GoMap
/-- `v, ok := m[k]` (e.g. parser.go:207, utils.go:140). -/
def get? (m : GoMap α) (k : Str) : Option α :=
  match m with
  | [] => none
  | (k', v) :: m => if k' = k then some v else get? m k

/-- `_, ok := m[k]` (e.g. genGo.go:136, xmlInclude.go:19). -/
def has (m : GoMap α) (k : Str) : Bool := (get? m k).isSome

/-- `m[k] = v` (e.g. parser.go:81-82). -/
def set (m : GoMap α) (k : Str) (v : α) : GoMap α :=
  match m with
  | [] => [(k, v)]
  | (k', v') :: m => if k' = k then (k', v) :: m else (k', v') :: set m k v

/-- The key set, which `for k := range m` visits (parser.go:181, utils.go:283). -/
def keys (m : GoMap α) : List Str := m.map (·.1)
end GoMap

/-- `m[k]` for a string-valued map (zero value `""` when absent), parser.go:168. -/
def GoMap.getStr (m : GoMap Str) (k : Str) : Str := (m.get? k).getD []

/-- `m[k]` for an int-valued map (zero value 0 when absent), genGo.go:109. -/
def GoMap.getNat (m : GoMap Nat) (k : Str) : Nat := (m.get? k).getD 0

end Xgen
