import Verif.Model.Proto

/-! # utils.go -/

namespace Xgen

/-! ## Names -/

/-- One left-to-right pass of `matchFirstCap.ReplaceAllString(input, "${1}_${2}")`, utils.go:28,35:
pattern `([A-Z])([A-Z][a-z])`, leftmost non-overlapping matches. -/
def snakeFirst : Str → Str
  | a :: b :: c :: rest =>
    if isAsciiUpper a && isAsciiUpper b && isAsciiLower c then a :: '_' :: b :: c :: snakeFirst rest
    else a :: snakeFirst (b :: c :: rest)
  | s => s

/-- `matchAllCap.ReplaceAllString(output, "${1}_${2}")`, utils.go:29,36: pattern `([a-z0-9])([A-Z])`. -/
def snakeAll : Str → Str
  | a :: b :: rest =>
    if (isAsciiLower a || isAsciiDigit a) && isAsciiUpper b then a :: '_' :: b :: snakeAll rest
    else a :: snakeAll (b :: rest)
  | s => s

/-- `ToSnakeCase`, utils.go:34-39. -/
def toSnakeCase [Uni] (input : Str) : Str :=
  let output := snakeFirst input
  let output := snakeAll output
  let output := output.map (fun c => if c = '-' then '_' else c)
  output.map Uni.lower

/-- `ToTitle`, utils.go:191-203 (`range` over a valid UTF-8 string yields its runes; only index 0 is mapped). -/
def toTitle [Uni] : Str → Str
  | [] => []
  | c :: cs => Uni.upper c :: cs

/-- `MakeFirstUpperCase`, utils.go:187-189. -/
def makeFirstUpperCase [Uni] (s : Str) : Str := toTitle s

/-- `getNSPrefix`, utils.go:167-174. -/
def getNSPrefix (str : Str) : Str :=
  match splitOn ':' str with
  | [a, _] => a
  | _ => []

/-- `trimNSPrefix`, utils.go:176-184. -/
def trimNSPrefix (str : Str) : Str :=
  match splitOn ':' str with
  | [_, b] => b
  | _ => str

/-! ## Built-in types -/

/-- `BuildInTypes`, utils.go:79-129; columns Go, TypeScript, C, Java, Rust. -/
def buildInTypes : GoMap (List Str) :=
  [(c!"anyType", [c!"string", c!"string", c!"char", c!"String", c!"String"]),
   (c!"ENTITIES", [c!"[]string", c!"Array<string>", c!"char[]", c!"List<String>", c!"Vec<String>"]),
   (c!"ENTITY", [c!"string", c!"string", c!"char", c!"String", c!"String"]),
   (c!"ID", [c!"string", c!"string", c!"char", c!"String", c!"String"]),
   (c!"IDREF", [c!"string", c!"string", c!"char", c!"String", c!"String"]),
   (c!"IDREFS", [c!"[]string", c!"Array<string>", c!"char[]", c!"List<String>", c!"Vec<String>"]),
   (c!"NCName", [c!"string", c!"string", c!"char", c!"String", c!"String"]),
   (c!"NMTOKEN", [c!"string", c!"string", c!"char", c!"String", c!"String"]),
   (c!"NMTOKENS", [c!"[]string", c!"Array<string>", c!"char[]", c!"List<String>", c!"Vec<String>"]),
   (c!"NOTATION", [c!"[]string", c!"Array<string>", c!"char[]", c!"List<String>", c!"Vec<String>"]),
   (c!"Name", [c!"string", c!"string", c!"char", c!"String", c!"String"]),
   (c!"QName", [c!"xml.Name", c!"any", c!"char", c!"String", c!"String"]),
   (c!"anyURI", [c!"string", c!"string", c!"char", c!"QName", c!"String"]),
   (c!"base64Binary", [c!"string", c!"Uint8Array", c!"char[]", c!"List<Byte>", c!"String"]),
   (c!"boolean", [c!"bool", c!"boolean", c!"bool", c!"Boolean", c!"bool"]),
   (c!"byte", [c!"int8", c!"any", c!"char[]", c!"Byte", c!"u8"]),
   (c!"date", [c!"string", c!"string", c!"char", c!"String", c!"u8"]),
   (c!"dateTime", [c!"string", c!"string", c!"char", c!"String", c!"u8"]),
   (c!"decimal", [c!"float64", c!"number", c!"float", c!"Float", c!"f64"]),
   (c!"double", [c!"float64", c!"number", c!"float", c!"Float", c!"f64"]),
   (c!"duration", [c!"string", c!"string", c!"char", c!"String", c!"String"]),
   (c!"float", [c!"float32", c!"number", c!"float", c!"Float", c!"f64"]),
   (c!"gDay", [c!"string", c!"string", c!"char", c!"String", c!"String"]),
   (c!"gMonth", [c!"string", c!"string", c!"char", c!"String", c!"String"]),
   (c!"gMonthDay", [c!"string", c!"string", c!"char", c!"String", c!"String"]),
   (c!"gYear", [c!"string", c!"string", c!"char", c!"String", c!"String"]),
   (c!"gYearMonth", [c!"string", c!"string", c!"char", c!"String", c!"String"]),
   (c!"hexBinary", [c!"string", c!"Uint8Array", c!"char[]", c!"List<Byte>", c!"String"]),
   (c!"int", [c!"int", c!"number", c!"int", c!"Integer", c!"i32"]),
   (c!"integer", [c!"int", c!"number", c!"int", c!"Integer", c!"i32"]),
   (c!"language", [c!"string", c!"string", c!"char", c!"String", c!"String"]),
   (c!"long", [c!"int64", c!"number", c!"int", c!"Long", c!"i64"]),
   (c!"negativeInteger", [c!"int", c!"number", c!"int", c!"Integer", c!"i32"]),
   (c!"nonNegativeInteger", [c!"int", c!"number", c!"int", c!"Integer", c!"u32"]),
   (c!"normalizedString", [c!"string", c!"string", c!"char", c!"String", c!"String"]),
   (c!"nonPositiveInteger", [c!"int", c!"number", c!"int", c!"Integer", c!"i32"]),
   (c!"positiveInteger", [c!"int", c!"number", c!"int", c!"Integer", c!"u32"]),
   (c!"short", [c!"int16", c!"number", c!"int", c!"Integer", c!"i16"]),
   (c!"string", [c!"string", c!"string", c!"char", c!"String", c!"String"]),
   (c!"time", [c!"time.Time", c!"string", c!"char", c!"String", c!"String"]),
   (c!"token", [c!"string", c!"string", c!"char", c!"String", c!"String"]),
   (c!"unsignedByte", [c!"uint8", c!"any", c!"char", c!"Byte", c!"u8"]),
   (c!"unsignedInt", [c!"uint32", c!"number", c!"unsigned int", c!"Integer", c!"u32"]),
   (c!"unsignedLong", [c!"uint64", c!"number", c!"unsigned int", c!"Long", c!"u64"]),
   (c!"unsignedShort", [c!"uint16", c!"number", c!"unsigned int", c!"Short", c!"u16"]),
   (c!"xml:lang", [c!"string", c!"string", c!"char", c!"String", c!"String"]),
   (c!"xml:space", [c!"string", c!"string", c!"char", c!"String", c!"String"]),
   (c!"xml:base", [c!"string", c!"string", c!"char", c!"String", c!"String"]),
   (c!"xml:id", [c!"string", c!"string", c!"char", c!"String", c!"String"])]

/-- `supportLang[lang]`, utils.go:132-138,143: an absent key gives 0. -/
def langIndex (lang : Str) : Nat :=
  if lang = c!"Go" then 0
  else if lang = c!"TypeScript" then 1
  else if lang = c!"C" then 2
  else if lang = c!"Java" then 3
  else if lang = c!"Rust" then 4
  else 0

/-- `getBuildInTypeByLang`, utils.go:131-145.  Outer `none`: the slice index is out of range (Go would panic);
inner `none`: `ok == false`. -/
def getBuildInTypeByLang? (value lang : Str) : Option (Option Str) :=
  match buildInTypes.get? value with
  | none => some none
  | some row =>
    match row[langIndex lang]? with
    | none => none
    | some t => some (some t)

/-- `getBuildInTypeByLang`, utils.go:131-145, without the out-of-range case, which `getBuildInTypeByLang_total` excludes. -/
def getBuildInTypeByLang (value lang : Str) : Option Str := (getBuildInTypeByLang? value lang).getD none

/-! ## Name resolution -/

/-- `getBasefromSimpleType`, utils.go:147-165. -/
def getBasefromSimpleType (name : Str) : Tree → Str
  | [] => name
  | some (.simple v) :: rest =>
    if !v.list && !v.union && v.name = name then v.base else getBasefromSimpleType name rest
  | some (.attr v) :: rest => if v.name = name then v.type else getBasefromSimpleType name rest
  | some (.elem v) :: rest => if v.name = name then v.type else getBasefromSimpleType name rest
  | _ :: rest => getBasefromSimpleType name rest

/-! ## Comments -/

/-- `strings.NewReplacer("\n", "\r\n<prefix> ", "\t", "").Replace(doc)`, utils.go:258. -/
def docReplace (pre : Str) : Str → Str
  | [] => []
  | c :: cs =>
    if c = '\n' then c!"\r\n" ++ pre ++ c!" " ++ docReplace pre cs
    else if c = '\t' then docReplace pre cs
    else c :: docReplace pre cs

/-- `genFieldComment`, utils.go:257-263. -/
def genFieldComment (name doc pre : Str) : Str :=
  if doc = [] then c!"\r\n" ++ pre ++ c!" " ++ name ++ c!" ...\r\n"
  else c!"\r\n" ++ pre ++ c!" " ++ name ++ c!" is " ++ docReplace pre doc ++ c!"\r\n"

/-! ## Sorted union members -/

/-- `kvPairList.Less`, utils.go:275-277, on the entries themselves. -/
def kvLess (a b : Str × Str) : Bool :=
  strLt a.2 b.2 || (a.2 = b.2 && strLt b.1 a.1)

/-- Insertion into a sorted list, the step of the sort that stands for `sort.Sort`, utils.go:287. -/
def kvInsert (x : Str × Str) : List (Str × Str) → List (Str × Str)
  | [] => [x]
  | y :: ys => if kvLess y x then y :: kvInsert x ys else x :: y :: ys

/-- `toSortedPairs`, utils.go:281-289.  `sort.Sort` is modelled by insertion sort; C08 shows that every algorithm that
returns a sorted permutation returns this list, whatever order the map iteration delivers. -/
def toSortedPairs (m : GoMap Str) : List (Str × Str) := m.foldr kvInsert []

/-! ## strconv.Atoi -/

/-- The value of a decimal digit (inside `strconv.Atoi`, xmlElement.go:39). -/
def digitVal (c : Char) : Nat := c.toNat - 48

/-- The value of a string of decimal digits (inside `strconv.Atoi`, xmlElement.go:39). -/
def digitsVal (s : Str) : Nat := s.foldl (fun n c => n * 10 + digitVal c) 0

/-- `strconv.Atoi` on a 64-bit platform: optional sign, at least one decimal digit, value within int64; `none` is an
error.  (Used at xmlElement.go:39 and xmlChoice.go:24.) -/
def atoi (s : Str) : Option Int :=
  let body (neg : Bool) (ds : Str) : Option Int :=
    if ds = [] || !(ds.all isAsciiDigit) then none
    else
      let n := digitsVal ds
      if neg then (if n ≤ 2 ^ 63 then some (-(n : Int)) else none)
      else (if n < 2 ^ 63 then some (n : Int) else none)
  match s with
  | '+' :: ds => body false ds
  | '-' :: ds => body true ds
  | ds => body false ds

end Xgen
