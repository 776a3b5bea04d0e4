import Verif.Model.Utils
import Verif.Model.Path

/-! # Shared parts of the code generators -/

namespace Xgen

/-- The mutable part of `CodeGenerator` (genGo.go:21-30) plus the package-level counter `fieldNameCount`
(utils.go:30), which every `Gen<Lang>` resets on entry. -/
structure Gen where
  /-- `gen.Field` -/
  field : Str := []
  /-- `gen.StructAST` -/
  ast : GoMap Str := []
  /-- `fieldNameCount` -/
  count : GoMap Nat := []
  importTime : Bool := false
  importEncodingXML : Bool := false
deriving DecidableEq, Repr

/-- `for _, str := range strings.Split(s, sep) { out += MakeFirstUpperCase(str) }`
(genGo.go:99-105 and the same lines of the other generators). -/
def titleParts [Uni] (sep : Char) (s : Str) : Str := (splitOn sep s).flatMap makeFirstUpperCase

/-- The part common to all `gen<Lang>FieldName` functions: split at ':', then at '.', capitalising every part
(genGo.go:99-106, genC.go:66-73, genJava.go:67-74, genRust.go:125-132 and 142-149, genTypeScript.go:51-58). -/
def baseName [Uni] (name : Str) : Str := titleParts '.' (titleParts ':' name)

/-- `fieldNameCount[fieldName]++` and the numeric suffix from the second use on (genGo.go:108-113 and the same lines
of the other generators). -/
def uniqueName (fieldName : Str) (g : Gen) : Str × Gen :=
  let count := g.count.getNat fieldName + 1
  (if count ≠ 1 then fieldName ++ decimal count else fieldName,
   { g with count := g.count.set fieldName count })

/-- `getBasefromSimpleType(trimNSPrefix(x), gen.ProtoTree)` (e.g. genGo.go:137, 172, 190, 202, 221). -/
def resolveIn (tree : Tree) (x : Str) : Str := getBasefromSimpleType (trimNSPrefix x) tree

/-- The type of a union member (genGo.go:156-162 and the same lines elsewhere): the stored type, or a late lookup when
it is empty. -/
def memberType (tree : Tree) (m : Str × Str) : Str :=
  if m.2 = [] then getBasefromSimpleType m.1 tree else m.2

/-- `copyright`, utils.go:27 -/
def copyright : Str := c!"// Code generated by xgen. DO NOT EDIT."

/-- `gen.StructAST[name] = content; gen.Field += text` (e.g. genGo.go:142-144). -/
def Gen.emit (g : Gen) (name content text : Str) : Gen :=
  { g with ast := g.ast.set name content, field := g.field ++ text }

/-- The generator made by `Parse` for one schema (parser.go:138-145), in a process whose package-level counter is
`count`. -/
def newGen (count : GoMap Nat) : Gen := { count := count }

/-- `fieldNameCount = make(map[string]int)`, the first statement of every `Gen<Lang>` (genGo.go:62, genC.go:40,
genJava.go:35, genRust.go:99, genTypeScript.go:31). -/
def resetCount (g : Gen) : Gen := { g with count := [] }

/-- Body of every `Gen<Lang>` up to the file creation (genGo.go:61-69, genC.go:39-47, genJava.go:34-42, genRust.go:98-106,
genTypeScript.go:30-38), entered with the counter `count`: reset the counter, call the method of the node's kind on each
non-nil node.  `step` is the language's dispatch. -/
def genFrom (count : GoMap Nat) (step : Node Element → Gen → Gen) (tree : Tree) : Gen :=
  tree.foldl (fun g n => match n with | none => g | some n => step n g) (resetCount (newGen count))

/-- The same in a fresh process (utils.go:30); C43 shows that the entry value of the counter does not matter. -/
def genLoop (step : Node Element → Gen → Gen) (tree : Tree) : Gen := genFrom [] step tree

end Xgen
