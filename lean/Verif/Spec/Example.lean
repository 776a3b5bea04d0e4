import Verif.Model.Parser

/-! # Short notation for the concrete documents used in the examples beside the theorems -/

namespace Xgen.Ex

/-- A start tag; an attribute named "xmlns:p" gets the name space "xmlns", as encoding/xml reports it. -/
def on (name : String) (attrs : List (String × String) := []) : Token :=
  .start name.toList (attrs.map fun a =>
    if a.1.toList.take 6 = c!"xmlns:" then { space := c!"xmlns", «local» := a.1.toList.drop 6, value := a.2.toList }
    else { «local» := a.1.toList, value := a.2.toList })

/-- An end tag. -/
def off (name : String) : Token := .stop name.toList

/-- An empty element. -/
def leaf (name : String) (attrs : List (String × String) := []) : List Token := [on name attrs, off name]

/-- Character data. -/
def txt (s : String) : Token := .text s.toList

/-- A world with the given files, where every write succeeds, the formatter is the identity and URLs start with
"http". -/
def world (files : List (String × List Token)) (dirs : List String := ["."]) (pick : Nat → Nat := fun _ => 0) : World where
  fs := dirs.map (fun d => (d.toList, .dir)) ++ files.map (fun f => (f.1.toList, .file f.2))
  isURL s := c!"http".isPrefixOf s
  gofmt := some
  mkdirOk _ := true
  createOk _ := true
  pick := pick

/-- Parse, with the ASCII letters as the only letters. -/
def parse (W : World) (file lang : String) (extract : Bool := false) (sh : Shared := {}) : Out Shared Tree :=
  @Parse asciiUni W { filePath := file.toList, lang := lang.toList, extract := extract } sh

/-- The outcome without its state: the value, an error, or an abnormal end. -/
def kind {σ α : Type} : Out σ α → Option (Option Halt)
  | .ok _ _ => none
  | .err _ _ => some none
  | .halt h _ => some (some h)

end Xgen.Ex
