import Verif.Model.Monad
import Verif.Model.Utils
import Verif.Model.Stack
import Verif.Model.Path

/-! # Parser state (parser.go:24-53) -/

namespace Xgen

/-- `xml.Attr`: `Name.Space`, `Name.Local`, `Value` (read e.g. at schema.go:14-17, xmlElement.go:19-21). -/
structure Attr where
  space : Str := []
  «local» : Str
  value : Str
deriving DecidableEq, Repr

/-- The tokens `decoder.Token()` delivers (parser.go:103-127); names are `Name.Local`.  The decoder itself is not
modelled: a file is the list of tokens delivered before the first nil token, be it EOF or a syntax error
(parser.go:103-106 discards the error). -/
inductive Token where
  | start (name : Str) (attrs : List Attr)
  | stop (name : Str)
  | text (s : Str)
  /-- comments, processing instructions, directives: the `default:` case, parser.go:126 -/
  | other
deriving DecidableEq, Repr

/-- What `os.Stat` / `os.Open` see at a path that exists (parser.go:67-78, 174-180). -/
inductive Entry where
  | dir
  /-- a regular file that can be opened, as its tokens -/
  | file (toks : List Token)
  /-- exists, is not a directory, cannot be opened -/
  | noOpen
deriving DecidableEq, Repr

/-- Everything outside the program (the calls at parser.go:67, 75, 135, 174, utils.go:224, genGo.go:70, 89).  Simplifications: the input files do not change during a run; only finitely many
path strings exist (true on every real system because of PATH_MAX); writes to a created file succeed. -/
structure World where
  /-- existing paths -/
  fs : GoMap Entry
  /-- `isValidURL`, utils.go:224-236 (net/url is not modelled) -/
  isURL : Str → Bool
  /-- `format.Source`, `none` is an error (genGo.go:89; go/format is not modelled) -/
  gofmt : Str → Option Str
  /-- `PrepareOutputDir(path) == nil`, utils.go:63-74 -/
  mkdirOk : Str → Bool
  /-- `os.Create(path)` succeeds -/
  createOk : Str → Bool
  /-- Go map iteration: an arbitrary sequence of choices -/
  pick : Nat → Nat

/-- The fields of `Options` that are set by the caller and never change (parser.go:25-31), with the initial
`ProtoTree` (always empty in this repository). -/
structure Cfg where
  filePath : Str
  inputDir : Str := []
  outputDir : Str := []
  extract : Bool := false
  lang : Str := []
  package : Str := []
  tree0 : Tree := []
deriving DecidableEq, Repr

/-- `opt.FileDir`, parser.go:65 -/
def Cfg.fileDir (c : Cfg) : Str := pathDir c.filePath

/-- The maps shared by a parser and the parsers it starts (parser.go:32-36, passed on at parser.go:187-191, 214-218,
235-239), and the effects on the outside. -/
structure Shared where
  includeMap : GoMap Bool := []
  localNS : GoMap Str := []
  nsLoc : GoMap Str := []
  parseFileList : GoMap Bool := []
  parseFileMap : GoMap Tree := []
  /-- files written, in order: path and content -/
  outputs : List (Str × Str) := []
  /-- number of map-iteration choices made so far -/
  tick : Nat := 0
  /-- ghost (not in the code): the parses that got past `os.Open`, in order, with their Extract flag -/
  log : List (Str × Bool) := []
deriving DecidableEq, Repr

/-- The fields of `Options` that each `Parse` resets (parser.go:84-98).  Stacks have their top at the head.
`*Element` pointers are heap addresses because one element can be on the stack twice (xmlElement.go:58 and :90) and in
the tree (xmlElement.go:97) at the same time; all other component pointers are never aliased, so they are values. -/
structure PState where
  heap : List Element := []
  proto : PTree := []
  inElement : Str := []
  currentEle : Str := []
  inGroup : Int := 0
  inUnion : Bool := false
  inAttributeGroup : Bool := false
  simpleType : Stack SimpleType := []
  complexType : Stack ComplexType := []
  element : Stack Nat := []
  attrSt : Stack Attribute := []
  group : Stack Group := []
  attributeGroup : Stack AttributeGroup := []
  choice : Stack Choice := []
deriving DecidableEq, Repr

/-- State of a running parser: the part of `Options` (parser.go:24-53) it shares with other parsers and its own. -/
structure St where
  sh : Shared := {}
  p : PState := {}
deriving DecidableEq, Repr

/-- `*ptr` for an `*Element` on the Element stack or in the tree (e.g. xmlRestriction.go:49) -/
def PState.deref (p : PState) (a : Nat) : Element := (p.heap[a]?).getD {}

/-- A tree entry with its element pointer followed, as utils.go:159-162 reads it. -/
def Node.deref (h : Nat → Element) : Node Nat → Node Element
  | .simple v => .simple v
  | .attr v => .attr v
  | .elem a => .elem (h a)
  | .complex v => .complex v
  | .group v => .group v
  | .attrGroup v => .attrGroup v

/-- The tree as a reader of `opt.ProtoTree` sees it now (parser.go:113, 133, 143). -/
def PState.freeze (p : PState) : Tree := p.proto.map (Option.map (Node.deref p.deref))

/-- `opt.ProtoTree = append(opt.ProtoTree, x)`, xmlAttribute.go:60, xmlAttributeGroup.go:48, xmlComplexType.go:42,
xmlElement.go:97, xmlGroup.go:65, xmlSimpleType.go:39, 44 -/
def PState.append (p : PState) (n : Option (Node Nat)) : PState := { p with proto := p.proto ++ [n] }

/-- Statements that change only the parser's own fields of `Options` (parser.go:37-53). -/
def onP (f : PState → PState) : Go St Unit := Go.modify (fun s => { s with p := f s.p })

/-- Statements that change only the shared maps of `Options` (parser.go:32-36). -/
def onSh (f : Shared → Shared) : Go St Unit := Go.modify (fun s => { s with sh := f s.sh })

@[simp] theorem onP_apply (f : PState → PState) (s : St) : onP f s = .ok () { s with p := f s.p } := rfl
@[simp] theorem onSh_apply (f : Shared → Shared) (s : St) : onSh f s = .ok () { s with sh := f s.sh } := rfl

end Xgen
