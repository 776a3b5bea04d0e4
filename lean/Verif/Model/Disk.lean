import Verif.Model.Cli
import Verif.Model.Xml

/-!
# The run on a disk that changes as files are written

In `Model.Parser` the files a parser reads are those present at the start (`World.fs`); files written are collected and
never read.  Here every `os.Stat`/`os.Open` sees the disk as it is at that moment: files written before, decoded as XML
like any other file, and the directories made for them.  The definitions below repeat the recursion of `Model.Parser`
with the file system looked at anew in each of the two places that read it (parser.go:67-79 and parser.go:174).

Simplifications: no symbolic links; whether `PrepareOutputDir` and `os.Create` succeed is still given by `World`
(utils.go:63-74, genGo.go:89); directories made for a file whose creation then fails are not seen.
-/

namespace Xgen.Disk
variable [Uni] [Xml.NameChars]

/-- The place in the tree of directories a path names from the working directory `cwd`: how the operating system reads
the paths at parser.go:67, 75, 174. -/
def place (cwd : List Str) (p : Str) : List Str :=
  (splitOn '/' p).foldl (fun pos c => if c = [] ∨ c = c!"." then pos else if c = c!".." then pos.dropLast else pos ++ [c])
    (if p.head? = some '/' then [] else cwd)

/-- What `os.Stat` and `os.Open` find at `p` (parser.go:67, 75, 174) after the files `outs` were written (parser.go:135,
147): the last one written there, else what was there at the start, else a directory made for a file below it. -/
def look (W : World) (cwd : List Str) (outs : List (Str × Str)) (p : Str) : Option Entry :=
  match outs.reverse.find? (fun o => place cwd o.1 = place cwd p) with
  | some o => some (.file (Xml.decode o.2))
  | none =>
    match W.fs.get? p with
    | some e => some e
    | none => if outs.any (fun o => (place cwd p).isPrefixOf (place cwd o.1)) then some .dir else none

/-- The surroundings with the disk as it is now, correct for the one path `p` looked at (parser.go:67, 75, 174). -/
def nowAt (W : World) (cwd : List Str) (outs : List (Str × Str)) (p : Str) : World :=
  match look W cwd outs p with
  | some e => { W with fs := (p, e) :: W.fs }
  | none => W

/-- The path `GetValueType` looks at, parser.go:168-174 -/
def asked (cfg : Cfg) (value : Str) (sh : Shared) : Str :=
  pathJoin cfg.fileDir (sh.nsLoc.getStr (sh.localNS.getStr (getNSPrefix value)))

/-- `GetValueType` in a running parser (parser.go:156-247), where `see sh p` is what is found when `p` is looked at in
state `sh`. -/
def gvtSee (see : Shared → Str → World) (rec : Cfg → Go Shared Tree) (cfg : Cfg) : Gvt := fun v s =>
  gvtOf (see s.sh (asked cfg v s.sh)) rec cfg v s

/-- parser.go:80-152, once the file is open -/
def parseOpenSee (see : Shared → Str → World) (rec : Cfg → Go Shared Tree) (cfg : Cfg) (toks : List Token) :
    Go Shared Tree := fun sh =>
  match run (see sh cfg.filePath) (gvtSee see rec cfg) toks { sh := beginParse cfg sh, p := {} } with
  | .ok _ s => finish (see s.sh cfg.filePath) cfg s.p.freeze s.sh
  | .err e s => .err e s.sh
  | .halt h s => .halt h s.sh

/-- One level of `Parse`, parser.go:64-152 -/
def parseWithSee (see : Shared → Str → World) (rec : Cfg → Go Shared Tree) (cfg : Cfg) : Go Shared Tree := fun sh =>
  match (see sh cfg.filePath).fs.get? cfg.filePath with
  | none => .err (.stat cfg.filePath) sh
  | some .dir => .ok cfg.tree0 sh
  | some .noOpen => .err (.open cfg.filePath) sh
  | some (.file toks) => parseOpenSee see rec cfg toks sh

/-- `Parse`, parser.go:64-152, with at most `n` nested levels -/
def parseSee (see : Shared → Str → World) : Nat → Cfg → Go Shared Tree
  | 0, _ => fun sh => .halt .fuel sh
  | n + 1, cfg => parseWithSee see (parseSee see n) cfg

/-- `Parse` (parser.go:64-152) on the disk as it is. -/
def parseNow (W : World) (cwd : List Str) (n : Nat) (cfg : Cfg) : Go Shared Tree :=
  parseSee (fun sh p => nowAt W cwd sh.outputs p) n cfg

/-- The loop of `main`, xgen.go:108-126 -/
def mainLoopNow (W : World) (cwd : List Str) (n : Nat) (c : Config) : List Str → Shared → Exit × Shared
  | [], sh => (.done, sh)
  | f :: fs, sh =>
    match parseNow W cwd n (mainCfg c f) { outputs := sh.outputs, tick := sh.tick, log := sh.log } with
    | .ok _ sh => mainLoopNow W cwd n c fs sh
    | .err _ sh => (.code 1, sh)
    | .halt .panic sh => (.panic, sh)
    | .halt (.exit k) sh => (.code k, sh)
    | .halt .fuel sh => (.fuel, sh)

/-- `main`, xgen.go:101-128: the list of files is made before anything is written. -/
def mainNow (W : World) (cwd : List Str) (n : Nat) (walk : Str → List Str) (f : Flags) : Exit × Shared :=
  match parseFlags f with
  | .exit k => (.code k, {})
  | .go c =>
    match getFileList W walk c.i with
    | none => (.code 1, {})
    | some files => mainLoopNow W cwd n c files {}

end Xgen.Disk
