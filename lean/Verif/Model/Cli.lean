import Verif.Model.Parser

/-! # cmd/xgen/xgen.go and `GetFileList` (utils.go:41-59) -/

namespace Xgen
variable [Uni]

/-- The values of the flags after `flag.Parse` (xgen.go:63-69), which is modelled in `Model.Flag`. -/
structure Flags where
  i : Str := []
  o : Str := c!"xgen_out"
  p : Str := []
  l : Str := []
  v : Bool := false
  h : Bool := false
deriving DecidableEq, Repr

/-- `Config`, xgen.go:37-43 without the constant version -/
structure Config where
  i : Str := []
  o : Str := []
  pkg : Str := c!"schema"
  lang : Str := []
deriving DecidableEq, Repr

/-- What `parseFlags` does: `os.Exit` or return, xgen.go:70-98. -/
inductive Decision where
  | exit (code : Nat)
  | go (cfg : Config)
deriving DecidableEq, Repr

/-- `SupportLang`, xgen.go:53-59 -/
def supportLang : List Str := [c!"Go", c!"C", c!"Java", c!"Rust", c!"TypeScript"]

/-- `parseFlags`, xgen.go:62-99 (what it prints: `Model.Print`) -/
def parseFlags (f : Flags) : Decision :=
  if f.h then .exit 0
  else if f.v then .exit 0
  else if f.i = [] then .exit 1
  else if f.l = [] then .exit 1
  else if !supportLang.contains f.l then .exit 1
  else .go { i := f.i, o := f.o, pkg := if f.p ≠ [] then f.p else c!"schema", lang := f.l }

/-- `GetFileList`, utils.go:42-59.  `walk path` is the list of paths `filepath.Walk` visits below a directory, in its
order (`walkFrom` in `Model.Flag`; the callback ignores errors, so `Walk` returns nil).  `none`: `os.Stat` failed. -/
def getFileList (W : World) (walk : Str → List Str) (path : Str) : Option (List Str) :=
  match W.fs.get? path with
  | none => none
  | some .dir => some (walk path ++ [path])
  | some _ => some [path]

/-- The options `main` builds for a file, xgen.go:109-122 -/
def mainCfg (c : Config) (file : Str) : Cfg :=
  { filePath := file, inputDir := c.i, outputDir := c.o, lang := c.lang, package := c.pkg }

/-- How the process ends, xgen.go:101-128. -/
inductive Exit where
  /-- prints "done", exit code 0 -/
  | done
  | code (n : Nat)
  | panic
  /-- budget of the model (impossible, C22) -/
  | fuel
deriving DecidableEq, Repr

/-- The loop of `main`, xgen.go:108-126: every file with fresh maps; the first error ends the process.  The state
threaded through is what outlives a parser: files written, map-iteration choices and the ghost log. -/
def mainLoop (W : World) (c : Config) : List Str → Shared → Exit × Shared
  | [], sh => (.done, sh)
  | f :: fs, sh =>
    match Parse W (mainCfg c f) { outputs := sh.outputs, tick := sh.tick, log := sh.log } with
    | .ok _ sh => mainLoop W c fs sh
    | .err _ sh => (.code 1, sh)
    | .halt .panic sh => (.panic, sh)
    | .halt (.exit n) sh => (.code n, sh)
    | .halt .fuel sh => (.fuel, sh)

/-- `main`, xgen.go:101-128 -/
def main' (W : World) (walk : Str → List Str) (f : Flags) : Exit × Shared :=
  match parseFlags f with
  | .exit n => (.code n, {})
  | .go c =>
    match getFileList W walk c.i with
    | none => (.code 1, {})
    | some files => mainLoop W c files {}

end Xgen
