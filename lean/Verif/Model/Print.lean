import Verif.Model.Flag

/-!
# What the command prints

cmd/xgen/xgen.go and parser.go:136 print to the standard output.  What the packages `flag` (usage, bad flags) and `runtime`
(panics) print goes to the standard error and is not part of it.
-/

namespace Xgen.Print
variable [Uni]

/-- The texts of errors (`err.Error()`, xgen.go:104, 123, parser.go:136), which come from `os`, `strconv` and `go/format`. -/
structure Texts where
  /-- of the error that `Parse` returns for a file, xgen.go:123 -/
  parse : Str → Err → Str
  /-- of the error of `os.Stat` for the input, xgen.go:104 with utils.go:44 -/
  stat : Str → Str
  /-- of the error of `PrepareOutputDir` that ends the process, parser.go:136 -/
  mkdir : Str

/-- The line break `\r\n` of the texts in xgen.go:71, 75, 123 -/
def crlf : Str := [Char.ofNat 13, '\n']

/-- `Cfg.Version`, xgen.go:49 -/
def version : Str := c!"0.1.0"

/-- The text for `-v`, xgen.go:75, with which that for `-h` begins, xgen.go:71 -/
def versionText : Str := c!"xgen version: " ++ version ++ crlf

/-- The text for `-h`, xgen.go:71 -/
def helpText : Str :=
  versionText ++ c!"Copyright (c) 2020 - 2022 Ri Xu https://xuri.me All rights reserved." ++ crlf ++ crlf ++
  c!"Usage:" ++ crlf ++ c!"$ xgen [<flag> ...] <XSD file or directory> ...\n" ++
  c!"  -i <path>\tInput file path or directory for the XML schema definition" ++ crlf ++
  c!"  -o <path>\tOutput file path or directory for the generated code" ++ crlf ++
  c!"  -p     \tSpecify the package name" ++ crlf ++
  c!"  -l      \tSpecify the language of generated code (Go/C/Java/Rust/TypeScript)" ++ crlf ++
  c!"  -h     \tOutput this help and exit" ++ crlf ++
  c!"  -v     \tOutput version and exit" ++ crlf

/-- `fmt.Println` of one text, xgen.go:79, 84, 104, 127, parser.go:136 -/
def line (s : Str) : Str := s ++ ['\n']

/-- What `parseFlags` prints, xgen.go:70-94 -/
def flagsText (f : Flags) : Str :=
  if f.h then helpText
  else if f.v then versionText
  else if f.i = [] then line c!"must specify input file path or directory for the XML schema definition"
  else if f.l = [] then line c!"must specify the language of generated code (Go/C/Java/Rust/TypeScript)"
  else if !supportLang.contains f.l then line (c!"unsupport language " ++ f.l)
  else []

/-- What is printed for an error of `Parse`, xgen.go:123 -/
def errorText (T : Texts) (file : Str) (e : Err) : Str :=
  c!"process error on " ++ file ++ c!": " ++ T.parse file e ++ crlf

/-- What the loop of `main` prints until the process ends, xgen.go:108-127; at parser.go:136 an error is printed before
`os.Exit`.  The files are those of `mainLoop`. -/
def loopText (W : World) (T : Texts) (c : Config) : List Str → Shared → Str
  | [], _ => line c!"done"
  | f :: fs, sh =>
    match Parse W (mainCfg c f) { outputs := sh.outputs, tick := sh.tick, log := sh.log } with
    | .ok _ sh => loopText W T c fs sh
    | .err e _ => errorText T f e
    | .halt (.exit _) _ => line T.mkdir
    | .halt _ _ => []

/-- What `main` prints, xgen.go:101-128 -/
def mainText (W : World) (T : Texts) (walk : Str → List Str) (f : Flags) : Str :=
  match parseFlags f with
  | .exit _ => flagsText f
  | .go c =>
    match getFileList W walk c.i with
    | none => line (T.stat c.i)
    | some files => loopText W T c files {}

/-- What the command prints, xgen.go:101-128 with `os.Args[1:]` and the file system. -/
def xgenText (W : World) (T : Texts) (lstat : Str → Option Forest) (args : List Str) : Str :=
  match flagParse args {} with
  | .exit _ => []
  | .flags f => mainText W T (walkFrom lstat) f

end Xgen.Print
