import Verif.Model.Disk

/-!
# Runs that are interrupted, and writes that fail

`os.Create` empties the file or makes it (genGo.go:70, genC.go:48, genJava.go:43, genRust.go:107, genTypeScript.go:39); one
`f.Write` or `f.WriteString` follows (genGo.go:91, 94, genC.go:54, genJava.go:62, genRust.go:119, genTypeScript.go:45), the
result of which nobody looks at; before that `os.MkdirAll` makes the missing directories one after the other
(utils.go:63-74, called at parser.go:135).

Simplifications: an interruption is one of the process, so what was written stays written; directories made for a file
whose creation then fails are not seen.
-/

namespace Xgen.Disk
variable [Uni] [Xml.NameChars]

/-- What a run that would write `outs` has done to the disk when it is stopped: the files written, with as much of the
text as was written, and the places of the directories made for the next one.  It is stopped before the next file is
created (parser.go:64-135, utils.go:63-74), or between `os.Create` and the end of `f.Write` (genGo.go:70-94, genC.go:48-54,
genJava.go:43-62, genRust.go:107-119, genTypeScript.go:39-45). -/
inductive Stopped (cwd : List Str) (outs : List (Str × Str)) : List (Str × Str) → List (List Str) → Prop
  | before (k : Nat) (dirs : List (List Str)) (h : ∀ d ∈ dirs, ∃ o, outs[k]? = some o ∧ d <+: place cwd o.1) :
    Stopped cwd outs (outs.take k) dirs
  | during (k : Nat) (o : Str × Str) (h : outs[k]? = some o) (part : Str) (hp : part <+: o.2) :
    Stopped cwd outs (outs.take k ++ [(o.1, part)]) []

/-- What is then found at `p` (parser.go:67, 75, 174): as `look` says, or one of those directories. -/
def lookStopped (W : World) (cwd : List Str) (left : List (Str × Str)) (dirs : List (List Str)) (p : Str) : Option Entry :=
  match look W cwd left p with
  | some e => some e
  | none => if place cwd p ∈ dirs then some .dir else none

/-- What reaches the disk when of the text given to `f.Write` for `p` only `keep p text` is stored (genGo.go:91, 94,
genC.go:54, genJava.go:62, genRust.go:119, genTypeScript.go:45). -/
def stored (keep : Str → Str → Str) (outs : List (Str × Str)) : List (Str × Str) :=
  outs.map fun o => (o.1, keep o.1 o.2)

/-- The loop of `main` (xgen.go:108-126), looking at files as `see` says -/
def mainLoopSee (see : Shared → Str → World) (n : Nat) (c : Config) : List Str → Shared → Exit × Shared
  | [], sh => (.done, sh)
  | f :: fs, sh =>
    match parseSee see n (mainCfg c f) { outputs := sh.outputs, tick := sh.tick, log := sh.log } with
    | .ok _ sh => mainLoopSee see n c fs sh
    | .err _ sh => (.code 1, sh)
    | .halt .panic sh => (.panic, sh)
    | .halt (.exit k) sh => (.code k, sh)
    | .halt .fuel sh => (.fuel, sh)

/-- `main` (xgen.go:101-128), looking at files as `see` says; `W` is the disk when the list of files is made -/
def mainSee (see : Shared → Str → World) (W : World) (n : Nat) (walk : Str → List Str) (f : Flags) : Exit × Shared :=
  match parseFlags f with
  | .exit k => (.code k, {})
  | .go c =>
    match getFileList W walk c.i with
    | none => (.code 1, {})
    | some files => mainLoopSee see n c files {}

/-- `main` (xgen.go:101-128) on a disk that keeps of every text only `keep p text`. -/
def mainStored (keep : Str → Str → Str) (W : World) (cwd : List Str) (n : Nat) (walk : Str → List Str) (f : Flags) :
    Exit × Shared :=
  mainSee (fun sh p => nowAt W cwd (stored keep sh.outputs) p) W n walk f

end Xgen.Disk
