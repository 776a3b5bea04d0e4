import Verif.Model.Cli

/-! # The standard library below cmd/xgen/xgen.go and `GetFileList`: `flag.Parse` and `filepath.Walk` -/

namespace Xgen
variable [Uni]

/-- The string flags, xgen.go:63-66. -/
def stringFlags : List Str := [c!"i", c!"o", c!"p", c!"l"]

/-- The boolean flags, xgen.go:67-68. -/
def boolFlags : List Str := [c!"v", c!"h"]

/-- `Value.Set` of a string flag: the pointers of xgen.go:63-66. -/
def setString (n v : Str) (f : Flags) : Flags :=
  if n = c!"i" then { f with i := v }
  else if n = c!"o" then { f with o := v }
  else if n = c!"p" then { f with p := v }
  else { f with l := v }

/-- `Value.Set` of a boolean flag: the pointers of xgen.go:67-68. -/
def setBool (n : Str) (b : Bool) (f : Flags) : Flags :=
  if n = c!"v" then { f with v := b } else { f with h := b }

/-- `strconv.ParseBool` (reached from xgen.go:69). -/
def parseBool (s : Str) : Option Bool :=
  if [c!"1", c!"t", c!"T", c!"true", c!"TRUE", c!"True"].contains s then some true
  else if [c!"0", c!"f", c!"F", c!"false", c!"FALSE", c!"False"].contains s then some false
  else none

/-- The name of a flag and the value after the first "=" that is not its first character (`FlagSet.parseOne`, reached
from xgen.go:69; the loop starts at index 1, and names that begin with "=" are rejected before). -/
def cutEq : Str → Str × Option Str
  | [] => ([], none)
  | c :: r =>
    match r.dropWhile (· ≠ '=') with
    | [] => (c :: r, none)
    | _ :: v => (c :: r.takeWhile (· ≠ '='), some v)

/-- What `flag.Parse` does: return with the values set, or leave the process (xgen.go:69; `flag.CommandLine` uses `ExitOnError`). -/
inductive Parsed where
  | flags (f : Flags)
  | exit (code : Nat)
deriving DecidableEq, Repr

/-- `flag.Parse` on `os.Args[1:]`, xgen.go:69: `FlagSet.Parse` calls `parseOne` until it stops.  It stops at the end, at an
argument that does not begin with "-" or is only "-", and after "--"; what is left is never looked at.  Errors (bad syntax,
undefined name, missing value, bad boolean) print the usage and exit with 2; `-help`, which is not defined, exits with 0
(`-h` is defined). -/
def flagParse : List Str → Flags → Parsed
  | [], f => .flags f
  | ('-' :: c :: t) :: rest, f =>
    if c = '-' && t = [] then .flags f
    else
      let name := if c = '-' then t else c :: t
      if name.head? = some '-' || name.head? = some '=' then .exit 2
      else
        let (n, value) := cutEq name
        if stringFlags.contains n then
          match value with
          | some v => flagParse rest (setString n v f)
          | none =>
            match rest with
            | [] => .exit 2
            | v :: rest => flagParse rest (setString n v f)
        else if boolFlags.contains n then
          match value with
          | none => flagParse rest (setBool n true f)
          | some v =>
            match parseBool v with
            | some b => flagParse rest (setBool n b f)
            | none => .exit 2
        else if n = c!"help" then .exit 0
        else .exit 2
  | _ :: _, f => .flags f

/-- What is in a directory, as `filepath.Walk` (utils.go:49) sees it: entries in the order of `readDirNames`, which sorts
them.  `leaf` is everything that is not a directory for `os.Lstat`: files, symbolic links, entries that cannot be examined.
A directory that cannot be read is one without entries. -/
inductive Forest where
  | nil
  | leaf (name : Str) (next : Forest)
  | dir (name : Str) (sub next : Forest)
deriving DecidableEq, Repr

/-- The paths `filepath.Walk` visits below `path`, utils.go:49-52 (the callback never returns an error). -/
def walkBelow (path : Str) : Forest → List Str
  | .nil => []
  | .leaf n k => pathJoin path n :: walkBelow path k
  | .dir n s k => pathJoin path n :: (walkBelow (pathJoin path n) s ++ walkBelow path k)

/-- `filepath.Walk`, utils.go:49-52, for what `os.Lstat` says about each path: `none` for anything but a directory. -/
def walkFrom (lstat : Str → Option Forest) (path : Str) : List Str :=
  match lstat path with
  | none => [path]
  | some d => path :: walkBelow path d

/-- The whole command, xgen.go:101-128 with `os.Args[1:]` and the file system. -/
def xgen (W : World) (lstat : Str → Option Forest) (args : List Str) : Exit × Shared :=
  match flagParse args {} with
  | .exit n => (.code n, {})
  | .flags f => main' W (walkFrom lstat) f

end Xgen
