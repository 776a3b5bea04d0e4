import Verif.Model.Base

/-! # Package path/filepath on Unix, as used by parser.go, and `FileWithExtension` (genGo.go:330-338) -/

namespace Xgen

/-- Lexical processing of path components in `filepath.Clean`: drop empty and "." components, let ".." cancel the
preceding ordinary component, drop ".." at the root.  `acc` is the output so far, last component first.
(Standard library; reached through `filepath.Join` and `Dir`, parser.go:65, 134, 135, 172, 183.) -/
def cleanComps (rooted : Bool) : (comps acc : List Str) → List Str
  | [], acc => acc
  | c :: cs, acc =>
    if c = [] || c = c!"." then cleanComps rooted cs acc
    else if c = c!".." then
      match acc with
      | [] => if rooted then cleanComps rooted cs [] else cleanComps rooted cs [c!".."]
      | top :: rest => if top = c!".." then cleanComps rooted cs (c!".." :: top :: rest) else cleanComps rooted cs rest
    else cleanComps rooted cs (c :: acc)

/-- Components joined by "/" (inside `filepath.Clean`, reached from parser.go:65, 134, 172, 183). -/
def joinSlash : List Str → Str
  | [] => []
  | [p] => p
  | p :: q :: ps => p ++ '/' :: joinSlash (q :: ps)

/-- `filepath.Clean` (called by `Join` and `Dir`, parser.go:65, 134, 135, 172, 183). -/
def clean (p : Str) : Str :=
  match p with
  | [] => c!"."
  | c :: _ =>
    if c = '/' then '/' :: joinSlash (cleanComps true (splitOn '/' p) []).reverse
    else
      match (cleanComps false (splitOn '/' p) []).reverse with
      | [] => c!"."
      | comps => joinSlash comps

/-- `filepath.Join(a, b)`: empty leading elements are skipped; parser.go:134, 172, 183. -/
def pathJoin (a b : Str) : Str :=
  if a ≠ [] then clean (a ++ '/' :: b)
  else if b ≠ [] then clean b
  else []

/-- `filepath.Dir`, parser.go:65, 135. -/
def pathDir (p : Str) : Str := clean (p.reverse.dropWhile (fun c => c ≠ '/')).reverse

/-- `CodeGenerator.FileWithExtension`, genGo.go:330-338. -/
def fileWithExtension (file extension : Str) : Str :=
  let extension := if hasPrefix extension c!"." then extension else '.' :: extension
  if hasSuffix file extension then file else file ++ extension

end Xgen
