import Verif.Model.Handlers
import Verif.Model.GenGo
import Verif.Model.GenC
import Verif.Model.GenJava
import Verif.Model.GenRust
import Verif.Model.GenTS

/-! # parser.go -/

namespace Xgen
variable [Uni]

/-! ## Dispatch by method name (parser.go:111-121, utils.go:207-220) -/

/-- The methods of `*Options` named "On…": one per file xml*.go (e.g. xmlElement.go:17). -/
inductive OnKind where
  | «attribute» | attributeGroup | charData | choice | complexType | element | enumeration | extension | group
  | «import» | «include» | list | restriction | schema | simpleType | union
deriving DecidableEq, Repr

/-- The methods of `*Options` named "End…"; `facet` stands for the ten equal ones (xmlLength.go:16 etc.). -/
inductive EndKind where
  | «attribute» | attributeGroup | choice | complexType | element | enumeration | extension | facet | group | pattern
  | restriction | simpleType | union
deriving DecidableEq, Repr

/-- Method name (after "On") to method: `reflect.Value.MethodByName`, utils.go:208. -/
def onTable : GoMap OnKind :=
  [(c!"Attribute", .attribute), (c!"AttributeGroup", .attributeGroup), (c!"CharData", .charData),
   (c!"Choice", .choice), (c!"ComplexType", .complexType), (c!"Element", .element),
   (c!"Enumeration", .enumeration), (c!"Extension", .extension), (c!"Group", .group), (c!"Import", .import),
   (c!"Include", .include), (c!"List", .list), (c!"Restriction", .restriction), (c!"Schema", .schema),
   (c!"SimpleType", .simpleType), (c!"Union", .union)]

/-- Method name (after "End") to method: `reflect.Value.MethodByName`, utils.go:208. -/
def endTable : GoMap EndKind :=
  [(c!"Attribute", .attribute), (c!"AttributeGroup", .attributeGroup), (c!"Choice", .choice),
   (c!"ComplexType", .complexType), (c!"Element", .element), (c!"Enumeration", .enumeration),
   (c!"Extension", .extension), (c!"FractionDigits", .facet), (c!"Group", .group), (c!"Length", .facet),
   (c!"MaxExclusive", .facet), (c!"MaxInclusive", .facet), (c!"MaxLength", .facet), (c!"MinExclusive", .facet),
   (c!"MinInclusive", .facet), (c!"MinLength", .facet), (c!"Pattern", .pattern), (c!"Restriction", .restriction),
   (c!"SimpleType", .simpleType), (c!"TotalDigits", .facet), (c!"Union", .union), (c!"WhiteSpace", .facet)]

/-- parser.go:112 -/
def onKind (name : Str) : Option OnKind := onTable.get? (makeFirstUpperCase name)

/-- parser.go:118 -/
def endKind (name : Str) : Option EndKind := endTable.get? (makeFirstUpperCase name)

/-- A reflective call of the start handler, parser.go:113, utils.go:210.  `OnCharData` expects a string where a start element is passed, so the call
panics (reflect.Value.Call). -/
def callOn (W : World) (gvt : Gvt) (attrs : List Attr) : OnKind → Go St Unit
  | .attribute => onAttribute gvt attrs
  | .attributeGroup => onAttributeGroup gvt attrs
  | .charData => Go.panic
  | .choice => onChoice attrs
  | .complexType => onComplexType attrs
  | .element => onElement gvt attrs
  | .enumeration => onP (onEnumeration attrs)
  | .extension => onExtension gvt attrs
  | .group => onGroup gvt attrs
  | .import => onSh (onImport W.isURL attrs)
  | .include => onSh (onInclude attrs)
  | .list => onList gvt attrs
  | .restriction => onRestriction gvt attrs
  | .schema => onSh (onSchema attrs)
  | .simpleType => onP (onSimpleType attrs)
  | .union => onUnion gvt attrs

/-- A reflective call of the end handler, parser.go:119, utils.go:210. -/
def callEnd (gvt : Gvt) (name : Str) : EndKind → Go St Unit
  | .attribute => onP endAttribute
  | .attributeGroup => onP endAttributeGroup
  | .choice => onP endChoice
  | .complexType => onP endComplexType
  | .element => onP endElement
  | .enumeration => endEnumeration gvt
  | .extension => endExtension gvt
  | .facet => facetEnd gvt
  | .group => onP (endGroup name)
  | .pattern => endPattern gvt
  | .restriction => endRestriction gvt
  | .simpleType => onP (endSimpleType name)
  | .union => onP endUnion

/-- One iteration of the token loop, parser.go:108-127 -/
def step (W : World) (gvt : Gvt) : Token → Go St Unit
  | .start name attrs => do
    onP fun p => { p with inElement := name }
    match onKind name with
    | none => pure ()
    | some k => callOn W gvt attrs k
  | .stop name =>
    match endKind name with
    | none => pure ()
    | some k => callEnd gvt name k
  | .text s => onP (onCharData s)
  | .other => pure ()

/-- The token loop, parser.go:102-129 -/
def run (W : World) (gvt : Gvt) : List Token → Go St Unit
  | [] => pure ()
  | t :: ts => do
    step W gvt t
    run W gvt ts

/-! ## GetValueType (parser.go:156-247) -/

/-- One choice of the range loop over the Go map at parser.go:181 (language specification, "For statements with range clause"): an entry
not visited yet is visited next, in any order; an entry added during the iteration may be visited or not; every entry
present at the start is visited.  `none`: the loop ends. -/
def nextKey (W : World) (init visited : List Str) (sh : Shared) : Option Str :=
  let cands := sh.includeMap.keys.filter (fun k => !visited.contains k)
  let mustGo := init.any (fun k => !visited.contains k)
  let i := if mustGo then W.pick sh.tick % cands.length else W.pick sh.tick % (cands.length + 1)
  cands[i]?

/-- The options of a nested parser (parser.go:182-193, 209-220, 230-241): no input directory, no package. -/
def nestedCfg (cfg : Cfg) (path : Str) (extract : Bool) : Cfg :=
  { filePath := path, outputDir := cfg.outputDir, extract := extract, lang := cfg.lang }

/-- The loop over `opt.IncludeMap`, parser.go:181-204.  `rec` is `Parse`.  Returns the final `valueType`. -/
def includeLoop (W : World) (rec : Cfg → Go Shared Tree) (cfg : Cfg) (name : Str) (init : List Str) :
    Nat → List Str → Str → Go Shared Str
  | 0, _, _ => fun sh => .halt .fuel sh
  | k + 1, visited, valueType => fun sh =>
    let key := nextKey W init visited sh
    let sh := { sh with tick := sh.tick + 1 }
    match key with
    | none => .ok (if valueType = [] then name else valueType) sh
    | some inc =>
      match rec (nestedCfg cfg (pathJoin cfg.fileDir inc) true) sh with
      | .halt h sh => .halt h sh
      | .err _ sh => .ok valueType sh
      | .ok tree sh =>
        let vt := getBasefromSimpleType name tree
        includeLoop W rec cfg name init k (inc :: visited) (if vt ≠ name then vt else valueType) sh

/-- Number of XML attributes in a token (not in the code: serves the bound on the loop at parser.go:181). -/
def Token.size : Token → Nat
  | .start _ attrs => attrs.length
  | _ => 0

/-- Number of XML attributes in a file (not in the code: serves the bound on the loop at parser.go:181). -/
def Entry.size : Entry → Nat
  | .file toks => (toks.map Token.size).sum
  | _ => 0

/-- Number of XML attributes in all files: a bound on the number of entries any run can add to the include map
(not in the code: serves the bound on the loop at parser.go:181, see C22). -/
def World.size (W : World) : Nat := (W.fs.map (fun e => e.2.size)).sum

/-- parser.go:226-246, with `depXSDSchema` known -/
def resolveInDep (rec : Cfg → Go Shared Tree) (cfg : Cfg) (name xsdFile : Str) (dep : Tree) :
    Go Shared (Str × Option Err) := fun sh =>
  let valueType := getBasefromSimpleType name dep
  if valueType ≠ name && valueType ≠ [] then .ok (valueType, none) sh
  else
    match rec (nestedCfg cfg xsdFile true) sh with
    | .halt h sh => .halt h sh
    | .err _ sh => .ok (valueType, none) sh
    | .ok tree sh => .ok (getBasefromSimpleType name tree, none) sh

/-- parser.go:207-246, for a regular file `xsdFile` -/
def resolveInFile (rec : Cfg → Go Shared Tree) (cfg : Cfg) (name valueType xsdFile : Str) :
    Go Shared (Str × Option Err) := fun sh =>
  match sh.parseFileMap.get? xsdFile with
  | some dep => resolveInDep rec cfg name xsdFile dep sh
  | none =>
    match rec (nestedCfg cfg xsdFile false) sh with
    | .halt h sh => .halt h sh
    | .err _ sh => .ok (valueType, none) sh
    | .ok tree sh => resolveInDep rec cfg name xsdFile tree sh

/-- parser.go:168-246: look the name up in the schema its namespace was imported from, or in the includes -/
def resolveOutside (W : World) (rec : Cfg → Go Shared Tree) (cfg : Cfg) (value valueType : Str) :
    Go Shared (Str × Option Err) := fun sh =>
  let name := trimNSPrefix value
  let schemaLocation := sh.nsLoc.getStr (sh.localNS.getStr (getNSPrefix value))
  if W.isURL schemaLocation then .ok (valueType, none) sh
  else
    let xsdFile := pathJoin cfg.fileDir schemaLocation
    match W.fs.get? xsdFile with
    | none => .ok (valueType, some (.stat xsdFile)) sh
    | some .dir =>
      match includeLoop W rec cfg name sh.includeMap.keys (sh.includeMap.length + W.size + 1) [] [] sh with
      | .ok vt sh => .ok (vt, none) sh
      | .err e sh => .err e sh
      | .halt h sh => .halt h sh
    | some _ => resolveInFile rec cfg name valueType xsdFile sh

/-- `GetValueType(value, tree)`, parser.go:156-247; `rec` is `Parse` of a nested parser -/
def getValueType (W : World) (rec : Cfg → Go Shared Tree) (cfg : Cfg) (value : Str) (tree : Tree) :
    Go Shared (Str × Option Err) := fun sh =>
  let name := trimNSPrefix value
  match getBuildInTypeByLang name cfg.lang with
  | some t => .ok (t, none) sh
  | none =>
    let valueType := getBasefromSimpleType name tree
    if valueType ≠ name && valueType ≠ [] then .ok (valueType, none) sh
    else if cfg.extract then .ok (valueType, none) sh
    else resolveOutside W rec cfg value valueType sh

/-- `opt.GetValueType(value, opt.ProtoTree)` inside a running parser (parser.go:156, called e.g. at xmlElement.go:22). -/
def gvtOf (W : World) (rec : Cfg → Go Shared Tree) (cfg : Cfg) : Gvt := fun value s =>
  match getValueType W rec cfg value s.p.freeze s.sh with
  | .ok r sh => .ok r { s with sh := sh }
  | .err e sh => .err e { s with sh := sh }
  | .halt h sh => .halt h { s with sh := sh }

/-! ## Parse (parser.go:64-152) -/

/-- `f, err := os.Create(path); f.Write(content)` (e.g. genC.go:48-55) -/
def writeFile (W : World) (path content : Str) : Go Shared Unit := fun sh =>
  if W.createOk path then .ok () { sh with outputs := sh.outputs ++ [(path, content)] }
  else .err (.create path) sh

/-- `GenGo` after the loop, genGo.go:70-95: on a formatting error the raw source is written and the error returned -/
def writeGo (W : World) (file pkg : Str) (tree : Tree) : Go Shared Unit := fun sh =>
  match W.gofmt (goSource pkg tree) with
  | some src => writeFile W (fileWithExtension file c!".go") src sh
  | none =>
    match writeFile W (fileWithExtension file c!".go") (goRawSource pkg tree) sh with
    | .ok _ sh => .err .gofmt sh
    | r => r

/-- The generators, `Gen` + capitalised language (parser.go:146-147); no such method: nothing happens
(utils.go:208-219). -/
def generate (W : World) (lang pkg file : Str) (tree : Tree) : Go Shared Unit :=
  let l := makeFirstUpperCase lang
  if l = c!"Go" then writeGo W file pkg tree
  else if l = c!"C" then writeFile W (fileWithExtension file c!".h") (cSource tree)
  else if l = c!"Java" then writeFile W (fileWithExtension file c!".java") (javaSource pkg tree)
  else if l = c!"Rust" then writeFile W (fileWithExtension file c!".rs") (rustSource tree)
  else if l = c!"TypeScript" then writeFile W (fileWithExtension file c!".ts") (tsSource tree)
  else pure ()

/-- parser.go:134 -/
def outputPath (cfg : Cfg) : Str := pathJoin cfg.outputDir (trimPrefix cfg.filePath cfg.inputDir)

/-- `opt.ParseFileList[opt.FilePath] = true; opt.ParseFileMap[opt.FilePath] = tree` (parser.go:81-82, 132-133) -/
def register (path : Str) (tree : Tree) (sh : Shared) : Shared :=
  { sh with parseFileList := sh.parseFileList.set path true, parseFileMap := sh.parseFileMap.set path tree }

/-- parser.go:131-151 -/
def finish (W : World) (cfg : Cfg) (tree : Tree) : Go Shared Tree := fun sh =>
  if cfg.extract then .ok tree sh
  else
    let sh := register cfg.filePath tree sh
    if W.mkdirOk (pathDir (outputPath cfg)) then
      match generate W cfg.lang cfg.package (outputPath cfg) tree sh with
      | .ok _ sh => .ok tree sh
      | .err e sh => .err e sh
      | .halt h sh => .halt h sh
    else .halt (.exit 1) sh

/-- parser.go:80-83 (and the ghost log) -/
def beginParse (cfg : Cfg) (sh : Shared) : Shared :=
  let sh := { sh with log := sh.log ++ [(cfg.filePath, cfg.extract)] }
  if cfg.extract then sh else register cfg.filePath cfg.tree0 sh

/-- parser.go:80-152, once the file is open -/
def parseOpen (W : World) (rec : Cfg → Go Shared Tree) (cfg : Cfg) (toks : List Token) : Go Shared Tree := fun sh =>
  match run W (gvtOf W rec cfg) toks { sh := beginParse cfg sh, p := {} } with
  | .ok _ s => finish W cfg s.p.freeze s.sh
  | .err e s => .err e s.sh
  | .halt h s => .halt h s.sh

/-- `Parse`, parser.go:64-152, with nested parses given by `rec`.  On success the result is `opt.ProtoTree`; after an
error nothing in the repository reads it, so it is not part of the outcome. -/
def parseWith (W : World) (rec : Cfg → Go Shared Tree) (cfg : Cfg) : Go Shared Tree := fun sh =>
  match W.fs.get? cfg.filePath with
  | none => .err (.stat cfg.filePath) sh
  | some .dir => .ok cfg.tree0 sh
  | some .noOpen => .err (.open cfg.filePath) sh
  | some (.file toks) => parseOpen W rec cfg toks sh

/-- `Parse`, parser.go:64-152, with at most `n` nested levels. -/
def parse (W : World) : Nat → Cfg → Go Shared Tree
  | 0, _ => fun sh => .halt .fuel sh
  | n + 1, cfg => parseWith W (parse W n) cfg

/-- `Parse`, parser.go:64.  C22 shows that this budget is never exhausted and that any larger one gives the same. -/
def Parse (W : World) (cfg : Cfg) : Go Shared Tree := parse W (W.fs.length + 2) cfg

end Xgen
