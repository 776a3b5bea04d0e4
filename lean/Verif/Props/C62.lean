import Verif.Props.C24
import Verif.Props.C06
import Verif.Props.C40
import Verif.Props.C57
import Verif.Props.C26
import Verif.Lemmas.Asks

/-! # C62: type references across imported schemas -/

namespace Xgen.C62
open Core
variable [Uni] [UniLaws]

/-! ## Specification -/

/-- A tag before the declarations. -/
inductive Head where
  | «import» (as : List Attr)
  | «include» (as : List Attr)

/-- A schema document: its root tag, its import and include tags in any order, its declarations. -/
structure Doc where
  root : List Attr := []
  heads : List Head := []
  decls : List Decl := []

/-- The tokens of such a tag. -/
def Head.tokens : Head → List Token
  | .import as => tag c!"import" as []
  | .include as => tag c!"include" as []

/-- The tags of a document. -/
def Doc.tokens (d : Doc) : List Token := tag c!"schema" d.root (d.heads.flatMap Head.tokens ++ d.decls.flatMap Decl.tokens)

/-- The import tags among them. -/
def importTags (hs : List Head) : List (List Attr) := hs.filterMap fun
  | .import as => some as
  | .include _ => none

/-- The places that include tags name. -/
def includePlaces (hs : List Head) : List Str := hs.flatMap fun
  | .import _ => []
  | .include as => (as.filter fun a => a.local = c!"schemaLocation").map (·.value)

/-- The import tags of a document. -/
def Doc.imports (d : Doc) : List (List Attr) := importTags d.heads

/-- The places that the include tags of a document name. -/
def Doc.includes (d : Doc) : List Str := includePlaces d.heads

/-- The name space a prefix is bound to by a root tag. -/
def bound (as : List Attr) (q : Str) : Str :=
  (((as.filter fun a => a.space = c!"xmlns" ∧ a.local = q).getLast?).map (·.value)).getD []

/-- What an import tag says: a name space and the place of its schema. -/
def importOf (as : List Attr) : Option (Str × Str) :=
  (attr? as c!"schemaLocation").map fun l => ((attr? as c!"namespace").getD [], l)

/-- The name spaces imported from files, with their places. -/
def placesOf (isURL : Str → Bool) (imports : List (List Attr)) : List (Str × Str) :=
  (imports.filterMap importOf).filter fun i => !isURL i.2

/-- The place of a name space: the first import counts. -/
def place? (places : List (Str × Str)) (n : Str) : Option Str := (places.find? fun i => i.1 = n).map (·.2)

/-- The type of the first component declared under a name, else the name itself. -/
def declared (t : Tree) (n : Str) : Str :=
  match (t.filterMap C07.declares).find? (fun d => d.1 = n) with
  | some d => d.2
  | none => n

/-- The references in a tag.  (The name counts because an element without a type is looked up under its own name.) -/
def asked (as : List Attr) : List Str :=
  as.flatMap fun a =>
    if a.local ∈ [c!"name", c!"ref", c!"type", c!"base", c!"itemType"] then [a.value]
    else if a.local = c!"memberTypes" then splitOn ' ' a.value else []

/-- The references in the declarations of a document. -/
def Doc.asked (d : Doc) : List Str :=
  (d.decls.flatMap Decl.tokens).flatMap fun
    | .start _ as => C62.asked as
    | _ => []

/-- A schema with the schemas it imports: the environment, the parse, the documents of the files (the parsed one and the
imported ones), their translations, and ranks that order the files. -/
structure Project where
  W : World
  cfg : Cfg
  docs : Str → Doc
  trees : Str → Tree
  rank : Str → Nat

namespace Project
variable (π : Project)

/-- The document of the parsed file. -/
def main : Doc := π.docs π.cfg.filePath

/-- The directory of the schema. -/
def dir : Str := pathDir π.cfg.filePath

/-- Name spaces and places. -/
def places : List (Str × Str) := placesOf π.W.isURL π.main.imports

/-- The imported files. -/
def files : List Str := π.places.map fun i => pathJoin π.dir i.2

/-- The included files. -/
def included : List Str := π.main.includes.map (pathJoin π.dir)

/-- All files to be translated. -/
def all : List Str := π.cfg.filePath :: π.files

/-- The file that a prefix stands for. -/
def file? (q : Str) : Option Str := (place? π.places (bound π.main.root q)).map (pathJoin π.dir)

/-- The declarations of a file, translated on their own. -/
def own (f : Str) : Tree := treeOf (C40.typeRef π.cfg.lang true) [] (π.docs f).decls

/-- What an imported file says about a name: its translation, unless that says nothing or the same name; else its
declarations on their own. -/
def lookup (g n : Str) : Str :=
  if declared (π.trees g) n ≠ n ∧ declared (π.trees g) n ≠ [] then declared (π.trees g) n else declared (π.own g) n

/-- An included file that gives a name a type. -/
def Gives (g n : Str) : Prop := declared (π.own g) n ≠ n ∧ declared (π.own g) n ≠ []

instance (g n : Str) : Decidable (π.Gives g n) := inferInstanceAs (Decidable (_ ∧ _))

/-- What the included files say about a name: the type that one of them gives, else the name itself. -/
def fromIncluded (n : Str) : Str :=
  match π.included.find? fun g => π.Gives g n with
  | some g => declared (π.own g) n
  | none => n

/-- The meaning of a reference in the file `f` that its components do not answer: what the imported file declares under the
local name; what the included files say if its name space is not imported. -/
def outside (f v : Str) : Str :=
  match π.file? (Names.prefixPart v) with
  | none => π.fromIncluded (Names.localPart v)
  | some g => if g = f then declared (π.own g) (Names.localPart v) else π.lookup g (Names.localPart v)

/-- The meaning of a type reference in the file `f` after the components `t`: a built-in type; else what the file itself
declares so far, unless that is nothing or the same name; else what the imported file or the included ones say. -/
def ref (f : Str) (t : Tree) (v : Str) : Str :=
  match getBuildInTypeByLang (Names.localPart v) π.cfg.lang with
  | some b => b
  | none =>
    if declared t (Names.localPart v) ≠ Names.localPart v ∧ declared t (Names.localPart v) ≠ [] then declared t (Names.localPart v)
    else π.outside f v

/-- A file whose declared types do not depend on other files. -/
def Settled (g : Str) : Prop := (π.trees g).filterMap C07.declares = (π.own g).filterMap C07.declares

/-- From the file `f` the prefix `q` leads to the file itself or to one below; a settled one may be of the same rank. -/
def Below (f q : Str) : Prop := ∀ g, π.file? q = some g → g = f ∨ π.rank g < π.rank f ∨ (π.rank g = π.rank f ∧ π.Settled g)

/-- A tag of the file `f` refers to the file `g`, by a name that is not built-in and that `f` itself does not mention as the name
of something. -/
def Needs (f g : Str) : Prop :=
  ∃ n as v, Token.start n as ∈ (π.docs f).decls.flatMap Decl.tokens ∧ v ∈ refers n as ∧
    π.file? (Names.prefixPart v) = some g ∧ Names.localPart v ≠ [] ∧ getBuildInTypeByLang (Names.localPart v) π.cfg.lang = none ∧
    ∀ m bs, Token.start m bs ∈ (π.docs f).decls.flatMap Decl.tokens → ∀ a ∈ bs, a.local ∈ [c!"name", c!"ref", c!"base"] →
      a.value ≠ Names.localPart v

/-- The parse of an imported file: no package. -/
def part (f : Str) : Cfg := { filePath := f, outputDir := π.cfg.outputDir, lang := π.cfg.lang }

end Project

/-- A tag says the name space before the place (the reader depends on it). -/
def Ordered (as : List Attr) : Prop :=
  Distinct as ∧ as.Pairwise fun a b => ¬ (a.local = c!"schemaLocation" ∧ b.local = c!"namespace")

/-- What is written for a tree, and where. -/
def Writes (W : World) (cfg : Cfg) (t : Tree) (o : Str × Str) : Prop :=
  ∃ ext, (cfg.lang, ext) ∈ C24.extensions ∧ W.mkdirOk (pathDir (outputPath cfg)) = true ∧
    W.createOk (C24.documentedPath cfg ext) = true ∧ o.1 = C24.documentedPath cfg ext ∧ C24.IsOutput W cfg.lang cfg.package t o.2

/-- The file contains the document, with text, comments and tags without handlers anywhere. -/
def Contains (W : World) (f : Str) (d : Doc) : Prop :=
  ∃ toks, W.fs.get? f = some (.file toks) ∧ C32.NamesOk toks ∧ C40.skeleton (C57.noText toks) = C40.skeleton d.tokens

/-- The file contains no text but white space. -/
def Textless (W : World) (f : Str) : Prop := ∀ toks x, W.fs.get? f = some (.file toks) → Token.text x ∈ toks → x.all isSpace = true

/-- A project that can be translated. -/
structure Project.Sound (π : Project) : Prop where
  /-- The schema is to be written, starting with an empty tree. -/
  writes : π.cfg.extract = false
  fresh : π.cfg.tree0 = []
  /-- "" is not a URL, and the directory of the schema exists. -/
  url : π.W.isURL [] = false
  directory : π.W.fs.get? π.dir = some .dir
  /-- Imported files are other files of that directory; included files are there, too. -/
  located : ∀ i ∈ π.places, i.2 ≠ []
  beside : ∀ f ∈ π.files, pathDir f = π.dir
  other : π.cfg.filePath ∉ π.files
  /-- The files contain the documents. -/
  parts : ∀ f ∈ π.all ++ π.included, Contains π.W f (π.docs f)
  /-- Import tags say the name space first. -/
  ordered : ∀ as ∈ π.main.imports, Ordered as
  /-- Imported and included files use the same prefixes for imported name spaces, import no further name spaces, and include no further files. -/
  prefixes : ∀ f ∈ π.files ++ π.included, ∀ a ∈ (π.docs f).root, a.space = c!"xmlns" →
    place? π.places a.value = place? π.places (bound π.main.root a.local)
  known : ∀ f ∈ π.files ++ π.included, ∀ as ∈ (π.docs f).imports, Ordered as ∧
    ∀ i, importOf as = some i → π.W.isURL i.2 = true ∨ (place? π.places i.1).isSome
  direct : ∀ f ∈ π.files ++ π.included, ∀ l ∈ (π.docs f).includes, l ∈ π.main.includes
  /-- No two included files declare a name with different types. -/
  agree : ∀ f ∈ π.included, ∀ g ∈ π.included, ∀ d ∈ (π.own f).filterMap C07.declares,
    declared (π.own f) d.1 ≠ d.1 → declared (π.own g) d.1 ≠ d.1 → declared (π.own f) d.1 = declared (π.own g) d.1
  /-- The trees are the translations. -/
  trees : ∀ f ∈ π.all, π.trees f = treeOf (π.ref f) [] (π.docs f).decls
  /-- The declarations are regular. -/
  regular : ∀ f ∈ π.all, Regular (π.ref f) [] (π.docs f).decls
  alone : ∀ f ∈ π.files ++ π.included, Regular (C40.typeRef π.cfg.lang true) [] (π.docs f).decls
  /-- References lead downwards. -/
  below : ∀ f ∈ π.all, π.Below f [] ∧ ∀ v ∈ (π.docs f).asked, π.Below f (Names.prefixPart v)
/-! ## The shared maps -/

omit [Uni] [UniLaws] in
theorem declared_eq (t : Tree) (n : Str) : getBasefromSimpleType n t = declared t n := by
  rw [C07.resolves_to_first]
  rfl

omit [Uni] [UniLaws] in
theorem onSchema_only (as : List Attr) (sh : Shared) : ∃ m, onSchema as sh = { sh with localNS := m } := by
  unfold onSchema
  induction as generalizing sh with
  | nil => exact ⟨_, rfl⟩
  | cons a as ih =>
    rw [List.foldl_cons]
    split
    · obtain ⟨m, h⟩ := ih { sh with localNS := sh.localNS.set a.local a.value }
      exact ⟨m, h⟩
    · exact ih sh

omit [Uni] [UniLaws] in
theorem onSchema_same {α : Type} (pl : Str → α) (as : List Attr) (sh : Shared) (ns : Str → Str) (h : ∀ q, pl (sh.localNS.getStr q) = pl (ns q))
    (ha : ∀ a ∈ as, a.space = c!"xmlns" → pl a.value = pl (ns a.local)) (q : Str) : pl ((onSchema as sh).localNS.getStr q) = pl (ns q) := by
  rw [C26.schema_binds]
  cases hl : (as.filter fun a => a.space = c!"xmlns" ∧ a.local = q).getLast? with
  | none => exact h q
  | some x =>
    have hm := List.mem_filter.1 (List.mem_of_getLast? hl)
    have h2 : x.space = c!"xmlns" ∧ x.local = q := by simpa using hm.2
    have := ha x hm.1 h2.1
    rw [h2.2] at this
    exact this

/-- The effect of an import tag. -/
def importInto (isURL : Str → Bool) (i : Option (Str × Str)) (sh : Shared) : Shared :=
  match i with
  | none => sh
  | some i => if sh.nsLoc.has i.1 ∨ isURL i.2 = true then sh else { sh with nsLoc := sh.nsLoc.set i.1 i.2 }

omit [Uni] [UniLaws] in
theorem onImport_pair (isURL : Str → Bool) (as : List Attr) (sh : Shared) (c : Str) (h : Ordered as) :
    ((as.foldl (onImportAttr isURL) (c, sh))).2 =
      importInto isURL ((attr? as c!"schemaLocation").map fun l => ((attr? as c!"namespace").getD c, l)) sh := by
  induction as generalizing c with
  | nil => rfl
  | cons a as ih =>
    obtain ⟨hd, hp⟩ := h
    have ho : Ordered as := ⟨hd.tail, (List.pairwise_cons.1 hp).2⟩
    have hp1 := (List.pairwise_cons.1 hp).1
    rw [List.foldl_cons]
    simp only [attr?_cons]
    by_cases h1 : a.local = c!"namespace"
    · have h0 : attr? as c!"namespace" = none := by have := hd.head; rwa [h1] at this
      rw [show onImportAttr isURL (c, sh) a = (a.value, sh) by simp [onImportAttr, h1], ih _ ho, if_pos h1, h0,
        if_neg (by rw [h1]; decide)]
      rfl
    · rw [if_neg h1]
      by_cases h2 : a.local = c!"schemaLocation"
      · have h0 : attr? as c!"schemaLocation" = none := by have := hd.head; rwa [h2] at this
        have hn : attr? as c!"namespace" = none := by
          refine attr?_none_of_not_mem fun hm => ?_
          obtain ⟨b, hb, e⟩ := List.mem_map.1 hm
          exact hp1 b hb ⟨h2, e⟩
        have key : ∀ x, ((as.foldl (onImportAttr isURL) x)).2 = x.2 := by
          rintro ⟨x, y⟩
          rw [show ((x, y) : Str × Shared).2 = y from rfl]
          have := ih (c := x)
          clear this
          have hns : ∀ b ∈ as, b.local ≠ c!"namespace" ∧ b.local ≠ c!"schemaLocation" := by
            intro b hb
            constructor
            · intro e; exact hp1 b hb ⟨h2, e⟩
            · intro e
              have := attr?_mem ho.1 hb
              rw [e, h0] at this
              cases this
          clear ih hp hd ho h0 hn hp1
          induction as with
          | nil => rfl
          | cons b as ih =>
            have hb := hns b (by simp)
            rw [List.foldl_cons, show onImportAttr isURL (x, y) b = (x, y) by simp [onImportAttr, hb]]
            exact ih (fun b h => hns b (by simp [h]))
        rw [key, if_pos h2, hn]
        simp only [onImportAttr, h2, importInto, Option.map_some, Option.getD_none]
        rw [if_neg (by decide), if_pos trivial]
        by_cases h3 : sh.nsLoc.has c = true
        · simp [h3]
        · by_cases h4 : isURL a.value = true
          · simp [h3, h4]
          · simp [h3, h4]
      · rw [if_neg h2, ← ih _ ho]
        rw [show onImportAttr isURL (c, sh) a = (c, sh) by simp [onImportAttr, h1, h2]]

omit [Uni] [UniLaws] in
theorem onImport_eq (isURL : Str → Bool) (as : List Attr) (sh : Shared) (h : Ordered as) :
    onImport isURL as sh = importInto isURL (importOf as) sh := onImport_pair isURL as sh [] h

/-- All import tags. -/
def importAll (isURL : Str → Bool) (imports : List (List Attr)) (sh : Shared) : Shared :=
  imports.foldl (fun sh as => onImport isURL as sh) sh

omit [Uni] [UniLaws] in
theorem importAll_places (isURL : Str → Bool) (imports : List (List Attr)) (h : ∀ as ∈ imports, Ordered as) (sh : Shared) :
    ∃ m, importAll isURL imports sh = { sh with nsLoc := m } ∧
      ∀ n, m.get? n = (sh.nsLoc.get? n).or (place? (placesOf isURL imports) n) := by
  induction imports generalizing sh with
  | nil => exact ⟨_, rfl, fun n => by simp [placesOf, place?]⟩
  | cons as imports ih =>
    obtain ⟨m, h1, h2⟩ := ih (fun as h' => h as (by simp [h'])) (onImport isURL as sh)
    rw [show importAll isURL (as :: imports) sh = importAll isURL imports (onImport isURL as sh) from rfl, h1]
    rw [onImport_eq isURL as sh (h as (by simp))] at h2 ⊢
    unfold importInto at h2 ⊢
    unfold placesOf at h2 ⊢
    cases hi : importOf as with
    | none =>
      rw [hi] at h2
      refine ⟨m, rfl, fun n => ?_⟩
      rw [h2 n, List.filterMap_cons_none hi]
    | some i =>
      rw [hi] at h2
      dsimp only at h2 ⊢
      by_cases hu : isURL i.2 = true
      · rw [if_pos (.inr hu)] at h2 ⊢
        refine ⟨m, rfl, fun n => ?_⟩
        rw [h2 n, List.filterMap_cons_some hi, List.filter_cons_of_neg (by simp [hu])]
      · rw [List.filterMap_cons_some hi, List.filter_cons_of_pos (by simp [hu])]
        by_cases hh : sh.nsLoc.has i.1 = true
        · rw [if_pos (.inl hh)] at h2 ⊢
          refine ⟨m, rfl, fun n => ?_⟩
          rw [h2 n]
          by_cases hn : i.1 = n
          · subst hn
            obtain ⟨l, hl⟩ := Option.isSome_iff_exists.1 hh
            rw [hl]
            rfl
          · rw [place?, place?, List.find?_cons_of_neg (by simpa using hn)]
        · rw [if_neg (by simp [hh, hu])] at h2 ⊢
          refine ⟨m, rfl, fun n => ?_⟩
          rw [h2 n]
          dsimp only
          rw [GoMap.get?_set]
          by_cases hn : n = i.1
          · subst hn
            have h0 : sh.nsLoc.get? i.1 = none := by simpa [GoMap.has] using hh
            have h3 : ∀ l, place? (i :: l) i.1 = some i.2 := fun l => by
              rw [place?, List.find?_cons_of_pos (by simp)]; rfl
            rw [if_pos rfl, h3, h0]
            rfl
          · rw [if_neg hn, place?, place?, List.find?_cons_of_neg (by simpa using Ne.symm hn)]

/-- The includes after an include tag. -/
def noted (m : GoMap Bool) (ls : List Str) : GoMap Bool := ls.foldl (fun m l => if m.has l then m else m.set l true) m

/-- The effect of a tag before the declarations. -/
def Head.apply (isURL : Str → Bool) (h : Head) (sh : Shared) : Shared :=
  match h with
  | .import as => onImport isURL as sh
  | .include as => onInclude as sh

/-- The effect of all of them. -/
def headAll (isURL : Str → Bool) (hs : List Head) (sh : Shared) : Shared := hs.foldl (fun sh h => h.apply isURL sh) sh

omit [Uni] [UniLaws] in
theorem onInclude_eq (as : List Attr) (sh : Shared) : onInclude as sh =
    { sh with includeMap := noted sh.includeMap ((as.filter fun a => a.local = c!"schemaLocation").map (·.value)) } := by
  unfold onInclude
  induction as generalizing sh with
  | nil => rfl
  | cons a as ih =>
    rw [List.foldl_cons, ih]
    by_cases h : a.local = c!"schemaLocation"
    · rw [if_pos h, List.filter_cons_of_pos (by simpa using h), List.map_cons]
      by_cases hh : sh.includeMap.has a.value = true
      · rw [if_pos hh, show noted sh.includeMap (a.value :: _) = noted (if sh.includeMap.has a.value then sh.includeMap else _) _ from rfl, if_pos hh]
      · rw [if_neg hh, show noted sh.includeMap (a.value :: _) = noted (if sh.includeMap.has a.value then sh.includeMap else _) _ from rfl, if_neg hh]
    · rw [if_neg h, List.filter_cons_of_neg (by simpa using h)]

omit [Uni] [UniLaws] in
theorem onImport_includes (isURL : Str → Bool) (as : List Attr) (sh : Shared) (m : GoMap Bool) :
    onImport isURL as { sh with includeMap := m } = { onImport isURL as sh with includeMap := m } := by
  unfold onImport
  generalize ([] : Str) = c
  induction as generalizing sh c with
  | nil => rfl
  | cons a as ih =>
    rw [List.foldl_cons, List.foldl_cons]
    unfold onImportAttr
    dsimp only
    by_cases h1 : a.local = c!"namespace"
    · rw [if_pos h1, if_pos h1]
      exact ih sh a.value
    · rw [if_neg h1, if_neg h1]
      by_cases h2 : a.local = c!"schemaLocation"
      · rw [if_pos h2, if_pos h2]
        by_cases h3 : sh.nsLoc.has c = true
        · rw [if_pos h3, if_pos h3]
          exact ih sh c
        · rw [if_neg h3, if_neg h3]
          by_cases h4 : isURL a.value = true
          · rw [if_pos h4, if_pos h4]
            exact ih sh c
          · rw [if_neg h4, if_neg h4]
            exact ih { sh with nsLoc := sh.nsLoc.set c a.value } c
      · rw [if_neg h2, if_neg h2]
        exact ih sh c

omit [Uni] [UniLaws] in
theorem importAll_includes (isURL : Str → Bool) (is : List (List Attr)) (sh : Shared) (m : GoMap Bool) :
    importAll isURL is { sh with includeMap := m } = { importAll isURL is sh with includeMap := m } := by
  unfold importAll
  induction is generalizing sh with
  | nil => rfl
  | cons as is ih => rw [List.foldl_cons, List.foldl_cons, onImport_includes, ih]

omit [Uni] [UniLaws] in
theorem headAll_eq (isURL : Str → Bool) (hs : List Head) (sh : Shared) : headAll isURL hs sh =
    { importAll isURL (importTags hs) sh with includeMap := noted sh.includeMap (includePlaces hs) } := by
  unfold headAll
  induction hs generalizing sh with
  | nil => rfl
  | cons h hs ih =>
    rw [List.foldl_cons, ih]
    cases h with
    | «import» as =>
      have e : (onImport isURL as sh).includeMap = sh.includeMap := by
        have := onImport_includes isURL as sh sh.includeMap
        rw [show ({ sh with includeMap := sh.includeMap } : Shared) = sh from rfl] at this
        rw [this]
      dsimp only [Head.apply]
      rw [e]
      rfl
    | «include» as =>
      dsimp only [Head.apply]
      rw [onInclude_eq, importAll_includes]
      have e : noted sh.includeMap (includePlaces (.include as :: hs)) =
          noted (noted sh.includeMap ((as.filter fun a => a.local = c!"schemaLocation").map (·.value))) (includePlaces hs) := by
        rw [show includePlaces (.include as :: hs) = (as.filter fun a => a.local = c!"schemaLocation").map (·.value) ++ includePlaces hs from rfl]
        unfold noted
        rw [List.foldl_append]
      rw [e]
      rfl

omit [Uni] [UniLaws] in
theorem noted_known (m : GoMap Bool) (ls : List Str) (h : ∀ l ∈ ls, m.has l = true) : noted m ls = m := by
  unfold noted
  induction ls with
  | nil => rfl
  | cons l ls ih => rw [List.foldl_cons, if_pos (h l (by simp))]; exact ih fun x hx => h x (by simp [hx])

omit [Uni] [UniLaws] in
theorem mem_noted (m : GoMap Bool) (ls : List Str) (k : Str) : k ∈ (noted m ls).keys ↔ k ∈ m.keys ∨ k ∈ ls := by
  unfold noted
  induction ls generalizing m with
  | nil => simp
  | cons l ls ih =>
    rw [List.foldl_cons, ih]
    by_cases h : m.has l = true
    · rw [if_pos h]
      have := GoMap.has_iff.1 h
      constructor
      · rintro (h | h) <;> simp [h]
      · rintro (h1 | h1)
        · exact .inl h1
        · rcases List.mem_cons.1 h1 with rfl | h1
          · exact .inl this
          · exact .inr h1
    · rw [if_neg h, GoMap.mem_keys_set]
      rw [List.mem_cons, or_assoc, or_left_comm]

/-! ## Documents -/

omit [Uni] [UniLaws] in
theorem doc_names {ref : Tree → Str → Str} {t : Tree} (d : Doc) (hd : Regular ref t d.decls) : C32.NamesOk d.tokens := by
  obtain ⟨root, heads, ds⟩ := d
  refine C40.tag_names (by decide) (C40.append_names (C40.flatMap_names fun h _ => ?_) ?_)
  · cases h <;> exact C40.tag_names (by decide) C40.nil_names
  replace hd := hd.placed
  dsimp only at hd ⊢
  induction ds generalizing t with
  | nil => exact C40.nil_names
  | cons d ds ih => exact C40.append_names (C40.decl_names (by decide) d hd.1) (ih hd.2)

/-- The tags before the declarations. -/
theorem heads_run (W : World) (gvt : Gvt) (hs : List Head) (sh : Shared) (heap : List Element) (proto : PTree) (inE : Str) :
    ∃ inE', Runs W gvt (hs.flatMap Head.tokens) ⟨sh, idle heap proto inE⟩ ⟨headAll W.isURL hs sh, idle heap proto inE'⟩ := by
  induction hs generalizing sh inE with
  | nil => exact ⟨inE, Runs.nil _⟩
  | cons h hs ih =>
    cases h with
    | «import» as =>
      obtain ⟨inE', h⟩ := ih (onImport W.isURL as sh) c!"import"
      refine ⟨inE', Runs.append (Runs.tag onKind_import rfl (Runs.nil _) ?_) h⟩
      rw [step, endKind_import]
      rfl
    | «include» as =>
      obtain ⟨inE', h⟩ := ih (onInclude as sh) c!"include"
      refine ⟨inE', Runs.append (Runs.tag onKind_include rfl (Runs.nil _) ?_) h⟩
      rw [step, endKind_include]
      rfl

omit [Uni] [UniLaws] in
theorem decls_tags {ref : Tree → Str → Str} {t : Tree} (ds : List Decl) (hd : Regular ref t ds) :
    C40.Tagged (· ∈ C40.tagNames) (ds.flatMap Decl.tokens) := by
  replace hd := hd.placed
  induction ds generalizing t with
  | nil => exact C40.nil_names
  | cons d ds ih => exact C40.append_names (C40.decl_names (fun _ h => h) d hd.1) (ih hd.2)

/-- No tag of core schemas imports, includes, or starts a schema. -/
theorem tagNames_kind {n : Str} (h : n ∈ C40.tagNames) {k : OnKind} (hk : onKind n = some k) :
    k ≠ .import ∧ k ≠ .include ∧ k ≠ .schema := by
  simp only [C40.tagNames, facetNames, List.cons_append, List.nil_append, List.mem_cons, List.not_mem_nil, or_false] at h
  revert hk
  rcases h with rfl | rfl | rfl | rfl | rfl | rfl | rfl | rfl | rfl | rfl | rfl | rfl | rfl | rfl | rfl | rfl | rfl | rfl | rfl | rfl |
    rfl | rfl | rfl
  all_goals
    rw [onKind_eq _ _ (by decide)]
    revert k
    decide

/-- The types a tree declares. -/
def Types (R : Str → Prop) (t : Tree) : Prop := ∀ d ∈ t.filterMap C07.declares, R d.2

omit [Uni] [UniLaws] in
theorem declared_types {R : Str → Prop} {t : Tree} (h : Types R t) {n : Str} (hn : R n) : R (declared t n) := by
  unfold declared
  cases hf : (t.filterMap C07.declares).find? (fun d => d.1 = n) with
  | none => exact hn
  | some d => exact h d (List.mem_of_find?_eq_some hf)

omit [Uni] [UniLaws] in
theorem vals_types {R N : Str → Prop} {p : PState} (h : Vals R N p) (hR : R []) (hN : N []) :
    Types R p.freeze ∧ ∀ d ∈ p.freeze.filterMap C07.declares, N d.1 := by
  suffices hh : ∀ d ∈ p.freeze.filterMap C07.declares, R d.2 ∧ N d.1 from ⟨fun d hd => (hh d hd).1, fun d hd => (hh d hd).2⟩
  intro d hd
  obtain ⟨x, hx, e⟩ := List.mem_filterMap.1 hd
  unfold PState.freeze at hx
  obtain ⟨y, hy, rfl⟩ := List.mem_map.1 hx
  cases y with
  | none => cases e
  | some y =>
    cases y with
    | simple v =>
      have := h.protoSimple v hy
      simp only [Option.map_some, Node.deref, C07.declares] at e
      cases h1 : (v.list || v.union) with
      | true => rw [h1] at e; cases e
      | false => rw [h1] at e; cases e; exact this
    | attr v =>
      have := h.protoAttr v hy
      cases e; exact this
    | elem a =>
      cases e
      exact h.deref hR hN a
    | complex v => cases e
    | group v => cases e
    | attrGroup v => cases e

omit [Uni] [UniLaws] in
theorem nodes_types {R : Str → Prop} {ty : Str → Str} (h0 : R []) (ht : ∀ v, R (ty v)) (d : Decl) :
    Types R ((d.nodes ty).map some) := by
  have hm : ∀ l : List ComplexType, ((l.map Node.complex).map some).filterMap C07.declares = [] := by
    intro l
    induction l with
    | nil => rfl
    | cons c l ih => exact ih
  have ha : ∀ l : List AttributeGroup, ((l.map Node.attrGroup).map some).filterMap C07.declares = [] := by
    intro l
    induction l with
    | nil => rfl
    | cons c l ih => exact ih
  have he : ∀ as, R (elementOf ty false as).type := by
    intro as
    unfold elementOf
    dsimp only
    split <;> exact ht _
  unfold Types
  cases d with
  | simple as b =>
    intro d hd
    cases b with
    | restriction ras fs =>
      simp only [Decl.nodes, simpleOf, C07.declares, List.map_cons, List.map_nil, List.filterMap_cons, List.filterMap_nil] at hd
      simp at hd
      subst hd
      cases attr? ras c!"base" with
      | none => exact h0
      | some t => exact ht _
    | list las => simp [Decl.nodes, simpleOf, C07.declares] at hd
    | union uas => simp [Decl.nodes, simpleOf, C07.declares] at hd
  | complex as b =>
    intro d hd
    simp only [Decl.nodes, List.map_append, List.filterMap_append, hm] at hd
    cases hd
  | element as =>
    intro d hd
    simp only [Decl.nodes, List.map_cons, List.map_nil, C07.declares, List.filterMap_cons, List.filterMap_nil, List.mem_singleton] at hd
    subst hd
    exact he as
  | elemAnon as ras fs =>
    intro d hd
    simp only [Decl.nodes, List.map_cons, List.map_nil, C07.declares, List.filterMap_cons, List.filterMap_nil, List.mem_singleton] at hd
    subst hd
    exact ht _
  | anon as cas b =>
    intro d hd
    simp only [Decl.nodes, List.map_append, List.filterMap_append, hm] at hd
    simp only [List.map_cons, List.map_nil, C07.declares, List.filterMap_cons, List.filterMap_nil, List.nil_append, List.mem_singleton] at hd
    subst hd
    exact he as
  | group as b => intro d hd; cases hd
  | attrGroup as b =>
    intro d hd
    simp only [Decl.nodes, List.map_append, List.filterMap_append, ha] at hd
    cases hd
  | «attribute» as =>
    intro d hd
    simp only [Decl.nodes, List.map_cons, List.map_nil, C07.declares, List.filterMap_cons, List.filterMap_nil, List.mem_singleton] at hd
    subst hd
    dsimp only [attributeOf]
    cases (attr? as c!"ref").or (attr? as c!"type") with
    | none => exact h0
    | some t => exact ht _
  | attrAnon as ras fs =>
    intro d hd
    simp only [Decl.nodes, List.map_cons, List.map_nil, C07.declares, List.filterMap_cons, List.filterMap_nil, List.mem_singleton] at hd
    subst hd
    exact ht _

omit [Uni] [UniLaws] in
theorem tree_types {R : Str → Prop} {ref : Tree → Str → Str} (h0 : R []) (hr : ∀ t, Types R t → ∀ v, R (ref t v)) (ds : List Decl)
    (t : Tree) (ht : Types R t) : Types R (treeOf ref t ds) := by
  induction ds generalizing t with
  | nil => exact ht
  | cons d ds ih =>
    refine ih _ fun x hx => ?_
    rw [List.filterMap_append, List.mem_append] at hx
    rcases hx with hx | hx
    · exact ht x hx
    · exact nodes_types h0 (hr t ht) d x hx

omit [Uni] [UniLaws] in
theorem refers_asked {n : Str} {as : List Attr} {v : Str} (h : v ∈ refers n as) : v ∈ asked as := by
  have one : ∀ l, l ∈ [c!"name", c!"ref", c!"type", c!"base", c!"itemType"] → ∀ a ∈ as, a.local = l → a.value = v → v ∈ asked as := by
    intro l hl a ha e ev
    exact List.mem_flatMap.2 ⟨a, ha, by rw [e, if_pos hl, ev]; simp⟩
  unfold refers at h
  split at h
  · obtain ⟨a, hm, e⟩ := List.mem_map.1 h
    obtain ⟨hm, hl⟩ := List.mem_filter.1 hm
    have hl : a.local = c!"ref" ∨ a.local = c!"type" := by simpa using hl
    rcases hl with hl | hl
    · exact one _ (by decide) a hm hl e
    · exact one _ (by decide) a hm hl e
  split at h
  · obtain ⟨a, hm, e⟩ := List.mem_map.1 h
    obtain ⟨hm, hl⟩ := List.mem_filter.1 hm
    exact one c!"ref" (by decide) a hm (by simpa using hl) e
  split at h
  · obtain ⟨a, hm, e⟩ := List.mem_map.1 h
    obtain ⟨hm, hl⟩ := List.mem_filter.1 hm
    exact one c!"base" (by decide) a hm (by simpa using hl) e
  split at h
  · obtain ⟨a, hm, e⟩ := List.mem_map.1 h
    obtain ⟨hm, hl⟩ := List.mem_filter.1 hm
    exact one c!"itemType" (by decide) a hm (by simpa using hl) e
  split at h
  · obtain ⟨a, hm, e⟩ := List.mem_flatMap.1 h
    obtain ⟨hm, hl⟩ := List.mem_filter.1 hm
    have hl : a.local = c!"memberTypes" := by simpa using hl
    exact List.mem_flatMap.2 ⟨a, hm, by rw [if_neg (by rw [hl]; decide), if_pos hl]; exact e⟩
  · cases h

omit [Uni] [UniLaws] in
theorem tagVals_asked {T : Str → Prop} {as : List Attr} (h : ∀ v ∈ asked as, T v) : TagVals T (fun _ => True) as := by
  intro a ha
  refine ⟨fun hl => h _ (List.mem_flatMap.2 ⟨a, ha, by simp only [if_pos hl, List.mem_singleton]⟩), fun hl m hm => ?_, fun _ => trivial⟩
  refine h _ (List.mem_flatMap.2 ⟨a, ha, ?_⟩)
  rw [if_neg (by rw [hl]; decide), if_pos hl]
  exact hm

open Classical in
/-- Declarations read with a resolver that answers references with `T`, where the answers satisfy `R`. -/
theorem decls_within {W : World} {gvt : Gvt} {I : Shared → Prop} {ref : Tree → Str → Str} {T R : Str → Prop} (hRT : ∀ v, R v → T v)
    (hR : R []) (hA : ∀ v, T v → ∀ sh p, I sh → Types R p.freeze →
      R (ref p.freeze v) ∧ ∃ sh', I sh' ∧ gvt v ⟨sh, p⟩ = .ok (ref p.freeze v, none) ⟨sh', p⟩)
    (hs : Core.Stable ref) (ds : List Decl) (hd : Regular ref [] ds)
    (ht : ∀ n as, Token.start n as ∈ ds.flatMap Decl.tokens → ∀ v ∈ asked as, T v) (sh : Shared) (hi : I sh) (inE : Str) :
    ∃ sh' p', I sh' ∧ p'.freeze = treeOf ref [] ds ∧ Types R (treeOf ref [] ds) ∧
      Runs W gvt (ds.flatMap Decl.tokens) ⟨sh, idle [] [] inE⟩ ⟨sh', p'⟩ := by
  let gvtR : Gvt := fun v s => if T v ∧ Types R s.p.freeze then gvt v s else .ok (ref s.p.freeze v, none) s
  have hg : Answers I ref gvtR := by
    intro v sh p hi
    dsimp only [gvtR]
    split
    · rename_i hc
      exact (hA v hc.1 sh p hi hc.2).2
    · exact ⟨sh, hi, rfl⟩
  obtain ⟨sh', heap', proto', inE', el', st', i1, v1, t1, r1⟩ := C40.decls_run (W := W) hg hs ds sh hi [] [] inE (by intro a h; cases h) hd
  have hag : ∀ v, T v → Agree R (fun _ => True) I (fun r => R r.1) (gvt v) (gvtR v) := by
    intro v hv s hvals hi
    have hty := (vals_types hvals hR trivial).1
    obtain ⟨h1, sh1, i1, e⟩ := hA v hv s.sh s.p hi hty
    have e' : gvtR v s = gvt v s := if_pos ⟨hv, hty⟩
    rw [e']
    refine ⟨rfl, fun r s' e2 => ?_⟩
    rw [show gvt v s = _ from e] at e2
    cases e2
    exact ⟨h1, hvals, i1⟩
  have hv0 : Vals R (fun _ => True) (idle [] [] inE) := by
    constructor <;> intro x hx <;> cases hx
  obtain ⟨e, k⟩ := agree_run hag hRT hR trivial (hRT _ hR) W (ds.flatMap Decl.tokens)
    (fun n as h => ⟨tagVals_asked (ht n as h), fun k hk => tagNames_kind (decls_tags ds hd n as h) hk⟩) ⟨sh, idle [] [] inE⟩ hv0 hi
  refine ⟨sh', resting heap' proto' inE' el' st', i1, t1, ?_, ?_⟩
  · obtain ⟨-, k2, -⟩ := k _ _ r1
    have := (vals_types k2 hR trivial).1
    rw [show (resting heap' proto' inE' el' st').freeze = frz heap' proto' from rfl, t1] at this
    exact this
  · exact e.trans r1

/-- Lists and unions follow the start of their simple type. -/
def Headed (toks : List Token) : Prop := ∀ n as, Token.start n as ∈ toks → n = c!"list" ∨ n = c!"union" →
  ∃ pre bs post, toks = pre ++ .start c!"simpleType" bs :: .start n as :: post

omit [Uni] [UniLaws] in
theorem Headed.nil : Headed [] := fun _ _ h => by cases h

omit [Uni] [UniLaws] in
theorem Headed.append {xs ys : List Token} (h : Headed xs) (k : Headed ys) : Headed (xs ++ ys) := by
  intro n as hm hn
  rcases List.mem_append.1 hm with hm | hm
  · obtain ⟨pre, bs, post, rfl⟩ := h n as hm hn
    exact ⟨pre, bs, post ++ ys, by simp⟩
  · obtain ⟨pre, bs, post, rfl⟩ := k n as hm hn
    exact ⟨xs ++ pre, bs, post, by simp⟩

omit [Uni] [UniLaws] in
theorem Headed.tag {n : Str} (hn : n ≠ c!"list" ∧ n ≠ c!"union") (as : List Attr) {inner : List Token} (h : Headed inner) :
    Headed (tag n as inner) := by
  have h1 : Headed [Token.start n as] := fun m bs hm he => by
    simp only [List.mem_singleton, Token.start.injEq] at hm
    rcases he with he | he
    · exact absurd (hm.1 ▸ he) hn.1
    · exact absurd (hm.1 ▸ he) hn.2
  have h2 : Headed [Token.stop n] := fun m bs hm he => by cases hm with | tail _ h => cases h
  exact Headed.append h1 (h.append h2)

omit [Uni] [UniLaws] in
theorem headed_facets {fs : List Facet} (hf : FacetsOk fs) : Headed (facetTokens fs) := by
  unfold facetTokens
  induction fs with
  | nil => exact Headed.nil
  | cons f fs ih =>
    refine Headed.append (Headed.tag ?_ _ Headed.nil) (ih fun g hg => hf g (by simp [hg]))
    have : ∀ x ∈ facetNames, x ≠ c!"list" ∧ x ≠ c!"union" := by decide
    exact this _ (hf f (by simp)).1

omit [Uni] [UniLaws] in
theorem headed_simple (as : List Attr) {b : SimpleBody} (hb : b.Regular) : Headed (tag c!"simpleType" as b.tokens) := by
  cases b with
  | restriction ras fs => exact Headed.tag (by decide) _ (Headed.tag (by decide) _ (headed_facets hb.2))
  | list las =>
    intro n bs hm hn
    refine ⟨[], as, [.stop c!"list", .stop c!"simpleType"], ?_⟩
    simp only [SimpleBody.tokens, tag, List.nil_append, List.cons_append, List.mem_cons, Token.start.injEq, reduceCtorEq,
      List.not_mem_nil, or_false] at hm
    rcases hm with ⟨rfl, rfl⟩ | ⟨rfl, rfl⟩
    · exact absurd hn (by decide)
    · rfl
  | union las =>
    intro n bs hm hn
    refine ⟨[], as, [.stop c!"union", .stop c!"simpleType"], ?_⟩
    simp only [SimpleBody.tokens, tag, List.nil_append, List.cons_append, List.mem_cons, Token.start.injEq, reduceCtorEq,
      List.not_mem_nil, or_false] at hm
    rcases hm with ⟨rfl, rfl⟩ | ⟨rfl, rfl⟩
    · exact absurd hn (by decide)
    · rfl

omit [Uni] [UniLaws] in
theorem headed_content {ty : Str → Str} {b : Content} (hb : b.Regular ty ∨ b.GroupRegular ty ∨ b.AttrRegular) :
    Headed b.tokens := by
  have e0 : ∀ as, Headed (tag c!"element" as []) := fun as => Headed.tag (by decide) _ Headed.nil
  induction b with
  | nil => exact Headed.nil
  | elem as k ih =>
    refine (e0 as).append (ih ?_)
    rcases hb with h | h | h
    · exact .inl h.2.2.2
    · exact .inr (.inl h.2.2.2)
    · exact h.elim
  | elemAnon as ras fs k ih =>
    rcases hb with h | h | h
    · exact Headed.append (Headed.tag (by decide) _ (Headed.tag (by decide) _ (Headed.tag (by decide) _ (headed_facets h.2.2.2.1.2.2.1))))
        (ih (.inl h.2.2.2.2))
    · exact h.elim
    · exact h.elim
  | anon as cas b k ihb ihk =>
    rcases hb with h | h | h
    · exact Headed.append (Headed.tag (by decide) _ (Headed.tag (by decide) _ (ihb (.inl h.2.2.2.2.1)))) (ihk (.inl h.2.2.2.2.2))
    · exact h.elim
    · exact h.elim
  | choice as b k ihb ihk =>
    rcases hb with h | h | h
    · exact Headed.append (Headed.tag (by decide) _ (ihb (.inl h.2.2.1))) (ihk (.inl h.2.2.2))
    · exact Headed.append (Headed.tag (by decide) _ (ihb (.inr (.inl h.2.2.1)))) (ihk (.inr (.inl h.2.2.2)))
    · exact h.elim
  | group as k ih =>
    refine Headed.append (Headed.tag (by decide) _ Headed.nil) (ih ?_)
    rcases hb with h | h | h
    · exact .inl h.2
    · exact .inr (.inl h.2)
    · exact h.elim
  | attrGroup as k ih =>
    refine Headed.append (Headed.tag (by decide) _ Headed.nil) (ih ?_)
    rcases hb with h | h | h
    · exact .inl h.2
    · exact h.elim
    · exact .inr (.inr h.2)
  | «attribute» as k ih =>
    refine Headed.append (Headed.tag (by decide) _ Headed.nil) (ih ?_)
    rcases hb with h | h | h
    · exact .inl h.2
    · exact h.elim
    · exact .inr (.inr h.2)
  | attrAnon as b k ih =>
    rcases hb with h | h | h
    · exact Headed.append (Headed.tag (by decide) _ (headed_simple _ h.2.1)) (ih (.inl h.2.2))
    · exact h.elim
    · exact Headed.append (Headed.tag (by decide) _ (headed_simple _ h.2.1)) (ih (.inr (.inr h.2.2)))
  | ext as b k ihb ihk =>
    rcases hb with h | h | h
    · exact Headed.append (Headed.tag (by decide) _ (ihb (.inl h.2.1))) (ihk (.inl h.2.2))
    · exact h.elim
    · exact h.elim
  | restr as fs b k ihb ihk =>
    rcases hb with h | h | h
    · exact Headed.append (Headed.tag (by decide) _ (Headed.append (headed_facets h.2.1) (ihb (.inl h.2.2.1)))) (ihk (.inl h.2.2.2))
    · exact h.elim
    · exact h.elim

omit [Uni] [UniLaws] in
theorem headed_decl {ty : Str → Str} (d : Decl) (hd : d.Regular ty) : Headed d.tokens := by
  cases d with
  | simple as b => exact headed_simple _ hd.2
  | complex as b => exact Headed.tag (by decide) _ (headed_content (.inl hd.2.1))
  | element as => exact Headed.tag (by decide) _ Headed.nil
  | elemAnon as ras fs =>
    exact Headed.tag (by decide) _ (Headed.tag (by decide) _ (Headed.tag (by decide) _ (headed_facets hd.2.2.2.2.2.1)))
  | anon as cas b => exact Headed.tag (by decide) _ (Headed.tag (by decide) _ (headed_content (.inl hd.2.2.2.2.1)))
  | group as b => exact Headed.tag (by decide) _ (headed_content (.inr (.inl hd.2)))
  | attrGroup as b => exact Headed.tag (by decide) _ (headed_content (ty := ty) (.inr (.inr hd.2)))
  | «attribute» as => exact Headed.tag (by decide) _ Headed.nil
  | attrAnon as ras fs =>
    exact Headed.tag (by decide) _ (Headed.tag (by decide) _ (Headed.tag (by decide) _ (headed_facets hd.2.2)))

omit [Uni] [UniLaws] in
theorem headed_decls {ref : Tree → Str → Str} {t : Tree} (ds : List Decl) (hd : Regular ref t ds) :
    Headed (ds.flatMap Decl.tokens) := by
  replace hd := hd.placed
  induction ds generalizing t with
  | nil => exact Headed.nil
  | cons d ds ih => exact Headed.append (headed_decl d hd.1) (ih hd.2)

/-- A reference in the declarations is asked. -/
theorem decls_done {W : World} {gvt : Gvt} {I D : Shared → Prop} {ref : Tree → Str → Str} {T R : Str → Prop} (hRT : ∀ v, R v → T v)
    (hR : R []) (hA : ∀ v, T v → ∀ sh p, I sh → Types R p.freeze →
      R (ref p.freeze v) ∧ ∃ sh', I sh' ∧ gvt v ⟨sh, p⟩ = .ok (ref p.freeze v, none) ⟨sh', p⟩)
    (hD : ∀ v, Lasting D (gvt v)) {v : Str} (hv : ∀ sh p, I sh → Types R p.freeze →
      (∀ d ∈ p.freeze.filterMap C07.declares, d.1 ≠ Names.localPart v) → ∀ r s', gvt v ⟨sh, p⟩ = .ok r s' → D s'.sh)
    (hl : Names.localPart v ≠ []) (ds : List Decl) (hd : Regular ref [] ds)
    (ht : ∀ n as, Token.start n as ∈ ds.flatMap Decl.tokens → ∀ v ∈ asked as, T v)
    (hn : ∀ m bs, Token.start m bs ∈ ds.flatMap Decl.tokens → ∀ a ∈ bs, a.local ∈ [c!"name", c!"ref", c!"base"] →
      a.value ≠ Names.localPart v)
    {n : Str} {as : List Attr} (hm : Token.start n as ∈ ds.flatMap Decl.tokens) (hr : v ∈ refers n as)
    {sh : Shared} (hi : I sh) {inE : Str} {s' : St} (e : Runs W gvt (ds.flatMap Decl.tokens) ⟨sh, idle [] [] inE⟩ s') : D s'.sh := by
  have hg : ∀ u, T u → Agree R (· ≠ Names.localPart v) I (fun r => R r.1) (gvt u) (gvt u) := by
    intro u hu s hvals hi
    obtain ⟨h1, sh1, i1, e⟩ := hA u hu s.sh s.p hi (vals_types hvals hR hl.symm).1
    refine ⟨rfl, fun r s' e2 => ?_⟩
    rw [show gvt u s = _ from e] at e2
    cases e2
    exact ⟨h1, hvals, i1⟩
  have hreach : Settles R (· ≠ Names.localPart v) I D gvt v := Settles.of_reach fun s hvals hi r s' e =>
    hv s.sh s.p hi (vals_types hvals hR hl.symm).1 (vals_types hvals hR hl.symm).2 r s' e
  have hv0 : Vals R (· ≠ Names.localPart v) (idle [] [] inE) := by constructor <;> intro x hx <;> cases hx
  have hvals : ∀ m bs, Token.start m bs ∈ ds.flatMap Decl.tokens → TagVals T (· ≠ Names.localPart v) bs ∧
      ∀ k, onKind m = some k → k ≠ .import ∧ k ≠ .include ∧ k ≠ .schema := fun m bs h =>
    ⟨fun a ha => ⟨(tagVals_asked (ht m bs h) a ha).1, (tagVals_asked (ht m bs h) a ha).2.1, hn m bs h a ha⟩,
      fun k hk => tagNames_kind (decls_tags ds hd m bs h) hk⟩
  have hhead := headed_decls ds hd
  generalize ds.flatMap Decl.tokens = toks at hm hvals hhead e
  by_cases hlu : n = c!"list" ∨ n = c!"union"
  · obtain ⟨pre, bs, post, rfl⟩ := hhead n as hm hlu
    have e' : pre ++ Token.start c!"simpleType" bs :: Token.start n as :: post =
      (pre ++ [Token.start c!"simpleType" bs]) ++ Token.start n as :: post := by simp
    rw [e'] at hvals e
    exact reach_run hg hRT hR hl.symm (hRT _ hR) hD hreach W _ n as post hvals hr (fun _ => ⟨pre, bs, rfl⟩) _ hv0 hi () s' e
  · obtain ⟨pre, post, rfl⟩ := List.append_of_mem hm
    exact reach_run hg hRT hR hl.symm (hRT _ hR) hD hreach W pre n as post hvals hr (fun h => absurd h hlu) _ hv0 hi () s' e

/-- The tags of a document, read by a parser in its initial state. -/
theorem doc_run {W : World} {gvt : Gvt} {I : Shared → Prop} {ref : Tree → Str → Str} {T R : Str → Prop} (hRT : ∀ v, R v → T v)
    (hR : R []) (hA : ∀ v, T v → ∀ sh p, I sh → Types R p.freeze →
      R (ref p.freeze v) ∧ ∃ sh', I sh' ∧ gvt v ⟨sh, p⟩ = .ok (ref p.freeze v, none) ⟨sh', p⟩)
    (hs : Core.Stable ref) (d : Doc) (hd : Regular ref [] d.decls) (ht : ∀ v ∈ d.asked, T v) (sh : Shared)
    (hi : I (headAll W.isURL d.heads (onSchema d.root sh))) :
    ∃ sh' p, I sh' ∧ p.freeze = treeOf ref [] d.decls ∧ Types R (treeOf ref [] d.decls) ∧
      Runs W gvt d.tokens ⟨sh, {}⟩ ⟨sh', p⟩ ∧
      ∃ inE, Runs W gvt (d.decls.flatMap Decl.tokens) ⟨headAll W.isURL d.heads (onSchema d.root sh), idle [] [] inE⟩ ⟨sh', p⟩ := by
  obtain ⟨inE, r0⟩ := heads_run W gvt d.heads (onSchema d.root sh) [] [] c!"schema"
  obtain ⟨sh1, p1, i1, t1, y1, r1⟩ := decls_within (W := W) hRT hR hA hs d.decls hd
    (fun n as h v hv => ht v (List.mem_flatMap.2 ⟨_, h, hv⟩)) _ hi inE
  refine ⟨sh1, p1, i1, t1, y1, Runs.tag onKind_schema rfl (r0.append r1) ?_, inE, r1⟩
  rw [step, endKind_schema]
  rfl

/-! ## Text -/

/-- A resolver without effects. -/
def pureGvt (ref : Tree → Str → Str) : Gvt := fun v s => .ok (ref s.p.freeze v, none) s

/-- The tree of a document with its documentation, when references mean `ref`. -/
def worded (W : World) (ref : Tree → Str → Str) (toks : List Token) : Tree :=
  (run W (pureGvt ref) (C32.strip toks) ⟨{}, {}⟩).state.p.freeze

/-- The same end in the same parser state. -/
def OutSameP {α : Type} : Out St α → Out St α → Prop
  | .ok a s, .ok b t => a = b ∧ s.p = t.p
  | .err a s, .err b t => a = b ∧ s.p = t.p
  | .halt a s, .halt b t => a = b ∧ s.p = t.p
  | _, _ => False

/-- The parser state evolves alike, whatever is shared. -/
def SameP {α : Type} (m m' : Go St α) : Prop := ∀ s t, s.p = t.p → OutSameP (m s) (m' t)

omit [Uni] [UniLaws] in
theorem sameP_closed {g g' : Gvt} (hg : ∀ v, SameP (g v) (g' v)) : Closed SameP g g' := Closed.ofGvt {
  pure a := fun _ _ h => ⟨rfl, h⟩
  bind := by
    intro α β m m' f f' hm hf s t h
    have h1 := hm s t h
    simp only [Go.bind_apply]
    revert h1
    cases m s <;> cases m' t <;> intro h1
    case ok.ok a s1 b t1 =>
      obtain ⟨rfl, h2⟩ := h1
      exact hf a s1 t1 h2
    case err.err => exact h1
    case halt.halt => exact h1
    all_goals exact h1.elim
  throw e := fun _ _ h => ⟨rfl, h⟩
  read := by
    intro α m m' hk s t h
    obtain ⟨k, k', hkk, he⟩ := hk (view s.p)
    rw [(he s rfl).1, (he t (by rw [h])).2]
    exact hkk s t h
  gvt := hg }

omit [Uni] [UniLaws] in
theorem sameP_onP (f : PState → PState) : SameP (onP f) (onP f) := fun _ _ h => ⟨rfl, congrArg f h⟩

omit [Uni] [UniLaws] in
theorem sameP_onP? (f : PState → Option PState) : SameP (onP? f) (onP? f) := by
  intro s t h
  unfold onP?
  rw [h]
  cases f t.p
  · exact ⟨rfl, h⟩
  · exact ⟨rfl, rfl⟩

omit [Uni] [UniLaws] in
theorem sameP_onSh (f : Shared → Shared) : SameP (onSh f) (onSh f) := fun _ _ h => ⟨rfl, h⟩

omit [UniLaws] in
theorem run_sameP (W : World) {g g' : Gvt} (hg : ∀ v, SameP (g v) (g' v)) (toks : List Token) : SameP (run W g toks) (run W g' toks) :=
  run_rel (sameP_closed hg) toks fun t _ =>
    { toClosed := sameP_closed hg
      setIn := fun _ _ _ => sameP_onP _
      on := fun _ as _ _ _ =>
        { toClosed := sameP_closed hg
          panic := fun _ _ _ h => ⟨rfl, h⟩
          prim := fun _ _ => sameP_onP _
          prim? := fun _ _ => sameP_onP? _
          import' := fun _ => sameP_onSh _
          include' := fun _ => sameP_onSh _
          schema' := fun _ => sameP_onSh _ }
      stop := fun _ _ _ _ => { toClosed := sameP_closed hg, prim := fun _ _ => sameP_onP _ }
      text := fun _ _ => sameP_onP _ }

/-- The effect of a token on the shared maps. -/
def shared (isURL : Str → Bool) (sh : Shared) : Token → Shared
  | .start n as =>
    match onKind n with
    | some .import => onImport isURL as sh
    | some .include => onInclude as sh
    | some .schema => onSchema as sh
    | _ => sh
  | _ => sh

/-- A token that has effects on the shared maps only, or text. -/
def Heading : Token → Prop
  | .start n _ => onKind n = some .import ∨ onKind n = some .include ∨ onKind n = some .schema
  | .stop n => endKind n = none
  | _ => True

omit [UniLaws] in
/-- Text among the tags before the declarations. -/
theorem heading_run (W : World) (toks : List Token) (h : ∀ t ∈ toks, Heading t) :
    ∃ G : PState → PState, (∀ R N p, Vals R N p → Vals R N (G p)) ∧
      ∀ gvt sh p, run W gvt toks ⟨sh, p⟩ = .ok () ⟨toks.foldl (shared W.isURL) sh, G p⟩ := by
  induction toks with
  | nil => exact ⟨id, fun _ _ _ h => h, fun _ _ _ => rfl⟩
  | cons t ts ih =>
    obtain ⟨G, hG, hr⟩ := ih fun x hx => h x (by simp [hx])
    have ht := h t (by simp)
    have key : ∃ g : PState → PState, (∀ R N p, Vals R N p → Vals R N (g p)) ∧
        ∀ gvt sh p, step W gvt t ⟨sh, p⟩ = .ok () ⟨shared W.isURL sh t, g p⟩ := by
      cases t with
      | start n as =>
        refine ⟨fun p => { p with inElement := n }, fun R N p hp => ⟨hp.heap, hp.simple, hp.attr, hp.protoSimple, hp.protoAttr⟩, ?_⟩
        intro gvt sh p
        rcases ht with ht | ht | ht <;> simp only [step, shared, ht] <;> rfl
      | stop n =>
        refine ⟨id, fun _ _ _ h => h, fun gvt sh p => ?_⟩
        rw [step, show endKind n = none from ht]
        rfl
      | text x => exact ⟨onCharData x, fun R N p hp => hp.charData x, fun _ _ _ => rfl⟩
      | other => exact ⟨id, fun _ _ _ h => h, fun _ _ _ => rfl⟩
    obtain ⟨g, hg, hs⟩ := key
    refine ⟨G ∘ g, fun R N p hp => hG R N _ (hg R N p hp), fun gvt sh p => ?_⟩
    show (step W gvt t >>= fun _ => run W gvt ts) ⟨sh, p⟩ = _
    rw [Go.bind_apply, hs]
    exact hr gvt _ _

omit [Uni] [UniLaws] in
theorem foldl_filter {σ : Type} (f : σ → Token → σ) (q : Token → Bool) (h : ∀ t, q t = false → ∀ s, f s t = s) (l : List Token) (s : σ) :
    (l.filter q).foldl f s = l.foldl f s := by
  induction l generalizing s with
  | nil => rfl
  | cons t l ih =>
    cases hq : q t with
    | true => rw [List.filter_cons_of_pos hq]; exact ih _
    | false => rw [List.filter_cons_of_neg (by simp [hq]), ih, List.foldl_cons, h t hq]

omit [UniLaws] in
theorem shared_skeleton (isURL : Str → Bool) (toks : List Token) (sh : Shared) :
    (C40.skeleton toks).foldl (shared isURL) sh = toks.foldl (shared isURL) sh := by
  unfold C40.skeleton C32.strip
  rw [foldl_filter, foldl_filter]
  · intro t ht s
    cases t with
    | text x => rfl
    | _ => cases ht
  · intro t ht s
    cases t with
    | start n as =>
      have : onKind n = none := Handled.onKind_none (by
        simp only [C32.transparent] at ht
        simpa using ht)
      simp only [shared, this]
    | _ => rfl

omit [UniLaws] in
theorem shared_noText (isURL : Str → Bool) (toks : List Token) (sh : Shared) :
    (C57.noText toks).foldl (shared isURL) sh = toks.foldl (shared isURL) sh := by
  refine foldl_filter _ _ (fun t ht s => ?_) _ _
  cases t with
  | text x => rfl
  | _ => cases ht

theorem shared_heads (isURL : Str → Bool) (hs : List Head) (sh : Shared) :
    (hs.flatMap Head.tokens).foldl (shared isURL) sh = headAll isURL hs sh := by
  induction hs generalizing sh with
  | nil => rfl
  | cons h hs ih =>
    rw [List.flatMap_cons, List.foldl_append, ih]
    unfold headAll
    rw [List.foldl_cons]
    congr 1
    cases h with
    | «import» as => simp [Head.tokens, tag, shared, onKind_import, Head.apply]
    | «include» as => simp [Head.tokens, tag, shared, onKind_include, Head.apply]

/-- The tags before the declarations. -/
def Doc.front (d : Doc) : List Token := Token.start c!"schema" d.root :: d.heads.flatMap Head.tokens

omit [Uni] [UniLaws] in
theorem Doc.tokens_eq (d : Doc) : d.tokens = d.front ++ (d.decls.flatMap Decl.tokens ++ [.stop c!"schema"]) := by
  simp [Doc.tokens, Doc.front, tag]

theorem front_heading (d : Doc) : ∀ t ∈ d.front, Heading t := by
  intro t ht
  rcases List.mem_cons.1 ht with rfl | ht
  · exact .inr (.inr onKind_schema)
  · obtain ⟨h, -, hm⟩ := List.mem_flatMap.1 ht
    cases h with
    | «import» as =>
      have : t = .start c!"import" as ∨ t = .stop c!"import" := by simpa [Head.tokens, tag] using hm
      rcases this with rfl | rfl
      · exact .inl onKind_import
      · exact endKind_import
    | «include» as =>
      have : t = .start c!"include" as ∨ t = .stop c!"include" := by simpa [Head.tokens, tag] using hm
      rcases this with rfl | rfl
      · exact .inr (.inl onKind_include)
      · exact endKind_include

theorem shared_front (isURL : Str → Bool) (d : Doc) (sh : Shared) :
    d.front.foldl (shared isURL) sh = headAll isURL d.heads (onSchema d.root sh) := by
  rw [Doc.front, List.foldl_cons, shared_heads]
  simp only [shared, onKind_schema]

/-- A run of a document with text, from that of a document without. -/
theorem run_documented (W : World) {gvt : Gvt} (hblind : C32.BlindGvt gvt) (hsame : ∀ v, C57.Same (· = ·) (gvt v) (gvt v)) (toks ts : List Token) (hn : C32.NamesOk toks) (hn' : C32.NamesOk ts)
    (ht : C40.skeleton (C57.noText toks) = C40.skeleton ts) {sh : Shared} {s : St}
    (h : Runs W gvt ts ⟨sh, {}⟩ s) :
    ∃ p, C57.bare p.freeze = C57.bare s.p.freeze ∧ Runs W gvt toks ⟨sh, {}⟩ ⟨s.sh, p⟩ := by
  have hn'' : C32.NamesOk (C57.noText toks) := fun n as h => hn n as (List.mem_filter.1 h).1
  have hsim : C32.Sim ⟨sh, {}⟩ ⟨sh, {}⟩ := ⟨⟨[], rfl⟩, .inl rfl⟩
  have r1 := C32.run_strip W hblind ((C57.noText toks).filter C40.visible) (fun n as h => hn'' n as (List.mem_filter.1 h).1) _ _ hsim
  have r2 := C32.run_strip W hblind (ts.filter C40.visible) (fun n bs h => hn' n bs (List.mem_filter.1 h).1) _ _ hsim
  rw [C40.run_visible] at r1 r2
  rw [show C32.strip ((C57.noText toks).filter C40.visible) = C32.strip (ts.filter C40.visible) from ht] at r1
  rw [show run W gvt ts _ = _ from h] at r2
  have r3 := C57.run_noText W (C57.respects_eq _) hsame toks ⟨sh, {}⟩ ⟨sh, {}⟩ ⟨rfl, rfl⟩
  unfold Runs
  revert r1 r2 r3
  cases run W gvt (C32.strip (ts.filter C40.visible)) ⟨sh, {}⟩ with
  | err e t => intro _ h; exact h.elim
  | halt e t => intro _ h; exact h.elim
  | ok u t =>
    cases run W gvt (C57.noText toks) ⟨sh, {}⟩ with
    | err e t => intro h; exact h.elim
    | halt e t => intro h; exact h.elim
    | ok u' t' =>
      cases run W gvt toks ⟨sh, {}⟩ with
      | err e t => intro _ _ h; exact h.elim
      | halt e t => intro _ _ h; exact h.elim
      | ok u'' t'' =>
        rintro ⟨-, n, h4⟩ ⟨-, m, h5⟩ ⟨-, h6, h7⟩
        have h8 : t'.p.freeze = s.p.freeze := by
          have e1 : t.p.freeze = t'.p.freeze := by rw [h4]; rfl
          have e2 : t.p.freeze = s.p.freeze := by rw [h5]; rfl
          exact e1.symm.trans e2
        have h9 : t'.sh = s.sh := by
          have e1 : t.sh = t'.sh := by rw [h4]; rfl
          have e2 : t.sh = s.sh := by rw [h5]; rfl
          exact e1.symm.trans e2
        refine ⟨t''.p, ?_, ?_⟩
        · rw [← C57.freeze_erase, h7, C57.freeze_erase, h8]
        · rw [← h9, ← show t''.sh = t'.sh from h6]

omit [UniLaws] in
theorem noText_strip (toks : List Token) : C57.noText (C32.strip toks) = C40.skeleton (C57.noText toks) := by
  unfold C57.noText C40.skeleton C32.strip
  rw [List.filter_filter, List.filter_filter, List.filter_filter]
  refine List.filter_congr fun t _ => ?_
  cases t <;> simp [C57.isTag, C40.visible, C32.transparent]

omit [UniLaws] in
theorem skeleton_idem (toks : List Token) : C40.skeleton (C40.skeleton toks) = C40.skeleton toks := by
  unfold C40.skeleton C32.strip
  simp only [List.filter_filter]
  refine List.filter_congr fun t _ => ?_
  cases C40.visible t <;> cases C32.transparent t <;> rfl

omit [UniLaws] in
theorem skeleton_append (a b : List Token) : C40.skeleton (a ++ b) = C40.skeleton a ++ C40.skeleton b := by
  simp [C40.skeleton, C32.strip]

omit [UniLaws] in
theorem mem_skeleton {t : Token} {toks : List Token} (h : t ∈ C40.skeleton toks) : t ∈ toks :=
  (List.mem_filter.1 (List.mem_filter.1 h).1).1

open Classical in
/-- A document with text, read by a parser in its initial state: as the document without, up to documentation; and the
result does not depend on what is shared. -/
theorem text_run {W : World} {cfg : Cfg} {I : Shared → Prop} {ref : Tree → Str → Str} {T R : Str → Prop} (hRT : ∀ v, R v → T v)
    (hR : R []) (hA : ∀ v, T v → ∀ sh p, I sh → Types R p.freeze →
      R (ref p.freeze v) ∧ ∃ sh', I sh' ∧ gvtOf W (Parse W) cfg v ⟨sh, p⟩ = .ok (ref p.freeze v, none) ⟨sh', p⟩)
    (hs : Core.Stable ref) (d : Doc) (hd : Regular ref [] d.decls) (ht : ∀ v ∈ d.asked, T v)
    (toks : List Token) (hn : C32.NamesOk toks) (hk : C40.skeleton (C57.noText toks) = C40.skeleton d.tokens) (sh : Shared)
    (hi : I (headAll W.isURL d.heads (onSchema d.root sh))) :
    ∃ sh' p, I sh' ∧ p.freeze = worded W ref toks ∧ Types R (treeOf ref [] d.decls) ∧
      Runs W (gvtOf W (Parse W) cfg) (C32.strip toks) ⟨sh, {}⟩ ⟨sh', p⟩ ∧
      ∃ inE p, Runs W (gvtOf W (Parse W) cfg) (d.decls.flatMap Decl.tokens)
        ⟨headAll W.isURL d.heads (onSchema d.root sh), idle [] [] inE⟩ ⟨sh', p⟩ := by
  obtain ⟨sh', p0, i, t, y, r, inE, r'⟩ := doc_run (W := W) hRT hR hA hs d hd ht sh hi
  have hks : C57.noText (C32.strip toks) = C40.skeleton d.tokens := by rw [noText_strip, hk]
  obtain ⟨p, -, hr⟩ := run_documented W (C32.gvtOf_blind W (Parse W) cfg) (C57.gvtOf_same W (Parse W) cfg) (C32.strip toks) d.tokens
    (fun n as h => hn n as (List.mem_filter.1 h).1) (doc_names d hd) (by rw [hks, skeleton_idem]) r
  dsimp only at hr
  refine ⟨sh', p, i, ?_, y, hr, inE, p0, r'⟩
  unfold worded
  rw [Doc.tokens_eq, skeleton_append] at hks
  obtain ⟨X, Y, e, eX, eY⟩ := List.filter_eq_append_iff.1 hks
  rw [e] at hr ⊢
  have hX : ∀ t ∈ X, Heading t := by
    intro t ht
    by_cases htx : C57.isTag t = true
    · exact front_heading d t (mem_skeleton (eX ▸ List.mem_filter.2 ⟨ht, htx⟩))
    · cases t with
      | text x => trivial
      | _ => exact absurd rfl htx
  obtain ⟨G, hG, hGr⟩ := heading_run W X hX
  have hsh : X.foldl (shared W.isURL) sh = headAll W.isURL d.heads (onSchema d.root sh) := by
    rw [← shared_noText, show C57.noText X = _ from eX, shared_skeleton, shared_front]
  let gvtR : Gvt := fun v s => if T v ∧ Types R s.p.freeze ∧ I s.sh then gvtOf W (Parse W) cfg v s else pureGvt ref v s
  have hag : ∀ v, T v → Agree R (fun _ => True) I (fun r => R r.1) (gvtOf W (Parse W) cfg v) (gvtR v) := by
    intro v hv s hvals hi
    have hty := (vals_types hvals hR trivial).1
    obtain ⟨h1, sh1, i1, e⟩ := hA v hv s.sh s.p hi hty
    have e' : gvtR v s = gvtOf W (Parse W) cfg v s := if_pos ⟨hv, hty, hi⟩
    rw [e']
    refine ⟨rfl, fun r s' e2 => ?_⟩
    rw [show gvtOf W (Parse W) cfg v s = _ from e] at e2
    cases e2
    exact ⟨h1, hvals, i1⟩
  have hsame : ∀ v, SameP (gvtR v) (pureGvt ref v) := by
    intro v s t hst
    dsimp only [gvtR]
    split
    · rename_i hc
      obtain ⟨-, sh1, -, e⟩ := hA v hc.1 s.sh s.p hc.2.2 hc.2.1
      rw [show gvtOf W (Parse W) cfg v s = _ from e]
      exact ⟨by rw [hst], hst⟩
    · exact ⟨by rw [hst], hst⟩
  have hv0 : Vals R (fun _ => True) ({} : PState) := by
    constructor <;> intro x hx <;> cases hx
  have htY : ∀ n as, Token.start n as ∈ Y → TagVals T (fun _ => True) as ∧
      ∀ k, onKind n = some k → k ≠ .import ∧ k ≠ .include ∧ k ≠ .schema := by
    intro n as h
    have hm : Token.start n as ∈ d.decls.flatMap Decl.tokens := by
      have := mem_skeleton (eY ▸ List.mem_filter.2 ⟨h, rfl⟩)
      simpa using this
    exact ⟨tagVals_asked fun v hv => ht v (List.mem_flatMap.2 ⟨_, hm, hv⟩), fun k hk => tagNames_kind (decls_tags _ hd n as hm) hk⟩
  have hr1 : run W (gvtOf W (Parse W) cfg) Y ⟨headAll W.isURL d.heads (onSchema d.root sh), G {}⟩ = .ok () ⟨sh', p⟩ := by
    have := hr
    unfold Runs at this
    rw [run_append, Go.bind_apply, hGr, hsh] at this
    exact this
  have hr2 := (agree_run hag hRT hR trivial (hRT _ hR) W Y htY ⟨headAll W.isURL d.heads (onSchema d.root sh), G {}⟩
    (hG _ _ _ hv0) hi).1
  rw [hr1] at hr2
  have hr3 := run_sameP W hsame Y ⟨headAll W.isURL d.heads (onSchema d.root sh), G {}⟩ ⟨X.foldl (shared W.isURL) {}, G {}⟩ rfl
  rw [← hr2] at hr3
  rw [run_append, Go.bind_apply, hGr]
  dsimp only
  revert hr3
  cases run W (pureGvt ref) Y ⟨X.foldl (shared W.isURL) {}, G {}⟩ with
  | ok u s => intro hr3; exact congrArg PState.freeze hr3.2
  | err u s => intro hr3; exact hr3.elim
  | halt u s => intro hr3; exact hr3.elim

omit [Uni] [UniLaws] in
theorem pureGvt_blind (ref : Tree → Str → Str) : C32.BlindGvt (pureGvt ref) := fun _ _ => ⟨fun _ => rfl, rfl⟩

omit [Uni] [UniLaws] in
theorem freeze_sim {α : Type} {o o' : Out St α} (h : C32.OutSim o o') : o.state.p.freeze = o'.state.p.freeze := by
  cases o <;> cases o' <;> first | exact h.elim | (obtain ⟨-, n, rfl⟩ := h; rfl)

omit [UniLaws] in
theorem strip_freeze (W : World) (ref : Tree → Str → Str) (toks : List Token) (hn : C32.NamesOk toks) :
    (run W (pureGvt ref) (C32.strip toks) ⟨{}, {}⟩).state.p.freeze = (run W (pureGvt ref) toks ⟨{}, {}⟩).state.p.freeze :=
  Eq.symm <| freeze_sim (C32.run_strip W (pureGvt_blind ref) toks hn ⟨{}, {}⟩ ⟨{}, {}⟩ ⟨⟨[], rfl⟩, .inl rfl⟩)

/-- Without text the tree is the translation itself. -/
theorem worded_plain (W : World) {ref : Tree → Str → Str} (hs : Core.Stable ref) (d : Doc) (hd : Regular ref [] d.decls) (toks : List Token)
    (hn : C32.NamesOk toks) (hk : C40.skeleton toks = C40.skeleton d.tokens) : worded W ref toks = treeOf ref [] d.decls := by
  obtain ⟨sh', p, -, t, -, r, -⟩ := doc_run (W := W) (gvt := pureGvt ref) (I := fun _ => True) (T := fun _ => True) (R := fun _ => True)
    (fun _ _ => trivial) trivial (fun v _ sh p _ _ => ⟨trivial, sh, trivial, rfl⟩) hs d hd (fun _ _ => trivial) {} trivial
  have e : ∀ l, C32.NamesOk l → (run W (pureGvt ref) (C40.skeleton l) ⟨{}, {}⟩).state.p.freeze = (run W (pureGvt ref) l ⟨{}, {}⟩).state.p.freeze := by
    intro l hl
    have := strip_freeze W ref (l.filter C40.visible) fun n as h => hl n as (List.mem_filter.1 h).1
    rw [C40.run_visible] at this
    exact this
  unfold worded
  rw [strip_freeze W ref toks hn, ← e toks hn, hk, e _ (doc_names d hd), show run W (pureGvt ref) d.tokens _ = _ from r]
  exact t

/-- References mean the same after components that differ in documentation only. -/
def Unworded (ref : Tree → Str → Str) : Prop := ∀ s t v, C57.bare s = C57.bare t → ref s v = ref t v

/-- The tree is the translation up to documentation. -/
theorem worded_bare (W : World) {ref : Tree → Str → Str} (hs : Core.Stable ref) (hu : Unworded ref) (d : Doc) (hd : Regular ref [] d.decls)
    (toks : List Token) (hn : C32.NamesOk toks) (hk : C40.skeleton (C57.noText toks) = C40.skeleton d.tokens) :
    C57.bare (worded W ref toks) = C57.bare (treeOf ref [] d.decls) := by
  obtain ⟨sh', p, -, t, -, r, -⟩ := doc_run (W := W) (gvt := pureGvt ref) (I := fun _ => True) (T := fun _ => True) (R := fun _ => True)
    (fun _ _ => trivial) trivial (fun v _ sh p _ _ => ⟨trivial, sh, trivial, rfl⟩) hs d hd (fun _ _ => trivial) {} trivial
  obtain ⟨q, hb, hr⟩ := run_documented W (pureGvt_blind ref) (fun v s t h => by
      refine ⟨?_, h⟩
      rw [hu s.p.freeze t.p.freeze v (by rw [← C57.freeze_erase, h.2, C57.freeze_erase])]) (C32.strip toks) d.tokens
    (fun n as h => hn n as (List.mem_filter.1 h).1) (doc_names d hd) (by rw [noText_strip, hk, skeleton_idem]) r
  unfold worded
  rw [show run W (pureGvt ref) (C32.strip toks) _ = _ from hr]
  show C57.bare q.freeze = _
  rw [hb]
  exact congrArg _ t

omit [Uni] [UniLaws] in
theorem declared_bare {s t : Tree} (h : C57.bare s = C57.bare t) (n : Str) : declared s n = declared t n := by
  rw [← declared_eq, ← declared_eq, ← C57.base_bare, h, C57.base_bare]

omit [Uni] [UniLaws] in
theorem declares_bare (t : Tree) : (C57.bare t).filterMap C07.declares = t.filterMap C07.declares := by
  unfold C57.bare
  rw [List.filterMap_map]
  congr 1
  funext n
  cases n with
  | none => rfl
  | some n => cases n <;> rfl

omit [Uni] [UniLaws] in
theorem typeRef_unworded (lang : Str) (x : Bool) : Unworded (C40.typeRef lang x) := by
  intro s t v h
  have key : s.filterMap C07.declares = t.filterMap C07.declares := by rw [← declares_bare, h, declares_bare]
  unfold C40.typeRef
  rw [key]

omit [Uni] [UniLaws] in
theorem ref_unworded (π : Project) (f : Str) : Unworded (π.ref f) := by
  intro s t v h
  unfold Project.ref
  rw [declared_bare h]

/-- `Parse` of a file with a document. -/
theorem parse_doc {W : World} {cfg : Cfg} {I : Shared → Prop} {ref : Tree → Str → Str} {T R : Str → Prop} (hRT : ∀ v, R v → T v)
    (hR : R []) (hA : ∀ v, T v → ∀ sh p, I sh → Types R p.freeze →
      R (ref p.freeze v) ∧ ∃ sh', I sh' ∧ gvtOf W (Parse W) cfg v ⟨sh, p⟩ = .ok (ref p.freeze v, none) ⟨sh', p⟩)
    (hs : Core.Stable ref) (d : Doc) (hd : Regular ref [] d.decls) (ht : ∀ v ∈ d.asked, T v)
    {toks : List Token} (hf : W.fs.get? cfg.filePath = some (.file toks)) (hn : C32.NamesOk toks)
    (hk : C40.skeleton (C57.noText toks) = C40.skeleton d.tokens) (sh : Shared)
    (hi : I (headAll W.isURL d.heads (onSchema d.root (beginParse cfg sh)))) :
    ∃ sh', I sh' ∧ Types R (treeOf ref [] d.decls) ∧ Parse W cfg sh = finish W cfg (worded W ref toks) sh' ∧
      ∃ inE p, Runs W (gvtOf W (Parse W) cfg) (d.decls.flatMap Decl.tokens)
        ⟨headAll W.isURL d.heads (onSchema d.root (beginParse cfg sh)), idle [] [] inE⟩ ⟨sh', p⟩ := by
  rw [C22.Parse_eq]
  unfold parseWith
  rw [hf]
  dsimp only
  rw [← C32.parseOpen_strip W (Parse W) cfg toks hn]
  obtain ⟨sh', p, i, t, y, r, r'⟩ := text_run hRT hR hA hs d hd ht toks hn hk _ hi
  refine ⟨sh', i, y, ?_, r'⟩
  unfold parseOpen
  rw [r]
  dsimp only
  rw [t]

/-- In extract mode references are answered by the file alone. -/
theorem answers_extract (W : World) (rec : Cfg → Go Shared Tree) (cfg : Cfg) (hx : cfg.extract = true) (I : Shared → Prop) :
    Answers I (C40.typeRef cfg.lang true) (gvtOf W rec cfg) := by
  intro v sh p hi
  refine ⟨sh, hi, ?_⟩
  unfold gvtOf getValueType C40.typeRef
  rw [← Names.localPart_eq]
  dsimp only
  cases getBuildInTypeByLang (trimNSPrefix v) cfg.lang with
  | some t => rfl
  | none =>
    dsimp only
    rw [C07.resolves_to_first, hx]
    cases (p.freeze.filterMap C07.declares).find? (fun d => d.1 = trimNSPrefix v) with
    | some d => by_cases h1 : d.2 = trimNSPrefix v <;> by_cases h2 : d.2 = [] <;> simp [h1, h2]
    | none => simp

theorem finish_writes {W : World} {cfg : Cfg} {t : Tree} {o : Str × Str} (hx : cfg.extract = false) (h : Writes W cfg t o)
    (sh : Shared) : finish W cfg t sh =
      .ok t { register cfg.filePath t sh with outputs := sh.outputs ++ [o] } := by
  obtain ⟨ext, h1, h2, h3, h4, h5⟩ := h
  obtain ⟨o1, o2⟩ := o
  dsimp only at h4 h5
  subst h4
  have hc : W.createOk (fileWithExtension (pathJoin cfg.outputDir (trimPrefix cfg.filePath cfg.inputDir)) ext) = true := h3
  unfold finish
  dsimp only
  rw [if_neg (by rw [hx]; decide), if_pos h2, generate, C24.title_lang (List.mem_map.2 ⟨_, h1, rfl⟩)]
  simp only [C24.extensions, List.mem_cons, Prod.mk.injEq, List.not_mem_nil, or_false] at h1
  unfold C24.IsOutput at h5
  rcases h1 with ⟨hl, rfl⟩ | ⟨hl, rfl⟩ | ⟨hl, rfl⟩ | ⟨hl, rfl⟩ | ⟨hl, rfl⟩ <;> rw [hl] at h5 ⊢ <;> simp at h5 <;>
    simp [writeGo, writeFile, h5, hc, register, C24.documentedPath, outputPath]

/-! ## Plain types -/

/-- Without prefix. -/
def Plain (v : Str) : Prop := Names.prefixPart v = []

instance (v : Str) : Decidable (Plain v) := inferInstanceAs (Decidable (_ = _))

omit [Uni] [UniLaws] in
theorem builtin_plain {n lang t : Str} (h : getBuildInTypeByLang n lang = some t) : Plain t := by
  obtain ⟨e, he, ht⟩ := C06.column h
  have : ∀ e ∈ buildInTypes, ∀ t ∈ e.2, getNSPrefix t = [] := by decide
  unfold Plain
  rw [← Names.prefixPart_eq]
  exact this e he t (List.mem_of_getElem? ht)

omit [Uni] [UniLaws] in
theorem local_plain (v : Str) : Plain (Names.localPart v) := by
  unfold Plain Names.prefixPart
  rw [if_neg]
  rw [← Names.localPart_eq]
  rcases C02.forms v with h | ⟨a, b, ha, hb, rfl⟩
  · rwa [(C02.other_colons v h).2]
  · rw [(C02.one_colon a b ha hb).2, List.count_eq_zero_of_not_mem hb]
    decide

omit [Uni] [UniLaws] in
theorem own_plain (π : Project) (f : Str) : Types Plain (π.own f) := by
  refine tree_types (R := Plain) (by decide) (fun t ht v => ?_) _ [] (by intro d hd; cases hd)
  unfold C40.typeRef
  cases hb : getBuildInTypeByLang (Names.localPart v) π.cfg.lang with
  | some b => exact builtin_plain hb
  | none =>
    dsimp only
    cases hf : (t.filterMap C07.declares).find? (fun d => d.1 = Names.localPart v) with
    | none => exact local_plain v
    | some d =>
      dsimp only
      split
      · exact local_plain v
      · exact ht d (List.mem_of_find?_eq_some hf)

/-! ## The invariant -/

/-- The tree of a file with its documentation. -/
def Project.worded (π : Project) (f : Str) : Tree :=
  match π.W.fs.get? f with
  | some (.file toks) => C62.worded π.W (π.ref f) toks
  | _ => []

/-- The imported files can be written. -/
def Written (π : Project) (output : Str → Str × Str) : Prop := ∀ f ∈ π.files, Writes π.W (π.part f) (π.worded f) (output f)

/-- The shared maps while the files `P` are being parsed: places, found by prefix or by name space, are those of the schema, and every imported file
is either untouched, or being parsed, or done: registered with its translation and written. -/
def Inv (π : Project) (output : Str → Str × Str) (outs : List (Str × Str)) (P : List Str) (sh : Shared) : Prop :=
  (∀ q, place? π.places (sh.localNS.getStr q) = place? π.places (bound π.main.root q)) ∧ (∀ n, sh.nsLoc.get? n = place? π.places n) ∧ sh.includeMap = noted [] π.main.includes ∧
  ∃ gs : List Str, gs.Nodup ∧
    (∀ g ∈ gs, g ∈ π.files ∧ g ∉ P ∧ sh.parseFileMap.get? g = some (π.worded g) ∧ Types Plain (π.trees g) ∧
      ∀ g', π.Needs g g' → g' ∈ sh.parseFileMap.keys) ∧
    (∀ p ∈ P, sh.parseFileMap.get? p = some []) ∧ (∀ f ∈ π.files, f ∉ P → f ∉ gs → sh.parseFileMap.get? f = none) ∧
    sh.outputs = outs ++ gs.map output

variable {π : Project} {output : Str → Str × Str} {outs : List (Str × Str)} {P : List Str}

theorem ref_stable (π : Project) (f : Str) : Core.Stable (π.ref f) := by
  intro t v
  constructor <;> intro c <;> simp [Project.ref, declared, List.filterMap_append, C07.declares]

/-- Up to documentation the tree is the translation, and without text it is the translation itself. -/
theorem worded_tree (h : π.Sound) {f : Str} (hf : f ∈ π.all) :
    C57.bare (π.worded f) = C57.bare (π.trees f) ∧ (Textless π.W f → π.worded f = π.trees f) := by
  obtain ⟨toks, h1, h2, h3⟩ := h.parts f (List.mem_append_left _ hf)
  unfold Project.worded
  rw [h1, h.trees f hf]
  refine ⟨worded_bare π.W (ref_stable π f) (ref_unworded π f) _ (h.regular f hf) toks h2 h3, fun hw => ?_⟩
  refine worded_plain π.W (ref_stable π f) _ (h.regular f hf) toks h2 ?_
  rw [← h3]
  unfold C40.skeleton
  congr 1
  unfold C57.noText
  rw [List.filter_filter]
  refine List.filter_congr fun t ht => ?_
  cases t with
  | text x => simp [C40.visible, hw toks x h1 ht]
  | _ => rfl

/-- Reading an imported file leaves the prefixes and places. -/
theorem Inv.enter (h : π.Sound) {f : Str} (hf : f ∈ π.files ++ π.included) {sh : Shared} (hi : Inv π output outs P sh) :
    Inv π output outs P (headAll π.W.isURL (π.docs f).heads (onSchema (π.docs f).root sh)) := by
  have key : ∀ imports : List (List Attr), (∀ as ∈ imports, as ∈ (π.docs f).imports) → ∀ sh, Inv π output outs P sh →
      Inv π output outs P (importAll π.W.isURL imports sh) := by
    intro imports
    induction imports with
    | nil => intro _ sh hi; exact hi
    | cons as imports ih =>
      intro hm sh hi
      refine ih (fun b hb => hm b (by simp [hb])) _ ?_
      obtain ⟨h1, h2⟩ := h.known f hf as (hm as (by simp))
      dsimp only
      rw [onImport_eq _ _ _ h1]
      cases hi' : importOf as with
      | none => exact hi
      | some i =>
        unfold importInto
        dsimp only
        rw [if_pos]
        · exact hi
        · rcases h2 i hi' with h3 | h3
          · exact .inr h3
          · left
            rw [GoMap.has, hi.2.1]
            exact h3
  rw [headAll_eq]
  have hinc : (onSchema (π.docs f).root sh).includeMap = noted [] π.main.includes := by
    obtain ⟨m, e⟩ := onSchema_only (π.docs f).root sh
    rw [e]
    exact hi.2.2.1
  rw [hinc, noted_known _ (includePlaces (π.docs f).heads) fun l hl => GoMap.has_iff.2 ((mem_noted _ _ _).2 (.inr (h.direct f hf l hl)))]
  rw [← importAll_includes, ← hinc]
  refine key _ (fun _ h => h) _ ?_
  obtain ⟨m, e⟩ := onSchema_only (π.docs f).root sh
  obtain ⟨h1, h2⟩ := hi
  refine ⟨fun q => onSchema_same _ _ _ _ h1 (h.prefixes f hf) q, ?_⟩
  rw [e]
  exact h2

/-- The type of an imported file on its own. -/
theorem extract_part (h : π.Sound) {f : Str} (hf : f ∈ π.files ++ π.included) {sh : Shared} (hi : Inv π output outs P sh) (cfg : Cfg)
    (hc : cfg.filePath = f) (hx : cfg.extract = true) (hl : cfg.lang = π.cfg.lang) :
    ∃ sh' t, Inv π output outs P sh' ∧ Grows sh sh' ∧ (∀ n, declared t n = declared (π.own f) n) ∧ Parse π.W cfg sh = .ok t sh' := by
  obtain ⟨toks, k1, k2, k3⟩ := h.parts f (List.mem_cons_of_mem _ hf)
  have hreg : Regular (C40.typeRef cfg.lang true) [] (π.docs f).decls := by rw [hl]; exact h.alone f hf
  obtain ⟨sh', h1, -, h2, -⟩ := parse_doc (W := π.W) (cfg := cfg) (T := fun _ => True) (R := fun _ => True)
    (ref := C40.typeRef cfg.lang true) (I := Inv π output outs P) (fun _ _ => trivial) trivial
    (fun v _ sh p hi _ => ⟨trivial, answers_extract π.W (Parse π.W) cfg hx _ v sh p hi⟩)
    (C40.typeRef_stable _ _) (π.docs f) hreg (fun _ _ => trivial) (by rw [hc]; exact k1) k2 k3 sh (by
      refine Inv.enter h hf ?_
      unfold beginParse
      dsimp only
      rw [if_pos hx]
      exact hi)
  rw [finish, if_pos hx] at h2
  refine ⟨sh', _, h1, ?_, fun n => ?_, h2⟩
  · have := (C26.parse_mono π.W cfg sh).files
    rw [h2] at this
    exact this
  · rw [declared_bare (worded_bare π.W (C40.typeRef_stable _ _) (typeRef_unworded _ _) _ hreg toks k2 k3), hl]
    rfl

/-- The number of files that can still be entered. -/
def left (π : Project) (P : List Str) : Nat := (π.files.filter fun f => f ∉ P).length

omit [Uni] [UniLaws] in
theorem left_cons {f : Str} (hf : f ∈ π.files) (hp : f ∉ P) : left π (f :: P) < left π P := by
  unfold left
  have : ∀ l : List Str, (l.filter fun g => g ∉ f :: P) = (l.filter fun g => g ∉ P).filter fun g => g ≠ f := by
    intro l
    rw [List.filter_filter]
    refine List.filter_congr fun g _ => ?_
    simp
  rw [this]
  refine List.length_filter_lt_length_iff_exists.2 ⟨f, List.mem_filter.2 ⟨hf, by simpa using hp⟩, by simp⟩

/-- The resolver of the parse `cfg` answers references from the file `f` that lead downwards. -/
def Resolves (π : Project) (I : Shared → Prop) (f : Str) (cfg : Cfg) : Prop :=
  ∀ v, π.Below f (Names.prefixPart v) → ∀ sh p, I sh → Types Plain p.freeze → Plain (π.ref f p.freeze v) ∧
    ∃ sh', I sh' ∧ gvtOf π.W (Parse π.W) cfg v ⟨sh, p⟩ = .ok (π.ref f p.freeze v, none) ⟨sh', p⟩ ∧
      (getBuildInTypeByLang (Names.localPart v) π.cfg.lang = none → (∀ d ∈ p.freeze.filterMap C07.declares, d.1 ≠ Names.localPart v) →
        ∀ g, π.file? (Names.prefixPart v) = some g → g ∈ sh'.parseFileMap.keys)

/-- References keep the registered files. -/
theorem gvt_grows (W : World) (cfg : Cfg) (v : Str) (s : St) : Grows s.sh (gvtOf W (Parse W) cfg v s).state.sh := by
  have hp : ∀ cfg sh, KeepsAt Grows (fun _ => True) (Parse W cfg) sh :=
    fun cfg sh => ⟨(C26.parse_mono W cfg sh).files, fun _ _ _ => trivial⟩
  have S : ShRel W (fun _ _ => True) :=
    ⟨fun _ => trivial, fun _ _ => trivial, fun _ => trivial, fun _ _ _ => ⟨trivial, trivial, trivial⟩,
      fun _ _ _ => trivial, fun _ _ _ _ => trivial, fun _ _ _ => trivial⟩
  have SG := Grows.stable S
  refine ((gvtOf_keeps (Q := fun _ => True) (H := fun _ => True) (fun value tree sh _ => getValueType_keeps
    (⟨fun a => (SG.refl a).2, fun h g => (SG.trans ⟨trivial, h⟩ ⟨trivial, g⟩).2, fun _ _ => trivial⟩)
    (fun _ path sh _ => hp _ sh) (fun _ path sh _ _ _ => hp _ sh)
    (fun _ name sh _ => ⟨(includeLoop_keeps (R := fun a b => True ∧ Grows a b) SG
      (fun path sh => ⟨trivial, (hp (nestedCfg cfg path true) sh).1⟩) name _ _ _ _ sh).2, fun _ _ _ => trivial⟩) value tree sh trivial) v).2 s trivial).1

theorem parse_file (h : π.Sound) {f : Str} (hf : f ∈ π.all) {I : Shared → Prop} {cfg : Cfg} (hc : cfg.filePath = f)
    (hg : Resolves π I f cfg) (sh : Shared) (hi : I (headAll π.W.isURL (π.docs f).heads (onSchema (π.docs f).root (beginParse cfg sh)))) :
    ∃ sh', I sh' ∧ Types Plain (π.trees f) ∧ Parse π.W cfg sh = finish π.W cfg (π.worded f) sh' ∧
      ∀ g, π.Needs f g → g ∈ sh'.parseFileMap.keys := by
  obtain ⟨toks, k1, k2, k3⟩ := h.parts f (List.mem_append_left _ hf)
  rw [h.trees f hf, show π.worded f = worded π.W (π.ref f) toks by unfold Project.worded; rw [k1]]
  have hRT : ∀ v, Plain v → π.Below f (Names.prefixPart v) := by
    intro v hv
    rw [show Names.prefixPart v = [] from hv]
    exact (h.below f hf).1
  have hA : ∀ v, π.Below f (Names.prefixPart v) → ∀ sh p, I sh → Types Plain p.freeze → Plain (π.ref f p.freeze v) ∧
      ∃ sh', I sh' ∧ gvtOf π.W (Parse π.W) cfg v ⟨sh, p⟩ = .ok (π.ref f p.freeze v, none) ⟨sh', p⟩ := by
    intro v hv sh p hi ht
    obtain ⟨a, sh', b, c, -⟩ := hg v hv sh p hi ht
    exact ⟨a, sh', b, c⟩
  obtain ⟨sh', h1, h2, h3, inE, p, h4⟩ := parse_doc (T := fun v => π.Below f (Names.prefixPart v)) hRT (by decide) hA (ref_stable π f) (π.docs f)
    (h.regular f hf) (h.below f hf).2 (by rw [hc]; exact k1) k2 k3 sh hi
  refine ⟨sh', h1, h2, h3, fun g hn => ?_⟩
  obtain ⟨n, as, v, n1, n2, n3, n4, n5, n6⟩ := hn
  refine decls_done (D := fun sh => g ∈ sh.parseFileMap.keys) hRT (by decide) hA ?_ ?_ n4 (π.docs f).decls (h.regular f hf) ?_ n6 n1 n2 hi h4
  · intro u s r s' e hd
    have := gvt_grows π.W cfg u s g hd
    rw [e] at this
    exact this
  · intro sh p hi ht hd r s' e
    have hb : π.Below f (Names.prefixPart v) := (h.below f hf).2 v (List.mem_flatMap.2 ⟨_, n1, refers_asked n2⟩)
    obtain ⟨-, sh', -, b, c⟩ := hg v hb sh p hi ht
    rw [b] at e
    cases e
    exact c n5 hd g n3
  · exact fun n as hm v hv => (h.below f hf).2 v (List.mem_flatMap.2 ⟨_, hm, hv⟩)

/-- A parse of an imported file that is not being parsed. -/
theorem parse_part (h : π.Sound) (hw : Written π output) {f : Str} (hf : f ∈ π.files) (hp : f ∉ P) {sh : Shared} (hi : Inv π output outs P sh)
    (hu : sh.parseFileMap.get? f = none) (hg : Resolves π (Inv π output outs (f :: P)) f (π.part f)) :
    ∃ sh', Inv π output outs P sh' ∧ Types Plain (π.trees f) ∧ f ∈ sh'.parseFileMap.keys ∧
      Parse π.W (π.part f) sh = .ok (π.worded f) sh' := by
  have hb : Inv π output outs (f :: P) (beginParse (π.part f) sh) := by
    obtain ⟨h1, h2, h3, gs, h4, h5, h6, h7, h8⟩ := hi
    have hfg : f ∉ gs := fun hm => by have := (h5 f hm).2.2.1; rw [hu] at this; cases this
    have e : (beginParse (π.part f) sh).parseFileMap = sh.parseFileMap.set f [] := rfl
    refine ⟨h1, h2, h3, gs, h4, fun g hg => ?_, fun p hp' => ?_, fun g hg hg1 hg2 => ?_, h8⟩
    · obtain ⟨a, b, c, d⟩ := h5 g hg
      have : g ≠ f := fun e => hfg (e ▸ hg)
      refine ⟨a, by simp [this, b], ?_, d.1, fun g' hn => ?_⟩
      · rw [e, GoMap.get?_set_ne _ this, c]
      · rw [e]
        exact (GoMap.mem_keys_set _ _ _ _).2 (.inr (d.2 g' hn))
    · rw [e, GoMap.get?_set]
      split
      · rfl
      · exact h6 p (by rcases List.mem_cons.1 hp' with e | e; · contradiction
                       · exact e)
    · rw [e, GoMap.get?_set_ne _ (fun e => hg1 (by simp [e]))]
      exact h7 g hg (fun hm => hg1 (by simp [hm])) hg2
  obtain ⟨sh', h1, hy, h2, hnd⟩ := parse_file h (f := f) (by simp [Project.all, hf]) (cfg := π.part f) rfl hg sh (Inv.enter h (List.mem_append_left _ hf) hb)
  rw [finish_writes rfl (hw f hf)] at h2
  refine ⟨_, ?_, hy, (GoMap.mem_keys_set _ _ _ _).2 (.inl rfl), h2⟩
  · obtain ⟨h1, h2, h3, gs, h4, h5, h6, h7, h8⟩ := h1
    have hfg : f ∉ gs := fun hm => (h5 f hm).2.1 (by simp)
    have e : (register (π.part f).filePath (π.worded f) sh').parseFileMap = sh'.parseFileMap.set f (π.worded f) := rfl
    refine ⟨h1, h2, h3, gs ++ [f], ?_, fun g hg => ?_, fun p hp' => ?_, fun g hg hg1 hg2 => ?_, ?_⟩
    · exact List.nodup_append.2 ⟨h4, by simp, fun a ha b hb => by simp only [List.mem_singleton] at hb; subst hb; exact fun e => hfg (e ▸ ha)⟩
    · dsimp only
      rw [e]
      rcases List.mem_append.1 hg with hg | hg
      · obtain ⟨a, b, c, d⟩ := h5 g hg
        have : g ≠ f := fun e => hfg (e ▸ hg)
        exact ⟨a, fun hm => b (by simp [hm]), by rw [GoMap.get?_set_ne _ this, c], d.1,
          fun g' hn => (GoMap.mem_keys_set _ _ _ _).2 (.inr (d.2 g' hn))⟩
      · simp only [List.mem_singleton] at hg
        subst hg
        exact ⟨hf, hp, by simp, hy, fun g' hn => (GoMap.mem_keys_set _ _ _ _).2 (.inr (hnd g' hn))⟩
    · dsimp only
      have hne : p ≠ f := fun e => hp (e ▸ hp')
      rw [e, GoMap.get?_set_ne _ hne]
      exact h6 p (by simp [hp'])
    · dsimp only
      rw [e]
      simp only [List.mem_append, List.mem_singleton, not_or] at hg2
      rw [GoMap.get?_set_ne _ hg2.2]
      exact h7 g hg (by simp [hg2.2, hg1]) hg2.1
    · dsimp only
      rw [h8]
      simp

omit [Uni] [UniLaws] in
theorem declared_congr {s t : Tree} (h : s.filterMap C07.declares = t.filterMap C07.declares) (n : Str) :
    declared s n = declared t n := by
  unfold declared; rw [h]

/-- A registered file answers a reference. -/
theorem dep_part (h : π.Sound) {f : Str} (hf : f ∈ π.files) {sh : Shared} (hi : Inv π output outs P sh) (cfg : Cfg)
    (hl : cfg.lang = π.cfg.lang) (n : Str) (t : Tree) :
    ∃ sh', Inv π output outs P sh' ∧ Grows sh sh' ∧ resolveInDep (Parse π.W) cfg n f t sh =
      .ok (if declared t n ≠ n ∧ declared t n ≠ [] then declared t n else declared (π.own f) n, none) sh' := by
  unfold resolveInDep
  dsimp only
  obtain ⟨sh', t', h1, h3, h4, h2⟩ := extract_part h (List.mem_append_left _ hf) hi (nestedCfg cfg f true) rfl rfl hl
  simp only [h2, declared_eq, h4]
  by_cases hc : declared t n ≠ n ∧ declared t n ≠ []
  · exact ⟨sh, hi, fun _ h => h, by rw [if_pos hc, if_pos (by simpa using hc)]⟩
  · exact ⟨sh', h1, h3, by rw [if_neg hc, if_neg (by simpa using hc)]⟩

omit [Uni] [UniLaws] in
theorem lookup_settled {g : Str} (h : π.Settled g) (n : Str) : π.lookup g n = declared (π.own g) n := by
  unfold Project.lookup
  rw [declared_congr h]
  split <;> rfl

omit [Uni] [UniLaws] in
theorem file?_eq (q : Str) : π.file? q = (π.places.find? fun i => i.1 = bound π.main.root q).map fun i => pathJoin π.dir i.2 := by
  unfold Project.file? place?
  rw [Option.map_map]
  rfl

omit [UniLaws] in
theorem agree_on_name (h : π.Sound) {f g : Str} (hf : f ∈ π.included) (hg : g ∈ π.included) {n : Str}
    (h1 : declared (π.own f) n ≠ n) (h2 : declared (π.own g) n ≠ n) : declared (π.own f) n = declared (π.own g) n := by
  have hd : ∃ d ∈ (π.own f).filterMap C07.declares, d.1 = n := by
    unfold declared at h1
    cases hfi : ((π.own f).filterMap C07.declares).find? (fun d => d.1 = n) with
    | none => rw [hfi] at h1; exact absurd rfl h1
    | some d => exact ⟨d, List.mem_of_find?_eq_some hfi, by simpa using List.find?_some hfi⟩
  obtain ⟨d, hd, rfl⟩ := hd
  exact h.agree f hf g hg d hd h1 h2

omit [UniLaws] in
/-- Any included file that says something about a name decides. -/
theorem fromIncluded_of (h : π.Sound) {g : Str} (hg : g ∈ π.included) {n : Str} (hn : declared (π.own g) n ≠ n) :
    (if declared (π.own g) n = [] then n else declared (π.own g) n) = π.fromIncluded n := by
  unfold Project.fromIncluded
  cases hfi : π.included.find? (fun g => π.Gives g n) with
  | none =>
    have := List.find?_eq_none.1 hfi g hg
    split
    · rfl
    · rename_i h0
      exact absurd (decide_eq_true ⟨hn, h0⟩) this
  | some f =>
    have hf : π.Gives f n := by simpa using List.find?_some hfi
    have e := agree_on_name h (List.mem_of_find?_eq_some hfi) hg hf.1 hn
    dsimp only
    rw [← e, if_neg hf.2]

omit [Uni] [UniLaws] in
theorem fromIncluded_plain (π : Project) {n : Str} (hn : Plain n) : Plain (π.fromIncluded n) := by
  unfold Project.fromIncluded
  split
  · exact declared_types (own_plain π _) hn
  · exact hn

/-- The included files that are still to be looked into. -/
def candidates (sh : Shared) (visited : List Str) : List Str := sh.includeMap.keys.filter fun k => !visited.contains k

/-- The loop over the included files, whatever its order. -/
theorem includes_run (h : π.Sound) (cfg : Cfg) (hl : cfg.lang = π.cfg.lang) (hd : cfg.fileDir = π.dir) (n : Str) :
    ∀ (k : Nat) (visited : List Str) (vt : Str) (sh : Shared), Inv π output outs P sh → (candidates sh visited).length < k →
      (∀ l ∈ visited, l ∈ π.main.includes ∧
        (declared (π.own (pathJoin π.dir l)) n ≠ n → vt = declared (π.own (pathJoin π.dir l)) n)) →
      (vt = [] ∨ ∃ g ∈ π.included, declared (π.own g) n ≠ n ∧ vt = declared (π.own g) n) →
      ∃ sh', Inv π output outs P sh' ∧
        includeLoop π.W (Parse π.W) cfg n (noted [] π.main.includes).keys k visited vt sh = .ok (π.fromIncluded n) sh' := by
  intro k
  induction k with
  | zero => intro _ _ _ _ h0; exact absurd h0 (Nat.not_lt_zero _)
  | succ k ih =>
    intro visited vt sh hi hk hv ho
    have hkeys : ∀ l, l ∈ sh.includeMap.keys ↔ l ∈ π.main.includes := fun l => by
      rw [hi.2.2.1, mem_noted]
      exact ⟨fun h => h.resolve_left (by intro h; cases h), .inr⟩
    have hi1 : Inv π output outs P { sh with tick := sh.tick + 1 } := hi
    unfold includeLoop
    dsimp only
    rw [← hi.2.2.1]
    by_cases hc : candidates sh visited = []
    · have hall : ∀ l ∈ π.main.includes, l ∈ visited := by
        intro l hm
        have := List.filter_eq_nil_iff.1 hc l ((hkeys l).2 hm)
        simpa using this
      have hnk : nextKey π.W sh.includeMap.keys visited sh = none := by
        unfold nextKey
        rw [show sh.includeMap.keys.filter (fun k => !visited.contains k) = [] from hc]
        rfl
      rw [hnk]
      refine ⟨_, hi1, ?_⟩
      dsimp only
      congr 1
      rcases ho with rfl | ⟨g, hg, h1, rfl⟩
      · rw [if_pos rfl]
        unfold Project.fromIncluded
        cases hfi : π.included.find? (fun g => π.Gives g n) with
        | none => rfl
        | some f =>
          have hf : π.Gives f n := by simpa using List.find?_some hfi
          obtain ⟨l, hl, rfl⟩ := List.mem_map.1 (List.mem_of_find?_eq_some hfi)
          exact absurd ((hv l (hall l hl)).2 hf.1).symm hf.2
      · exact fromIncluded_of h hg h1
    · have hlt : π.W.pick sh.tick % (candidates sh visited).length < (candidates sh visited).length :=
        Nat.mod_lt _ (List.length_pos_iff.2 hc)
      have hmust : sh.includeMap.keys.any (fun k => !visited.contains k) = true := by
        obtain ⟨x, hx⟩ := List.exists_mem_of_ne_nil _ hc
        exact List.any_eq_true.2 ⟨x, (List.mem_filter.1 hx).1, (List.mem_filter.1 hx).2⟩
      have hnk : nextKey π.W sh.includeMap.keys visited sh =
          some ((candidates sh visited)[π.W.pick sh.tick % (candidates sh visited).length]) := by
        unfold nextKey
        dsimp only
        rw [hmust, if_pos rfl]
        exact List.getElem?_eq_getElem hlt
      rw [hnk]
      have hmem := List.getElem_mem hlt
      generalize (candidates sh visited)[π.W.pick sh.tick % (candidates sh visited).length] = inc at hmem
      obtain ⟨hinc, hnv⟩ := List.mem_filter.1 hmem
      have hincl : pathJoin π.dir inc ∈ π.included := List.mem_map.2 ⟨inc, (hkeys inc).1 hinc, rfl⟩
      obtain ⟨sh', t', i1, -, i3, i2⟩ := extract_part h (List.mem_append_right _ hincl) hi1 (nestedCfg cfg (pathJoin cfg.fileDir inc) true)
        (by rw [hd]; rfl) rfl hl
      dsimp only
      rw [i2]
      dsimp only
      rw [declared_eq, i3, hi.2.2.1]
      refine ih _ _ sh' i1 ?_ ?_ ?_
      · refine Nat.lt_of_lt_of_le ?_ (Nat.le_of_lt_succ hk)
        have e : candidates sh' (inc :: visited) = (candidates sh visited).filter fun k => k ≠ inc := by
          unfold candidates
          rw [i1.2.2.1, hi.2.2.1, List.filter_filter]
          refine List.filter_congr fun x _ => ?_
          simp
        rw [e]
        exact List.length_filter_lt_length_iff_exists.2 ⟨inc, hmem, by simp⟩
      · intro l hl
        rcases List.mem_cons.1 hl with rfl | hl
        · exact ⟨(hkeys l).1 hinc, fun h1 => by rw [if_pos h1]⟩
        · refine ⟨(hv l hl).1, fun h1 => ?_⟩
          by_cases h2 : declared (π.own (pathJoin π.dir inc)) n ≠ n
          · rw [if_pos h2]
            exact agree_on_name h hincl (List.mem_map.2 ⟨l, (hv l hl).1, rfl⟩) h2 h1
          · rw [if_neg h2]
            exact (hv l hl).2 h1
      · by_cases h2 : declared (π.own (pathJoin π.dir inc)) n ≠ n
        · rw [if_pos h2]
          exact .inr ⟨_, hincl, h2, rfl⟩
        · rw [if_neg h2]
          exact ho

/-- References are answered as specified. -/
theorem answers (h : π.Sound) (hw : Written π output) (n : Nat) : ∀ (P : List Str), left π P ≤ n → ∀ cfg : Cfg, cfg.extract = false →
    cfg.lang = π.cfg.lang → cfg.outputDir = π.cfg.outputDir → pathDir cfg.filePath = π.dir →
    (cfg.filePath ∉ π.files ∨ cfg.filePath ∈ P) → (∀ p ∈ P, π.rank cfg.filePath ≤ π.rank p) →
    Resolves π (Inv π output outs P) cfg.filePath cfg := by
  induction n using Nat.strongRecOn with
  | _ n ih =>
    intro P hP cfg hx hl ho hd hcf hrk v hbl sh p hi hty
    unfold gvtOf getValueType Project.ref
    rw [← Names.localPart_eq, hl]
    dsimp only
    cases hb : getBuildInTypeByLang (trimNSPrefix v) π.cfg.lang with
    | some t => exact ⟨builtin_plain hb, sh, hi, rfl, fun h => by cases h⟩
    | none =>
      dsimp only
      rw [declared_eq]
      have hout : ∀ vt, Plain (π.outside cfg.filePath v) ∧ ∃ sh', Inv π output outs P sh' ∧
          resolveOutside π.W (Parse π.W) cfg v vt sh = .ok (π.outside cfg.filePath v, none) sh' ∧
          ∀ g, π.file? (Names.prefixPart v) = some g → g ∈ sh'.parseFileMap.keys := by
        intro vt
        have hj : pathJoin cfg.fileDir [] = pathDir cfg.filePath := pathJoin_dir_nil _
        have hloc : sh.nsLoc.getStr (sh.localNS.getStr (getNSPrefix v)) =
            (place? π.places (bound π.main.root (Names.prefixPart v))).getD [] := by
          rw [GoMap.getStr, hi.2.1, hi.1, Names.prefixPart_eq]
        unfold resolveOutside Project.outside
        dsimp only
        rw [hloc, ← Names.localPart_eq]
        have hfq := file?_eq (π := π) (Names.prefixPart v)
        have hpl := local_plain v
        rw [← Names.localPart_eq] at hpl
        unfold place?
        cases hfi : π.places.find? (fun i => i.1 = bound π.main.root (Names.prefixPart v)) with
        | none =>
          rw [hfi] at hfq
          rw [hfq]
          simp only [Option.map_none, Option.getD_none]
          rw [h.url, hj, hd, h.directory]
          have hlen : (candidates sh []).length < sh.includeMap.length + π.W.size + 1 := by
            have : (candidates sh []).length ≤ sh.includeMap.keys.length := List.length_filter_le ..
            rw [GoMap.keys, List.length_map] at this
            omega
          obtain ⟨sh', i1, i2⟩ := includes_run h cfg hl hd (trimNSPrefix v) _ [] [] sh hi hlen (by simp) (.inl rfl)
          refine ⟨fromIncluded_plain π hpl, sh', i1, ?_, fun g hg => by cases hg⟩
          simp only [Bool.false_eq_true, if_false]
          rw [hi.2.2.1] at i2 ⊢
          rw [i2]
        | some i =>
          have hi1 := List.mem_of_find?_eq_some hfi
          rw [hfi, Option.map_some] at hfq
          have hbf := hbl _ hfq
          rw [hfq]
          simp only [Option.map_some, Option.getD_some]
          have hnu : π.W.isURL i.2 = false := by
            have := (List.mem_filter.1 hi1).2
            simpa using this
          have h0 := h.located i hi1
          have hff : pathJoin π.dir i.2 ∈ π.files := List.mem_map.2 ⟨i, hi1, rfl⟩
          have hfd : cfg.fileDir = π.dir := hd
          rw [hnu, hfd]
          generalize pathJoin π.dir i.2 = g at hff hbf
          obtain ⟨toks, hfs, -, -⟩ := h.parts g (List.mem_append_left _ (by simp [Project.all, hff]))
          rw [hfs]
          simp only [Bool.false_eq_true, if_false, h0]
          have howp : Plain (declared (π.own g) (trimNSPrefix v)) := declared_types (own_plain π g) hpl
          have hlkp : Types Plain (π.trees g) → Plain (π.lookup g (trimNSPrefix v)) := by
            intro ht
            unfold Project.lookup
            split
            · exact declared_types ht hpl
            · exact howp
          unfold resolveInFile
          cases hr : sh.parseFileMap.get? g with
          | some dep =>
            obtain ⟨sh', i1, igr, i2⟩ := dep_part h hff hi cfg hl (trimNSPrefix v) dep
            have hgk : ∀ g', some g = some g' → g' ∈ sh'.parseFileMap.keys := by
              intro g' e
              cases e
              refine igr g ?_
              rw [← GoMap.has_iff, GoMap.has, hr]
              rfl
            dsimp only
            rw [i2]
            obtain ⟨-, -, -, gs, -, h5, h6, h7, -⟩ := hi
            by_cases hp : g ∈ P
            · have := h6 g hp
              rw [hr] at this
              cases this
              have e0 : declared [] (trimNSPrefix v) = trimNSPrefix v := rfl
              have e2 : (if declared [] (trimNSPrefix v) ≠ trimNSPrefix v ∧ declared [] (trimNSPrefix v) ≠ [] then
                  declared [] (trimNSPrefix v) else declared (π.own g) (trimNSPrefix v)) = declared (π.own g) (trimNSPrefix v) :=
                if_neg fun hc => hc.1 e0
              have e1 : (if g = cfg.filePath then declared (π.own g) (trimNSPrefix v) else π.lookup g (trimNSPrefix v)) =
                  declared (π.own g) (trimNSPrefix v) := by
                split
                · rfl
                · rename_i hne
                  rcases hbf with e | e | e
                  · exact absurd e hne
                  · exact absurd (hrk g hp) (Nat.not_le.2 e)
                  · exact lookup_settled e.2 _
              rw [e1, e2]
              exact ⟨howp, sh', i1, rfl, hgk⟩
            · by_cases hg : g ∈ gs
              · have hgt := (h5 g hg).2.2
                rw [hr] at hgt
                cases hgt.1
                have hne : g ≠ cfg.filePath := by
                  rcases hcf with e | e
                  · exact fun e' => e (e' ▸ hff)
                  · exact fun e' => hp (e' ▸ e)
                rw [if_neg hne, declared_bare (worded_tree h (List.mem_cons_of_mem _ hff)).1]
                exact ⟨hlkp hgt.2.1, sh', i1, rfl, hgk⟩
              · have := h7 g hff hp hg
                rw [hr] at this
                cases this
          | none =>
            have hp : g ∉ P := fun hp => by
              obtain ⟨-, -, -, gs, -, h5, h6, h7, -⟩ := hi
              have := h6 g hp
              rw [hr] at this
              cases this
            have hne : g ≠ cfg.filePath := by
              rcases hcf with e | e
              · exact fun e' => e (e' ▸ hff)
              · exact fun e' => hp (e' ▸ e)
            have hrg : π.rank g ≤ π.rank cfg.filePath := by
              rcases hbf with e | e | e
              · exact absurd e hne
              · exact Nat.le_of_lt e
              · exact Nat.le_of_eq e.1
            obtain ⟨sh1, i1, i2, ik, i3⟩ := parse_part h hw hff hp hi hr
              (ih (left π (g :: P)) (Nat.lt_of_lt_of_le (left_cons hff hp) hP) (g :: P) (Nat.le_refl _) (π.part g) rfl rfl rfl
                (h.beside g hff) (.inr (by simp [Project.part])) (fun p hp => by
                  rcases List.mem_cons.1 hp with rfl | hp
                  · exact Nat.le_refl _
                  · exact Nat.le_trans hrg (hrk p hp)))
            have hn : nestedCfg cfg g false = π.part g := by
              unfold nestedCfg Project.part
              rw [hl, ho]
            simp only [hn, i3]
            obtain ⟨sh', j1, jgr, j2⟩ := dep_part h hff i1 cfg hl (trimNSPrefix v) (π.worded g)
            rw [j2, if_neg hne, declared_bare (worded_tree h (List.mem_cons_of_mem _ hff)).1]
            exact ⟨hlkp i2, sh', j1, rfl, fun g' e => by cases e; exact jgr g ik⟩
      have hpl := local_plain v
      rw [← Names.localPart_eq] at hpl
      by_cases h1 : declared p.freeze (trimNSPrefix v) ≠ trimNSPrefix v ∧ declared p.freeze (trimNSPrefix v) ≠ []
      · rw [if_pos h1, if_pos (by simpa using h1)]
        refine ⟨declared_types hty hpl, sh, hi, rfl, fun _ hnd => absurd ?_ h1.1⟩
        rw [declared, List.find?_eq_none.2 (by simpa using hnd)]
      · obtain ⟨hpo, sh', i1, i2, i3⟩ := hout (declared p.freeze (trimNSPrefix v))
        rw [if_neg h1, if_neg (by simpa using h1), if_neg (by rw [hx]; decide)]
        refine ⟨hpo, sh', i1, ?_, fun _ _ => i3⟩
        rw [i2]

/-- Nothing is known yet about other files. -/
def Fresh (π : Project) (sh : Shared) : Prop :=
  sh.localNS = [] ∧ sh.nsLoc = [] ∧ sh.includeMap = [] ∧ ∀ f ∈ π.files, sh.parseFileMap.get? f = none

/-- The state in which the declarations of the schema are read. -/
theorem Inv.start (h : π.Sound) (sh : Shared) (hs : Fresh π sh) :
    Inv π output sh.outputs [] (headAll π.W.isURL π.main.heads (onSchema π.main.root (beginParse π.cfg sh))) := by
  obtain ⟨m, e1, e2⟩ := importAll_places π.W.isURL π.main.imports h.ordered (onSchema π.main.root (beginParse π.cfg sh))
  obtain ⟨k, e3⟩ := onSchema_only π.main.root (beginParse π.cfg sh)
  have hb : ∀ q, (onSchema π.main.root (beginParse π.cfg sh)).localNS.getStr q = bound π.main.root q := by
    intro q
    rw [C26.schema_binds]
    have : (beginParse π.cfg sh).localNS = [] := by
      unfold beginParse
      dsimp only
      rw [if_neg (by rw [h.writes]; decide)]
      exact hs.1
    rw [this]
    rfl
  have h0 : ∀ x, beginParse π.cfg sh = x → x.nsLoc = [] ∧ x.includeMap = [] ∧ x.outputs = sh.outputs ∧
      ∀ f ∈ π.files, x.parseFileMap.get? f = none := by
    rintro x rfl
    unfold beginParse
    dsimp only
    rw [if_neg (by rw [h.writes]; decide)]
    refine ⟨hs.2.1, hs.2.2.1, rfl, fun f hf => ?_⟩
    show (GoMap.set _ _ _).get? f = none
    have hne : f ≠ π.cfg.filePath := fun e => h.other (e ▸ hf)
    rw [GoMap.get?_set_ne _ hne]
    exact hs.2.2.2 f hf
  obtain ⟨a, b, c, d⟩ := h0 _ rfl
  rw [headAll_eq, show importAll π.W.isURL (importTags π.main.heads) _ = _ from e1]
  rw [e3] at hb e2 ⊢
  refine ⟨fun q => by dsimp only; rw [hb], fun n => ?_, by dsimp only; rw [b]; rfl, [], by simp, by simp, by simp, fun f hf _ _ => d f hf, by simp [c]⟩
  rw [e2]
  dsimp only
  rw [a]
  rfl

/-- The translation of the schema. -/
theorem translated_worded (h : π.Sound) (hw : Written π output) (sh : Shared) (hs : Fresh π sh) :
    ∃ (gs : List Str) (sh' : Shared), gs.Nodup ∧ (∀ g ∈ gs, g ∈ π.files ∧ sh'.parseFileMap.get? g = some (π.worded g)) ∧
      (∀ f ∈ π.cfg.filePath :: gs, ∀ g, π.Needs f g → g ∈ gs) ∧
      sh'.outputs = sh.outputs ++ gs.map output ∧ Parse π.W π.cfg sh = finish π.W π.cfg (π.worded π.cfg.filePath) sh' := by
  obtain ⟨sh', ⟨-, -, -, gs, h1, h2, -, h6, h3⟩, -, h4, h5⟩ := parse_file h (f := π.cfg.filePath) (by simp [Project.all]) (cfg := π.cfg) rfl
    (answers (outs := sh.outputs) h hw _ [] (Nat.le_refl _) π.cfg h.writes rfl rfl rfl (.inl h.other) (by simp)) sh (Inv.start h sh hs)
  refine ⟨gs, sh', h1, fun g hg => ⟨(h2 g hg).1, (h2 g hg).2.2.1⟩, fun f hf g hn => ?_, h3, h4⟩
  have hk : g ∈ sh'.parseFileMap.keys := by
    rcases List.mem_cons.1 hf with rfl | hf
    · exact h5 g hn
    · exact (h2 f hf).2.2.2.2 g hn
  have hgf : g ∈ π.files := by
    obtain ⟨n, as, v, -, -, n3, -⟩ := hn
    rw [file?_eq] at n3
    obtain ⟨i, hi, rfl⟩ := Option.map_eq_some_iff.1 n3
    exact List.mem_map.2 ⟨i, List.mem_of_find?_eq_some hi, rfl⟩
  by_cases hg : g ∈ gs
  · exact hg
  · have := h6 g hgf (by simp) hg
    rw [← GoMap.has_iff, GoMap.has, this] at hk
    cases hk

theorem written_worded (h : π.Sound) (hw : Written π output) {o : Str × Str} (ho : Writes π.W π.cfg (π.worded π.cfg.filePath) o)
    (sh : Shared) (hs : Fresh π sh) :
    ∃ (gs : List Str) (sh' : Shared), gs.Nodup ∧ (∀ g ∈ gs, g ∈ π.files) ∧ (∀ f ∈ π.cfg.filePath :: gs, ∀ g, π.Needs f g → g ∈ gs) ∧
      sh'.outputs = sh.outputs ++ gs.map output ++ [o] ∧ Parse π.W π.cfg sh = .ok (π.worded π.cfg.filePath) sh' := by
  obtain ⟨gs, sh', h1, h2, h3, h4, h5⟩ := translated_worded h hw sh hs
  rw [finish_writes h.writes ho] at h5
  exact ⟨gs, _, h1, fun g hg => (h2 g hg).1, h3, by rw [h4], h5⟩

/-- C62: the schema is translated with every reference resolved as specified; imported files are translated and written at most
once each, before the schema itself, and all those that are needed by it or by one another are.  The trees that are written are the
translations up to documentation, and exactly the translations for files without text. -/
theorem translated (h : π.Sound) :
    ∃ wt : Str → Tree, (∀ f ∈ π.all, C57.bare (wt f) = C57.bare (π.trees f) ∧ (Textless π.W f → wt f = π.trees f)) ∧
      ∀ output, (∀ f ∈ π.files, Writes π.W (π.part f) (wt f) (output f)) → ∀ sh, Fresh π sh →
        ∃ (gs : List Str) (sh' : Shared), gs.Nodup ∧ (∀ g ∈ gs, g ∈ π.files ∧ sh'.parseFileMap.get? g = some (wt g)) ∧
          (∀ f ∈ π.cfg.filePath :: gs, ∀ g, π.Needs f g → g ∈ gs) ∧
          sh'.outputs = sh.outputs ++ gs.map output ∧ Parse π.W π.cfg sh = finish π.W π.cfg (wt π.cfg.filePath) sh' :=
  ⟨π.worded, fun _ hf => worded_tree h hf, fun _ hw sh hs => translated_worded h hw sh hs⟩

/-- … and with the file of the schema itself. -/
theorem written (h : π.Sound) :
    ∃ wt : Str → Tree, (∀ f ∈ π.all, C57.bare (wt f) = C57.bare (π.trees f) ∧ (Textless π.W f → wt f = π.trees f)) ∧
      ∀ output, (∀ f ∈ π.files, Writes π.W (π.part f) (wt f) (output f)) → ∀ o, Writes π.W π.cfg (wt π.cfg.filePath) o → ∀ sh, Fresh π sh →
        ∃ (gs : List Str) (sh' : Shared), gs.Nodup ∧ (∀ g ∈ gs, g ∈ π.files) ∧ (∀ f ∈ π.cfg.filePath :: gs, ∀ g, π.Needs f g → g ∈ gs) ∧
          sh'.outputs = sh.outputs ++ gs.map output ++ [o] ∧ Parse π.W π.cfg sh = .ok (wt π.cfg.filePath) sh' :=
  ⟨π.worded, fun _ hf => worded_tree h hf, fun _ hw _ ho sh hs => written_worded h hw ho sh hs⟩

/-! ## A project of four files

The schema `a.xsd` refers to a type of `b.xsd`, which is derived from a type of `c.xsd`, and to a type of the included `d.xsd`. -/

/-- Attributes, with "xmlns:p" as encoding/xml reports it. -/
def at' (l : List (String × String)) : List Attr := l.map fun a =>
  if a.1.toList.take 6 = c!"xmlns:" then { space := c!"xmlns", «local» := a.1.toList.drop 6, value := a.2.toList }
  else { «local» := a.1.toList, value := a.2.toList }

/-- The schema. -/
def docA : Doc where
  root := at' [("xmlns:b", "urn:b"), ("xmlns:c", "urn:c")]
  heads := [.import (at' [("namespace", "urn:b"), ("schemaLocation", "b.xsd")]), .include (at' [("schemaLocation", "d.xsd")]),
    .import (at' [("namespace", "urn:c"), ("schemaLocation", "c.xsd")])]
  decls := [.element (at' [("name", "size"), ("type", "b:Size")]), .element (at' [("name", "car"), ("type", "b:Car")]),
    .element (at' [("name", "grade"), ("type", "Grade")])]

/-- Its first import. -/
def docB : Doc where
  root := at' [("xmlns:c", "urn:c")]
  heads := [.import (at' [("namespace", "urn:c"), ("schemaLocation", "c.xsd")])]
  decls := [.simple (at' [("name", "Size")]) (.restriction (at' [("base", "c:Num")]) []),
    .complex (at' [("name", "Car")]) (.elem (at' [("name", "n"), ("type", "c:Num")]) .nil)]

/-- Its second import. -/
def docC : Doc where
  decls := [.simple (at' [("name", "Num")]) (.restriction (at' [("base", "xs:int")]) [])]

/-- The included schema. -/
def docD : Doc where
  decls := [.simple (at' [("name", "Grade")]) (.restriction (at' [("base", "xs:byte")]) [])]

/-- A document with text after every tag. -/
def commented (d : Doc) : List Token := d.tokens.flatMap fun t => [t, .text c!" note "]

/-- The project. -/
def demo : Project where
  W := Ex.world [("a.xsd", commented docA), ("b.xsd", commented docB), ("c.xsd", docC.tokens), ("d.xsd", commented docD)]
  cfg := { filePath := c!"a.xsd", lang := c!"Java", outputDir := c!"out" }
  docs f := if f = c!"a.xsd" then docA else if f = c!"b.xsd" then docB else if f = c!"c.xsd" then docC else docD
  trees f :=
    if f = c!"a.xsd" then [some (.elem { name := c!"size", type := c!"Integer" }), some (.elem { name := c!"car", type := c!"Car" }),
      some (.elem { name := c!"grade", type := c!"Byte" })]
    else if f = c!"b.xsd" then
      [some (.simple { name := c!"Size", base := c!"Integer" }),
       some (.complex { name := c!"Car", elements := [{ name := c!"n", type := c!"Integer" }] })]
    else if f = c!"c.xsd" then [some (.simple { name := c!"Num", base := c!"Integer" })] else []
  rank f := if f = c!"a.xsd" then 2 else if f = c!"b.xsd" then 1 else 0

instance (toks : List Token) : Decidable (C32.NamesOk toks) :=
  decidable_of_iff (toks.all fun | .start n _ => n ≠ [] | _ => true) (by
    rw [List.all_eq_true]
    constructor
    · intro h n as hm
      simpa using h _ hm
    · intro h t ht
      cases t with
      | start n as => simpa using h n as ht
      | stop n => rfl
      | text x => rfl
      | other => rfl)

instance {α : Type} (o : Option α) (p : α → Prop) [DecidablePred p] : Decidable (∀ a, o = some a → p a) :=
  match o with
  | none => .isTrue (fun _ h => by cases h)
  | some a => decidable_of_iff (p a) ⟨fun h _ e => by cases e; exact h, fun h => h a rfl⟩

instance (π : Project) (g : Str) : Decidable (π.Settled g) := inferInstanceAs (Decidable (_ = _))
instance (π : Project) (f q : Str) : Decidable (π.Below f q) :=
  inferInstanceAs (Decidable (∀ g, π.file? q = some g → _))
instance (as : List Attr) : Decidable (Ordered as) := by unfold Ordered Distinct; infer_instance

theorem demo_contains (f : Str) (h : f ∈ demo.all ++ demo.included) : @Contains asciiUni demo.W f (demo.docs f) := by
  have : f = c!"a.xsd" ∨ f = c!"b.xsd" ∨ f = c!"c.xsd" ∨ f = c!"d.xsd" := by
    have e : demo.all ++ demo.included = [c!"a.xsd", c!"b.xsd", c!"c.xsd", c!"d.xsd"] := by decide +kernel
    rw [e] at h
    simpa using h
  rcases this with rfl | rfl | rfl | rfl
  · exact ⟨commented docA, rfl, by decide +kernel, by decide +kernel⟩
  · exact ⟨commented docB, rfl, by decide +kernel, by decide +kernel⟩
  · exact ⟨docC.tokens, rfl, by decide +kernel, by decide +kernel⟩
  · exact ⟨commented docD, rfl, by decide +kernel, by decide +kernel⟩

theorem demo_sound : @Project.Sound asciiUni demo := by
  refine @Project.Sound.mk asciiUni demo ?_ ?_ ?_ ?_ ?_ ?_ ?_ demo_contains ?_ ?_ ?_ ?_ ?_ ?_ ?_ ?_ ?_ <;> decide +kernel

/-- Every tree can be written. -/
theorem demo_writes (f : Str) (t : Tree) :
    @Writes asciiUni demo.W (demo.part f) t (C24.documentedPath (demo.part f) c!".java", @javaSource asciiUni [] t) :=
  ⟨c!".java", show (c!"Java", c!".java") ∈ C24.extensions by decide, rfl, rfl, rfl, .inr (.inr (.inl ⟨rfl, rfl⟩))⟩

/-- … so the project is translated. -/
example : ∃ t : Tree, C57.bare t = C57.bare (demo.trees c!"a.xsd") ∧ ∃ sh', @Parse asciiUni demo.W demo.cfg {} = .ok t sh' := by
  obtain ⟨wt, h1, h2⟩ := @written asciiUni asciiUniLaws demo demo_sound
  obtain ⟨gs, sh', -, -, -, -, h⟩ := h2 _ (fun f _ => demo_writes f (wt f)) (C24.documentedPath demo.cfg c!".java", @javaSource asciiUni [] (wt c!"a.xsd"))
    ⟨c!".java", show (c!"Java", c!".java") ∈ C24.extensions by decide, rfl, rfl, rfl, .inr (.inr (.inl ⟨rfl, rfl⟩))⟩ {} ⟨rfl, rfl, rfl, fun _ _ => rfl⟩
  exact ⟨wt c!"a.xsd", (h1 _ (by simp [Project.all, demo])).1, sh', h⟩

omit [Uni] [UniLaws] in
theorem needs_of {π : Project} {f g v : Str}
    (h1 : (((π.docs f).decls.flatMap Decl.tokens).any fun | .start n as => v ∈ refers n as | _ => false) = true)
    (h2 : π.file? (Names.prefixPart v) = some g) (h3 : Names.localPart v ≠ [])
    (h4 : getBuildInTypeByLang (Names.localPart v) π.cfg.lang = none)
    (h5 : (((π.docs f).decls.flatMap Decl.tokens).all fun
      | .start _ bs => bs.all fun a => a.local ∉ [c!"name", c!"ref", c!"base"] || a.value ≠ Names.localPart v
      | _ => true) = true) : π.Needs f g := by
  obtain ⟨t, ht, h⟩ := List.any_eq_true.1 h1
  cases t with
  | start n as =>
    refine ⟨n, as, v, ht, by simpa using h, h2, h3, h4, fun m bs hm a ha hl => ?_⟩
    have := List.all_eq_true.1 (List.all_eq_true.1 h5 _ hm) a ha
    simp only [Bool.or_eq_true, decide_eq_true_eq] at this
    rcases this with h | h
    · exact absurd hl h
    · exact h
  | stop n => cases h
  | text x => cases h
  | other => cases h

example : demo.Needs c!"a.xsd" c!"b.xsd" ∧ demo.Needs c!"b.xsd" c!"c.xsd" :=
  ⟨needs_of (v := c!"b:Size") (by decide +kernel) (by decide +kernel) (by decide) (by decide) (by decide +kernel),
    needs_of (v := c!"c:Num") (by decide +kernel) (by decide +kernel) (by decide) (by decide) (by decide +kernel)⟩

/-- The imported files come first, the innermost before the others. -/
example : ((@Parse asciiUni demo.W demo.cfg {}).state.outputs.map (·.1)) = [c!"out/c.xsd.java", c!"out/b.xsd.java", c!"out/a.xsd.java"] := by
  decide +kernel

/-! ## What the conditions exclude -/

open Ex in
/-- Both schemas are imported from a directory, and one of them refers to the other. -/
private def subdir : Out Shared Tree :=
  Ex.parse (world [
    ("a.xsd", [on "schema" [("xmlns:b", "urn:b")], on "import" [("namespace", "urn:b"), ("schemaLocation", "sub/b.xsd")],
      on "import" [("namespace", "urn:c"), ("schemaLocation", "sub/c.xsd")]] ++ leaf "element" [("name", "e"), ("type", "b:T")]),
    ("sub/b.xsd", [on "schema" [("xmlns:c", "urn:c")], on "import" [("namespace", "urn:c"), ("schemaLocation", "c.xsd")]] ++
      leaf "element" [("name", "f"), ("type", "c:U")] ++ [on "complexType" [("name", "T")], off "complexType"]),
    ("sub/c.xsd", [on "schema", on "complexType" [("name", "U")], off "complexType"])] [".", "sub"]) "a.xsd" "Go"

/-- The place of an imported schema counts from the directory of whoever asks: with schemas in a directory of their own the parse
succeeds, but neither is written. -/
theorem subdirectory_not_written : Ex.kind subdir = none ∧ subdir.state.outputs.map (·.1) = [c!"a.xsd.go"] := by decide +kernel

/-- The type of a component in the result of a parse. -/
private def result (o : Out Shared Tree) (n : Str) : Option Str :=
  match o with
  | .ok t _ => some (declared t n)
  | _ => none

open Ex in
/-- The imported schema `b.xsd` binds the prefix `p` to another name space than the schema. -/
private def leak (p : String) : Out Shared Tree :=
  Ex.parse (world [
    ("a.xsd", [on "schema" [("xmlns:b", "urn:b"), ("xmlns:p", "urn:p")], on "import" [("namespace", "urn:b"), ("schemaLocation", "b.xsd")],
      on "import" [("namespace", "urn:p"), ("schemaLocation", "p.xsd")], on "import" [("namespace", "urn:q"), ("schemaLocation", "q.xsd")]] ++
      leaf "element" [("name", "e"), ("type", "b:T")] ++ leaf "element" [("name", "f"), ("type", "p:U")]),
    ("b.xsd", [on "schema" [("xmlns:" ++ p, "urn:q")], on "complexType" [("name", "T")], off "complexType"]),
    ("p.xsd", [on "schema", on "simpleType" [("name", "U")]] ++ leaf "restriction" [("base", "xs:int")] ++ [off "simpleType"]),
    ("q.xsd", [on "schema", on "simpleType" [("name", "U")]] ++ leaf "restriction" [("base", "xs:string")] ++ [off "simpleType"])]) "a.xsd" "Go"

/-- Prefixes of an imported schema stay in force in the importing one: `p:U` changes its meaning from an integer to a string. -/
theorem prefixes_leak : result (leak "q") c!"f" = some c!"int" ∧ result (leak "p") c!"f" = some c!"string" := by decide +kernel

open Ex in
/-- One imported schema; the import tag and the type of the only element vary. -/
private def oneImport (i : List (String × String)) (t : String) : Out Shared Tree :=
  Ex.parse (world [
    ("a.xsd", [on "schema" [("xmlns:b", "urn:b")], on "import" i] ++ leaf "element" [("name", "e"), ("type", t)]),
    ("b.xsd", [on "schema", on "simpleType" [("name", "T")]] ++ leaf "restriction" [("base", "xs:int")] ++ [off "simpleType"])]) "a.xsd" "Go"

/-- An import tag that gives the place before the name space has no effect. -/
theorem import_order :
    let usual := oneImport [("namespace", "urn:b"), ("schemaLocation", "b.xsd")] "b:T"
    let other := oneImport [("schemaLocation", "b.xsd"), ("namespace", "urn:b")] "b:T"
    (result usual c!"e" = some c!"int" ∧ usual.state.outputs.map (·.1) = [c!"b.xsd.go", c!"a.xsd.go"]) ∧
    (result other c!"e" = some c!"T" ∧ other.state.outputs.map (·.1) = [c!"a.xsd.go"]) := by decide +kernel

/-- An imported schema to which nothing refers is not translated. -/
theorem unused_import : (oneImport [("namespace", "urn:b"), ("schemaLocation", "b.xsd")] "xs:int").state.outputs.map (·.1) = [c!"a.xsd.go"] := by
  decide +kernel

end Xgen.C62
