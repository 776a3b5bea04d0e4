import Verif.Props.C62

/-! # C63: type references into included schemas -/

namespace Xgen.C63
open Core C62
variable [Uni] [UniLaws]

/-! ## Specification -/

/-- The meaning of a type reference after the components `t`, with the declarations of the included files in `parts`: a built-in type;
else what is declared so far under the local name, unless that is nothing or the same name; else what an included file
declares; else the local name. -/
def typeOf (lang : Str) (parts : List Tree) (t : Tree) (v : Str) : Str :=
  let n := Names.localPart v
  match getBuildInTypeByLang n lang with
  | some b => b
  | none =>
    if declared t n ≠ n ∧ declared t n ≠ [] then declared t n
    else
      match parts.find? fun p => declared p n ≠ n ∧ declared p n ≠ [] with
      | some p => declared p n
      | none => n

/-- The declarations of a document, translated on their own. -/
def own (lang : Str) (d : Doc) : Tree := treeOf (C40.typeRef lang true) [] d.decls

/-- The files a schema includes. -/
def parts (cfg : Cfg) (docs : Str → Doc) : List Str := (docs cfg.filePath).includes.map (pathJoin (pathDir cfg.filePath))

/-- The meaning of references in the schema. -/
def ref (cfg : Cfg) (docs : Str → Doc) : Tree → Str → Str := typeOf cfg.lang ((parts cfg docs).map fun f => own cfg.lang (docs f))

/-- The translation of the schema. -/
def tree (cfg : Cfg) (docs : Str → Doc) : Tree := treeOf (ref cfg docs) [] (docs cfg.filePath).decls

/-- A schema and the schemas it includes. -/
structure Sound (W : World) (cfg : Cfg) (docs : Str → Doc) : Prop where
  /-- The schema is to be written, starting with an empty tree. -/
  writes : cfg.extract = false
  fresh : cfg.tree0 = []
  /-- "" is not a URL, and the directory of the schema exists. -/
  url : W.isURL [] = false
  directory : W.fs.get? (pathDir cfg.filePath) = some .dir
  /-- The files contain the documents. -/
  files : ∀ f ∈ cfg.filePath :: parts cfg docs, Contains W f (docs f)
  /-- Nothing is imported, and included files include nothing that the schema does not include itself. -/
  imports : ∀ f ∈ cfg.filePath :: parts cfg docs, (docs f).imports = []
  direct : ∀ f ∈ parts cfg docs, ∀ l ∈ (docs f).includes, l ∈ (docs cfg.filePath).includes
  /-- No two included files declare a name with different types. -/
  agree : ∀ f ∈ parts cfg docs, ∀ g ∈ parts cfg docs, ∀ d ∈ (own cfg.lang (docs f)).filterMap C07.declares,
    declared (own cfg.lang (docs f)) d.1 ≠ d.1 → declared (own cfg.lang (docs g)) d.1 ≠ d.1 →
      declared (own cfg.lang (docs f)) d.1 = declared (own cfg.lang (docs g)) d.1
  /-- The declarations are regular. -/
  regular : Regular (ref cfg docs) [] (docs cfg.filePath).decls
  alone : ∀ f ∈ parts cfg docs, Regular (C40.typeRef cfg.lang true) [] (docs f).decls

/-! ## As a project without imports -/

/-- The project. -/
def project (W : World) (cfg : Cfg) (docs : Str → Doc) : Project :=
  { W := W, cfg := cfg, docs := docs, trees := fun _ => tree cfg docs, rank := fun _ => 0 }

variable {W : World} {cfg : Cfg} {docs : Str → Doc}

theorem no_places (h : Sound W cfg docs) : (project W cfg docs).places = [] := by
  unfold Project.places placesOf
  rw [show (project W cfg docs).main.imports = [] from h.imports cfg.filePath (by simp)]
  rfl

theorem ref_eq (h : Sound W cfg docs) : (project W cfg docs).ref cfg.filePath = ref cfg docs := by
  funext t v
  have hf : (project W cfg docs).file? (Names.prefixPart v) = none := by
    unfold Project.file?
    rw [no_places h]
    rfl
  unfold Project.ref ref typeOf Project.outside
  rw [hf]
  dsimp only [project]
  cases getBuildInTypeByLang (Names.localPart v) cfg.lang with
  | some b => rfl
  | none =>
    dsimp only
    split
    · rfl
    · rw [List.find?_map]
      unfold Project.fromIncluded
      show (match (parts cfg docs).find? (fun g => (project W cfg docs).Gives g (Names.localPart v)) with
        | some g => declared (own cfg.lang (docs g)) (Names.localPart v)
        | none => Names.localPart v) = _
      have e : (fun p => decide (declared p (Names.localPart v) ≠ Names.localPart v ∧ declared p (Names.localPart v) ≠ [])) ∘
          (fun f => own cfg.lang (docs f)) = fun g => decide ((project W cfg docs).Gives g (Names.localPart v)) := by
        funext g
        rfl
      rw [e]
      cases (parts cfg docs).find? (fun g => (project W cfg docs).Gives g (Names.localPart v)) <;> rfl

theorem project_sound (h : Sound W cfg docs) : (project W cfg docs).Sound := by
  have hp := no_places h
  have hf : (project W cfg docs).files = [] := by unfold Project.files; rw [hp]; rfl
  have hq : ∀ q, (project W cfg docs).file? q = none := by
    intro q
    unfold Project.file?
    rw [hp]
    rfl
  refine ⟨h.writes, h.fresh, h.url, h.directory, by rw [hp]; simp, by rw [hf]; simp, by rw [hf]; simp, ?_, ?_, ?_, ?_, ?_, ?_, ?_, ?_, ?_, ?_⟩
  · unfold Project.all
    rw [hf]
    exact h.files
  · rw [show (project W cfg docs).main.imports = [] from h.imports cfg.filePath (by simp)]
    simp
  · intro f _ a _ _
    rw [hp]
    rfl
  · rw [hf]
    intro f hm as ha
    rw [show ((project W cfg docs).docs f).imports = [] from h.imports f (List.mem_cons_of_mem _ hm)] at ha
    cases ha
  · rw [hf]
    exact h.direct
  · exact h.agree
  · unfold Project.all
    rw [hf]
    intro f hm
    simp only [List.mem_singleton] at hm
    subst hm
    rw [show (project W cfg docs).cfg = cfg from rfl, ref_eq h]
    rfl
  · unfold Project.all
    rw [hf]
    intro f hm
    simp only [List.mem_singleton] at hm
    subst hm
    rw [show (project W cfg docs).cfg = cfg from rfl, ref_eq h]
    exact h.regular
  · rw [hf]
    exact h.alone
  · intro f _
    refine ⟨fun g hg => ?_, fun v _ g hg => ?_⟩
    · rw [hq] at hg; cases hg
    · rw [hq] at hg; cases hg

/-! ## C63 -/

/-- Nothing is known yet about other files. -/
def Unread (sh : Shared) : Prop := sh.localNS = [] ∧ sh.nsLoc = [] ∧ sh.includeMap = []

/-- The tree with its documentation does not depend on the order of visits. -/
theorem worded_pick (h : Sound W cfg docs) (pick : Nat → Nat) :
    (project { W with pick := pick } cfg docs).worded cfg.filePath = (project W cfg docs).worded cfg.filePath := by
  obtain ⟨toks, h1, -, -⟩ := h.files cfg.filePath (by simp)
  unfold Project.worded
  rw [show (project { W with pick := pick } cfg docs).W.fs.get? cfg.filePath = some (.file toks) from h1,
    show (project W cfg docs).W.fs.get? cfg.filePath = some (.file toks) from h1]
  dsimp only
  unfold C62.worded
  rw [C32.run_world (W := (project W cfg docs).W) (W' := (project { W with pick := pick } cfg docs).W) rfl]
  rfl

/-- C63: the schema is translated with every reference resolved as specified, and its file is the only one written: included schemas
are not.  This does not depend on the order in which the included files are looked into (see C34 for the general case).  The tree is
the translation up to documentation, and exactly the translation without text. -/
theorem translated (h : Sound W cfg docs) :
    ∃ t : Tree, C57.bare t = C57.bare (tree cfg docs) ∧ (Textless W cfg.filePath → t = tree cfg docs) ∧
      ∀ o, Writes W cfg t o → ∀ pick sh, Unread sh → ∃ sh', sh'.outputs = sh.outputs ++ [o] ∧
        Parse { W with pick := pick } cfg sh = .ok t sh' := by
  have hf : ∀ W', Sound W' cfg docs → (project W' cfg docs).files = [] := by
    intro W' h
    unfold Project.files
    rw [no_places h]
    rfl
  obtain ⟨h3, h4⟩ := worded_tree (project_sound h) (f := cfg.filePath) (by simp [Project.all, project])
  refine ⟨_, h3, h4, fun o hw pick sh hs => ?_⟩
  have h' : Sound { W with pick := pick } cfg docs :=
    ⟨h.writes, h.fresh, h.url, h.directory, h.files, h.imports, h.direct, h.agree, h.regular, h.alone⟩
  obtain ⟨gs, sh', -, h2, -, h4, h5⟩ := written_worded (output := fun _ => ([], [])) (project_sound h') (by unfold Written; rw [hf _ h']; simp) (o := o)
    (by rw [show (project { W with pick := pick } cfg docs).cfg.filePath = cfg.filePath from rfl, worded_pick h]; exact hw)
    sh ⟨hs.1, hs.2.1, hs.2.2, by rw [hf _ h']; simp⟩
  have : gs = [] := by
    cases gs with
    | nil => rfl
    | cons g gs =>
      have := h2 g (by simp)
      rw [hf _ h'] at this
      cases this
  subst this
  refine ⟨sh', by simpa using h4, ?_⟩
  rw [show (project { W with pick := pick } cfg docs).cfg.filePath = cfg.filePath from rfl, worded_pick h] at h5
  exact h5

/-! ## Example -/

/-- Attributes. -/
private def at' (l : List (String × String)) : List Attr := l.map fun a => { «local» := a.1.toList, value := a.2.toList }

/-- A schema with two includes. -/
private def docA : Doc where
  heads := [.include (at' [("schemaLocation", "b.xsd")]), .include (at' [("schemaLocation", "c.xsd")])]
  decls := [.element (at' [("name", "e"), ("type", "T")]), .simple (at' [("name", "S")]) (.list (at' [("itemType", "U")])),
    .element (at' [("name", "f"), ("type", "Car")])]

/-- Its first include. -/
private def docB : Doc where
  heads := [.include (at' [("schemaLocation", "c.xsd")])]
  decls := [.simple (at' [("name", "T")]) (.restriction (at' [("base", "xs:int")]) []), .complex (at' [("name", "Car")]) .nil]

/-- Its second include. -/
private def docC : Doc where
  decls := [.simple (at' [("name", "U")]) (.restriction (at' [("base", "xs:boolean")]) [])]

/-- The files. -/
private def demoDocs (f : Str) : Doc := if f = c!"a.xsd" then docA else if f = c!"b.xsd" then docB else docC

/-- The options. -/
private def demoCfg : Cfg := { filePath := c!"a.xsd", lang := c!"Rust", outputDir := c!"out" }

/-- The file system. -/
private def demoWorld : World := Ex.world [("a.xsd", docA.tokens), ("b.xsd", docB.tokens), ("c.xsd", docC.tokens)]

private theorem demo_sound : @Sound asciiUni demoWorld demoCfg demoDocs := by
  refine @Sound.mk asciiUni demoWorld demoCfg demoDocs rfl rfl (by decide +kernel) (by decide +kernel) ?_ (by decide +kernel)
    (by decide +kernel) (by decide +kernel) (by decide +kernel) (by decide +kernel)
  intro f h
  have e : demoCfg.filePath :: parts demoCfg demoDocs = [c!"a.xsd", c!"b.xsd", c!"c.xsd"] := by decide +kernel
  rw [e] at h
  simp only [List.mem_cons, List.not_mem_nil, or_false] at h
  rcases h with rfl | rfl | rfl
  · exact ⟨docA.tokens, rfl, by decide +kernel, by decide +kernel⟩
  · exact ⟨docB.tokens, rfl, by decide +kernel, by decide +kernel⟩
  · exact ⟨docC.tokens, rfl, by decide +kernel, by decide +kernel⟩

/-- The types of the elements and the item type of the list are those of the included files; a complex type is referred to by
name. -/
example : (tree demoCfg demoDocs).filterMap C07.declares = [(c!"e", c!"i32"), (c!"f", c!"Car")] ∧
    (tree demoCfg demoDocs).filterMap (fun | some (.simple v) => some v.base | _ => none) = [c!"bool"] := by decide +kernel

/-! ## What the conditions exclude -/

open Ex in
/-- A schema with includes and an element of the type T. -/
private def including (files : List String) (others : List (String × List Token)) (pick : Nat → Nat) : Out Shared Tree :=
  Ex.parse (world (("a.xsd", [on "schema"] ++ files.flatMap (fun f => leaf "include" [("schemaLocation", f)]) ++
    leaf "element" [("name", "e"), ("type", "T")]) :: others) ["."] pick) "a.xsd" "Go"

open Ex in
/-- The schema that declares T with a base. -/
private def declaring (base : String) : List Token :=
  [on "schema", on "simpleType" [("name", "T")]] ++ leaf "restriction" [("base", base)] ++ [off "simpleType"]

/-- The type of the element in the result of a parse. -/
private def result (o : Out Shared Tree) : Option Str :=
  match o with
  | .ok t _ => some (declared t c!"e")
  | _ => none

/-- Two included files that declare T differently: the last one looked into counts, and that depends on the iteration order of a map. -/
theorem disagreement :
    let w := including ["b.xsd", "c.xsd"] [("b.xsd", declaring "xs:int"), ("c.xsd", declaring "xs:string")]
    result (w fun _ => 0) = some c!"string" ∧ result (w fun _ => 1) = some c!"int" := by decide +kernel

/-- A missing included file is not reported.  If it is met before the declaring file, the element is left without a type. -/
theorem missing_include :
    let w := including ["b.xsd", "missing.xsd"] [("b.xsd", declaring "xs:int")]
    result (w fun _ => 0) = some c!"int" ∧ result (w fun _ => 1) = some [] := by decide +kernel

/-- A type that another declaration of the same name hides: the declaration of the schema itself counts only once it has been read. -/
theorem forward_reference :
    let w := fun k => Ex.parse (Ex.world [("a.xsd", [Ex.on "schema"] ++ Ex.leaf "include" [("schemaLocation", "b.xsd")] ++
      (if k then declaring "xs:string" ++ Ex.leaf "element" [("name", "e"), ("type", "T")]
        else Ex.leaf "element" [("name", "e"), ("type", "T")] ++ declaring "xs:string")), ("b.xsd", declaring "xs:int")]) "a.xsd" "Go"
    result (w true) = some c!"string" ∧ result (w false) = some c!"int" := by decide +kernel

end Xgen.C63
