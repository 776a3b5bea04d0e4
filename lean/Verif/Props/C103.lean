import Verif.Props.C65
import Verif.Props.C96
import Verif.Props.C99
import Verif.Props.C100
import Verif.Props.C101
import Verif.Props.C102

/-! # C103: all files generated for a project follow the grammar of their language

C96 and C99 to C102 for projects of several schemas that import and include one another (C62): the file of the schema and of every
imported schema it needs is a source file, with the declarations of its schema. -/

namespace Xgen.C103
open C62 C65
open Decl (nodes nodeName)
open C98 (Safe)

section
variable [Uni]

/-! ## Specification -/

/-- The text is a source file of the language that declares what the tree says. -/
def Follows (lang pkg : Str) (order : List (Str × Str) → List (Str × Str)) (t : Tree) (text : Str) : Prop :=
  (lang = c!"Go" ∧ GoSyntax.parse text = some (C96.fileOf order pkg t)) ∨
  (lang = c!"C" ∧ Syntax.C.parse text = some (C102.fileOf order t)) ∨
  (lang = c!"Java" ∧ Syntax.Java.parse text = some (C100.fileOf order pkg t)) ∨
  (lang = c!"Rust" ∧ Syntax.Rust.parse text = some (C99.fileOf order t)) ∨
  (lang = c!"TypeScript" ∧ Syntax.TS.parse text = some (C101.fileOf order t))

/-- What the trees of the languages have to be like, documentation aside. -/
def Fit (lang : Str) (t : Tree) : Prop :=
  (lang = c!"Go" → C96.Fair (C57.bare t)) ∧ (lang = c!"C" → C102.Fair (C57.bare t)) ∧ (lang = c!"Java" → C100.Fair (C57.bare t)) ∧
  (lang = c!"Rust" → C99.Fair (C57.bare t)) ∧ (lang = c!"TypeScript" → C101.Fair (C57.bare t))

omit [Uni] in
/-- Documentation that stays where it is. -/
def Harmless (lang x : Str) : Prop :=
  (lang = c!"Go" → ∀ c ∈ x, GoSyntax.banned c = false) ∧ (lang = c!"C" → Safe .c x) ∧ (lang = c!"Java" → Safe .java x) ∧
  (lang = c!"TypeScript" → Safe .ts x)

/-- The generated files can be created, the package has a name, and the formatter accepts Go. -/
structure Creatable (π : Project) (ext : Str) : Prop where
  lang : (π.cfg.lang, ext) ∈ C24.extensions
  dirs : ∀ cfg ∈ π.cfg :: π.files.map π.part, π.W.mkdirOk (pathDir (pathJoin cfg.outputDir (trimPrefix cfg.filePath cfg.inputDir))) = true
  create : ∀ cfg ∈ π.cfg :: π.files.map π.part, π.W.createOk (C24.documentedPath cfg ext) = true
  formatter : π.cfg.lang = c!"Go" → ∀ source, (GoSyntax.parse source).isSome → (π.W.gofmt source).isSome
  goPackage : π.cfg.lang = c!"Go" → π.cfg.package = [] ∨ (C96.Ident π.cfg.package ∧ π.cfg.package ≠ c!"_")
  javaPackage : π.cfg.lang = c!"Java" → C100.Dotted (packageName π.cfg.package)

/-! ## Documentation aside -/

omit [Uni] in
theorem bare_mem {t : Tree} {n : Node Element} (h : n ∈ nodes t) : C57.noDocNode C31.noDocE n ∈ nodes (C57.bare t) := by
  rw [C59.nodes_bare]; exact List.mem_map_of_mem h

theorem worded {D D' : Str → Prop} {t : Tree} (h : Syntax.Worded D (C57.bare t)) (hd : ∀ n ∈ nodes t, D' (C96.docOf n)) : Syntax.Worded D' t :=
  ⟨fun n hn => by have := h.names _ (bare_mem hn); rwa [C59.name_bare] at this,
   fun n hn => by have := h.members _ (bare_mem hn); rwa [C74.members_bare] at this, hd⟩

theorem references_eq (t : Tree) (n : Node Element) : Syntax.references (C57.bare t) (C57.noDocNode C31.noDocE n) = Syntax.references t n := by
  rw [Syntax.references_bare]
  have em := C59.meaning_bare t
  have eu := C59.memberMeaning_bare t
  cases n <;> simp only [Syntax.references, C96.references, em, eu]

theorem go_fair {t : Tree} (h : C96.Fair (C57.bare t)) (hd : ∀ n ∈ nodes t, ∀ c ∈ C96.docOf n, GoSyntax.banned c = false) : C96.Fair t := by
  refine ⟨fun n hn => by have := h.names _ (bare_mem hn); rwa [C59.name_bare] at this,
   fun n hn => by have := h.members _ (bare_mem hn); rwa [C74.members_bare] at this, fun n hn s hs => ?_, fun v hv hl => ?_, hd⟩
  · refine h.types _ (bare_mem hn) s ?_
    have em := C59.meaning_bare t
    have eu := C59.memberMeaning_bare t
    have e : C96.references (C57.bare t) (C57.noDocNode C31.noDocE n) = C96.references t n := by
      cases n <;> simp [C96.references, C57.noDocNode, C31.noDocE, C31.noDocS, C31.noDocA, C31.noDocC, C31.noDocG, C31.noDocAG, Function.comp_def,
        C58.isUnion, em, eu]
    rw [e]; exact hs
  · have := h.items _ (bare_mem hv) hl
    rwa [C59.meaning_bare] at this

theorem c_fair {t : Tree} (h : C102.Fair (C57.bare t)) (hd : ∀ n ∈ nodes t, Safe .c (C96.docOf n)) : C102.Fair t := by
  have em := C59.meaning_bare t
  have eu := C59.memberMeaning_bare t
  have e1 : ∀ n, C102.split (C57.bare t) (C57.noDocNode C31.noDocE n) = C102.split t n := fun n => by
    cases n <;> simp [C102.split, C57.noDocNode, C31.noDocE, C31.noDocS, C31.noDocA, C31.noDocC, C31.noDocG, C31.noDocAG, Function.comp_def, C58.isUnion, em, eu]
  have e2 : ∀ n, C102.unsplit (C57.bare t) (C57.noDocNode C31.noDocE n) = C102.unsplit t n := fun n => by
    cases n <;> simp [C102.unsplit, C57.noDocNode, C31.noDocE, C31.noDocS, C31.noDocA, C31.noDocC, C31.noDocG, C31.noDocAG, Function.comp_def, em]
  have e3 : ∀ n, C56.isStruct (C57.noDocNode C31.noDocE n) = C56.isStruct n := fun n => by cases n <;> rfl
  refine ⟨worded h.toWorded hd, fun e => h.some ?_, fun n hn s hs => h.types _ (bare_mem hn) s (by rw [e1]; exact hs),
    fun n hn s hs => h.others _ (bare_mem hn) s (by rw [e2]; exact hs), fun n hn hs => ?_⟩
  · rw [C59.nodes_bare, e]; rfl
  · have := h.full _ (bare_mem hn) (by rw [e3]; exact hs)
    rwa [C74.members_bare] at this

theorem java_fair {t : Tree} (h : C100.Fair (C57.bare t)) (hd : ∀ n ∈ nodes t, Safe .java (C96.docOf n)) : C100.Fair t := by
  have eg : ∀ n, C100.grouping (C57.noDocNode C31.noDocE n) = C100.grouping n := fun n => by cases n <;> rfl
  refine ⟨worded h.toWorded hd, fun n hn s hs => ?_⟩
  have := h.types _ (bare_mem hn) s (by rw [references_eq]; exact hs)
  rwa [eg] at this

theorem rust_fair {t : Tree} (h : C99.Fair (C57.bare t)) : C99.Fair t := by
  have e1 : ∀ n, C58.Rust.numbered (C57.noDocNode C31.noDocE n) = C58.Rust.numbered n := fun n => by cases n <;> rfl
  have e2 : ∀ n, C74.baseOf (C57.noDocNode C31.noDocE n) = C74.baseOf n := fun n => by cases n <;> rfl
  refine ⟨worded h.toWorded fun _ _ => trivial, fun n hn hs => ?_, fun n hn s hs => h.types _ (bare_mem hn) s (by rw [references_eq]; exact hs),
    fun n hn => ?_⟩
  · have := h.selves _ (bare_mem hn) (by rw [e1]; exact hs)
    rwa [C59.name_bare] at this
  · have := h.bases _ (bare_mem hn)
    rwa [e2, C59.meaning_bare] at this

theorem ts_fair {t : Tree} (h : C101.Fair (C57.bare t)) (hd : ∀ n ∈ nodes t, Safe .ts (C96.docOf n)) (hl : C15.ListsNew (nodes t)) : C101.Fair t := by
  have et : ∀ s b, C48.TS.typeOf (C57.bare t) s b = C48.TS.typeOf t s b := fun s b => by rw [C48.TS.typeOf, C48.TS.typeOf, C59.meaning_bare]
  have e1 : ∀ n, C101.extended (C57.bare t) (C57.noDocNode C31.noDocE n) = C101.extended t n := fun n => by
    cases n <;> simp only [C101.extended, C57.noDocNode, C31.noDocC, et]
  have e2 : ∀ n, C101.baseOf (C57.bare t) (C57.noDocNode C31.noDocE n) = C101.baseOf t n := fun n => by
    cases n <;> simp only [C101.baseOf, C57.noDocNode, C31.noDocS, et]
  have e3 : ∀ n, C101.values (C57.noDocNode C31.noDocE n) = C101.values n := fun n => by cases n <;> rfl
  refine ⟨worded h.toWorded hd, fun n hn s hs => h.types _ (bare_mem hn) s (by rw [references_eq]; exact hs), fun n hn u hu => ?_, fun n hn s hs => ?_, hl⟩
  · exact h.bases _ (bare_mem hn) u (by rw [e1]; exact hu)
  · have := h.values _ (bare_mem hn) s (by rw [e3]; exact hs)
    rwa [e2] at this

/-! ## Files -/

theorem strip_text {toks : List Token} {x : Str} (h : Token.text x ∈ C32.strip toks) : Token.text x ∈ toks := (List.mem_filter.1 h).1

variable [UniLaws]

/-- The documentation of the tree of a document. -/
theorem worded_docs (W : World) {ref : Tree → Str → Str} (hs : Core.Stable ref) (hu : Unworded ref) (d : Doc) (hd : Core.Regular ref [] d.decls)
    (toks : List Token) (hn : C32.NamesOk toks) (hk : C40.skeleton (C57.noText toks) = C40.skeleton d.tokens) {D : Str → Prop} (h0 : D [])
    (ht : ∀ x, Token.text x ∈ toks → D (trimSpace x)) : Docs.Tr D (C62.worded W ref toks) := by
  obtain ⟨sh', p, -, t, -, r, -⟩ := doc_run (W := W) (gvt := pureGvt ref) (I := fun _ => True) (T := fun _ => True) (R := fun _ => True)
    (fun _ _ => trivial) trivial (fun v _ sh p _ _ => ⟨trivial, sh, trivial, rfl⟩) hs d hd (fun _ _ => trivial) {} trivial
  obtain ⟨q, hb, hr⟩ := run_documented W (pureGvt_blind ref) (fun v s t h => by
      refine ⟨?_, h⟩
      rw [hu s.p.freeze t.p.freeze v (by rw [← C57.freeze_erase, h.2, C57.freeze_erase])]) (C32.strip toks) d.tokens
    (fun n as h => hn n as (List.mem_filter.1 h).1) (doc_names d hd) (by rw [noText_strip, hk, skeleton_idem]) r
  have hr : run W (pureGvt ref) (C32.strip toks) ⟨{}, {}⟩ = _ := hr
  unfold C62.worded
  rw [hr]
  exact ((Docs.hold_run (gvt := pureGvt ref) (fun v s hp r s' e => by cases e; exact ⟨trivial, hp⟩) h0 W _ (fun x hx => ht x (strip_text hx)) _
    Docs.made_init _ _ hr).2).tree h0

variable {π : Project}

/-- The same for the files of a project. -/
theorem project_docs (h : π.Sound) {f : Str} (hf : f ∈ π.all) {D : Str → Prop} (h0 : D [])
    (ht : ∀ toks, π.W.fs.get? f = some (.file toks) → ∀ x, Token.text x ∈ toks → D (trimSpace x)) : ∀ n ∈ nodes (π.worded f), D (C96.docOf n) := by
  obtain ⟨toks, h1, h2, h3⟩ := h.parts f (List.mem_append_left _ hf)
  intro n hn
  refine C96.doc_of ?_ hn
  unfold Project.worded
  rw [h1]
  exact worded_docs π.W (ref_stable π f) (ref_unworded π f) _ (h.regular f hf) toks h2 h3 h0 (ht toks h1)

/-- The source of a tree. -/
def sourceOf (lang pkg : Str) (t : Tree) : Str :=
  if lang = c!"Go" then goSource pkg t else
  if lang = c!"C" then cSource t else
  if lang = c!"Java" then javaSource pkg t else
  if lang = c!"Rust" then rustSource t else tsSource t

omit [Uni] [UniLaws] in
theorem dotted_schema : C100.Dotted (packageName []) := .one (by decide)

/-- The source of a fit tree. -/
theorem follows {lang ext pkg : Str} {t : Tree} (hl : (lang, ext) ∈ C24.extensions) (hf : Fit lang t)
    (hd : ∀ n ∈ nodes t, Harmless lang (C96.docOf n)) (hn : ∀ n ∈ nodes t, C15.isEnumList n = false)
    (hg : lang = c!"Go" → pkg = [] ∨ (C96.Ident pkg ∧ pkg ≠ c!"_")) (hj : lang = c!"Java" → C100.Dotted (packageName pkg)) :
    ∃ order, C58.Order order ∧ Follows lang pkg order t (sourceOf lang pkg t) := by
  simp only [C24.extensions, List.mem_cons, Prod.mk.injEq, List.not_mem_nil, or_false] at hl
  obtain ⟨h1, h2, h3, h4, h5⟩ := hf
  rcases hl with ⟨rfl, -⟩ | ⟨rfl, -⟩ | ⟨rfl, -⟩ | ⟨rfl, -⟩ | ⟨rfl, -⟩
  · obtain ⟨order, ho, h⟩ := C96.file (hg rfl) (go_fair (h1 rfl) fun n hn => (hd n hn).1 rfl)
    exact ⟨order, ho, .inl ⟨rfl, h⟩⟩
  · obtain ⟨order, ho, h⟩ := C102.file (c_fair (h2 rfl) fun n hn => (hd n hn).2.1 rfl)
    exact ⟨order, ho, .inr (.inl ⟨rfl, h⟩)⟩
  · obtain ⟨order, ho, h⟩ := C100.file (hj rfl) (java_fair (h3 rfl) fun n hn => (hd n hn).2.2.1 rfl)
    exact ⟨order, ho, .inr (.inr (.inl ⟨rfl, h⟩))⟩
  · obtain ⟨order, ho, h⟩ := C99.file (rust_fair (h4 rfl))
    exact ⟨order, ho, .inr (.inr (.inr (.inl ⟨rfl, h⟩)))⟩
  · obtain ⟨order, ho, h⟩ := C101.file (ts_fair (h5 rfl) (fun n hn => (hd n hn).2.2.2 rfl) (.of_none hn))
    exact ⟨order, ho, .inr (.inr (.inr (.inr ⟨rfl, h⟩)))⟩

omit [UniLaws] in
/-- What is written is the source, formatted if it is Go. -/
theorem output {W : World} {lang ext pkg : Str} {t : Tree} (hl : (lang, ext) ∈ C24.extensions)
    (hf : lang = c!"Go" → (W.gofmt (goSource pkg t)).isSome) : C24.IsOutput W lang pkg t (textOf W lang pkg t) ∧
    (lang = c!"Go" → W.gofmt (sourceOf lang pkg t) = some (textOf W lang pkg t)) ∧ (lang ≠ c!"Go" → textOf W lang pkg t = sourceOf lang pkg t) := by
  simp only [C24.extensions, List.mem_cons, Prod.mk.injEq, List.not_mem_nil, or_false] at hl
  unfold C24.IsOutput textOf sourceOf
  rcases hl with ⟨rfl, -⟩ | ⟨rfl, -⟩ | ⟨rfl, -⟩ | ⟨rfl, -⟩ | ⟨rfl, -⟩
  · obtain ⟨x, hx⟩ := Option.isSome_iff_exists.1 (hf rfl)
    rw [if_pos rfl, if_pos rfl, hx]
    exact ⟨.inl ⟨rfl, rfl⟩, fun _ => rfl, fun h => absurd rfl h⟩
  all_goals simp

/-- C103: for a project of documents, `Parse` writes a file for the schema and for every imported schema that it needs, at the documented paths, and what
is written for each is a source file of the language with the declarations of that schema; for Go it is what the formatter makes of such a file.
(Missing: names with other letters than those of `Alphabet`; schemas for which this is false, see C96 and C99 to C102.) -/
theorem project_partial (h : π.Sound) {ext : Str} (hc : Creatable π ext) (hf : ∀ f ∈ π.all, Fit π.cfg.lang (π.trees f))
    (hd : ∀ f ∈ π.all, ∀ toks, π.W.fs.get? f = some (.file toks) → ∀ x, Token.text x ∈ toks → Harmless π.cfg.lang (trimSpace x))
    (sh : Shared) (hs : Fresh π sh) :
    ∃ (gs : List Str) (wt : Str → Tree) (text : Str → Str) (sh' : Shared), gs.Nodup ∧ (∀ g ∈ gs, g ∈ π.files) ∧
      (∀ f ∈ π.cfg.filePath :: gs, ∀ g, π.Needs f g → g ∈ gs) ∧
      (∀ f ∈ π.cfg.filePath :: gs, C57.bare (wt f) = C57.bare (π.trees f) ∧ ∃ source order, C58.Order order ∧
        Follows π.cfg.lang (if f = π.cfg.filePath then π.cfg.package else []) order (wt f) source ∧
        if π.cfg.lang = c!"Go" then π.W.gofmt source = some (text f) else text f = source) ∧
      sh'.outputs = sh.outputs ++ gs.map (fun g => (C24.documentedPath (π.part g) ext, text g)) ++
        [(C24.documentedPath π.cfg ext, text π.cfg.filePath)] ∧
      Parse π.W π.cfg sh = .ok (wt π.cfg.filePath) sh' := by
  have hfol : ∀ f ∈ π.all, ∃ order, C58.Order order ∧ Follows π.cfg.lang (if f = π.cfg.filePath then π.cfg.package else []) order (π.worded f)
      (sourceOf π.cfg.lang (if f = π.cfg.filePath then π.cfg.package else []) (π.worded f)) := by
    intro f hfa
    have hb := (worded_tree h hfa).1
    refine follows hc.lang ?_ (fun n hn => ?_) (fun n hn => ?_) (fun hl => ?_) (fun hl => ?_)
    · unfold Fit; rw [hb]; exact hf f hfa
    · exact project_docs h hfa (D := Harmless π.cfg.lang) ⟨fun _ => by simp, fun _ => by decide, fun _ => by decide, fun _ => by decide⟩ (hd f hfa) n hn
    · have hm := bare_mem hn
      rw [hb, C59.nodes_bare] at hm
      obtain ⟨m, hm, e⟩ := List.mem_map.1 hm
      have e4 : ∀ n, C15.isEnumList (C57.noDocNode C31.noDocE n) = C15.isEnumList n := fun n => by cases n <;> rfl
      rw [← e4, ← e, e4]
      rw [h.trees f hfa] at hm
      exact C101.no_lists _ _ [] (fun n hn => by cases hn) m hm
    · split
      · exact hc.goPackage hl
      · exact .inl rfl
    · split
      · exact hc.javaPackage hl
      · exact dotted_schema
  let text : Str → Str := fun f => textOf π.W π.cfg.lang (if f = π.cfg.filePath then π.cfg.package else []) (π.worded f)
  have hout : ∀ f ∈ π.all, C24.IsOutput π.W π.cfg.lang (if f = π.cfg.filePath then π.cfg.package else []) (π.worded f) (text f) ∧ _ ∧ _ := fun f hfa =>
    output hc.lang fun hl => hc.formatter hl _ (by
      obtain ⟨order, -, hp⟩ := hfol f hfa
      rw [hl] at hp
      rcases hp with ⟨-, hp⟩ | ⟨e, -⟩ | ⟨e, -⟩ | ⟨e, -⟩ | ⟨e, -⟩
      · rw [show goSource _ _ = sourceOf c!"Go" _ _ from rfl, hp]; rfl
      all_goals cases e)
  obtain ⟨gs, sh', g1, g2, g3, g4, g5⟩ := written_worded h (output := fun g => (C24.documentedPath (π.part g) ext, text g)) (fun f hf => by
      have hm : π.part f ∈ π.cfg :: π.files.map π.part := List.mem_cons_of_mem _ (List.mem_map.2 ⟨f, hf, rfl⟩)
      have hne : f ≠ π.cfg.filePath := fun e => h.other (e ▸ hf)
      have := (hout f (List.mem_cons_of_mem _ hf)).1
      rw [if_neg hne] at this
      exact ⟨ext, hc.lang, hc.dirs _ hm, hc.create _ hm, rfl, this⟩)
    (o := (C24.documentedPath π.cfg ext, text π.cfg.filePath)) (by
      have := (hout π.cfg.filePath (by simp [Project.all])).1
      rw [if_pos rfl] at this
      exact ⟨ext, hc.lang, hc.dirs _ (by simp), hc.create _ (by simp), rfl, this⟩) sh hs
  refine ⟨gs, π.worded, text, sh', g1, g2, g3, fun f hf => ?_, g4, g5⟩
  have hfa : f ∈ π.all := by
    rcases List.mem_cons.1 hf with rfl | hf
    · simp [Project.all]
    · exact List.mem_cons_of_mem _ (g2 f hf)
  obtain ⟨order, ho, hp⟩ := hfol f hfa
  refine ⟨(worded_tree h hfa).1, _, order, ho, hp, ?_⟩
  split
  · rename_i hl; exact (hout f hfa).2.1 hl
  · rename_i hl; exact (hout f hfa).2.2 hl

end

/-! ## Example: the project of C62, in which there is a text behind every tag -/

theorem demo_creatable : Creatable demo c!".java" :=
  Creatable.mk (by decide) (fun _ _ => rfl) (fun _ _ => rfl) (fun h => by cases h) (fun h => by cases h) (fun _ => .one (by decide))

instance [Uni] (s : Str) : Decidable (C100.Proper s) := by unfold C100.Proper; infer_instance

theorem demo_fit : ∀ f ∈ demo.all, @Fit asciiUni demo.cfg.lang (demo.trees f) := by
  have e : demo.all = [c!"a.xsd", c!"b.xsd", c!"c.xsd"] := by decide +kernel
  intro f hf
  rw [e] at hf
  refine ⟨fun h => (by cases h), fun h => (by cases h), fun _ => ?_, fun h => (by cases h), fun h => by cases h⟩
  simp only [List.mem_cons, List.not_mem_nil, or_false] at hf
  rcases hf with rfl | rfl | rfl <;>
    exact @C100.Fair.mk asciiUni _ (@Syntax.Worded.mk asciiUni _ _ (by decide +kernel) (by decide +kernel) (by decide +kernel)) (by decide +kernel)

theorem demo_texts : ∀ f ∈ demo.all, ∀ toks, demo.W.fs.get? f = some (.file toks) → ∀ x, Token.text x ∈ toks →
    Harmless demo.cfg.lang (trimSpace x) := by
  have e : demo.all = [c!"a.xsd", c!"b.xsd", c!"c.xsd"] := by decide +kernel
  intro f hf toks ht x hx
  rw [e] at hf
  refine ⟨fun h => (by cases h), fun h => (by cases h), fun _ => ?_, fun h => by cases h⟩
  simp only [List.mem_cons, List.not_mem_nil, or_false] at hf
  rcases hf with rfl | rfl | rfl
  · cases (show some (Entry.file (commented docA)) = _ from ht)
    revert x; decide +kernel
  · cases (show some (Entry.file (commented docB)) = _ from ht)
    revert x; decide +kernel
  · cases (show some (Entry.file docC.tokens) = _ from ht)
    revert x; decide +kernel

/-- Java files for the three schemas. -/
example : ∃ (gs : List Str) (wt : Str → Tree) (text : Str → Str) (sh' : Shared), (∀ f ∈ demo.cfg.filePath :: gs, ∃ order, C58.Order order ∧
      Syntax.Java.parse (text f) = some (@C100.fileOf asciiUni order [] (wt f))) ∧
    sh'.outputs = gs.map (fun g => (C24.documentedPath (demo.part g) c!".java", text g)) ++ [(C24.documentedPath demo.cfg c!".java", text demo.cfg.filePath)] ∧
    @Parse asciiUni demo.W demo.cfg {} = .ok (wt demo.cfg.filePath) sh' := by
  obtain ⟨gs, wt, text, sh', -, -, -, h1, h2, h3⟩ := @project_partial asciiUni asciiUniLaws demo (@demo_sound asciiUni asciiUniLaws) _ demo_creatable demo_fit demo_texts {}
    ⟨rfl, rfl, rfl, fun _ _ => rfl⟩
  refine ⟨gs, wt, text, sh', fun f hf => ?_, h2, h3⟩
  obtain ⟨-, source, order, ho, hp, ht⟩ := h1 f hf
  refine ⟨order, ho, ?_⟩
  rw [if_neg (by decide)] at ht
  rw [ht]
  rcases hp with ⟨e, -⟩ | ⟨e, -⟩ | ⟨-, hp⟩ | ⟨e, -⟩ | ⟨e, -⟩
  · cases e
  · cases e
  · rwa [show (if f = demo.cfg.filePath then demo.cfg.package else []) = [] from ite_self _] at hp
  · cases e
  · cases e

set_option synthInstance.maxSize 1000 in
/-- What Java reads in them. -/
example : ((@Parse asciiUni demo.W demo.cfg {}).state.outputs.map fun x => (x.1, (Syntax.Java.parse x.2).map fun f => f.classes.map fun c => (c.name, c.fields.map fun m => (m.type, m.name))))
    = [(c!"out/c.xsd.java", some [(c!"Num", [(c!"Integer", c!"Num")])]),
      (c!"out/b.xsd.java", some [(c!"Size", [(c!"Integer", c!"Size")]), (c!"Car", [(c!"Integer", c!"N")])]),
      (c!"out/a.xsd.java", some [(c!"Size", [(c!"Integer", c!"Size")]), (c!"Car", [(c!"Car", c!"Car")]), (c!"Grade", [(c!"Byte", c!"Grade")])])] := by
  decide +kernel

end Xgen.C103
