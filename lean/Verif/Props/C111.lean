import Verif.Props.C65
import Verif.Props.C110

/-! # C111: a project gives the same in all languages

C110 for schemas that import and include others: if a project can be translated (C62) to two languages, both translations contain a file for
every schema that is referred to, and these files declare the same.  Whether a project can be translated, however, and to which files, depends
on the language: the base of a restriction or extension is looked up twice, the second time under the name of its target type, which is a
built-in type of XSD (`string` in Go and TypeScript) or is not (`char`, `String`). -/

namespace Xgen.C111
open Core C62 C110
open C65 (Says Tidy Values Creatable)

/-! ## Specification -/

section
variable [Uni]

/-- The file declares what the declarations `ds` declare (C110).  For Go this holds of what the formatter is given. -/
def Outlined (W : World) (lang text : Str) (ds : List Decl) : Prop :=
  (lang = c!"Go" ∧ ∃ source, W.gofmt source = some text ∧
    Aligned InGo (C58.Go.declsOf source) (C58.declarations C58.Go.base C58.Go.numbered (fun _ => false) (C110.declared ds))) ∨
  (lang = c!"C" ∧ Aligned InC (C58.C.declsOf text) (C58.declarations C58.C.base C56.C.counted (fun _ => false) (C110.declared ds))) ∨
  (lang = c!"Java" ∧ Aligned InJava (C58.Java.declsOf text) (C58.declarations C58.Java.base (fun _ => true) (fun _ => false) (C110.declared ds))) ∨
  (lang = c!"Rust" ∧ Aligned InRust (C58.Rust.declsOf text)
    (C58.declarations C56.Rust.baseName C58.Rust.numbered (fun _ => false) (C110.declared ds))) ∨
  (lang = c!"TypeScript" ∧ Aligned InTS (C58.TS.declsOf text) (C58.declarations C58.TS.base (fun _ => true) C15.isEnum (C110.declared ds)))

end

/-- The files that the main file refers to, directly or through others. -/
inductive Reached (π : Project) : Str → Prop
  | main : Reached π π.cfg.filePath
  | step {f g} : Reached π f → π.Needs f g → Reached π g

/-- Two translations of one set of files. -/
structure SameSources (π π' : Project) : Prop where
  world : π.W = π'.W
  path : π.cfg.filePath = π'.cfg.filePath
  docs : π.docs = π'.docs

/-! ## Both languages need the same files -/

/-- Whether a name is that of a built-in type does not depend on the language. -/
theorem builtin_any (n l l' : Str) : getBuildInTypeByLang n l = none → getBuildInTypeByLang n l' = none := by
  unfold getBuildInTypeByLang getBuildInTypeByLang?
  cases h : buildInTypes.get? n with
  | none => exact fun _ => rfl
  | some row =>
    have hr : row.length = 5 := by
      have : ∀ e ∈ buildInTypes, e.2.length = 5 := by decide
      exact this _ (GoMap.mem_of_get? h)
    have hi : ∀ l, langIndex l < row.length := by
      intro l
      rw [hr]
      unfold langIndex
      repeat' split
      all_goals decide
    intro h'
    simp only [List.getElem?_eq_getElem (hi l)] at h'
    cases h'

theorem needs_same {π π' : Project} (s : SameSources π π') {f g : Str} (h : π.Needs f g) : π'.Needs f g := by
  obtain ⟨n, as, v, h1, h2, h3, h4, h5, h6⟩ := h
  have hf : π'.file? = π.file? := by
    funext q
    unfold Project.file? Project.places Project.main Project.dir
    rw [s.docs, s.path, s.world]
  refine ⟨n, as, v, ?_, h2, ?_, h4, builtin_any _ _ _ h5, ?_⟩
  · rw [← s.docs]; exact h1
  · rw [hf]; exact h3
  · rw [← s.docs]; exact h6

theorem SameSources.symm {π π' : Project} (s : SameSources π π') : SameSources π' π := ⟨s.world.symm, s.path.symm, s.docs.symm⟩

/-- Both languages reach the same files. -/
theorem reached_same {π π' : Project} (s : SameSources π π') {f : Str} (h : Reached π f) : Reached π' f := by
  induction h with
  | main => rw [s.path]; exact .main
  | step _ hn ih => exact .step ih (needs_same s hn)

/-! ## The files -/

section
variable [Uni] [UniLaws]

/-- A file that says what a tree says declares what the schema declares. -/
theorem outlined {W : World} {lang : Str} {t : Tree} {text : Str} {ds : List Decl} (h : Says W lang t text) (ht : outline t = C110.declared ds) :
    Outlined W lang text ds := by
  obtain ⟨order, ho, h⟩ := h
  unfold Outlined
  rw [← ht]
  rcases h with ⟨hl, source, h1, h2⟩ | ⟨hl, h⟩ | ⟨hl, h⟩ | ⟨hl, h⟩ | ⟨hl, h⟩
  · exact .inl ⟨hl, source, h1, by rw [h2]; exact go_aligned ho t⟩
  · exact .inr (.inl ⟨hl, by rw [h]; exact c_aligned ho t⟩)
  · exact .inr (.inr (.inl ⟨hl, by rw [h]; exact java_aligned ho t⟩))
  · exact .inr (.inr (.inr (.inl ⟨hl, by rw [h]; exact rust_aligned ho t⟩)))
  · exact .inr (.inr (.inr (.inr ⟨hl, by rw [h]; exact ts_aligned ho t⟩)))

variable {π π' : Project}

omit [UniLaws] in
/-- Without types, the translation of a file of a project is a function of its declarations: what other files declare does not matter. -/
theorem trees_outline (h : π.Sound) {f : Str} (hf : f ∈ π.all) (hc : ElementsConsistent (π.docs f).decls) :
    outline (π.trees f) = C110.declared (π.docs f).decls := by
  rw [h.trees f hf]
  exact outline_tree _ _ hc []

/-- What is demanded of the translation of a project to its language. -/
structure Translatable (π : Project) (ext : Str) (sh : Shared) : Prop where
  sound : π.Sound
  tidy : ∀ f ∈ π.all ++ π.included, Tidy (π.docs f)
  creatable : Creatable π ext
  values : π.cfg.lang = c!"TypeScript" → ∀ f ∈ π.all, Values (π.docs f)
  fresh : Fresh π sh
  consistent : ∀ f ∈ π.all, ElementsConsistent (π.docs f).decls

/-- What a translation has written: files for all schemas that the project refers to, each declaring what its schema declares. -/
def Translated (π : Project) (ext : Str) (sh : Shared) : Prop :=
  ∃ (out : Str → Str × Str) (t : Tree) (sh' : Shared), Parse π.W π.cfg sh = .ok t sh' ∧
    (∀ o ∈ sh'.outputs, o ∈ sh.outputs ∨ ∃ f ∈ π.all, o = out f) ∧
    ∀ f, Reached π f → out f ∈ sh'.outputs ∧
      (out f).1 = C24.documentedPath (if f = π.cfg.filePath then π.cfg else π.part f) ext ∧
      Outlined π.W π.cfg.lang (out f).2 (π.docs f).decls

/-- C111 for one language.  (Missing: TypeScript enumeration values with quotes, equal signs or backslashes, see C49; projects that are not
sound, see `accepted_by_language`.) -/
theorem project_partial {ext : Str} {sh : Shared} (h : Translatable π ext sh) : Translated π ext sh := by
  obtain ⟨gs, text, t, sh', -, g2, g3, g4, g5, g6⟩ :=
    C65.generated_partial h.sound h.tidy h.creatable h.values sh h.fresh
  have hall : ∀ f ∈ π.cfg.filePath :: gs, f ∈ π.all := by
    intro f hf
    rcases List.mem_cons.1 hf with rfl | hf
    · exact List.mem_cons_self
    · exact List.mem_cons_of_mem _ (g2 f hf)
  have hmain : ∀ g ∈ gs, g ≠ π.cfg.filePath := fun g hg e => h.sound.other (e ▸ g2 g hg)
  have hr : ∀ f, Reached π f → f ∈ π.cfg.filePath :: gs := by
    intro f hf
    induction hf with
    | main => exact List.mem_cons_self
    | step _ hn ih => exact List.mem_cons_of_mem _ (g3 _ ih _ hn)
  refine ⟨fun f => (C24.documentedPath (if f = π.cfg.filePath then π.cfg else π.part f) ext, text f), t, sh', g6, fun o ho => ?_, fun f hf => ⟨?_, rfl, ?_⟩⟩
  · rw [g5, List.mem_append, List.mem_append, List.mem_map, List.mem_singleton] at ho
    rcases ho with (ho | ⟨g, hg, rfl⟩) | rfl
    · exact .inl ho
    · exact .inr ⟨g, List.mem_cons_of_mem _ (g2 g hg), by dsimp only; rw [if_neg (hmain g hg)]⟩
    · exact .inr ⟨_, List.mem_cons_self, by dsimp only; rw [if_pos rfl]⟩
  · have := hr f hf
    rw [g5, List.mem_append, List.mem_append, List.mem_map, List.mem_singleton]
    by_cases e : f = π.cfg.filePath
    · exact .inr (by dsimp only; rw [if_pos e, e])
    · rcases List.mem_cons.1 this with e' | hg
      · exact absurd e' e
      · exact .inl (.inr ⟨f, hg, by dsimp only; rw [if_neg e]⟩)
  · exact outlined (g4 f (hr f hf)) (trees_outline h.sound (hall f (hr f hf)) (h.consistent f (hall f (hr f hf))))

/-- C111: two translations of one project both succeed, and each contains, for every schema the project refers to, a file that declares what
that schema declares. -/
theorem two_languages_partial (s : SameSources π π') {ext ext' : Str} {sh sh' : Shared} (h : Translatable π ext sh)
    (h' : Translatable π' ext' sh') : ∃ (out out' : Str → Str × Str) (t t' : Tree) (e e' : Shared),
    Parse π.W π.cfg sh = .ok t e ∧ Parse π'.W π'.cfg sh' = .ok t' e' ∧
    ∀ f, Reached π f → out f ∈ e.outputs ∧ out' f ∈ e'.outputs ∧
      Outlined π.W π.cfg.lang (out f).2 (π.docs f).decls ∧ Outlined π.W π'.cfg.lang (out' f).2 (π.docs f).decls := by
  obtain ⟨out, t, e, h1, -, h2⟩ := project_partial h
  obtain ⟨out', t', e', h1', -, h2'⟩ := project_partial h'
  refine ⟨out, out', t, t', e, e', h1, h1', fun f hf => ?_⟩
  obtain ⟨a, -, b⟩ := h2 f hf
  obtain ⟨a', -, b'⟩ := h2' f (reached_same s hf)
  rw [← s.world, ← s.docs] at b'
  exact ⟨a, a', b, b'⟩

end

/-! ## Example: the project of C62, in Java and in Go -/

/-- The project in Go. -/
def demoGo : Project where
  W := demo.W
  cfg := { filePath := c!"a.xsd", lang := c!"Go", outputDir := c!"out", package := c!"shop" }
  docs := demo.docs
  trees f :=
    if f = c!"a.xsd" then [some (.elem { name := c!"size", type := c!"int" }), some (.elem { name := c!"car", type := c!"Car" }),
      some (.elem { name := c!"grade", type := c!"int8" })]
    else if f = c!"b.xsd" then
      [some (.simple { name := c!"Size", base := c!"int" }),
       some (.complex { name := c!"Car", elements := [{ name := c!"n", type := c!"int" }] })]
    else if f = c!"c.xsd" then [some (.simple { name := c!"Num", base := c!"int" })] else []
  rank := demo.rank

theorem demo_go_sound : @Project.Sound asciiUni demoGo := by
  refine @Project.Sound.mk asciiUni demoGo ?_ ?_ ?_ ?_ ?_ ?_ ?_ (@demo_contains asciiUni asciiUniLaws) ?_ ?_ ?_ ?_ ?_ ?_ ?_ ?_ ?_ <;> decide +kernel

theorem java_ok : @Translatable asciiUni demo c!".java" {} :=
  @Translatable.mk asciiUni _ _ _ (@demo_sound asciiUni asciiUniLaws) (by decide +kernel)
    (@Creatable.mk _ _ (by decide) (fun _ _ => rfl) (fun _ _ => rfl) (fun h => by cases h) (by decide)) (fun h => by cases h)
    ⟨rfl, rfl, rfl, fun _ _ => rfl⟩ (by decide +kernel)

theorem go_ok : @Translatable asciiUni demoGo c!".go" {} :=
  @Translatable.mk asciiUni _ _ _ demo_go_sound (by decide +kernel)
    (@Creatable.mk _ _ (by decide) (fun _ _ => rfl) (fun _ _ => rfl) (fun _ _ => rfl) (by decide)) (fun h => by cases h)
    ⟨rfl, rfl, rfl, fun _ _ => rfl⟩ (by decide +kernel)

example : SameSources demo demoGo := ⟨rfl, rfl, rfl⟩

/-- All three files are reached. -/
example : Reached demo c!"b.xsd" ∧ Reached demo c!"c.xsd" := by
  have hb : demo.Needs c!"a.xsd" c!"b.xsd" :=
    needs_of (v := c!"b:Size") (by decide +kernel) (by decide +kernel) (by decide) (by decide) (by decide +kernel)
  have hc : demo.Needs c!"b.xsd" c!"c.xsd" :=
    needs_of (v := c!"c:Num") (by decide +kernel) (by decide +kernel) (by decide) (by decide) (by decide +kernel)
  exact ⟨.step .main hb, .step (.step .main hb) hc⟩

/-! ## Acceptance depends on the language -/

/-- A schema with a type derived from `xs:string`, and an import without a name space. -/
def text : Doc where
  root := []
  heads := [.import (at_ [("schemaLocation", "b.xsd")])]
  decls := [.simple (at_ [("name", "Code")]) (.restriction (at_ [("base", "xs:string")]) [])]

/-- Another schema, to which the first does not refer. -/
def numbers : Doc where
  root := []
  decls := [.simple (at_ [("name", "Num")]) (.restriction (at_ [("base", "xs:int")]) [])]

/-- A run for a language: whether it succeeds, and the files it writes. -/
def result (files : List (String × List Token)) (lang : Str) : Bool × List Str :=
  let o := @Parse asciiUni (Ex.world files) { filePath := c!"a.xsd", lang := lang, outputDir := c!"out" } {}
  (decide (Ex.kind o = none), o.state.outputs.map (·.1))

/-- The negation of C111 for all projects: if the imported file is missing, the schema is accepted for Go and TypeScript and rejected for C, Java
and Rust. -/
theorem accepted_by_language :
    result [("a.xsd", text.tokens)] c!"Go" = (true, [c!"out/a.xsd.go"]) ∧
    result [("a.xsd", text.tokens)] c!"TypeScript" = (true, [c!"out/a.xsd.ts"]) ∧
    result [("a.xsd", text.tokens)] c!"C" = (false, []) ∧
    result [("a.xsd", text.tokens)] c!"Java" = (false, []) ∧
    result [("a.xsd", text.tokens)] c!"Rust" = (false, []) := by decide +kernel

/-- … and if it is there, it is translated to C, Java and Rust, but not to Go and TypeScript. -/
theorem files_by_language :
    result [("a.xsd", text.tokens), ("b.xsd", numbers.tokens)] c!"Go" = (true, [c!"out/a.xsd.go"]) ∧
    result [("a.xsd", text.tokens), ("b.xsd", numbers.tokens)] c!"TypeScript" = (true, [c!"out/a.xsd.ts"]) ∧
    result [("a.xsd", text.tokens), ("b.xsd", numbers.tokens)] c!"C" = (true, [c!"out/b.xsd.h", c!"out/a.xsd.h"]) ∧
    result [("a.xsd", text.tokens), ("b.xsd", numbers.tokens)] c!"Java" = (true, [c!"out/b.xsd.java", c!"out/a.xsd.java"]) ∧
    result [("a.xsd", text.tokens), ("b.xsd", numbers.tokens)] c!"Rust" = (true, [c!"out/b.xsd.rs", c!"out/a.xsd.rs"]) := by
  decide +kernel

end Xgen.C111
