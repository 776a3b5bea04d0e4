import Verif.Lemmas.Char
import Verif.Props.C22

/-! # C24: a successful parse writes its own output last, once, at the documented path -/

namespace Xgen.C24
variable [Uni]

/-- The supported languages with the extension of their files. -/
def extensions : List (Str × Str) :=
  [(c!"Go", c!".go"), (c!"C", c!".h"), (c!"Java", c!".java"), (c!"Rust", c!".rs"), (c!"TypeScript", c!".ts")]

/-- The text written for a tree.  For Go this is the formatter's result. -/
def IsOutput (W : World) (lang pkg : Str) (tree : Tree) (text : Str) : Prop :=
  (lang = c!"Go" ∧ W.gofmt (goSource pkg tree) = some text) ∨
  (lang = c!"C" ∧ text = cSource tree) ∨
  (lang = c!"Java" ∧ text = javaSource pkg tree) ∨
  (lang = c!"Rust" ∧ text = rustSource tree) ∨
  (lang = c!"TypeScript" ∧ text = tsSource tree)

/-- The path of the output file. -/
def documentedPath (cfg : Cfg) (ext : Str) : Str :=
  fileWithExtension (pathJoin cfg.outputDir (trimPrefix cfg.filePath cfg.inputDir)) ext

omit [Uni] in
theorem writeFile_ok {W : World} {path text : Str} {sh sh' : Shared} (h : writeFile W path text sh = .ok () sh') :
    sh' = { sh with outputs := sh.outputs ++ [(path, text)] } := by
  unfold writeFile at h
  split at h
  · cases h; rfl
  · cases h

theorem title_lang [UniLaws] {lang : Str} (h : lang ∈ extensions.map (·.1)) : makeFirstUpperCase lang = lang := by
  have hA : ∀ c : Char, c.toNat < 128 → isAsciiLower c = false → Uni.upper c = c := by
    intro c h1 h2
    rw [UniLaws.upper_ascii _ h1, asciiUpper, h2]
    rfl
  simp only [extensions, List.map_cons, List.map_nil, List.mem_cons, List.not_mem_nil, or_false] at h
  rcases h with rfl | rfl | rfl | rfl | rfl <;>
    simp only [makeFirstUpperCase, toTitle] <;> rw [hA _ (by decide) (by decide)]

/-- C24 -/
theorem success [UniLaws] (W : World) (cfg : Cfg) (sh sh' : Shared) (tree : Tree) (toks : List Token)
    (hx : cfg.extract = false) (hf : W.fs.get? cfg.filePath = some (.file toks))
    (h : Parse W cfg sh = .ok tree sh') :
    sh'.parseFileList.get? cfg.filePath = some true ∧ sh'.parseFileMap.get? cfg.filePath = some tree ∧
    ∀ ext, (cfg.lang, ext) ∈ extensions → ∃ before text,
      IsOutput W cfg.lang cfg.package tree text ∧ sh'.outputs = before ++ [(documentedPath cfg ext, text)] := by
  rw [C22.Parse_eq] at h
  simp only [parseWith, hf, parseOpen] at h
  generalize run W (gvtOf W (Parse W) cfg) toks { sh := beginParse cfg sh, p := {} } = r at h
  cases r with
  | err e s => cases h
  | halt e s => cases h
  | ok u s =>
    simp only [finish, hx, Bool.false_eq_true, if_false] at h
    split at h
    · generalize hg : generate W cfg.lang cfg.package (outputPath cfg) s.p.freeze (register cfg.filePath s.p.freeze s.sh) = r at h
      cases r with
      | err e s => cases h
      | halt e s => cases h
      | ok u s1 =>
        obtain ⟨rfl, rfl⟩ : s.p.freeze = tree ∧ s1 = sh' := by cases h; exact ⟨rfl, rfl⟩
        generalize htree : s.p.freeze = tree at *
        have hkey : (∃ o, s1 = { register cfg.filePath tree s.sh with outputs := o }) ∧
            ∀ ext, (cfg.lang, ext) ∈ extensions → ∃ before text,
              IsOutput W cfg.lang cfg.package tree text ∧ s1.outputs = before ++ [(documentedPath cfg ext, text)] := by
          unfold generate at hg
          by_cases hl : cfg.lang ∈ extensions.map (·.1)
          · rw [title_lang hl] at hg
            simp only [extensions, List.map_cons, List.map_nil, List.mem_cons, List.not_mem_nil, or_false] at hl
            rcases hl with hl | hl | hl | hl | hl
            · simp only [hl, if_true] at hg
              unfold writeGo at hg
              split at hg
              · rename_i src hsrc
                obtain rfl := writeFile_ok hg
                refine ⟨⟨_, rfl⟩, fun ext he => ⟨s.sh.outputs, src, Or.inl ⟨hl, hsrc⟩, ?_⟩⟩
                have : ext = c!".go" := by rw [hl] at he; simpa [extensions] using he
                subst this; rfl
              · split at hg
                · cases hg
                · rename_i hne; exact absurd hg (hne _ _)
            · simp only [hl, if_true] at hg
              rw [if_neg (by decide)] at hg
              obtain rfl := writeFile_ok hg
              refine ⟨⟨_, rfl⟩, fun ext he => ⟨s.sh.outputs, _, Or.inr (Or.inl ⟨hl, rfl⟩), ?_⟩⟩
              have : ext = c!".h" := by rw [hl] at he; simpa [extensions] using he
              subst this; rfl
            · simp only [hl, if_true] at hg
              rw [if_neg (by decide), if_neg (by decide)] at hg
              obtain rfl := writeFile_ok hg
              refine ⟨⟨_, rfl⟩, fun ext he => ⟨s.sh.outputs, _, Or.inr (Or.inr (Or.inl ⟨hl, rfl⟩)), ?_⟩⟩
              have : ext = c!".java" := by rw [hl] at he; simpa [extensions] using he
              subst this; rfl
            · simp only [hl, if_true] at hg
              rw [if_neg (by decide), if_neg (by decide), if_neg (by decide)] at hg
              obtain rfl := writeFile_ok hg
              refine ⟨⟨_, rfl⟩, fun ext he => ⟨s.sh.outputs, _, Or.inr (Or.inr (Or.inr (Or.inl ⟨hl, rfl⟩))), ?_⟩⟩
              have : ext = c!".rs" := by rw [hl] at he; simpa [extensions] using he
              subst this; rfl
            · simp only [hl, if_true] at hg
              rw [if_neg (by decide), if_neg (by decide), if_neg (by decide), if_neg (by decide)] at hg
              obtain rfl := writeFile_ok hg
              refine ⟨⟨_, rfl⟩, fun ext he => ⟨s.sh.outputs, _, Or.inr (Or.inr (Or.inr (Or.inr ⟨hl, rfl⟩))), ?_⟩⟩
              have : ext = c!".ts" := by rw [hl] at he; simpa [extensions] using he
              subst this; rfl
          · refine ⟨?_, fun ext he => absurd (List.mem_map_of_mem (f := (·.1)) he) hl⟩
            split at hg
            · unfold writeGo at hg
              split at hg
              · obtain rfl := writeFile_ok hg; exact ⟨_, rfl⟩
              · split at hg
                · cases hg
                · rename_i hne; exact absurd hg (hne _ _)
            split at hg
            · obtain rfl := writeFile_ok hg; exact ⟨_, rfl⟩
            split at hg
            · obtain rfl := writeFile_ok hg; exact ⟨_, rfl⟩
            split at hg
            · obtain rfl := writeFile_ok hg; exact ⟨_, rfl⟩
            split at hg
            · obtain rfl := writeFile_ok hg; exact ⟨_, rfl⟩
            · cases hg; exact ⟨_, rfl⟩
        obtain ⟨⟨o, ho⟩, hout⟩ := hkey
        refine ⟨?_, ?_, hout⟩
        · rw [ho]; simp [register]
        · rw [ho]; simp [register]
    · cases h

/-! Two files; the imported one is written first. -/

open Ex in
/-- The files of the example. -/
private def W0 : World := world [
  ("in/a.xsd", [on "schema" [("xmlns:b", "urn:b")], on "import" [("namespace", "urn:b"), ("schemaLocation", "b.xsd")],
    on "element" [("name", "e"), ("type", "b:t")], off "element"]),
  ("in/b.xsd", leaf "element" [("name", "t"), ("type", "int")])]

example : (@Parse asciiUni W0 { filePath := c!"in/a.xsd", inputDir := c!"in", outputDir := c!"out", lang := c!"Rust" }
    {}).state.outputs.map (·.1) = [c!"out/in/b.xsd.rs", c!"out/a.xsd.rs"] := by decide +kernel

end Xgen.C24
