import Verif.Props.C24
import Verif.Lemmas.Str

/-! # C52, C50: Go formatting failures and the package clause -/

namespace Xgen
variable [Uni]

/-- What `Parse` does after the token loop has ended normally in state `s`. -/
theorem Parse_of_run {W : World} {cfg : Cfg} {sh : Shared} {toks : List Token} {s : St}
    (hf : W.fs.get? cfg.filePath = some (.file toks))
    (hr : run W (gvtOf W (Parse W) cfg) toks { sh := beginParse cfg sh, p := {} } = .ok () s) :
    Parse W cfg sh = finish W cfg s.p.freeze s.sh := by
  rw [C22.Parse_eq]
  simp only [parseWith, hf, parseOpen, hr]

namespace C52

/-- C52: the token loop has ended normally with the tree of `s`; the output file can be created.  If the formatter
rejects the source, the unformatted source (without the copyright line) is written and `Parse` returns the formatting
error; if it accepts, exactly its result is written and `Parse` succeeds. -/
theorem formatting [UniLaws] (W : World) (cfg : Cfg) (sh : Shared) (toks : List Token) (s : St)
    (hx : cfg.extract = false) (hl : cfg.lang = c!"Go") (hf : W.fs.get? cfg.filePath = some (.file toks))
    (hr : run W (gvtOf W (Parse W) cfg) toks { sh := beginParse cfg sh, p := {} } = .ok () s)
    (hm : W.mkdirOk (pathDir (outputPath cfg)) = true) (hc : W.createOk (C24.documentedPath cfg c!".go") = true) :
    (W.gofmt (goSource cfg.package s.p.freeze) = none →
      Parse W cfg sh = .err .gofmt { register cfg.filePath s.p.freeze s.sh with
        outputs := s.sh.outputs ++ [(C24.documentedPath cfg c!".go", goRawSource cfg.package s.p.freeze)] }) ∧
    (∀ text, W.gofmt (goSource cfg.package s.p.freeze) = some text →
      Parse W cfg sh = .ok s.p.freeze { register cfg.filePath s.p.freeze s.sh with
        outputs := s.sh.outputs ++ [(C24.documentedPath cfg c!".go", text)] }) := by
  have ht : makeFirstUpperCase cfg.lang = c!"Go" := by
    rw [hl]; exact C24.title_lang (by decide)
  have hc' : W.createOk (fileWithExtension (outputPath cfg) c!".go") = true := hc
  rw [Parse_of_run hf hr]
  constructor
  · intro hg
    simp only [finish, hx, Bool.false_eq_true, if_false, hm, if_true, generate, ht, writeGo, hg, writeFile, hc']
    rfl
  · intro text hg
    simp only [finish, hx, Bool.false_eq_true, if_false, hm, if_true, generate, ht, writeGo, hg, writeFile, hc']
    rfl

/-- The raw source is the source without its first two lines. -/
theorem raw_is_source (pkg : Str) (tree : Tree) :
    goSource pkg tree = copyright ++ c!"\n\n" ++ goRawSource pkg tree := by
  simp [goSource, goRawSource]

/-- A type name that is not a Go identifier makes a (strict) formatter fail; the raw source is left on disk. -/
example : @Parse asciiUni
    { Ex.world [("a.xsd", Ex.leaf "element" [("name", "a b"), ("type", "int")])] with gofmt := fun _ => none }
    { filePath := c!"a.xsd", lang := c!"Go" } {} =
  .err .gofmt { parseFileList := [(c!"a.xsd", true)],
                parseFileMap := [(c!"a.xsd", [some (.elem { name := c!"a b", type := c!"int" })])],
                log := [(c!"a.xsd", false)],
                outputs := [(c!"a.xsd.go", c!"package schema\n\r\n// A b ...\r\ntype A b\tint\n")] } := by decide +kernel

end C52

namespace C50

/-- The lines of a text. -/
def lines (t : Str) : List Str := splitOn '\n' t

/-- The package a Go or Java source text declares in its third line. -/
def Declares (text pkg : Str) : Prop :=
  (lines text)[2]? = some (c!"package " ++ pkg) ∨ (lines text)[2]? = some (c!"package " ++ pkg ++ c!";")

/-- The package every generated file should declare. -/
def wanted (pkg : Str) : Str := if pkg = [] then c!"schema" else pkg

theorem third_line (a b rest : Str) (ha : '\n' ∉ a) (hb : '\n' ∉ b) :
    (lines (a ++ c!"\n\n" ++ b ++ '\n' :: rest))[2]? = some b := by
  have : a ++ c!"\n\n" ++ b ++ '\n' :: rest = a ++ '\n' :: ([] ++ '\n' :: (b ++ '\n' :: rest)) := by simp
  rw [lines, this, splitOn_append_sep ha, splitOn_append_sep (by simp), splitOn_append_sep hb]
  rfl

/-- C50 for the file of the options themselves: the Go source given to the formatter and the Java source written carry
the package of the options.  Missing from the full statement: the files of imported schemas (see `lost_on_import`), and
that the formatter keeps the clause. -/
theorem own_file_partial (pkg : Str) (tree : Tree) (hp : '\n' ∉ pkg) :
    Declares (goSource pkg tree) (wanted pkg) ∧ Declares (javaSource pkg tree) (wanted pkg) := by
  have hw : '\n' ∉ wanted pkg := by
    unfold wanted
    split
    · decide
    · exact hp
  constructor
  · left
    have e : goSource pkg tree = copyright ++ c!"\n\n" ++ (c!"package " ++ wanted pkg) ++
        '\n' :: (goImports (goGen tree) ++ (goGen tree).field) := by
      simp [goSource, packageName, wanted]
    rw [e]
    exact third_line _ _ _ (by decide) (by simpa using hw)
  · right
    have e : javaSource pkg tree = copyright ++ c!"\n\n" ++ (c!"package " ++ wanted pkg ++ c!";") ++
        '\n' :: ('\n' :: (javaImports ++ c!"\n" ++ (javaGen tree).field)) := by
      simp [javaSource, packageName, wanted]
    rw [e]
    exact third_line _ _ _ (by decide) (by simpa using hw)

/-- C50 is false for imported schemas: the nested parser gets no package (parser.go:209-220). -/
theorem lost_on_import : ∃ (W : World) (cfg : Cfg), cfg.package = c!"custom" ∧ cfg.lang = c!"Java" ∧
    ∃ out ∈ (@Parse asciiUni W cfg {}).state.outputs, (lines out.2)[2]? = some c!"package schema;" := by
  refine ⟨Ex.world [
    ("a.xsd", [Ex.on "schema" [("xmlns:b", "urn:b")],
      Ex.on "import" [("namespace", "urn:b"), ("schemaLocation", "b.xsd")],
      Ex.on "element" [("name", "e"), ("type", "b:t")]]),
    ("b.xsd", [])], { filePath := c!"a.xsd", lang := c!"Java", package := c!"custom" }, rfl, rfl, ?_⟩
  decide +kernel

example : (lines (@goSource asciiUni c!"custom" [some (.elem { name := c!"a", type := c!"int" })]))[2]? =
    some c!"package custom" := by decide +kernel

end C50
end Xgen
