import Verif.Props.C114
import Verif.Props.C24

/-! # C115: the languages write the same files, up to the extension

For documents that neither import nor include, sensible or not, the command writes one file per document, in the order of the documents, until
it stops; the files for another language are the same with another extension. -/

namespace Xgen.C115
open C112 (Writable SameEnd Start)
open C114 (Plain other)

section
variable [Uni]

/-! ## Specification -/

/-- A path is that of a document. -/
def isDoc (W : World) (path : Str) : Bool :=
  match W.fs.get? path with
  | some (.file _) => true
  | _ => false

/-- The documents the command is to process, in order: those in a directory, or the one given. -/
def documents (W : World) (walk : Str → List Str) (input : Str) : List Str :=
  match W.fs.get? input with
  | some .dir => (walk input).filter (isDoc W)
  | some (.file _) => [input]
  | _ => []

/-- Where the file for a document is put. -/
def place (f : Flags) (ext doc : Str) : Str := fileWithExtension (pathJoin f.o (trimPrefix doc f.i)) ext

/-- The paths of the files written, in order. -/
def written (sh : Shared) : List Str := sh.outputs.map (·.1)

/-! ## Proof -/

omit [Uni] in
theorem documents_eq (W : World) (walk : Str → List Str) (input : Str) :
    ((getFileList W walk input).getD []).filter (isDoc W) = documents W walk input := by
  unfold getFileList documents
  cases h : W.fs.get? input with
  | none => rfl
  | some en =>
    cases en with
    | dir =>
      have : isDoc W input = false := by unfold isDoc; rw [h]
      simp only [Option.getD_some, List.filter_append, List.filter_cons, List.filter_nil, this, Bool.false_eq_true, if_false, List.append_nil]
    | noOpen =>
      have : isDoc W input = false := by unfold isDoc; rw [h]
      simp only [Option.getD_some, List.filter_cons, List.filter_nil, this, Bool.false_eq_true, if_false]
    | file toks =>
      have : isDoc W input = true := by unfold isDoc; rw [h]
      simp only [Option.getD_some, List.filter_cons, List.filter_nil, this, if_true]

/-- One file is written for a tree. -/
theorem generate_path [UniLaws] {W : World} (hw : Writable W) {lang ext : Str} (he : (lang, ext) ∈ C24.extensions) (pkg file : Str) (t : Tree) (sh : Shared) :
    ∃ sh', generate W lang pkg file t sh = .ok () sh' ∧ written sh' = written sh ++ [fileWithExtension file ext] := by
  have wf : ∀ path content, ∃ sh', writeFile W path content sh = .ok () sh' ∧ written sh' = written sh ++ [path] := by
    intro path content
    unfold writeFile
    rw [if_pos (hw.1 path)]
    exact ⟨_, rfl, by unfold written; rw [List.map_append]; rfl⟩
  have hl : makeFirstUpperCase lang = lang := C24.title_lang (List.mem_map_of_mem (f := (·.1)) he)
  unfold generate
  rw [hl]
  simp only [C24.extensions, List.mem_cons, List.not_mem_nil, or_false, Prod.mk.injEq] at he
  rcases he with ⟨rfl, rfl⟩ | ⟨rfl, rfl⟩ | ⟨rfl, rfl⟩ | ⟨rfl, rfl⟩ | ⟨rfl, rfl⟩
  · rw [if_pos rfl]
    unfold writeGo
    cases e : W.gofmt (goSource pkg t) with
    | none => exact absurd e (hw.2 _)
    | some src => exact wf _ _
  · rw [if_neg (by decide), if_pos rfl]; exact wf _ _
  · rw [if_neg (by decide), if_neg (by decide), if_pos rfl]; exact wf _ _
  · rw [if_neg (by decide), if_neg (by decide), if_neg (by decide), if_pos rfl]; exact wf _ _
  · rw [if_neg (by decide), if_neg (by decide), if_neg (by decide), if_neg (by decide), if_pos rfl]; exact wf _ _

/-- What a parse has written in the end. -/
def Wrote (before more : List Str) : Out Shared Tree → Prop
  | .ok _ sh => written sh = before ++ more
  | .err _ sh => written sh = before
  | .halt _ sh => written sh = before

/-- A parse writes one file if it succeeds on a document, and otherwise none. -/
theorem wrote [UniLaws] {W : World} {cfg : Cfg} {sh : Shared} (h : Start W cfg sh) (hw : Writable W)
    (hc : ∀ toks, W.fs.get? cfg.filePath = some (.file toks) → C112.Closed toks) {ext : Str} (he : (cfg.lang, ext) ∈ C24.extensions) :
    Wrote (written sh) (if isDoc W cfg.filePath then [C24.documentedPath cfg ext] else []) (Parse W cfg sh) := by
  unfold Parse parse parseWith isDoc
  cases hf : W.fs.get? cfg.filePath with
  | none => exact rfl
  | some en => cases en with
    | dir => exact (List.append_nil _).symm
    | noOpen => exact rfl
    | file toks =>
      dsimp only
      have q := C112.quiet h hf (parse W (W.fs.length + 1)) cfg.lang cfg.package
      have l0 : C40.Like (beginParse cfg sh) (beginParse cfg sh) := ⟨(beginParse cfg sh).localNS, (beginParse cfg sh).tick, rfl⟩
      have key := C112.sim_run q q W toks (hc toks hf) ⟨beginParse cfg sh, {}⟩ ⟨beginParse cfg sh, {}⟩ ⟨l0, l0, rfl⟩
      have b : written (beginParse cfg sh) = written sh := by unfold beginParse; rw [h.writes]; rfl
      have keep : ∀ s : St, C40.Like (beginParse cfg sh) s.sh → written s.sh = written sh := by
        rintro s ⟨ns, tick, e⟩
        rw [e]; exact b
      unfold parseOpen
      cases e : run W (gvtOf W (parse W (W.fs.length + 1)) cfg) toks ⟨beginParse cfg sh, {}⟩ with
      | err x s =>
        have e' : run W (gvtOf W (parse W (W.fs.length + 1)) { cfg with lang := cfg.lang, package := cfg.package }) toks ⟨beginParse cfg sh, {}⟩ = .err x s := e
        rw [e'] at key
        exact keep s key.2.1
      | halt x s =>
        have e' : run W (gvtOf W (parse W (W.fs.length + 1)) { cfg with lang := cfg.lang, package := cfg.package }) toks ⟨beginParse cfg sh, {}⟩ = .halt x s := e
        rw [e'] at key
        exact keep s key.2.1
      | ok x s =>
        have e' : run W (gvtOf W (parse W (W.fs.length + 1)) { cfg with lang := cfg.lang, package := cfg.package }) toks ⟨beginParse cfg sh, {}⟩ = .ok x s := e
        rw [e'] at key
        have ks := keep s key.2.1
        dsimp only
        unfold finish
        simp only [h.writes, Bool.false_eq_true, if_false, if_true]
        by_cases hm : W.mkdirOk (pathDir (outputPath cfg)) = true
        · rw [if_pos hm]
          obtain ⟨u, hu, hp⟩ := generate_path hw he cfg.package (outputPath cfg) s.p.freeze (register cfg.filePath s.p.freeze s.sh)
          rw [hu]
          have r : written (register cfg.filePath s.p.freeze s.sh) = written s.sh := rfl
          rw [r, ks] at hp
          exact hp
        · rw [if_neg hm]
          exact ks

/-- The loop over the files, for two languages. -/
theorem loop [UniLaws] {W : World} (hp : Plain W) (hw : Writable W) (c : Config) (f : Flags) (hi : c.i = f.i) (ho : c.o = f.o) {lang lang' ext ext' : Str}
    (he : (lang, ext) ∈ C24.extensions) (he' : (lang', ext') ∈ C24.extensions) (pkg pkg' : Str) : ∀ (files : List Str) (a b : Shared),
    ∃ docs, docs <+: files.filter (isDoc W) ∧
      written (mainLoop W { c with lang := lang, pkg := pkg } files a).2 = written a ++ docs.map (place f ext) ∧
      written (mainLoop W { c with lang := lang', pkg := pkg' } files b).2 = written b ++ docs.map (place f ext') ∧
      ((mainLoop W { c with lang := lang, pkg := pkg } files a).1 = .done → docs = files.filter (isDoc W))
  | [], a, b => ⟨[], List.nil_prefix, (List.append_nil _).symm, (List.append_nil _).symm, fun _ => rfl⟩
  | p :: ps, a, b => by
    have key := C114.one hp hw c lang lang' pkg pkg' p a b
    have hs : ∀ (c : Config) (x : Shared), Start W (mainCfg c p) { outputs := x.outputs, tick := x.tick, log := x.log } :=
      fun c x => ⟨rfl, rfl, rfl, hp.1, fun toks h => (hp.2 p toks h).2⟩
    have wa := wrote (hs { c with lang := lang, pkg := pkg } a) hw (fun toks h => (hp.2 p toks h).1) (ext := ext) he
    have wb := wrote (hs { c with lang := lang', pkg := pkg' } b) hw (fun toks h => (hp.2 p toks h).1) (ext := ext') he'
    have pa : C24.documentedPath (mainCfg { c with lang := lang, pkg := pkg } p) ext = place f ext p := by
      unfold C24.documentedPath place mainCfg; rw [← hi, ← ho]
    have pb : C24.documentedPath (mainCfg { c with lang := lang', pkg := pkg' } p) ext' = place f ext' p := by
      unfold C24.documentedPath place mainCfg; rw [← hi, ← ho]
    have fa : (mainCfg { c with lang := lang, pkg := pkg } p).filePath = p := rfl
    have fb : (mainCfg { c with lang := lang', pkg := pkg' } p).filePath = p := rfl
    rw [pa, fa] at wa
    rw [pb, fb] at wb
    unfold mainLoop
    cases e : Parse W (mainCfg { c with lang := lang, pkg := pkg } p) { outputs := a.outputs, tick := a.tick, log := a.log } with
    | ok t s =>
      rw [e] at key wa
      cases e' : Parse W (mainCfg { c with lang := lang', pkg := pkg' } p) { outputs := b.outputs, tick := b.tick, log := b.log } with
      | ok t' s' =>
        rw [e'] at wb
        obtain ⟨docs, h1, h2, h3, h4⟩ := loop hp hw c f hi ho he he' pkg pkg' ps s s'
        have wa : written s = written a ++ _ := wa
        have wb : written s' = written b ++ _ := wb
        rw [wa] at h2
        rw [wb] at h3
        dsimp only
        by_cases hd : isDoc W p = true
        · rw [if_pos hd] at h2 h3
          rw [List.filter_cons_of_pos hd]
          refine ⟨p :: docs, (List.prefix_cons_inj p).2 h1, ?_, ?_, fun h => by rw [h4 h]⟩
          · rw [h2, List.map_cons, List.append_assoc]; rfl
          · rw [h3, List.map_cons, List.append_assoc]; rfl
        · rw [if_neg hd, List.append_nil] at h2 h3
          rw [List.filter_cons_of_neg hd]
          exact ⟨docs, h1, h2, h3, h4⟩
      | err x s' => rw [e'] at key; exact key.elim
      | halt x s' => rw [e'] at key; exact key.elim
    | err x s =>
      rw [e] at key wa
      cases e' : Parse W (mainCfg { c with lang := lang', pkg := pkg' } p) { outputs := b.outputs, tick := b.tick, log := b.log } with
      | ok t' s' => rw [e'] at key; exact key.elim
      | err x' s' =>
        rw [e'] at wb
        exact ⟨[], List.nil_prefix, Eq.trans wa (List.append_nil _).symm, Eq.trans wb (List.append_nil _).symm, fun h => by cases h⟩
      | halt x s' => rw [e'] at key; exact key.elim
    | halt x s =>
      rw [e] at key wa
      cases e' : Parse W (mainCfg { c with lang := lang', pkg := pkg' } p) { outputs := b.outputs, tick := b.tick, log := b.log } with
      | ok t' s' => rw [e'] at key; exact key.elim
      | err x s' => rw [e'] at key; exact key.elim
      | halt x' s' =>
        rw [e'] at wb key
        have : x = x' := key
        subst this
        have wa : written s = written a := wa
        have wb : written s' = written b := wb
        cases x <;> exact ⟨[], List.nil_prefix, Eq.trans wa (List.append_nil _).symm, Eq.trans wb (List.append_nil _).symm, fun h => by cases h⟩

/-- The command writes the files for an initial part of the documents, for all if it gets through, and those for another language are the
same but for the extension. -/
theorem same_files [UniLaws] {W : World} (hp : Plain W) (hw : Writable W) (walk : Str → List Str) (f : Flags) {lang lang' ext ext' : Str}
    (he : (lang, ext) ∈ C24.extensions) (he' : (lang', ext') ∈ C24.extensions) (pkg pkg' : Str) :
    ∃ docs, docs <+: documents W walk f.i ∧
      written (main' W walk (other f lang pkg)).2 = docs.map (place f ext) ∧
      written (main' W walk (other f lang' pkg')).2 = docs.map (place f ext') ∧
      ((main' W walk (other f lang pkg)).1 = .done → docs = documents W walk f.i) := by
  have hne : ∀ x ∈ C24.extensions, x.1 ≠ [] ∧ supportLang.contains x.1 = true := by decide
  have h1 := hne _ he
  have h2 := hne _ he'
  have run : ∀ l p, l ≠ [] ∧ supportLang.contains l = true → parseFlags (other f l p) =
      if f.h then .exit 0 else if f.v then .exit 0 else if f.i = [] then .exit 1
      else .go { i := f.i, o := f.o, pkg := if p ≠ [] then p else c!"schema", lang := l } := by
    intro l p h
    unfold parseFlags other
    simp only [h.1, h.2, Bool.not_true, Bool.false_eq_true, if_false]
  rw [← documents_eq]
  unfold main'
  rw [run lang pkg h1, run lang' pkg' h2]
  by_cases a1 : f.h = true
  · rw [if_pos a1, if_pos a1]; exact ⟨[], List.nil_prefix, rfl, rfl, fun h => by cases h⟩
  rw [if_neg a1, if_neg a1]
  by_cases a2 : f.v = true
  · rw [if_pos a2, if_pos a2]; exact ⟨[], List.nil_prefix, rfl, rfl, fun h => by cases h⟩
  rw [if_neg a2, if_neg a2]
  by_cases a3 : f.i = []
  · rw [if_pos a3, if_pos a3]; exact ⟨[], List.nil_prefix, rfl, rfl, fun h => by cases h⟩
  rw [if_neg a3, if_neg a3]
  dsimp only
  cases getFileList W walk f.i with
  | none => exact ⟨[], List.nil_prefix, rfl, rfl, fun h => by cases h⟩
  | some files =>
    exact loop hp hw { i := f.i, o := f.o } f rfl rfl he he' (if pkg ≠ [] then pkg else c!"schema") (if pkg' ≠ [] then pkg' else c!"schema") files {} {}

end

/-! ## Examples -/

open C114 (two two_plain two_writable files)

/-- The first of the two documents of C114 is written, the second is rejected. -/
example : written (@main' asciiUni two files { i := c!"in", o := c!"out", l := c!"Go" }).2 = [c!"out/a.xsd.go"] ∧
    documents two files c!"in" = [c!"in/a.xsd", c!"in/b.xsd"] := by decide +kernel

/-- The theorem for this directory. -/
theorem two_files {lang ext : Str} (he : (lang, ext) ∈ C24.extensions) :
    written (@main' asciiUni two files { i := c!"in", o := c!"out", l := lang }).2 = [c!"out/a.xsd" ++ ext] := by
  obtain ⟨docs, h1, h2, h3, -⟩ := @same_files asciiUni asciiUniLaws _ two_plain two_writable files { i := c!"in", o := c!"out" } c!"Go" lang c!".go" ext
    (by decide) he [] []
  have e : written (@main' asciiUni two files (other { i := c!"in", o := c!"out" } c!"Go" [])).2 = [c!"out/a.xsd.go"] := by decide +kernel
  rw [e] at h2
  have h3 : written (@main' asciiUni two files { i := c!"in", o := c!"out", l := lang }).2 = docs.map (place { i := c!"in", o := c!"out" } ext) := h3
  have hd : documents two files c!"in" = [c!"in/a.xsd", c!"in/b.xsd"] := by decide +kernel
  have h1 : docs <+: documents two files c!"in" := h1
  rw [hd] at h1
  rw [h3]
  have n : docs.length = 1 := by rw [← List.length_map (f := place { i := c!"in", o := c!"out" } c!".go"), ← h2]; rfl
  obtain ⟨d, rfl⟩ := List.length_eq_one_iff.mp n
  have hd' : d = c!"in/a.xsd" := by
    obtain ⟨r, h1⟩ := h1
    exact (List.cons.inj h1).1
  rw [hd']
  clear h1 h2 h3 e hd hd' n
  simp only [C24.extensions, List.mem_cons, List.not_mem_nil, or_false, Prod.mk.injEq] at he
  rcases he with ⟨rfl, rfl⟩ | ⟨rfl, rfl⟩ | ⟨rfl, rfl⟩ | ⟨rfl, rfl⟩ | ⟨rfl, rfl⟩ <;> decide +kernel

/-- With an import (C112 `importing`) a file is written for Go and none for Java. -/
theorem imports_matter :
    written (@main' asciiUni (Ex.world [("a.xsd", C112.importing)]) (fun _ => []) { i := c!"a.xsd", l := c!"Go" }).2 ≠ [] ∧
    written (@main' asciiUni (Ex.world [("a.xsd", C112.importing)]) (fun _ => []) { i := c!"a.xsd", l := c!"Java" }).2 = [] := by decide +kernel

end Xgen.C115
