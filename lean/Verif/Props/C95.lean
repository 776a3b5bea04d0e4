import Verif.Model.Print
import Verif.Lemmas.Blame
import Verif.Props.C38
import Verif.Props.C60
import Verif.Spec.Example

/-! # C95: what the command prints, and what it blames -/

namespace Xgen.C95
open Print

/-! ## Specification -/

/-- What can be wrong with a file, so that `Parse` returns an error for it.  Nothing of it concerns another file, except that
a schema it refers to does not exist. -/
inductive Reason (W : World) (cfg : Cfg) : Err → Prop
  /-- it does not exist -/
  | missing : W.fs.get? cfg.filePath = none → Reason W cfg (.stat cfg.filePath)
  /-- it cannot be opened -/
  | closed : W.fs.get? cfg.filePath = some .noOpen → Reason W cfg (.open cfg.filePath)
  /-- one of its tags has a maxOccurs that is no number -/
  | count {toks : List Token} {n : Str} {as : List Attr} {a : Attr} : W.fs.get? cfg.filePath = some (.file toks) →
      .start n as ∈ toks → a ∈ as → a.local = c!"maxOccurs" → ¬ Occurs.Legal a.value → Reason W cfg (.atoi a.value)
  /-- there is nothing where a schema it refers to should be, beside it -/
  | nowhere {toks : List Token} {loc : Str} : W.fs.get? cfg.filePath = some (.file toks) →
      W.fs.get? (pathJoin (pathDir cfg.filePath) loc) = none → Reason W cfg (.stat (pathJoin (pathDir cfg.filePath) loc))
  /-- the file to be generated from it cannot be made -/
  | create {toks : List Token} {ext : Str} : W.fs.get? cfg.filePath = some (.file toks) →
      ext ∈ [c!".go", c!".h", c!".java", c!".rs", c!".ts"] →
      W.createOk (fileWithExtension (pathJoin cfg.outputDir (trimPrefix cfg.filePath cfg.inputDir)) ext) = false →
      Reason W cfg (.create (fileWithExtension (pathJoin cfg.outputDir (trimPrefix cfg.filePath cfg.inputDir)) ext))
  /-- the source generated from it cannot be formatted -/
  | format {toks : List Token} {src : Str} : W.fs.get? cfg.filePath = some (.file toks) → W.gofmt src = none →
      Reason W cfg .gofmt

/-- The messages, and how the process ends after them. -/
inductive Message [Uni] (W : World) (T : Texts) (lstat : Str → Option Forest) (args : List Str) : Exit → Str → Prop
  /-- the package `flag` ended the process -/
  | usage {code : Nat} : flagParse args {} = .exit code → code = 0 ∨ code = 2 → Message W T lstat args (.code code) []
  | help {f : Flags} : flagParse args {} = .flags f → f.h = true → Message W T lstat args (.code 0) helpText
  | version {f : Flags} : flagParse args {} = .flags f → f.h = false → f.v = true →
      Message W T lstat args (.code 0) (c!"xgen version: 0.1.0" ++ crlf)
  | noInput {f : Flags} : flagParse args {} = .flags f → f.h = false → f.v = false → f.i = [] →
      Message W T lstat args (.code 1) (line c!"must specify input file path or directory for the XML schema definition")
  | noLang {f : Flags} : flagParse args {} = .flags f → f.h = false → f.v = false → f.i ≠ [] → f.l = [] →
      Message W T lstat args (.code 1) (line c!"must specify the language of generated code (Go/C/Java/Rust/TypeScript)")
  | badLang {f : Flags} : flagParse args {} = .flags f → f.h = false → f.v = false → f.i ≠ [] → f.l ≠ [] →
      f.l ∉ [c!"Go", c!"C", c!"Java", c!"Rust", c!"TypeScript"] →
      Message W T lstat args (.code 1) (line (c!"unsupport language " ++ f.l))
  /-- the input does not exist -/
  | stat {f : Flags} {c : Config} : flagParse args {} = .flags f → parseFlags f = .go c → W.fs.get? c.i = none →
      Message W T lstat args (.code 1) (line (T.stat c.i))
  /-- all files have been processed -/
  | done {f : Flags} {c : Config} {files : List Str} {sh : Shared} : flagParse args {} = .flags f → parseFlags f = .go c →
      C39.inputs W (walkFrom lstat) c.i = some files → C39.AllOk W c files {} sh → Message W T lstat args .done (line c!"done")
  /-- the first file that fails is named, with what is wrong with it -/
  | failed {f : Flags} {c : Config} {ok later : List Str} {file : Str} {sh sh' : Shared} {e : Err} :
      flagParse args {} = .flags f → parseFlags f = .go c → C39.inputs W (walkFrom lstat) c.i = some (ok ++ file :: later) →
      C39.AllOk W c ok {} sh → Parse W (mainCfg c file) (C39.fresh sh) = .err e sh' → Reason W (mainCfg c file) e →
      Message W T lstat args (.code 1) (c!"process error on " ++ file ++ c!": " ++ T.parse file e ++ crlf)
  /-- a directory for a generated file cannot be made -/
  | mkdir {f : Flags} {c : Config} {ok later : List Str} {file : Str} {sh sh' : Shared} :
      flagParse args {} = .flags f → parseFlags f = .go c → C39.inputs W (walkFrom lstat) c.i = some (ok ++ file :: later) →
      C39.AllOk W c ok {} sh → Parse W (mainCfg c file) (C39.fresh sh) = .halt (.exit 1) sh' →
      Message W T lstat args (.code 1) (line T.mkdir)
  /-- a panic, which the standard output says nothing about -/
  | panic {f : Flags} {c : Config} {ok later : List Str} {file : Str} {sh sh' : Shared} :
      flagParse args {} = .flags f → parseFlags f = .go c → C39.inputs W (walkFrom lstat) c.i = some (ok ++ file :: later) →
      C39.AllOk W c ok {} sh → Parse W (mainCfg c file) (C39.fresh sh) = .halt .panic sh' → Message W T lstat args .panic []

/-! ## Reasons -/

section
variable [Uni]

theorem writeFile_err {W : World} {p t : Str} {sh sh' : Shared} {e : Err} (h : writeFile W p t sh = .err e sh') :
    W.createOk p = false ∧ e = .create p := by
  unfold writeFile at h
  split at h
  · cases h
  · rename_i hc
    cases h
    exact ⟨by simpa using hc, rfl⟩

/-- C95: an error that `Parse` returns has its reason in the file itself, or in a schema that does not exist. -/
theorem reasons (W : World) (cfg : Cfg) (sh sh' : Shared) (e : Err) (h : Parse W cfg sh = .err e sh') : Reason W cfg e := by
  unfold Parse at h
  rw [parse] at h
  unfold parseWith at h
  cases hf : W.fs.get? cfg.filePath with
  | none => rw [hf] at h; cases h; exact .missing hf
  | some en =>
    rw [hf] at h
    cases en with
    | dir => cases h
    | noOpen => cases h; exact .closed hf
    | file toks =>
      dsimp only at h
      unfold parseOpen at h
      have hrun := Blame.run_only (E := Reason W cfg) W
        (Blame.gvtOf_only W (parse W (W.fs.length + 1)) cfg (fun e he => by
          obtain ⟨loc, rfl, h2, -⟩ := he
          exact Reason.nowhere hf h2))
        (toks := toks) (fun n as hm a ha hl hv => .count hf hm ha hl hv)
      cases hc : run W (gvtOf W (parse W (W.fs.length + 1)) cfg) toks { sh := beginParse cfg sh, p := {} } with
      | halt k s => rw [hc] at h; cases h
      | err e1 s => rw [hc] at h; cases h; exact hrun _ _ _ hc
      | ok u s =>
        rw [hc] at h
        dsimp only at h
        unfold finish at h
        split at h
        · cases h
        dsimp only at h
        split at h
        · cases hg : generate W cfg.lang cfg.package (outputPath cfg) s.p.freeze (register cfg.filePath s.p.freeze s.sh) with
          | ok u s1 => rw [hg] at h; cases h
          | halt k s1 => rw [hg] at h; cases h
          | err e1 s1 =>
            rw [hg] at h
            cases h
            have mk : ∀ {ext t s0 s2 e2}, ext ∈ [c!".go", c!".h", c!".java", c!".rs", c!".ts"] →
                writeFile W (fileWithExtension (outputPath cfg) ext) t s0 = .err e2 s2 → Reason W cfg e2 := by
              intro ext t s0 s2 e2 hx hw
              obtain ⟨h1, rfl⟩ := writeFile_err hw
              exact .create hf hx h1
            unfold generate at hg
            split at hg
            · unfold writeGo at hg
              cases hs : W.gofmt (goSource cfg.package s.p.freeze) with
              | some src => rw [hs] at hg; exact mk (by simp) hg
              | none =>
                rw [hs] at hg
                dsimp only at hg
                cases hw : writeFile W (fileWithExtension (outputPath cfg) c!".go") (goRawSource cfg.package s.p.freeze)
                  (register cfg.filePath s.p.freeze s.sh) with
                | ok u s2 => rw [hw] at hg; cases hg; exact .format hf hs
                | err e2 s2 => rw [hw] at hg; cases hg; exact mk (by simp) hw
                | halt k s2 => rw [hw] at hg; cases hg
            split at hg
            · exact mk (by simp) hg
            split at hg
            · exact mk (by simp) hg
            split at hg
            · exact mk (by simp) hg
            split at hg
            · exact mk (by simp) hg
            · cases hg
        · cases h

/-! ## Messages -/

theorem loop_message (W : World) (T : Texts) (c : Config) (files : List Str) (sh : Shared) :
    ((mainLoop W c files sh).1 = .done ∧ loopText W T c files sh = line c!"done" ∧ ∃ sh', C39.AllOk W c files sh sh') ∨
    ∃ ok file later sh1 sh2, files = ok ++ file :: later ∧ C39.AllOk W c ok sh sh1 ∧
      ((∃ e, Parse W (mainCfg c file) (C39.fresh sh1) = .err e sh2 ∧ (mainLoop W c files sh).1 = .code 1 ∧
          loopText W T c files sh = errorText T file e) ∨
       (Parse W (mainCfg c file) (C39.fresh sh1) = .halt (.exit 1) sh2 ∧ (mainLoop W c files sh).1 = .code 1 ∧
          loopText W T c files sh = line T.mkdir) ∨
       (Parse W (mainCfg c file) (C39.fresh sh1) = .halt .panic sh2 ∧ (mainLoop W c files sh).1 = .panic ∧
          loopText W T c files sh = [])) := by
  induction files generalizing sh with
  | nil => exact .inl ⟨rfl, rfl, sh, .nil sh⟩
  | cons f fs ih =>
    unfold mainLoop loopText
    have hfr : ({ outputs := sh.outputs, tick := sh.tick, log := sh.log } : Shared) = C39.fresh sh := rfl
    rw [hfr]
    cases hp : Parse W (mainCfg c f) (C39.fresh sh) with
    | ok t s1 =>
      dsimp only
      rcases ih s1 with ⟨h1, h2, sh', h3⟩ | ⟨ok, file, later, sh1, sh2, h1, h2, h3⟩
      · exact .inl ⟨h1, h2, sh', .cons hp h3⟩
      · exact .inr ⟨f :: ok, file, later, sh1, sh2, by rw [h1]; rfl, .cons hp h2, h3⟩
    | err e s1 => exact .inr ⟨[], f, fs, sh, s1, rfl, .nil sh, .inl ⟨e, hp, rfl, rfl⟩⟩
    | halt k s1 =>
      rcases parse_halt W _ _ _ hp with rfl | rfl | rfl
      · exact .inr ⟨[], f, fs, sh, s1, rfl, .nil sh, .inr (.inr ⟨hp, rfl, rfl⟩)⟩
      · exact .inr ⟨[], f, fs, sh, s1, rfl, .nil sh, .inr (.inl ⟨hp, rfl, rfl⟩)⟩
      · exact absurd hp (C22.terminates W _ (Nat.le_refl _) _ _ _)

theorem wrong_codes {rest : List Str} {code : Nat} (h : C60.Wrong rest code) : code = 0 ∨ code = 2 := by
  cases h <;> simp

/-- C95: every run ends with one of the messages, and with the exit status that belongs to it. -/
theorem message (W : World) (T : Texts) (lstat : Str → Option Forest) (args : List Str) :
    Message W T lstat args (xgen W lstat args).1 (xgenText W T lstat args) := by
  unfold xgen xgenText
  cases hp : flagParse args {} with
  | exit code =>
    obtain ⟨items, rest, -, -, h | ⟨code', h1, h2⟩⟩ := C60.line args
    · rw [h.2] at hp; cases hp
    · rw [h2] at hp; cases hp
      exact .usage h2 (wrong_codes h1)
  | flags f =>
    dsimp only
    unfold main' mainText
    cases hh : f.h with
    | true =>
      have hd : parseFlags f = .exit 0 := by unfold parseFlags; rw [hh]; rfl
      have ht : flagsText f = helpText := by unfold flagsText; rw [hh]; rfl
      rw [hd]; dsimp only; rw [ht]
      exact .help hp hh
    | false =>
    cases hv : f.v with
    | true =>
      have hd : parseFlags f = .exit 0 := by unfold parseFlags; rw [hh, hv]; rfl
      have ht : flagsText f = c!"xgen version: 0.1.0" ++ crlf := by unfold flagsText; rw [hh, hv]; rfl
      rw [hd]; dsimp only; rw [ht]
      exact .version hp hh hv
    | false =>
    by_cases hi : f.i = []
    · have hd : parseFlags f = .exit 1 := by unfold parseFlags; rw [hh, hv, hi]; rfl
      have ht : flagsText f = line c!"must specify input file path or directory for the XML schema definition" := by
        unfold flagsText; rw [hh, hv, hi]; rfl
      rw [hd]; dsimp only; rw [ht]
      exact .noInput hp hh hv hi
    by_cases hl : f.l = []
    · have hd : parseFlags f = .exit 1 := by unfold parseFlags; simp [hh, hv, hi, hl]
      have ht : flagsText f = line c!"must specify the language of generated code (Go/C/Java/Rust/TypeScript)" := by
        unfold flagsText; simp [hh, hv, hi, hl]
      rw [hd]; dsimp only; rw [ht]
      exact .noLang hp hh hv hi hl
    by_cases hs : f.l ∈ supportLang
    · have hs' : supportLang.contains f.l = true := by simpa using hs
      have hd : ∃ c, parseFlags f = .go c := ⟨_, by unfold parseFlags; simp only [hh, hv, hi, hl, hs']; rfl⟩
      obtain ⟨c, hd⟩ := hd
      rw [hd]
      dsimp only
      have hin : getFileList W (walkFrom lstat) c.i = C39.inputs W (walkFrom lstat) c.i := rfl
      rw [hin]
      cases hg : C39.inputs W (walkFrom lstat) c.i with
      | none =>
        refine .stat hp hd ?_
        unfold C39.inputs at hg
        cases he : W.fs.get? c.i with
        | none => rfl
        | some en => rw [he] at hg; cases en <;> cases hg
      | some files =>
        dsimp only
        rcases loop_message W T c files {} with ⟨h1, h2, sh', h3⟩ | ⟨ok, file, later, sh1, sh2, h1, h2, h3⟩
        · rw [h1, h2]; exact .done hp hd hg h3
        · rw [h1] at hg
          rcases h3 with ⟨e, h3, h4, h5⟩ | ⟨h3, h4, h5⟩ | ⟨h3, h4, h5⟩
          · rw [h4, h5]; exact .failed hp hd hg h2 h3 (reasons _ _ _ _ _ h3)
          · rw [h4, h5]; exact .mkdir hp hd hg h2 h3
          · rw [h4, h5]; exact .panic hp hd hg h2 h3
    · have hd : parseFlags f = .exit 1 := by unfold parseFlags; simp [hh, hv, hi, hl, hs]
      have ht : flagsText f = line (c!"unsupport language " ++ f.l) := by unfold flagsText; simp [hh, hv, hi, hl, hs]
      rw [hd]; dsimp only; rw [ht]
      exact .badLang hp hh hv hi hl hs

/-- C95: "done" is printed if and only if the process ends well after having processed all files, unless the texts of errors
are chosen to say so. -/
theorem done_iff (W : World) (T : Texts) (lstat : Str → Option Forest) (args : List Str) (h1 : ∀ p, T.stat p ≠ c!"done")
    (h2 : T.mkdir ≠ c!"done") : xgenText W T lstat args = c!"done\n" ↔ (xgen W lstat args).1 = .done := by
  have key : ∀ {e : Exit} {s : Str}, Message W T lstat args e s → (s = c!"done\n" ↔ e = .done) := by
    intro e s hm
    have hl : ∀ {a b : Str}, line a = b ++ ['\n'] ↔ a = b := fun {a b} => List.append_left_inj _
    cases hm with
    | usage => exact ⟨by simp, by simp⟩
    | help => exact ⟨fun h => absurd h (by decide), by simp⟩
    | version => exact ⟨fun h => absurd h (by decide), by simp⟩
    | noInput => exact ⟨fun h => absurd h (by decide), by simp⟩
    | noLang => exact ⟨fun h => absurd h (by decide), by simp⟩
    | badLang => exact ⟨fun h => absurd h (by simp [line]), by simp⟩
    | stat => exact ⟨fun h => absurd (hl.1 h) (h1 _), by simp⟩
    | done => exact ⟨fun _ => rfl, fun _ => rfl⟩
    | failed => exact ⟨fun h => absurd h (by simp), by simp⟩
    | mkdir => exact ⟨fun h => absurd (hl.1 h) h2, by simp⟩
    | panic => exact ⟨by simp, by simp⟩
  exact key (message W T lstat args)

/-- C95: nothing is printed only after a panic or when the package `flag` has ended the process. -/
theorem silent (W : World) (T : Texts) (lstat : Str → Option Forest) (args : List Str) (h : xgenText W T lstat args = []) :
    (xgen W lstat args).1 = .panic ∨ ∃ code, flagParse args {} = .exit code := by
  have key : ∀ {e : Exit} {s : Str}, Message W T lstat args e s → s = [] → e = .panic ∨ ∃ code, flagParse args {} = .exit code := by
    intro e s hm hs
    cases hm with
    | usage h => exact .inr ⟨_, h⟩
    | panic => exact .inl rfl
    | help => exact absurd hs (by decide)
    | version => exact absurd hs (by decide)
    | noInput => exact absurd hs (by decide)
    | noLang => exact absurd hs (by decide)
    | done => exact absurd hs (by decide)
    | _ => exact absurd hs (by simp [line])
  exact key (message W T lstat args) h

end

/-! ## Examples -/

section
open Ex
attribute [local instance] asciiUni

/-- A schema with an element that may occur "many" times. -/
def bad : World := world [("s/a.xsd", [on "schema"] ++ leaf "element" [("name", "a"), ("type", "xs:string"), ("maxOccurs", "many")] ++ [off "schema"])] [".", "s"]

/-- Texts as Go's packages have them. -/
def texts : Texts where
  parse _ e := match e with
    | .atoi v => c!"strconv.Atoi: parsing \"" ++ v ++ c!"\": invalid syntax"
    | _ => c!"?"
  stat p := c!"stat " ++ p ++ c!": no such file or directory"
  mkdir := c!"mkdir xgen_out: permission denied"

/-- The directory. -/
def listing (p : Str) : Option Forest := if p = c!"s" then some (.leaf c!"a.xsd" .nil) else none

example : xgenText bad texts listing [c!"-i", c!"s", c!"-l", c!"Go"] =
    c!"process error on s/a.xsd: strconv.Atoi: parsing \"many\": invalid syntax" ++ crlf := by decide +kernel

example : xgenText bad texts listing [c!"-i", c!"t", c!"-l", c!"Go"] = c!"stat t: no such file or directory\n" := by decide +kernel

example : xgenText (world [("s/a.xsd", [on "schema", off "schema"])] [".", "s"]) texts listing [c!"-i", c!"s", c!"-l", c!"Go"] =
    c!"done\n" := by decide +kernel

/-- C95: a message does not always tell which file is meant: file names and error texts run into each other. -/
theorem ambiguous : ∃ (T : Texts) (f g : Str) (e e' : Err), f ≠ g ∧ errorText T f e = errorText T g e' :=
  ⟨{ parse := fun f e => match e with
      | .atoi v => c!"strconv.Atoi: parsing \"" ++ v ++ c!"\": invalid syntax"
      | .stat p => c!"stat " ++ p ++ c!": no such file or directory"
      | _ => f
     stat := fun p => p, mkdir := [] },
   c!"a: stat b", c!"a", .stat c!"c", .stat c!"b: stat c", by decide, by decide⟩

end

end Xgen.C95
