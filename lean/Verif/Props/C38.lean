import Verif.Model.Cli
import Verif.Props.C22

/-! # C38, C39: the command line -/

namespace Xgen
variable [Uni]

namespace C38

/-- The documented decision for the given flags. -/
def Documented (f : Flags) : Decision → Prop
  | .exit 0 => f.h = true ∨ f.v = true
  | .exit 1 => f.h = false ∧ f.v = false ∧
      (f.i = [] ∨ f.l ∉ [c!"Go", c!"C", c!"Java", c!"Rust", c!"TypeScript"])
  | .exit _ => False
  | .go c => f.h = false ∧ f.v = false ∧ f.i ≠ [] ∧ f.l ∈ [c!"Go", c!"C", c!"Java", c!"Rust", c!"TypeScript"] ∧
      c.i = f.i ∧ c.o = f.o ∧ c.lang = f.l ∧
      (f.p ≠ [] → c.pkg = f.p) ∧ (f.p = [] → c.pkg = c!"schema")

omit [Uni] in
/-- C38: for every combination of flag values the command takes the documented decision. -/
theorem decisions (f : Flags) : Documented f (parseFlags f) := by
  unfold parseFlags
  cases hh : f.h
  · cases hv : f.v
    · by_cases hi : f.i = []
      · simp [hi, Documented, hh, hv]
      · by_cases hl : f.l = []
        · simp [hi, hl, Documented, hh, hv]
        · by_cases hs : f.l ∈ supportLang
          · have hs' : supportLang.contains f.l = true := by simpa using hs
            simp only [Bool.false_eq_true, if_false, hi, hl, hs', Bool.not_true, Documented]
            refine ⟨hh, hv, hi, hs, trivial, trivial, trivial, fun h => by simp [h], fun h => by simp [h]⟩
          · have hs' : supportLang.contains f.l = false := by simpa using hs
            simp only [Bool.false_eq_true, if_false, hi, hl, hs', Bool.not_false, if_true, Documented]
            exact ⟨hh, hv, Or.inr hs⟩
    · simp [Documented, hv]
  · simp [Documented, hh]

/-- The decisions exclude each other, so the specification determines the result of `parseFlags` but for the
destination of equal configurations. -/
theorem exclusive (f : Flags) : ¬ (Documented f (.exit 0) ∧ Documented f (.exit 1)) := by
  rintro ⟨h | h, h1, h2, -⟩
  · rw [h] at h1; cases h1
  · rw [h] at h2; cases h2

example : parseFlags { i := c!"x.xsd", l := c!"Go" } =
    .go { i := c!"x.xsd", o := c!"xgen_out", pkg := c!"schema", lang := c!"Go" } := by decide
example : parseFlags { i := c!"x.xsd", l := c!"go" } = .exit 1 := by decide
example : parseFlags { i := c!"x.xsd", l := c!"Go", v := true } = .exit 0 := by decide

end C38

namespace C39

/-- A parser's registries before it starts, when `sh` is what is left by the previous file. -/
def fresh (sh : Shared) : Shared := { outputs := sh.outputs, tick := sh.tick, log := sh.log }

/-- Specification: the files are parsed in order, each with fresh registries, all with success. -/
inductive AllOk (W : World) (c : Config) : List Str → Shared → Shared → Prop
  | nil (sh) : AllOk W c [] sh sh
  | cons {f fs sh tree sh1 sh2} :
      Parse W { filePath := f, inputDir := c.i, outputDir := c.o, lang := c.lang, package := c.pkg } (fresh sh) =
        .ok tree sh1 →
      AllOk W c fs sh1 sh2 → AllOk W c (f :: fs) sh sh2

/-- Specification: how a failing file ends the process: with code 1, unless it panics. -/
def FailsWith (r : Out Shared Tree) (e : Exit) (sh : Shared) : Prop :=
  (∃ er, r = .err er sh ∧ e = .code 1) ∨ (r = .halt (.exit 1) sh ∧ e = .code 1) ∨ (r = .halt .panic sh ∧ e = .panic)

theorem main_loop (W : World) (c : Config) (files : List Str) (sh : Shared) :
    ((mainLoop W c files sh).1 = .done ∧ AllOk W c files sh (mainLoop W c files sh).2) ∨
    ((mainLoop W c files sh).1 ≠ .done ∧ ∃ done f later sh1, files = done ++ f :: later ∧ AllOk W c done sh sh1 ∧
      FailsWith (Parse W { filePath := f, inputDir := c.i, outputDir := c.o, lang := c.lang, package := c.pkg }
        (fresh sh1)) (mainLoop W c files sh).1 (mainLoop W c files sh).2) := by
  induction files generalizing sh with
  | nil => exact Or.inl ⟨rfl, .nil sh⟩
  | cons f fs ih =>
    unfold mainLoop
    have hfr : ({ outputs := sh.outputs, tick := sh.tick, log := sh.log } : Shared) = fresh sh := rfl
    rw [hfr]
    have hcfg : mainCfg c f =
        { filePath := f, inputDir := c.i, outputDir := c.o, lang := c.lang, package := c.pkg } := rfl
    rw [hcfg]
    generalize hp : Parse W { filePath := f, inputDir := c.i, outputDir := c.o, lang := c.lang, package := c.pkg }
      (fresh sh) = r
    cases r with
    | ok t s1 =>
      dsimp only
      rcases ih s1 with ⟨h1, h2⟩ | ⟨h1, done, g, later, sh1, h2, h3, h4⟩
      · exact Or.inl ⟨h1, .cons hp h2⟩
      · exact Or.inr ⟨h1, f :: done, g, later, sh1, by simp [h2], .cons hp h3, h4⟩
    | err er s1 =>
      exact Or.inr ⟨by simp, [], f, fs, sh, rfl, .nil sh, Or.inl ⟨er, hp, rfl⟩⟩
    | halt h s1 =>
      rcases parse_halt W _ _ _ hp with rfl | rfl | rfl
      · exact Or.inr ⟨by simp, [], f, fs, sh, rfl, .nil sh, Or.inr (Or.inr ⟨hp, rfl⟩)⟩
      · exact Or.inr ⟨by simp, [], f, fs, sh, rfl, .nil sh, Or.inr (Or.inl ⟨hp, rfl⟩)⟩
      · exact absurd hp (C22.terminates W _ (Nat.le_refl _) _ _ _)

/-- Specification: the files a command works on: the file itself, or all paths below a directory, then the directory. -/
def inputs (W : World) (walk : Str → List Str) (i : Str) : Option (List Str) :=
  match W.fs.get? i with
  | none => none
  | some .dir => some (walk i ++ [i])
  | some _ => some [i]

/-- C39: after a `go` decision, a missing input ends with code 1.  Otherwise the inputs are parsed in order, each with
fresh registries.  If all succeed the process ends with "done".  If not, there is a first one that fails, the process
ends there with code 1 (or the panic of that parse), and the files after it have no effect. -/
theorem command (W : World) (walk : Str → List Str) (f : Flags) (c : Config) (hc : parseFlags f = .go c) :
    match inputs W walk c.i with
    | none => main' W walk f = (.code 1, {})
    | some files =>
      ((main' W walk f).1 = .done ∧ AllOk W c files {} (main' W walk f).2) ∨
      ((main' W walk f).1 ≠ .done ∧ ∃ done g later sh1, files = done ++ g :: later ∧ AllOk W c done {} sh1 ∧
        FailsWith (Parse W { filePath := g, inputDir := c.i, outputDir := c.o, lang := c.lang, package := c.pkg }
          (fresh sh1)) (main' W walk f).1 (main' W walk f).2) := by
  have hi : getFileList W walk c.i = inputs W walk c.i := rfl
  have hm : main' W walk f = match inputs W walk c.i with
      | none => (.code 1, {})
      | some files => mainLoop W c files {} := by
    unfold main'
    rw [hc]
    dsimp only
    rw [hi]
    cases inputs W walk c.i <;> rfl
  cases h : inputs W walk c.i with
  | none => rw [hm, h]
  | some files =>
    rw [h] at hm
    dsimp only at hm ⊢
    rw [hm]
    exact main_loop W c files {}

/-- The registries each parse of `AllOk` starts with are empty. -/
example (sh : Shared) : (fresh sh).includeMap = [] ∧ (fresh sh).localNS = [] ∧ (fresh sh).nsLoc = [] ∧
    (fresh sh).parseFileList = [] ∧ (fresh sh).parseFileMap = [] := ⟨rfl, rfl, rfl, rfl, rfl⟩

/-! Three files; the second has a bad maxOccurs, so the third is not written. -/

open Ex in
/-- The files of the example. -/
private def W0 : World := world [
  ("in/a.xsd", leaf "element" [("name", "a"), ("type", "int")]),
  ("in/b.xsd", leaf "element" [("name", "b"), ("type", "int"), ("maxOccurs", "many")]),
  ("in/c.xsd", leaf "element" [("name", "c"), ("type", "int")])] [".", "in"]

/-- The walk of the example. -/
private def walk0 (_ : Str) : List Str := [c!"in", c!"in/a.xsd", c!"in/b.xsd", c!"in/c.xsd"]

example : (@main' asciiUni W0 walk0 { i := c!"in", l := c!"C" }).1 = .code 1 ∧
    (@main' asciiUni W0 walk0 { i := c!"in", l := c!"C" }).2.outputs.map (·.1) = [c!"xgen_out/a.xsd.h"] ∧
    (@main' asciiUni W0 walk0 { i := c!"in/a.xsd", l := c!"C" }).1 = .done := by decide +kernel

end C39
end Xgen
