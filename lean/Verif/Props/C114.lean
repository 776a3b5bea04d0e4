import Verif.Props.C112
import Verif.Model.Print

/-! # C114: the command ends and reports alike for every language

For a file or a directory of documents that neither import nor include, the command prints the same and exits with the same code whatever the
language: it stops at the same file, with the same complaint, or gets through. -/

namespace Xgen.C114
open C112 (Writable SameEnd Start)

section
variable [Uni]

/-! ## Specification -/

/-- The inputs: documents without imports and includes, in directories. -/
def Plain (W : World) : Prop :=
  W.isURL [] = false ∧ ∀ f toks, W.fs.get? f = some (.file toks) → C112.Closed toks ∧ W.fs.get? (pathDir f) = some .dir

/-- The same flags with another language and package. -/
def other (f : Flags) (lang pkg : Str) : Flags := { f with l := lang, p := pkg }

/-! ## Proof -/

/-- The options for one file. -/
theorem one {W : World} (hp : Plain W) (hw : Writable W) (c : Config) (lang lang' pkg pkg' file : Str) (a b : Shared) :
    SameEnd (Parse W (mainCfg { c with lang := lang, pkg := pkg } file) { outputs := a.outputs, tick := a.tick, log := a.log })
      (Parse W (mainCfg { c with lang := lang', pkg := pkg' } file) { outputs := b.outputs, tick := b.tick, log := b.log }) := by
  have hs : ∀ x : Shared, Start W (mainCfg c file) { outputs := x.outputs, tick := x.tick, log := x.log } :=
    fun x => ⟨rfl, rfl, rfl, hp.1, fun toks h => (hp.2 file toks h).2⟩
  exact C112.same_end (hs a) (hs b) hw (fun toks h => (hp.2 file toks h).1) lang lang' pkg pkg'

/-- The loop over the files. -/
theorem loop {W : World} (hp : Plain W) (hw : Writable W) (T : Print.Texts) (c : Config) (lang lang' pkg pkg' : Str) : ∀ (files : List Str) (a b : Shared),
    (mainLoop W { c with lang := lang, pkg := pkg } files a).1 = (mainLoop W { c with lang := lang', pkg := pkg' } files b).1 ∧
    Print.loopText W T { c with lang := lang, pkg := pkg } files a = Print.loopText W T { c with lang := lang', pkg := pkg' } files b
  | [], _, _ => ⟨rfl, rfl⟩
  | f :: fs, a, b => by
    have key := one hp hw c lang lang' pkg pkg' f a b
    unfold mainLoop Print.loopText
    cases e : Parse W (mainCfg { c with lang := lang, pkg := pkg } f) { outputs := a.outputs, tick := a.tick, log := a.log } with
    | ok t s =>
      rw [e] at key
      cases e' : Parse W (mainCfg { c with lang := lang', pkg := pkg' } f) { outputs := b.outputs, tick := b.tick, log := b.log } with
      | ok t' s' => exact loop hp hw T c lang lang' pkg pkg' fs s s'
      | err x s' => rw [e'] at key; exact key.elim
      | halt x s' => rw [e'] at key; exact key.elim
    | err x s =>
      rw [e] at key
      cases e' : Parse W (mainCfg { c with lang := lang', pkg := pkg' } f) { outputs := b.outputs, tick := b.tick, log := b.log } with
      | ok t' s' => rw [e'] at key; exact key.elim
      | err x' s' =>
        rw [e'] at key
        have : x = x' := key
        rw [this]
        exact ⟨rfl, rfl⟩
      | halt x s' => rw [e'] at key; exact key.elim
    | halt x s =>
      rw [e] at key
      cases e' : Parse W (mainCfg { c with lang := lang', pkg := pkg' } f) { outputs := b.outputs, tick := b.tick, log := b.log } with
      | ok t' s' => rw [e'] at key; exact key.elim
      | err x s' => rw [e'] at key; exact key.elim
      | halt x' s' =>
        rw [e'] at key
        have : x = x' := key
        rw [this]
        cases x' <;> exact ⟨rfl, rfl⟩

/-- The command ends and prints the same for any two languages it knows, and any two packages. -/
theorem same_command {W : World} (hp : Plain W) (hw : Writable W) (T : Print.Texts) (walk : Str → List Str) (f : Flags) {lang lang' : Str}
    (hl : lang ∈ supportLang) (hl' : lang' ∈ supportLang) (pkg pkg' : Str) :
    (main' W walk (other f lang pkg)).1 = (main' W walk (other f lang' pkg')).1 ∧
    Print.mainText W T walk (other f lang pkg) = Print.mainText W T walk (other f lang' pkg') := by
  have hne : ∀ l ∈ supportLang, l ≠ [] ∧ supportLang.contains l = true := by decide
  have h1 := hne lang hl
  have h2 := hne lang' hl'
  have run : ∀ l p, l ≠ [] ∧ supportLang.contains l = true → parseFlags (other f l p) =
      if f.h then .exit 0 else if f.v then .exit 0 else if f.i = [] then .exit 1
      else .go { i := f.i, o := f.o, pkg := if p ≠ [] then p else c!"schema", lang := l } := by
    intro l p h
    unfold parseFlags other
    simp only [h.1, h.2, Bool.not_true, Bool.false_eq_true, if_false]
  have text : ∀ l p, l ≠ [] ∧ supportLang.contains l = true → Print.flagsText (other f l p) =
      if f.h then Print.helpText else if f.v then Print.versionText
      else if f.i = [] then Print.line c!"must specify input file path or directory for the XML schema definition" else [] := by
    intro l p h
    unfold Print.flagsText other
    simp only [h.1, h.2, Bool.not_true, Bool.false_eq_true, if_false]
  unfold main' Print.mainText
  rw [run lang pkg h1, run lang' pkg' h2, text lang pkg h1, text lang' pkg' h2]
  by_cases a1 : f.h = true
  · rw [if_pos a1, if_pos a1]; exact ⟨rfl, rfl⟩
  rw [if_neg a1, if_neg a1]
  by_cases a2 : f.v = true
  · rw [if_pos a2, if_pos a2]; exact ⟨rfl, rfl⟩
  rw [if_neg a2, if_neg a2]
  by_cases a3 : f.i = []
  · rw [if_pos a3, if_pos a3]; exact ⟨rfl, rfl⟩
  rw [if_neg a3, if_neg a3]
  dsimp only
  cases getFileList W walk f.i with
  | none => exact ⟨rfl, rfl⟩
  | some files =>
    exact loop hp hw T { i := f.i, o := f.o } lang lang' (if pkg ≠ [] then pkg else c!"schema") (if pkg' ≠ [] then pkg' else c!"schema") files {} {}

/-! ## The arguments -/

/-- Flags that agree, or differ in the language only: `a` here, `b` there. -/
def Near (a b : Str) (f f' : Flags) : Prop := f' = f ∨ ∃ g : Flags, f = { g with l := a } ∧ f' = { g with l := b }

/-- The same exit, or flags that are near each other. -/
def NearP (a b : Str) : Parsed → Parsed → Prop
  | .flags f, .flags f' => Near a b f f'
  | .exit n, .exit n' => n = n'
  | _, _ => False

omit [Uni] in
theorem NearP.refl (a b : Str) (x : Parsed) : NearP a b x x := by
  cases x
  · exact .inl rfl
  · exact rfl

omit [Uni] in
theorem near_string {a b : Str} {f f' : Flags} (n v : Str) (h : Near a b f f') : Near a b (setString n v f) (setString n v f') := by
  rcases h with rfl | ⟨g, rfl, rfl⟩
  · exact .inl rfl
  · unfold setString
    by_cases h1 : n = c!"i"
    · rw [if_pos h1, if_pos h1]; exact .inr ⟨{ g with i := v }, rfl, rfl⟩
    rw [if_neg h1, if_neg h1]
    by_cases h2 : n = c!"o"
    · rw [if_pos h2, if_pos h2]; exact .inr ⟨{ g with o := v }, rfl, rfl⟩
    rw [if_neg h2, if_neg h2]
    by_cases h3 : n = c!"p"
    · rw [if_pos h3, if_pos h3]; exact .inr ⟨{ g with p := v }, rfl, rfl⟩
    rw [if_neg h3, if_neg h3]
    exact .inl rfl

omit [Uni] in
theorem near_bool {a b : Str} {f f' : Flags} (n : Str) (v : Bool) (h : Near a b f f') : Near a b (setBool n v f) (setBool n v f') := by
  rcases h with rfl | ⟨g, rfl, rfl⟩
  · exact .inl rfl
  · unfold setBool
    by_cases h1 : n = c!"v"
    · rw [if_pos h1, if_pos h1]; exact .inr ⟨{ g with v := v }, rfl, rfl⟩
    · rw [if_neg h1, if_neg h1]; exact .inr ⟨{ g with h := v }, rfl, rfl⟩

/-- A flag that takes its value from the remaining arguments. -/
def takes (n : Str) (k : List Str) (f : Flags) : Parsed :=
  match k with
  | [] => .exit 2
  | v :: r => flagParse r (setString n v f)

omit [Uni] in
/-- One argument after the other, with a remainder `k` that is read alike. -/
theorem read {a b : Str} (k k' : List Str) (hk : ∀ f f', Near a b f f' → NearP a b (flagParse k f) (flagParse k' f'))
    (hv : ∀ n f f', Near a b f f' → NearP a b
      (takes n k f) (takes n k' f')) :
    ∀ (m : Nat) (pre : List Str), pre.length ≤ m → ∀ f f', Near a b f f' → NearP a b (flagParse (pre ++ k) f) (flagParse (pre ++ k') f') := by
  intro m
  induction m with
  | zero =>
    intro pre hm f f' h
    have : pre = [] := List.length_eq_zero_iff.mp (Nat.le_zero.mp hm)
    rw [this]; exact hk f f' h
  | succ m ih =>
    intro pre hm f f' h
    cases pre with
    | nil => exact hk f f' h
    | cons x pre =>
      have hm' : pre.length ≤ m := Nat.le_of_succ_le_succ hm
      rw [List.cons_append, List.cons_append]
      match x with
      | [] => unfold flagParse; exact h
      | [c] =>
        have stop : ∀ (r : List Str) (f : Flags), flagParse ([c] :: r) f = .flags f := by
          intro r f
          unfold flagParse
          split
          · rename_i e; cases e
          · rename_i e; cases e
          · rfl
        rw [stop, stop]; exact h
      | c0 :: c :: t =>
        by_cases hc0 : c0 = '-'
        · subst hc0
          rw [flagParse.eq_2, flagParse.eq_2]
          by_cases h1 : (c = '-' && t = []) = true
          · rw [if_pos h1, if_pos h1]; exact h
          rw [if_neg h1, if_neg h1]
          generalize (if c = '-' then t else c :: t) = name
          by_cases h2 : (name.head? = some '-' || name.head? = some '=') = true
          · rw [if_pos h2, if_pos h2]; exact rfl
          rw [if_neg h2, if_neg h2]
          generalize cutEq name = q
          obtain ⟨n, value⟩ := q
          dsimp only
          by_cases h3 : stringFlags.contains n = true
          · rw [if_pos h3, if_pos h3]
            cases value with
            | some v => exact ih pre hm' _ _ (near_string n v h)
            | none =>
              cases pre with
              | nil =>
                have := hv n f f' h
                unfold takes at this
                cases k <;> cases k' <;> exact this
              | cons v pre => exact ih pre (Nat.le_of_succ_le hm') _ _ (near_string n v h)
          rw [if_neg h3, if_neg h3]
          by_cases h4 : boolFlags.contains n = true
          · rw [if_pos h4, if_pos h4]
            cases value with
            | none => exact ih pre hm' _ _ (near_bool n true h)
            | some v =>
              dsimp only
              cases parseBool v with
              | none => exact rfl
              | some w => exact ih pre hm' _ _ (near_bool n w h)
          rw [if_neg h4, if_neg h4]
          exact NearP.refl a b _
        · have stop : ∀ (r : List Str) (f : Flags), flagParse ((c0 :: c :: t) :: r) f = .flags f := by
            intro r f
            unfold flagParse
            split
            · rename_i e; cases e
            · rename_i e; cases e; exact absurd rfl hc0
            · rfl
          rw [stop, stop]; exact h

omit [Uni] in
/-- Nothing follows. -/
theorem read_same {a b : Str} (args : List Str) (f f' : Flags) (h : Near a b f f') : NearP a b (flagParse args f) (flagParse args f') := by
  have := read (a := a) (b := b) [] [] (fun f f' h => by unfold flagParse; exact h) (fun _ _ _ _ => rfl) args.length args (Nat.le_refl _) f f' h
  rwa [List.append_nil] at this

omit [Uni] in
/-- Two lists of arguments that differ in the word after one `-l`. -/
theorem read_lang {a b : Str} (ha : a ∈ supportLang) (hb : b ∈ supportLang) (pre post : List Str) (f : Flags) :
    NearP a b (flagParse (pre ++ c!"-l" :: a :: post) f) (flagParse (pre ++ c!"-l" :: b :: post) f) := by
  have set : ∀ (v : Str) (r : List Str) (f : Flags), flagParse (c!"-l" :: v :: r) f = flagParse r { f with l := v } := by
    intro v r f
    conv => lhs; unfold flagParse
    rfl
  have stop : ∀ v ∈ supportLang, ∀ (r : List Str) (f : Flags), flagParse (v :: r) f = .flags f := by
    intro v hv r f
    simp only [supportLang, List.mem_cons, List.not_mem_nil, or_false] at hv
    rcases hv with rfl | rfl | rfl | rfl | rfl <;> (unfold flagParse; rfl)
  refine read _ _ (fun f f' h => ?_) (fun n f f' h => ?_) pre.length pre (Nat.le_refl _) f f (.inl rfl)
  · rw [set, set]
    refine read_same post _ _ ?_
    rcases h with rfl | ⟨g, rfl, rfl⟩
    · exact .inr ⟨_, rfl, rfl⟩
    · exact .inr ⟨g, rfl, rfl⟩
  · unfold takes
    dsimp only
    rw [stop a ha, stop b hb]
    exact near_string n _ h

/-- Replacing the word after any `-l` on the command line, one language by another, changes neither what is printed nor the exit status. -/
theorem same_arguments {W : World} (hp : Plain W) (hw : Writable W) (T : Print.Texts) (lstat : Str → Option Forest) {lang lang' : Str}
    (hl : lang ∈ supportLang) (hl' : lang' ∈ supportLang) (pre post : List Str) :
    (xgen W lstat (pre ++ c!"-l" :: lang :: post)).1 = (xgen W lstat (pre ++ c!"-l" :: lang' :: post)).1 ∧
    Print.xgenText W T lstat (pre ++ c!"-l" :: lang :: post) = Print.xgenText W T lstat (pre ++ c!"-l" :: lang' :: post) := by
  have key := read_lang hl hl' pre post {}
  unfold xgen Print.xgenText
  cases e : flagParse (pre ++ c!"-l" :: lang :: post) {} with
  | exit n =>
    rw [e] at key
    cases e' : flagParse (pre ++ c!"-l" :: lang' :: post) {} with
    | exit n' =>
      rw [e'] at key
      have : n = n' := key
      rw [this]; exact ⟨rfl, rfl⟩
    | flags f' => rw [e'] at key; exact key.elim
  | flags f =>
    rw [e] at key
    cases e' : flagParse (pre ++ c!"-l" :: lang' :: post) {} with
    | exit n' => rw [e'] at key; exact key.elim
    | flags f' =>
      rw [e'] at key
      rcases (key : Near lang lang' f f') with rfl | ⟨g, rfl, rfl⟩
      · exact ⟨rfl, rfl⟩
      · exact same_command hp hw T (walkFrom lstat) g hl hl' g.p g.p

end

/-! ## Examples -/

open C112 (odd bad Harmless)

/-- A directory with two documents, the second of which is rejected for its number. -/
def two : World := Ex.world [("in/a.xsd", odd), ("in/b.xsd", bad "many")] (dirs := [".", "in"])

theorem two_plain : @Plain asciiUni two := by
  refine ⟨by decide, fun f toks h => ?_⟩
  have h := GoMap.mem_of_get? h
  have hm : (f = c!"in/a.xsd" ∧ toks = odd) ∨ (f = c!"in/b.xsd" ∧ toks = bad "many") := by
    simp only [two, Ex.world, List.map_cons, List.map_nil, List.cons_append, List.nil_append, List.mem_cons, List.not_mem_nil, or_false,
      Prod.mk.injEq, reduceCtorEq, and_false, false_or, Entry.file.injEq] at h
    exact h
  rcases hm with ⟨rfl, rfl⟩ | ⟨rfl, rfl⟩
  · exact ⟨@C112.closed_of asciiUni _ (by decide +kernel), by decide +kernel⟩
  · exact ⟨@C112.closed_of asciiUni _ (by decide +kernel), by decide +kernel⟩

theorem two_writable : Writable two := ⟨fun _ => rfl, fun _ h => by cases h⟩

/-- The files of the directory. -/
def files : Str → List Str := fun _ => [c!"in/a.xsd", c!"in/b.xsd"]

/-- Texts of errors. -/
def texts : Print.Texts := { parse := fun _ _ => c!"no number", stat := fun _ => c!"no file", mkdir := c!"no directory" }

/-- The report. -/
def report (l : Str) : Exit × Str :=
  ((@main' asciiUni two files { i := c!"in", l := l }).1, @Print.mainText asciiUni two texts files { i := c!"in", l := l })

example : report c!"Go" = (.code 1, c!"process error on in/b.xsd: no number" ++ Print.crlf) := by decide +kernel

/-- The theorem for this directory. -/
theorem two_alike (l l' : Str) (h : l ∈ supportLang) (h' : l' ∈ supportLang) : report l = report l' := by
  have := @same_command asciiUni _ two_plain two_writable texts files { i := c!"in" } l l' h h' [] []
  exact Prod.ext this.1 this.2

/-- From the arguments; the first language does not count because another follows, the word after `-o` is no flag. -/
theorem arguments_alike (l l' : Str) (h : l ∈ supportLang) (h' : l' ∈ supportLang) (post : List Str) :
    @Print.xgenText asciiUni two texts (fun _ => none) (c!"-i=in" :: c!"-o" :: c!"-l" :: c!"-l" :: l :: post) =
      @Print.xgenText asciiUni two texts (fun _ => none) (c!"-i=in" :: c!"-o" :: c!"-l" :: c!"-l" :: l' :: post) :=
  (@same_arguments asciiUni _ two_plain two_writable texts (fun _ => none) l l' h h' [c!"-i=in", c!"-o", c!"-l"] post).2

/-- With an import (C112 `importing`) the command gets through for Go and not for Java. -/
theorem imports_matter :
    (@main' asciiUni (Ex.world [("a.xsd", C112.importing)]) (fun _ => []) { i := c!"a.xsd", l := c!"Go" }).1 = .done ∧
    (@main' asciiUni (Ex.world [("a.xsd", C112.importing)]) (fun _ => []) { i := c!"a.xsd", l := c!"Java" }).1 = .code 1 := by decide +kernel

end Xgen.C114
