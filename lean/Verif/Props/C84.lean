import Verif.Lemmas.Disk
import Verif.Props.C11
import Verif.Props.C81
import Verif.Spec.Example

/-! # C84: what a run does to the disk it reads from -/

namespace Xgen.C84
open Disk
variable [Uni] [Xml.NameChars]

/-! ## Specification -/

/-- A location some file among `S` names. -/
def Located (W : World) (S : Str → Prop) (l : Str) : Prop :=
  ∃ p toks name attrs a, S p ∧ W.fs.get? p = some (.file toks) ∧ Token.start name attrs ∈ toks ∧ a ∈ attrs ∧
    a.local = c!"schemaLocation" ∧ a.value = l

/-- A file the command may write: the one for an input, or the one for a file reached from an input. -/
def Target (W : World) (c : Config) (ext : Str) (files : List Str) (S : Str → Prop) (o : Str) : Prop :=
  (∃ f ∈ files, o = fileWithExtension (pathJoin c.o (trimPrefix f c.i)) ext) ∨
  ∃ p toks, S p ∧ W.fs.get? p = some (.file toks) ∧ o = fileWithExtension (pathJoin c.o p) ext

/-- The paths `S` contain all that is looked at, and nothing there is written: the inputs are in `S`; a location found in
a file of `S` leads, from beside any file of `S`, to a path in `S`; at a path in `S` no file is written and no directory
is made that was not there. -/
structure Apart (W : World) (cwd : List Str) (c : Config) (ext : Str) (files : List Str) (S : Str → Prop) : Prop where
  inputs : ∀ f ∈ files, S f
  next : ∀ p toks l, S p → W.fs.get? p = some (.file toks) → l = [] ∨ Located W S l → S (pathJoin (pathDir p) l)
  apart : ∀ q o, S q → Target W c ext files S o →
    place cwd q ≠ place cwd o ∧ (place cwd q <+: place cwd o → W.fs.has q = true)

/-! ## Where nothing is written the disk stays as it was -/

theorem look_apart {W : World} {cwd : List Str} {outs : List (Str × Str)} {q : Str}
    (h : ∀ o ∈ outs, place cwd q ≠ place cwd o.1 ∧ (place cwd q <+: place cwd o.1 → W.fs.has q = true)) :
    look W cwd outs q = W.fs.get? q := by
  unfold look
  have h1 : outs.reverse.find? (fun o => place cwd o.1 = place cwd q) = none := by
    rw [List.find?_eq_none]
    intro o ho
    have := (h o (List.mem_reverse.1 ho)).1
    simpa using fun e => this e.symm
  rw [h1]
  dsimp only
  cases e : W.fs.get? q with
  | some en => rfl
  | none =>
    dsimp only
    rw [if_neg]
    intro ha
    obtain ⟨o, ho, hp⟩ := List.any_eq_true.1 ha
    have := (h o ho).2 (List.isPrefixOf_iff_prefix.1 hp)
    rw [GoMap.has, e] at this
    cases this

theorem nowAt_get (W : World) (cwd : List Str) (outs : List (Str × Str)) (q : Str) :
    (nowAt W cwd outs q).fs.get? q = look W cwd outs q := by
  unfold nowAt
  cases e : look W cwd outs q with
  | some en => simp [GoMap.get?]
  | none =>
    dsimp only
    unfold look at e
    split at e
    · cases e
    · cases hg : W.fs.get? q with
      | none => rfl
      | some en => rw [hg] at e; cases e

theorem nowAt_size (W : World) (cwd : List Str) (outs : List (Str × Str)) (q : Str) : W.size ≤ (nowAt W cwd outs q).size := by
  unfold nowAt
  split
  · simp [World.size]
  · exact Nat.le_refl _

theorem nowAt_rest (W : World) (cwd : List Str) (outs : List (Str × Str)) (q : Str) :
    (nowAt W cwd outs q).isURL = W.isURL ∧ (nowAt W cwd outs q).gofmt = W.gofmt ∧
    (nowAt W cwd outs q).mkdirOk = W.mkdirOk ∧ (nowAt W cwd outs q).createOk = W.createOk ∧
    (nowAt W cwd outs q).pick = W.pick := by
  unfold nowAt
  split <;> exact ⟨rfl, rfl, rfl, rfl, rfl⟩

section
variable {W : World} {cwd : List Str} {c : Config} {ext : Str} {files : List Str} {S : Str → Prop}

omit [Uni] [Xml.NameChars] in
theorem Apart.closure (h : Apart W cwd c ext files S) : Closure W c.o ext S (Located W S) (Target W c ext files S) where
  locs hp hf hm ha hl := ⟨_, _, _, _, _, hp, hf, hm, ha, hl, rfl⟩
  next hp hf hl := h.next _ _ _ hp hf hl
  puts hp hf := Or.inr ⟨_, _, hp, hf, rfl⟩

omit [Uni] [Xml.NameChars] in
theorem Apart.allowed (h : Apart W cwd c ext files S) {f : Str} (hf : f ∈ files) :
    Allowed W c.o c.lang ext S (Target W c ext files S) (mainCfg c f) where
  file := h.inputs f hf
  outDir := rfl
  lang := rfl
  puts _ _ _ := Or.inl ⟨f, hf, rfl⟩

theorem Apart.alike (h : Apart W cwd c ext files S) :
    Alike W S (Within (Located W S) (Target W c ext files S)) (fun sh p => nowAt W cwd sh.outputs p) where
  fs sh p hi hp := by
    rw [nowAt_get]
    exact look_apart fun o ho => h.apart p o.1 hp (hi.out o ho)
  size sh p := nowAt_size W cwd _ p
  isURL sh p := (nowAt_rest W cwd _ p).1
  gofmt sh p := (nowAt_rest W cwd _ p).2.1
  mkdirOk sh p := (nowAt_rest W cwd _ p).2.2.1
  createOk sh p := (nowAt_rest W cwd _ p).2.2.2.1
  pick sh p := (nowAt_rest W cwd _ p).2.2.2.2

/-- The loop of `main`, on any file system alike `W` on `S`. -/
theorem loop_within [UniLaws] (he : (c.lang, ext) ∈ C24.extensions) (h : Apart W cwd c ext files S) {n : Nat}
    (hn : W.fs.length + 2 ≤ n) (fs : List Str) (hf : ∀ f ∈ fs, f ∈ files) (sh : Shared)
    (hi : ∀ o ∈ sh.outputs, Target W c ext files S o.1) :
    mainLoopNow W cwd n c fs sh = mainLoop W c fs sh ∧ ∀ o ∈ (mainLoop W c fs sh).2.outputs, Target W c ext files S o.1 := by
  induction fs generalizing sh with
  | nil => exact ⟨rfl, hi⟩
  | cons f fs ih =>
    unfold mainLoopNow mainLoop
    have hw : Within (Located W S) (Target W c ext files S) { outputs := sh.outputs, tick := sh.tick, log := sh.log } :=
      ⟨(fun k v (e : none = some v) => nomatch e), (fun k hk => absurd hk List.not_mem_nil), hi⟩
    obtain ⟨h1, h2⟩ := parse_see he h.closure h.alike n hn (mainCfg c f) (h.allowed (hf f (by simp))) _ hw
    have h1 : parseNow W cwd n (mainCfg c f) { outputs := sh.outputs, tick := sh.tick, log := sh.log } = _ := h1
    rw [h1]
    cases e : Parse W (mainCfg c f) { outputs := sh.outputs, tick := sh.tick, log := sh.log } with
    | ok t s1 => rw [e] at h2; exact ih (fun f hf' => hf f (by simp [hf'])) s1 h2.out
    | err er s1 => rw [e] at h2; exact ⟨rfl, h2.out⟩
    | halt hh s1 =>
      rw [e] at h2
      cases hh with
      | panic => exact ⟨rfl, h2.out⟩
      | exit k => exact ⟨rfl, h2.out⟩
      | fuel => exact ⟨rfl, h2.out⟩

/-- C84: as long as nothing is looked up where something is written, it does not matter that files are written while
others are read: the run on the live disk is the run on the disk as it was at the start. -/
theorem as_at_the_start [UniLaws] (walk : Str → List Str) (f : Flags) (hc : parseFlags f = .go c)
    (hl : getFileList W walk c.i = some files) (he : (c.lang, ext) ∈ C24.extensions) (h : Apart W cwd c ext files S) {n : Nat}
    (hn : W.fs.length + 2 ≤ n) : mainNow W cwd n walk f = main' W walk f := by
  unfold mainNow main'
  rw [hc]
  dsimp only
  rw [hl]
  exact (loop_within he h hn files (fun _ h => h) {} (fun o ho => by cases ho)).1

/-- What is written is for an input or for a file reached from one. -/
theorem writes_targets [UniLaws] (walk : Str → List Str) (f : Flags) (hc : parseFlags f = .go c)
    (hl : getFileList W walk c.i = some files) (he : (c.lang, ext) ∈ C24.extensions) (h : Apart W cwd c ext files S) :
    ∀ o ∈ (main' W walk f).2.outputs, Target W c ext files S o.1 := by
  have hm : main' W walk f = mainLoop W c files {} := by unfold main'; rw [hc]; dsimp only; rw [hl]
  rw [hm]
  exact (loop_within he h (Nat.le_refl _) files (fun _ h => h) {} (fun o ho => by cases ho)).2

/-- And what was looked at is still as it was. -/
theorem reads_kept [UniLaws] (walk : Str → List Str) (f : Flags) (hc : parseFlags f = .go c)
    (hl : getFileList W walk c.i = some files) (he : (c.lang, ext) ∈ C24.extensions) (h : Apart W cwd c ext files S) {q : Str}
    (hq : S q) : look W cwd (main' W walk f).2.outputs q = W.fs.get? q :=
  look_apart fun o ho => h.apart q o.1 hq (writes_targets walk f hc hl he h o ho)

end

/-! ## Only files with the extension of the language are ever written -/

omit [Uni] [Xml.NameChars] in
theorem place_eq (cwd : List Str) (p : Str) : place cwd p = C11.leadsTo cwd p := rfl

omit [Uni] [Xml.NameChars] in
theorem splitOn_end (y : Str) {e : Str} (he : '/' ∉ e) : ∃ init last, splitOn '/' (y ++ e) = init ++ [last ++ e] := by
  induction y with
  | nil => exact ⟨[], [], by simp [splitOn_of_not_mem he]⟩
  | cons a y ih =>
    obtain ⟨init, last, h⟩ := ih
    by_cases ha : a = '/'
    · subst ha
      exact ⟨[] :: init, last, by rw [List.cons_append, splitOn_cons_sep, h]; rfl⟩
    · obtain ⟨p, ps, h1, h2⟩ := splitOn_cons_ne ha (y ++ e)
      rw [h] at h1
      rw [List.cons_append, h2]
      cases init with
      | nil =>
        cases h1
        exact ⟨[], a :: last, rfl⟩
      | cons i init =>
        cases h1
        exact ⟨(a :: p) :: init, last, rfl⟩

/-- The extensions end in a letter and have no separator. -/
def Usual (ext : Str) : Prop := '/' ∉ ext ∧ ext.head? = some '.' ∧ ∀ last, last ++ ext ≠ c!"." ∧ last ++ ext ≠ c!".."

omit [Uni] [Xml.NameChars] in
theorem usual {lang ext : Str} (h : (lang, ext) ∈ C24.extensions) : Usual ext := by
  have hl : ∀ (last ext : Str) (ch : Char), ext.getLast? = some ch → ch ≠ '.' → last ++ ext ≠ c!"." ∧ last ++ ext ≠ c!".." := by
    intro last ext ch h1 h2
    have h3 : (last ++ ext).getLast? = some ch := by
      rw [List.getLast?_append, h1]; rfl
    constructor <;> intro e <;> rw [e] at h3 <;> cases h3 <;> exact h2 rfl
  simp only [C24.extensions, List.mem_cons, List.not_mem_nil, or_false, Prod.mk.injEq] at h
  rcases h with ⟨-, rfl⟩ | ⟨-, rfl⟩ | ⟨-, rfl⟩ | ⟨-, rfl⟩ | ⟨-, rfl⟩ <;>
    exact ⟨by decide, rfl, fun last => hl last _ _ rfl (by decide)⟩

omit [Uni] [Xml.NameChars] in
theorem place_written (cwd : List Str) (file : Str) {ext : Str} (hu : Usual ext) :
    ∃ dir last, place cwd (fileWithExtension file ext) = dir ++ [last] ∧ ext <:+ last := by
  obtain ⟨h1, h2, h3⟩ := hu
  have hp : hasPrefix ext c!"." = true := by
    cases ext with
    | nil => cases h2
    | cons a e => simp only [List.head?_cons, Option.some.injEq] at h2; subst h2; simp [hasPrefix]
  obtain ⟨y, hy⟩ : ∃ y, fileWithExtension file ext = y ++ ext := by
    unfold fileWithExtension
    simp only [hp, if_true]
    split
    · rename_i hs
      obtain ⟨y, hy⟩ := (hasSuffix_iff _ _).1 hs
      exact ⟨y, hy.symm⟩
    · exact ⟨file, rfl⟩
  obtain ⟨init, last, hi⟩ := splitOn_end y h1
  rw [hy]
  unfold place
  rw [hi, List.foldl_append]
  obtain ⟨h4, h5⟩ := h3 last
  have hne : last ++ ext ≠ [] := by cases ext with
    | nil => cases h2
    | cons a e => simp
  have hno : ¬ (last ++ ext = [] ∨ last ++ ext = c!".") := fun h => h.elim hne h4
  simp only [List.foldl_cons, List.foldl_nil]
  rw [if_neg hno, if_neg h5]
  exact ⟨_, _, rfl, last, rfl⟩

/-- All files written have a name made by `FileWithExtension`. -/
def Made (ext : Str) (p : Str) : Prop := ∃ file, p = fileWithExtension file ext

/-- The states in which that holds. -/
abbrev OnlyMade (ext : Str) (sh : Shared) : Prop := Within (fun _ => True) (Made ext) sh

section
variable {lang ext : Str} {see : Shared → Str → World}

omit [Xml.NameChars] in
theorem loop_made {W : World} {rec : Cfg → Go Shared Tree} {cfg : Cfg}
    (h : ∀ path sh, OnlyMade ext sh → OnlyMade ext (rec (nestedCfg cfg path true) sh).state) (name : Str) (init : List Str)
    (k : Nat) (visited : List Str) (vt : Str) (sh : Shared) (hi : OnlyMade ext sh) :
    OnlyMade ext (includeLoop W rec cfg name init k visited vt sh).state := by
  induction k generalizing visited vt sh with
  | zero => exact hi
  | succ k ih =>
    unfold includeLoop
    dsimp only
    have ht : OnlyMade ext { sh with tick := sh.tick + 1 } := ⟨hi.ns, hi.inc, hi.out⟩
    cases nextKey W init visited sh with
    | none => exact ht
    | some inc =>
      dsimp only
      have h1 := h (pathJoin cfg.fileDir inc) _ ht
      cases e : rec (nestedCfg cfg (pathJoin cfg.fileDir inc) true) { sh with tick := sh.tick + 1 } with
      | halt hh s1 => rw [e] at h1; exact h1
      | err er s1 => rw [e] at h1; exact h1
      | ok t s1 => rw [e] at h1; exact ih _ _ _ h1

omit [Xml.NameChars] in
theorem parse_made [UniLaws] (he : (lang, ext) ∈ C24.extensions) (n : Nat) (cfg : Cfg) (hl : cfg.lang = lang) (sh : Shared)
    (hi : OnlyMade ext sh) : OnlyMade ext (parseSee see n cfg sh).state := by
  induction n generalizing cfg sh with
  | zero => exact hi
  | succ n ih =>
    let R : Shared → Shared → Prop := fun a b => OnlyMade ext a → OnlyMade ext b
    have SR : Stable (fun _ => True) R := ⟨fun _ h => h, fun h g x => g (h x), fun _ _ => trivial⟩
    have hrec : ∀ path x sh, KeepsAt R (fun _ => True) (parseSee see n (nestedCfg cfg path x)) sh :=
      fun path x sh => ⟨ih (nestedCfg cfg path x) hl sh, fun _ _ _ => trivial⟩
    have hg : ∀ v, Keeps (fun _ => True) R (fun _ => True) (gvtSee see (parseSee see n) cfg v)
        (gvtSee see (parseSee see n) cfg v) := by
      refine fun v => ⟨rfl, fun s _ => ?_⟩
      refine (gvtOf_keeps (W := see s.sh (asked cfg v s.sh)) (R := R) (Q := fun _ => True) (H := fun _ => True)
        (rec := parseSee see n) (cfg := cfg) ?_ v).2 s trivial
      refine getValueType_keeps SR (fun _ path sh _ => hrec path true sh) (fun _ path sh _ _ _ => hrec path false sh) ?_
      exact fun _ name sh _ => ⟨loop_made (fun path sh => (hrec path true sh).1) name _ _ _ _ sh, fun _ _ _ => trivial⟩
    simp only [parseSee, parseWithSee]
    cases (see sh cfg.filePath).fs.get? cfg.filePath with
    | none => exact hi
    | some en =>
      cases en with
      | dir => exact hi
      | noOpen => exact hi
      | file toks =>
        dsimp only
        unfold parseOpenSee
        have hrun := run_keeps (see sh cfg.filePath) SR (H := fun _ => True) trivial _ hg toks (fun name attrs _ sh _ =>
          ⟨fun h => h.import fun _ _ _ => trivial, fun h => h.include fun _ _ _ => trivial, fun h => h.schema⟩)
        have h1 := (hrun.2 { sh := beginParse cfg sh, p := {} } trivial).1 hi.begin
        cases e : Xgen.run (see sh cfg.filePath) (gvtSee see (parseSee see n) cfg) toks { sh := beginParse cfg sh, p := {} } with
        | err er s1 => rw [e] at h1; exact h1
        | halt hh s1 => rw [e] at h1; exact h1
        | ok t s1 =>
          rw [e] at h1
          exact finish_within (by rw [hl]; exact he) (fun _ => ⟨_, rfl⟩) _ h1

end

theorem loopNow_made [UniLaws] {W : World} {cwd : List Str} {n : Nat} {c : Config} {ext : Str}
    (he : (c.lang, ext) ∈ C24.extensions) (fs : List Str) (sh : Shared) (hi : ∀ o ∈ sh.outputs, Made ext o.1) :
    ∀ o ∈ (mainLoopNow W cwd n c fs sh).2.outputs, Made ext o.1 := by
  induction fs generalizing sh with
  | nil => exact hi
  | cons f fs ih =>
    unfold mainLoopNow
    have h2 := parse_made (see := fun sh p => nowAt W cwd sh.outputs p) he n (mainCfg c f) rfl
      { outputs := sh.outputs, tick := sh.tick, log := sh.log } ⟨fun _ _ _ => trivial, fun _ _ => trivial, hi⟩
    have h2 : OnlyMade ext (parseNow W cwd n (mainCfg c f) { outputs := sh.outputs, tick := sh.tick, log := sh.log }).state := h2
    cases e : parseNow W cwd n (mainCfg c f) { outputs := sh.outputs, tick := sh.tick, log := sh.log } with
    | ok t s1 => rw [e] at h2; exact ih s1 h2.out
    | err er s1 => rw [e] at h2; exact h2.out
    | halt hh s1 =>
      rw [e] at h2
      cases hh with
      | panic => exact h2.out
      | exit k => exact h2.out
      | fuel => exact h2.out

/-- C84: whatever is on the disk and whatever the command line says, every file the command writes has the extension of the
language; so everything that exists under another name is afterwards as it was. -/
theorem others_kept [UniLaws] (W : World) (cwd : List Str) (n : Nat) (walk : Str → List Str) (f : Flags) (q : Str) (e : Entry)
    (hq : W.fs.get? q = some e)
    (hx : ∀ ext, (f.l, ext) ∈ C24.extensions → ∀ dir last, place cwd q = dir ++ [last] → ¬ ext <:+ last) :
    look W cwd (mainNow W cwd n walk f).2.outputs q = some e := by
  rw [look_apart, hq]
  intro o ho
  refine ⟨?_, fun _ => by rw [GoMap.has, hq]; rfl⟩
  unfold mainNow at ho
  cases hc : parseFlags f with
  | exit k => rw [hc] at ho; cases ho
  | go c =>
    rw [hc] at ho
    dsimp only at ho
    cases hf : getFileList W walk c.i with
    | none => rw [hf] at ho; cases ho
    | some files =>
      rw [hf] at ho
      dsimp only at ho
      have hl : c.lang = f.l ∧ ∃ ext, (f.l, ext) ∈ C24.extensions := by
        unfold parseFlags at hc
        split at hc
        · cases hc
        split at hc
        · cases hc
        split at hc
        · cases hc
        split at hc
        · cases hc
        split at hc
        · cases hc
        · rename_i hs
          cases hc
          refine ⟨rfl, ?_⟩
          have : f.l ∈ supportLang := by simpa using hs
          simp only [supportLang, List.mem_cons, List.not_mem_nil, or_false] at this
          rcases this with h | h | h | h | h <;> rw [h]
          · exact ⟨c!".go", by decide⟩
          · exact ⟨c!".h", by decide⟩
          · exact ⟨c!".java", by decide⟩
          · exact ⟨c!".rs", by decide⟩
          · exact ⟨c!".ts", by decide⟩
      obtain ⟨hl, ext, he⟩ := hl
      obtain ⟨file, hfile⟩ := loopNow_made (by rw [hl]; exact he) files {} (fun o ho => by cases ho) o ho
      obtain ⟨dir, last, h1, h2⟩ := place_written cwd file (usual he)
      rw [hfile, h1]
      exact fun hp => hx ext he dir last hp h2

/-! ## A way to see that reads and writes are apart -/

/-- No component ends in the extension. -/
def Free (ext : Str) (comps : List Str) : Prop := ∀ c ∈ comps, ¬ ext <:+ c

omit [Uni] [Xml.NameChars] in
theorem walk_free {ext : Str} {l pos : List Str} (hp : Free ext pos) (hl : Free ext l) : Free ext (l.foldl C11.step pos) := by
  induction l generalizing pos with
  | nil => exact hp
  | cons c l ih =>
    refine ih ?_ fun x hx => hl x (by simp [hx])
    unfold C11.step
    split
    · exact hp
    split
    · exact fun x hx => hp x (List.dropLast_subset _ hx)
    · intro x hx
      rcases List.mem_append.1 hx with h | h
      · exact hp x h
      · rw [List.mem_singleton.1 h]; exact hl c (by simp)

omit [Uni] [Xml.NameChars] in
theorem not_dots {ext : Str} (hu : Usual ext) : ¬ ext <:+ [] ∧ ¬ ext <:+ c!"." ∧ ¬ ext <:+ c!".." := by
  refine ⟨fun h => ?_, fun ⟨y, hy⟩ => (hu.2.2 y).1 hy, fun ⟨y, hy⟩ => (hu.2.2 y).2 hy⟩
  rw [List.suffix_nil.1 h] at hu
  cases hu.2.1

omit [Uni] [Xml.NameChars] in
theorem cleanComps_mem (r : Bool) (l acc : List Str) : ∀ x ∈ cleanComps r l acc, x ∈ l ∨ x ∈ acc ∨ x = c!".." := by
  induction l generalizing acc with
  | nil => exact fun x h => Or.inr (Or.inl h)
  | cons a l ih =>
    intro x h
    rw [cleanComps.eq_def] at h
    dsimp only at h
    split at h
    · rcases ih _ x h with h | h | h
      · exact Or.inl (by simp [h])
      · exact Or.inr (Or.inl h)
      · exact Or.inr (Or.inr h)
    split at h
    · cases acc with
      | nil =>
        dsimp only at h
        split at h
        · rcases ih _ x h with h | h | h
          · exact Or.inl (by simp [h])
          · cases h
          · exact Or.inr (Or.inr h)
        · rcases ih _ x h with h | h | h
          · exact Or.inl (by simp [h])
          · exact Or.inr (Or.inr (by simpa using h))
          · exact Or.inr (Or.inr h)
      | cons t acc =>
        dsimp only at h
        split at h
        · rcases ih _ x h with h | h | h
          · exact Or.inl (by simp [h])
          · rcases List.mem_cons.1 h with h | h
            · exact Or.inr (Or.inr h)
            · exact Or.inr (Or.inl h)
          · exact Or.inr (Or.inr h)
        · rcases ih _ x h with h | h | h
          · exact Or.inl (by simp [h])
          · exact Or.inr (Or.inl (by simp [h]))
          · exact Or.inr (Or.inr h)
    · rcases ih _ x h with h | h | h
      · exact Or.inl (by simp [h])
      · rcases List.mem_cons.1 h with h | h
        · exact Or.inl (by simp [h])
        · exact Or.inr (Or.inl h)
      · exact Or.inr (Or.inr h)

omit [Uni] [Xml.NameChars] in
theorem free_clean {ext : Str} (hu : Usual ext) {p : Str} (h : Free ext (splitOn '/' p)) : Free ext (splitOn '/' (clean p)) := by
  obtain ⟨h0, h1, h2⟩ := not_dots hu
  by_cases hp : p = []
  · subst hp
    intro x hx
    have : x = c!"." := by simpa [clean, splitOn] using hx
    rw [this]; exact h1
  rw [C11.clean_eq p hp]
  generalize decide (p.head? = some '/') = r
  have hm : ∀ x ∈ (cleanComps r (splitOn '/' p) []).reverse, ¬ ext <:+ x := by
    intro x hx
    rcases cleanComps_mem r _ _ x (List.mem_reverse.1 hx) with hx | hx | hx
    · exact h x hx
    · cases hx
    · rw [hx]; exact h2
  have hs : ∀ x ∈ (cleanComps r (splitOn '/' p) []).reverse, '/' ∉ x := fun x hx =>
    (C11.cleanComps_ok r _ _ (fun y hy => not_mem_of_mem_splitOn hy) (by simp) x (List.mem_reverse.1 hx)).2.2
  generalize (cleanComps r (splitOn '/' p) []).reverse = l at hm hs
  unfold C11.render
  intro x hx
  by_cases hl : l = []
  · subst hl
    cases r with
    | true =>
      have : x = [] := by simpa [joinSlash, splitOn] using hx
      rw [this]; exact h0
    | false =>
      have : x = c!"." := by simpa [splitOn] using hx
      rw [this]; exact h1
  · cases r with
    | true =>
      rw [if_pos rfl, splitOn_cons_sep, C11.splitOn_joinSlash hl hs] at hx
      rcases List.mem_cons.1 hx with hx | hx
      · rw [hx]; exact h0
      · exact hm x hx
    | false =>
      rw [if_neg (by simp), if_neg hl, C11.splitOn_joinSlash hl hs] at hx
      exact hm x hx

omit [Uni] [Xml.NameChars] in
theorem free_dir {ext : Str} (hu : Usual ext) {p : Str} (h : Free ext (splitOn '/' p)) : Free ext (splitOn '/' (pathDir p)) := by
  apply free_clean hu
  obtain ⟨h0, -, -⟩ := not_dots hu
  have hf : p = (p.reverse.dropWhile (fun c => c ≠ '/')).reverse ++ (p.reverse.takeWhile (fun c => c ≠ '/')).reverse := by
    rw [← List.reverse_append, List.takeWhile_append_dropWhile, List.reverse_reverse]
  cases e : p.reverse.dropWhile (fun c => c ≠ '/') with
  | nil =>
    intro x hx
    have : x = [] := by simpa [splitOn] using hx
    rw [this]; exact h0
  | cons a d =>
    have ha : a = '/' := by
      have := List.head?_dropWhile_not (fun c : Char => decide (c ≠ '/')) p.reverse
      rw [e] at this
      simpa using this
    subst ha
    rw [e, List.reverse_cons, List.append_assoc, List.singleton_append] at hf
    rw [hf, splitOn_append] at h
    rw [List.reverse_cons]
    change Free ext (splitOn '/' (d.reverse ++ '/' :: []))
    rw [splitOn_append]
    intro x hx
    rcases List.mem_append.1 hx with hx | hx
    · exact h x (by simp [hx])
    · have : x = [] := by simpa [splitOn] using hx
      rw [this]; exact h0

omit [Uni] [Xml.NameChars] in
theorem free_join {ext : Str} (hu : Usual ext) {a b : Str} (ha : a ≠ []) (h : Free ext (splitOn '/' a))
    (h' : Free ext (splitOn '/' b)) : Free ext (splitOn '/' (pathJoin a b)) := by
  unfold pathJoin
  rw [if_pos ha]
  apply free_clean hu
  rw [splitOn_append]
  intro x hx
  rcases List.mem_append.1 hx with hx | hx
  · exact h x hx
  · exact h' x hx

/-- The paths that may be looked at: no component ends in the extension, and it is not a directory yet to be made. -/
def Calm (W : World) (cwd : List Str) (c : Config) (ext : Str) (files : List Str) (q : Str) : Prop :=
  Free ext (splitOn '/' q) ∧
    ∀ o, Target W c ext files (fun _ => True) o → place cwd q <+: place cwd o → W.fs.has q = true

/-- C84: it is enough that no directory on the way to the working directory, no component of an input path and no component
of a location in any file ends in the extension of the language, and that no location leads from beside a file to a
directory that is yet to be made. -/
theorem apart_by_names {W : World} {cwd : List Str} {c : Config} {ext : Str} {files : List Str}
    (he : (c.lang, ext) ∈ C24.extensions) (hw : Free ext cwd) (hf : ∀ f ∈ files, Calm W cwd c ext files f)
    (hl : ∀ l, Located W (fun _ => True) l → Free ext (splitOn '/' l))
    (hn : ∀ p toks l, W.fs.get? p = some (.file toks) → l = [] ∨ Located W (fun _ => True) l →
      ∀ o, Target W c ext files (fun _ => True) o → place cwd (pathJoin (pathDir p) l) <+: place cwd o →
        W.fs.has (pathJoin (pathDir p) l) = true) :
    Apart W cwd c ext files (Calm W cwd c ext files) where
  inputs := hf
  next p toks l hp hfile hl' := by
    have hl'' : l = [] ∨ Located W (fun _ => True) l := hl'.imp id fun ⟨p, toks, name, attrs, a, _, h⟩ =>
      ⟨p, toks, name, attrs, a, trivial, h⟩
    refine ⟨free_join (usual he) (C11.clean_ne_nil _) (free_dir (usual he) hp.1) ?_, hn p toks l hfile hl''⟩
    rcases hl'' with rfl | h
    · intro x hx
      have : x = [] := by simpa [splitOn] using hx
      rw [this]; exact (not_dots (usual he)).1
    · exact hl l h
  apart q o hq ho := by
    have ho' : Target W c ext files (fun _ => True) o := ho.imp id fun ⟨p, toks, _, h⟩ => ⟨p, toks, trivial, h⟩
    refine ⟨fun e => ?_, hq.2 o ho'⟩
    have h1 : Free ext (place cwd q) := by
      rw [place_eq]
      refine walk_free ?_ hq.1
      split
      · exact fun x hx => by cases hx
      · exact hw
    obtain ⟨file, rfl⟩ : Made ext o := by
      rcases ho with ⟨f, _, rfl⟩ | ⟨p, toks, _, _, rfl⟩ <;> exact ⟨_, rfl⟩
    obtain ⟨dir, last, h2, h3⟩ := place_written cwd file (usual he)
    rw [e, h2] at h1
    exact h1 last (by simp) h3

/-! ## And a way to compute it -/

/-- The locations in a file. -/
def locations (toks : List Token) : List Str :=
  toks.flatMap fun t => match t with
    | .start _ attrs => (attrs.filter (fun a => a.local = c!"schemaLocation")).map (·.value)
    | _ => []

/-- The locations at a path. -/
def locationsAt (W : World) (p : Str) : List Str :=
  match W.fs.get? p with
  | some (.file toks) => locations toks
  | _ => []

/-- The targets, if `S` are the paths looked at. -/
def targets (W : World) (c : Config) (ext : Str) (files S : List Str) : List Str :=
  files.map (fun f => fileWithExtension (pathJoin c.o (trimPrefix f c.i)) ext) ++
    (S.filter (fun p => match W.fs.get? p with | some (.file _) => true | _ => false)).map
      (fun p => fileWithExtension (pathJoin c.o p) ext)

/-- Is `S` closed and apart from what is written? -/
def check (W : World) (cwd : List Str) (c : Config) (ext : Str) (files S : List Str) : Bool :=
  files.all (fun f => S.contains f) &&
  S.all (fun p => match W.fs.get? p with
    | some (.file _) => ([] :: S.flatMap (locationsAt W)).all (fun l => S.contains (pathJoin (pathDir p) l))
    | _ => true) &&
  S.all (fun q => (targets W c ext files S).all (fun o => place cwd q ≠ place cwd o &&
    (!(place cwd q).isPrefixOf (place cwd o) || W.fs.has q)))

omit [Uni] [Xml.NameChars] in
theorem target_listed {W : World} {c : Config} {ext : Str} {files S : List Str} {o : Str} (ho : Target W c ext files (· ∈ S) o) :
    o ∈ targets W c ext files S := by
  unfold targets
  rcases ho with ⟨f, hf, rfl⟩ | ⟨p, toks, hp, hf, rfl⟩
  · exact List.mem_append_left _ (List.mem_map.2 ⟨f, hf, rfl⟩)
  · exact List.mem_append_right _ (List.mem_map.2 ⟨p, List.mem_filter.2 ⟨hp, by rw [hf]⟩, rfl⟩)

omit [Uni] [Xml.NameChars] in
/-- C84: the condition is decided by a finite computation, once the paths are listed. -/
theorem apart_checked {W : World} {cwd : List Str} {c : Config} {ext : Str} {files S : List Str}
    (h : check W cwd c ext files S = true) : Apart W cwd c ext files (· ∈ S) := by
  simp only [check, Bool.and_eq_true, List.all_eq_true] at h
  obtain ⟨⟨h1, h2⟩, h3⟩ := h
  refine ⟨fun f hf => by simpa using h1 f hf, fun p toks l hp hf hl => ?_, fun q o hq ho => ?_⟩
  · have := h2 p hp
    rw [hf] at this
    have := List.all_eq_true.1 this l (by
      rcases hl with rfl | ⟨p', toks', name, attrs, a, hp', hf', hm, ha, hs, rfl⟩
      · simp
      · refine List.mem_cons_of_mem _ (List.mem_flatMap.2 ⟨p', hp', ?_⟩)
        rw [locationsAt, hf']
        exact List.mem_flatMap.2 ⟨_, hm, List.mem_map.2 ⟨a, List.mem_filter.2 ⟨ha, by simpa using hs⟩, rfl⟩⟩)
    simpa using this
  · have := h3 q hq o (target_listed ho)
    simp only [Bool.and_eq_true, decide_eq_true_eq, Bool.or_eq_true, Bool.not_eq_true'] at this
    refine ⟨this.1, fun hp => this.2.resolve_left ?_⟩
    rw [List.isPrefixOf_iff_prefix.2 hp]
    simp

/-! ## Examples -/

open Ex

/-- Two schemas, of which one imports the other. -/
def W1 : World := Ex.world
  [("in/a.xsd", [on "schema" [("xmlns:b", "urn:b")]] ++ leaf "import" [("namespace", "urn:b"), ("schemaLocation", "b.xsd")] ++
      leaf "element" [("name", "root"), ("type", "b:Code")] ++ [off "schema"]),
   ("in/b.xsd", [on "schema", on "simpleType" [("name", "Code")]] ++ leaf "restriction" [("base", "xs:string")] ++
      [off "simpleType", off "schema"])] ["in"]

/-- The flags `-i in -o out -l Go`. -/
def flags1 : Flags := { i := c!"in", o := c!"out", l := c!"Go" }

/-- The listing of the directory. -/
def walk1 (p : Str) : List Str := if p = c!"in" then [c!"in", c!"in/a.xsd", c!"in/b.xsd"] else []

/-- The options. -/
def config1 : Config := { i := c!"in", o := c!"out", lang := c!"Go" }

theorem apart1 : Apart W1 [c!"home", c!"me"] config1 c!".go" (walk1 c!"in" ++ [c!"in"]) (· ∈ [c!"in", c!"in/a.xsd", c!"in/b.xsd"]) :=
  apart_checked (by decide +kernel)

example : parseFlags flags1 = .go config1 ∧ getFileList W1 walk1 c!"in" = some (walk1 c!"in" ++ [c!"in"]) := ⟨rfl, rfl⟩

example : @mainNow asciiUni C81.asciiNames W1 [c!"home", c!"me"] 5 walk1 flags1 = @main' asciiUni W1 walk1 flags1 :=
  @as_at_the_start asciiUni C81.asciiNames _ _ _ _ _ _ asciiUniLaws walk1 flags1 rfl rfl (by decide) apart1 5 (by decide)

example : (@main' asciiUni W1 walk1 flags1).1 = .done ∧
    (@main' asciiUni W1 walk1 flags1).2.outputs.map (·.1) = [c!"out/in/b.xsd.go", c!"out/a.xsd.go", c!"out/b.xsd.go"] := by
  decide +kernel

/-- Two schemas, of which one imports the file generated from the other. -/
def W2 : World := Ex.world
  [("in/a.xsd", [on "schema", off "schema"]),
   ("in/b.xsd", [on "schema" [("xmlns:b", "urn:b")]] ++ leaf "import" [("namespace", "urn:b"), ("schemaLocation", "a.xsd.go")] ++
      leaf "element" [("name", "root"), ("type", "b:Code")] ++ [off "schema"])] ["in"]

/-- C84, without the condition: a run into the directory it reads from finds files that were not there at the start. -/
theorem not_apart : let f : Flags := { i := c!"in", o := c!"in", l := c!"Go" }
    (@main' asciiUni W2 walk1 f).1 = .code 1 ∧ (@mainNow asciiUni C81.asciiNames W2 [c!"home"] 6 walk1 f).1 = .done := by
  decide +kernel

/-- Two schemas, of which one imports from where the other makes the run put a directory. -/
def Wmade : World := Ex.world
  [("in/a.xsd", [on "schema", off "schema"]),
   ("in/b.xsd", [on "schema" [("xmlns:b", "urn:b")]] ++ leaf "import" [("namespace", "urn:b"), ("schemaLocation", "../out")] ++
      leaf "element" [("name", "root"), ("type", "b:Code")] ++ [off "schema"])] ["in"]

/-- C84, without the condition: the directories made for generated files are found as well. -/
theorem directory_found : (@main' asciiUni Wmade walk1 flags1).1 = .code 1 ∧
    (@mainNow asciiUni C81.asciiNames Wmade [c!"home"] 6 walk1 flags1).1 = .done := by
  decide +kernel

end Xgen.C84
