import Verif.Props.C92

/-! # C93: whatever else happens on the disk; writes that fail -/

namespace Xgen.C93
open Disk C84

/-! ## Specification -/

/-- At every moment the paths `S` are found as `W` has them; everything else may be changed, added or removed at any time by
anybody.  (`see sh p` is the disk when `p` is looked at in state `sh`.) -/
structure Undisturbed (W : World) (S : Str → Prop) (see : Shared → Str → World) : Prop where
  fs : ∀ sh p, S p → (see sh p).fs.get? p = W.fs.get? p
  size : ∀ sh p, W.size ≤ (see sh p).size
  same : ∀ sh p, C85.OtherFiles W (see sh p)

section
variable [Uni] [Xml.NameChars]
variable {W : World} {cwd : List Str} {c : Config} {ext : Str} {files : List Str} {S : Str → Prop} {see : Shared → Str → World}

omit [Xml.NameChars] in
theorem loop_see [UniLaws] (he : (c.lang, ext) ∈ C24.extensions) (h : Apart W cwd c ext files S)
    (ha : Alike W S (Within (Located W S) (Target W c ext files S)) see) {n : Nat}
    (hn : W.fs.length + 2 ≤ n) (fs : List Str) (hf : ∀ f ∈ fs, f ∈ files) (sh : Shared)
    (hi : ∀ o ∈ sh.outputs, Target W c ext files S o.1) : mainLoopSee see n c fs sh = mainLoop W c fs sh := by
  induction fs generalizing sh with
  | nil => rfl
  | cons f fs ih =>
    unfold mainLoopSee mainLoop
    have hw : Within (Located W S) (Target W c ext files S) { outputs := sh.outputs, tick := sh.tick, log := sh.log } :=
      ⟨(fun k v (e : none = some v) => nomatch e), (fun k hk => absurd hk List.not_mem_nil), hi⟩
    obtain ⟨h1, h2⟩ := parse_see he h.closure ha n hn (mainCfg c f) (h.allowed (hf f (by simp))) _ hw
    rw [h1]
    cases e : Parse W (mainCfg c f) { outputs := sh.outputs, tick := sh.tick, log := sh.log } with
    | ok t s1 => rw [e] at h2; exact ih (fun f hf' => hf f (by simp [hf'])) s1 h2.out
    | err er s1 => rfl
    | halt hh s1 => cases hh <;> rfl

omit [Xml.NameChars] in
theorem main_see [UniLaws] (walk : Str → List Str) (f : Flags) (hc : parseFlags f = .go c)
    (hl : getFileList W walk c.i = some files) (he : (c.lang, ext) ∈ C24.extensions) (hA : Apart W cwd c ext files S)
    (ha : Alike W S (Within (Located W S) (Target W c ext files S)) see) {n : Nat}
    (hn : W.fs.length + 2 ≤ n) : mainSee see W n walk f = main' W walk f := by
  unfold mainSee main'
  rw [hc]
  dsimp only
  rw [hl]
  exact loop_see he hA ha hn files (fun _ h => h) {} (fun o ho => by cases ho)

omit [Xml.NameChars] in
/-- C93: whatever happens on the disk during the run at paths that are not looked at, the run is the same. -/
theorem elsewhere [UniLaws] (walk : Str → List Str) (f : Flags) (hc : parseFlags f = .go c)
    (hl : getFileList W walk c.i = some files) (he : (c.lang, ext) ∈ C24.extensions) (hA : Apart W cwd c ext files S)
    (hu : Undisturbed W S see) {n : Nat} (hn : W.fs.length + 2 ≤ n) : mainSee see W n walk f = main' W walk f :=
  main_see walk f hc hl he hA ⟨fun sh p _ hp => hu.fs sh p hp, hu.size, fun sh p => (hu.same sh p).isURL,
    fun sh p => (hu.same sh p).gofmt, fun sh p => (hu.same sh p).mkdirOk, fun sh p => (hu.same sh p).createOk,
    fun sh p => (hu.same sh p).pick⟩ hn

theorem alike_stored (keep : Str → Str → Str) (h : Apart W cwd c ext files S) :
    Alike W S (Within (Located W S) (Target W c ext files S)) (fun sh p => nowAt W cwd (stored keep sh.outputs) p) where
  fs sh p hi hp := by
    rw [nowAt_get]
    refine look_apart fun o ho => ?_
    obtain ⟨o', ho', rfl⟩ := List.mem_map.1 ho
    exact h.apart p o'.1 hp (hi.out o' ho')
  size sh p := nowAt_size W cwd _ p
  isURL sh p := (nowAt_rest W cwd _ p).1
  gofmt sh p := (nowAt_rest W cwd _ p).2.1
  mkdirOk sh p := (nowAt_rest W cwd _ p).2.2.1
  createOk sh p := (nowAt_rest W cwd _ p).2.2.2.1
  pick sh p := (nowAt_rest W cwd _ p).2.2.2.2

/-- C93: how much of each text the disk really takes has no influence on the run, in particular not on the exit status:
nothing is reported, nothing is tried again, and the files after it are written all the same. -/
theorem unnoticed [UniLaws] (keep : Str → Str → Str) (walk : Str → List Str) (f : Flags) (hc : parseFlags f = .go c)
    (hl : getFileList W walk c.i = some files) (he : (c.lang, ext) ∈ C24.extensions) (hA : Apart W cwd c ext files S) {n : Nat}
    (hn : W.fs.length + 2 ≤ n) : mainStored keep W cwd n walk f = mainNow W cwd n walk f := by
  rw [as_at_the_start walk f hc hl he hA hn]
  exact main_see walk f hc hl he hA (alike_stored keep hA) hn

/-- C93: a run for which the disk takes every text leaves the files the model speaks of. -/
theorem stored_all (W : World) (cwd : List Str) (n : Nat) (walk : Str → List Str) (f : Flags) :
    mainStored (fun _ t => t) W cwd n walk f = mainNow W cwd n walk f := by
  have h1 : ∀ outs, stored (fun _ t => t) outs = outs := fun outs => by simp [stored]
  have hl : ∀ c fs sh, mainLoopSee (fun sh p => nowAt W cwd (stored (fun _ t => t) sh.outputs) p) n c fs sh =
      mainLoopNow W cwd n c fs sh := by
    intro c fs
    simp only [h1]
    induction fs with
    | nil => exact fun _ => rfl
    | cons f fs ih =>
      intro sh
      unfold mainLoopSee mainLoopNow
      have e : parseSee (fun sh p => nowAt W cwd sh.outputs p) n (mainCfg c f) = parseNow W cwd n (mainCfg c f) := rfl
      rw [e]
      cases parseNow W cwd n (mainCfg c f) { outputs := sh.outputs, tick := sh.tick, log := sh.log } with
      | ok t s1 => exact ih s1
      | err er s1 => rfl
      | halt hh s1 => cases hh <;> rfl
  unfold mainStored mainSee mainNow
  cases parseFlags f with
  | exit k => rfl
  | go c =>
    dsimp only
    cases getFileList W walk c.i with
    | none => rfl
    | some files => exact hl c files {}

end

/-! ## Examples -/

/-- On the disk of `C84.W1` somebody removes the output directory, rewrites generated files and adds others, at any time. -/
def busy (_ : Shared) (p : Str) : World :=
  { C84.W1 with fs := (if p = c!"in" ∨ p = c!"in/a.xsd" ∨ p = c!"in/b.xsd" then [] else [(p, .noOpen)]) ++ C84.W1.fs }

theorem undisturbed1 : Undisturbed C84.W1 (· ∈ [c!"in", c!"in/a.xsd", c!"in/b.xsd"]) busy where
  fs sh p hp := by
    simp only [List.mem_cons, List.not_mem_nil, or_false] at hp
    rw [busy, if_pos hp]
    rfl
  size sh p := by simp [busy, World.size]
  same sh p := ⟨rfl, rfl, rfl, rfl, rfl⟩

example : @mainSee asciiUni busy C84.W1 5 walk1 flags1 = @main' asciiUni C84.W1 walk1 flags1 :=
  @elsewhere asciiUni _ [c!"home", c!"me"] _ _ _ _ _ asciiUniLaws walk1 flags1 rfl rfl (by decide)
    (@apart1 asciiUni C81.asciiNames) undisturbed1 5 (by decide)

/-- A disk with no room left. -/
def full (_ : Str) (_ : Str) : Str := []

/-- C93 is false as far as failing writes go: on a full disk all three files stay empty and the command says "done". -/
theorem full_disk : (@mainStored asciiUni C81.asciiNames full C84.W1 [c!"home", c!"me"] 5 walk1 flags1).1 = .done ∧
    stored full (@mainStored asciiUni C81.asciiNames full C84.W1 [c!"home", c!"me"] 5 walk1 flags1).2.outputs =
      [(c!"out/in/b.xsd.go", []), (c!"out/a.xsd.go", []), (c!"out/b.xsd.go", [])] := by
  decide +kernel

end Xgen.C93
