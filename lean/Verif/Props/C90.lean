import Verif.Lemmas.Origin
import Verif.Model.Cli
import Verif.Props.C06
import Verif.Props.C59
import Verif.Props.C64

/-! # C90: nothing in the generated files is invented, and nothing in the schemas can break out of its place

For arbitrary projects, of any number of files with imports and includes: every name that reaches a generator is the value of a naming
attribute of some file, every type is a target type of the table or the value of a referring attribute, with or without its prefix, and every
enumeration value is the value of an attribute.  Therefore, if the attributes of the files are spelled as XML Schema demands, every file
written reads as declarations and members as C58 says. -/

namespace Xgen.C90
open C58 (namesIn typesIn valuesIn Legible)
open C64 (contents)
open Decl (nodes)

/-! ## Specification -/

section
variable [Uni]

/-- The value of an attribute with one of these local names, in a tag with a handler, in a file of the project. -/
def Occurs (W : World) (locals : List Str) (v : Str) : Prop :=
  ∃ path toks n as a, W.fs.get? path = some (.file toks) ∧ Token.start n as ∈ toks ∧ makeFirstUpperCase n ∈ Handled.startHandled ∧ a ∈ as ∧
    a.local ∈ locals ∧ a.value = v

/-- A word in the list of the members of a union. -/
def Member (W : World) (v : Str) : Prop := ∃ l, Occurs W [c!"memberTypes"] l ∧ v ∈ splitOn ' ' l

omit [Uni] in
/-- A name with or without its prefix. -/
def Local (w v : Str) : Prop := v = w ∨ ∃ p, w = p ++ ':' :: v ∧ ':' ∉ p ∧ ':' ∉ v

/-- The names there are: empty, given by an attribute, or of a member of a union. -/
def IsName (W : World) (v : Str) : Prop :=
  v = [] ∨ Occurs W [c!"name", c!"ref", c!"base"] v ∨ ∃ w, Member W w ∧ Local w v

/-- The references there are. -/
def IsRef (W : World) (v : Str) : Prop := Occurs W [c!"name", c!"ref", c!"base", c!"type", c!"itemType"] v ∨ Member W v

/-- The types there are: none, a target type of the language, or a reference with or without its prefix. -/
def IsType (W : World) (lang v : Str) : Prop :=
  v = [] ∨ (∃ e ∈ buildInTypes, e.2[langIndex lang]? = some v) ∨ ∃ w, IsRef W w ∧ Local w v

/-- A tree made of what the files of the project contain. -/
def MadeOf (W : World) (lang : Str) (t : Tree) : Prop :=
  ∀ n ∈ nodes t, (∀ s ∈ namesIn n, IsName W s) ∧ (∀ s ∈ typesIn n, IsType W lang s) ∧ ∀ s ∈ valuesIn n, Occurs W [c!"value"] s

/-! ## Prefixes -/

omit [Uni] in
theorem trim_local (w : Str) : Local w (trimNSPrefix w) := by
  rcases C02.forms w with h | ⟨a, b, ha, hb, rfl⟩
  · exact .inl (C02.other_colons w h).2
  · rw [(C02.one_colon a b ha hb).2]
    exact .inr ⟨a, rfl, ha, hb⟩

omit [Uni] in
theorem Local.trim {w v : Str} (h : Local w v) : Local w (trimNSPrefix v) := by
  rcases h with rfl | ⟨p, e, hp, hv⟩
  · exact trim_local _
  · rw [(C02.other_colons v (by rw [List.count_eq_zero_of_not_mem hv]; decide)).2]
    exact .inr ⟨p, e, hp, hv⟩

omit [Uni] in
theorem table_trim : ∀ e ∈ buildInTypes, ∀ s ∈ e.2, trimNSPrefix s = s := by decide +kernel

theorem rules (W : World) (lang : Str) : Origin.Rules (IsName W) (IsType W lang) lang where
  name := .inl rfl
  ref := .inl rfl
  asRef := by
    rintro v (rfl | ⟨path, toks, n, as, a, h1, h2, h3, h4, h5, h6⟩ | ⟨w, h1, h2⟩)
    · exact .inl rfl
    · exact .inr (.inr ⟨v, .inl ⟨path, toks, n, as, a, h1, h2, h3, h4,
        (by decide : ∀ l ∈ [c!"name", c!"ref", c!"base"], l ∈ [c!"name", c!"ref", c!"base", c!"type", c!"itemType"]) _ h5, h6⟩, .inl rfl⟩)
    · exact .inr (.inr ⟨w, .inr h1, h2⟩)
  trim := by
    rintro v (rfl | ⟨e, he, hv⟩ | ⟨w, h1, h2⟩)
    · exact .inl rfl
    · rw [table_trim e he v (List.mem_of_getElem? hv)]
      exact .inr (.inl ⟨e, he, hv⟩)
    · exact .inr (.inr ⟨w, h1, h2.trim⟩)
  builtin := fun v t h => .inr (.inl (C06.column h))

theorem tag_ok (W : World) (lang path : Str) (toks : List Token) (h : W.fs.get? path = some (.file toks)) (n : Str) (as : List Attr)
    (hm : Token.start n as ∈ toks) (hk : onKind n ≠ none) : Origin.TagOk (IsName W) (IsType W lang) (Occurs W [c!"value"]) as := by
  have hs : makeFirstUpperCase n ∈ Handled.startHandled := by
    refine Classical.byContradiction fun hn => hk (Handled.onKind_none hn)
  have oc : ∀ a ∈ as, ∀ ls, a.local ∈ ls → Occurs W ls a.value := fun a ha ls hl => ⟨path, toks, n, as, a, h, hm, hs, ha, hl, rfl⟩
  refine fun a ha => ⟨fun hl => .inr (.inl (oc a ha _ hl)), fun hl => .inr (.inr ⟨_, .inl (oc a ha _ ?_), .inl rfl⟩),
    fun hl m hm => ?_, fun hl => oc a ha _ (by rw [hl]; decide)⟩
  · exact (by decide : ∀ l ∈ [c!"type", c!"itemType"], l ∈ [c!"name", c!"ref", c!"base", c!"type", c!"itemType"]) _ hl
  · have : Member W m := ⟨a.value, oc a ha _ (by rw [hl]; decide), hm⟩
    exact ⟨.inr (.inr ⟨m, .inr this, .inl rfl⟩), .inr (.inr ⟨m, this, trim_local m⟩)⟩

/-! ## Trees -/

omit [Uni] in
theorem made_nodes {N R E : Str → Prop} {t : Tree} (h : Origin.Tr N R E t) :
    ∀ n ∈ nodes t, (∀ s ∈ namesIn n, N s) ∧ (∀ s ∈ typesIn n, R s) ∧ ∀ s ∈ valuesIn n, E s := by
  intro n hn
  have hn := h n (by unfold nodes at hn; simpa using hn)
  cases n with
  | simple v =>
    refine ⟨?_, ?_, hn.2.2.2⟩
    · intro s hs
      rcases List.mem_cons.1 hs with rfl | hs
      · exact hn.1
      · obtain ⟨m, hm, rfl⟩ := List.mem_map.1 hs; exact (hn.2.2.1 m hm).1
    · intro s hs
      rcases List.mem_cons.1 hs with rfl | hs
      · exact hn.2.1
      · obtain ⟨m, hm, rfl⟩ := List.mem_map.1 hs; exact (hn.2.2.1 m hm).2
  | attr v =>
    refine ⟨?_, ?_, nofun⟩
    · intro s hs; rw [List.mem_singleton.1 hs]; exact hn.1
    · intro s hs; rw [List.mem_singleton.1 hs]; exact hn.2
  | elem v =>
    refine ⟨?_, ?_, nofun⟩
    · intro s hs; rw [List.mem_singleton.1 hs]; exact hn.1
    · intro s hs; rw [List.mem_singleton.1 hs]; exact hn.2
  | complex v =>
    obtain ⟨h1, h2, h3, h4, h5, h6⟩ := hn
    refine ⟨?_, ?_, nofun⟩
    · intro s hs
      simp only [namesIn, List.mem_cons, List.mem_append, List.mem_map] at hs
      rcases hs with rfl | ((⟨a, ha, rfl⟩ | ⟨a, ha, rfl⟩) | ⟨a, ha, rfl⟩) | ⟨a, ha, rfl⟩
      · exact h1
      · exact (h4 a ha).1
      · exact (h3 a ha).1
      · exact (h5 a ha).1
      · exact (h6 a ha).1
    · intro s hs
      simp only [typesIn, List.mem_cons, List.mem_append, List.mem_map] at hs
      rcases hs with rfl | ((⟨a, ha, rfl⟩ | ⟨a, ha, rfl⟩) | ⟨a, ha, rfl⟩) | ⟨a, ha, rfl⟩
      · exact h2
      · exact (h4 a ha).2
      · exact (h3 a ha).2
      · exact (h5 a ha).2
      · exact (h6 a ha).2.1
  | group v =>
    obtain ⟨h1, h2, h3, h4⟩ := hn
    refine ⟨?_, ?_, nofun⟩
    · intro s hs
      simp only [namesIn, List.mem_cons, List.mem_append, List.mem_map] at hs
      rcases hs with rfl | ⟨a, ha, rfl⟩ | ⟨a, ha, rfl⟩
      · exact h1
      · exact (h3 a ha).1
      · exact (h4 a ha).1
    · intro s hs
      simp only [typesIn, List.mem_append, List.mem_map] at hs
      rcases hs with ⟨a, ha, rfl⟩ | ⟨a, ha, rfl⟩
      · exact (h3 a ha).2
      · exact (h4 a ha).2
  | attrGroup v =>
    obtain ⟨h1, h2, h3⟩ := hn
    refine ⟨?_, ?_, nofun⟩
    · intro s hs
      simp only [namesIn, List.mem_cons, List.mem_map] at hs
      rcases hs with rfl | ⟨a, ha, rfl⟩
      · exact h1
      · exact (h3 a ha).1
    · intro s hs
      simp only [typesIn, List.mem_map] at hs
      obtain ⟨a, ha, rfl⟩ := hs
      exact (h3 a ha).2

/-! ## Files -/

/-- What a run adds to the files written. -/
def Added (W : World) (lang : Str) (pkgs : List Str) (old : List (Str × Str)) (P : Tree → Prop) (x : Str × Str) : Prop :=
  x ∈ old ∨ ∃ pkg ∈ pkgs, ∃ t, P t ∧ x.2 = contents W.gofmt lang pkg t

theorem written (W : World) {N R E : Str → Prop} {X : Tree → Prop} (lang : Str) (pkgs : List Str) (old : List (Str × Str)) (pkg : Str) (hp : pkg ∈ pkgs) :
    Origin.Written W N R E X (Added W lang pkgs old fun t => Origin.Tr N R E t ∧ X t) lang pkg := by
  intro file t sh ht hx h
  have put : ∀ path x, x = contents W.gofmt lang pkg t → Origin.Kept N R E (Added W lang pkgs old fun t => Origin.Tr N R E t ∧ X t) (writeFile W path x sh).state := by
    intro path x e
    unfold writeFile
    split
    · exact ⟨h.trees, Origin.all_snoc h.outputs (.inr ⟨pkg, hp, t, ⟨ht, hx⟩, e⟩)⟩
    · exact h
  unfold generate
  unfold contents at put
  dsimp only at put ⊢
  by_cases hl : makeFirstUpperCase lang = c!"Go"
  · rw [if_pos hl] at put ⊢
    unfold writeGo
    cases e : W.gofmt (goSource pkg t) with
    | some src => exact put _ _ (by rw [e]; rfl)
    | none =>
      have := put (fileWithExtension file c!".go") (goRawSource pkg t) (by rw [e]; rfl)
      dsimp only
      cases e' : writeFile W (fileWithExtension file c!".go") (goRawSource pkg t) sh with
      | ok a s => rw [e'] at this; exact this
      | err a s => rw [e'] at this; exact this
      | halt a s => rw [e'] at this; exact this
  rw [if_neg hl] at put ⊢
  by_cases hl : makeFirstUpperCase lang = c!"C"
  · rw [if_pos hl] at put ⊢; exact put _ _ rfl
  rw [if_neg hl] at put ⊢
  by_cases hl : makeFirstUpperCase lang = c!"Java"
  · rw [if_pos hl] at put ⊢; exact put _ _ rfl
  rw [if_neg hl] at put ⊢
  by_cases hl : makeFirstUpperCase lang = c!"Rust"
  · rw [if_pos hl] at put ⊢; exact put _ _ rfl
  rw [if_neg hl] at put ⊢
  split
  · exact put _ _ rfl
  · exact h

/-- Any rules that the tags of all files obey hold of the trees and of what is written from them. -/
theorem obeyed (W : World) {N R E : Str → Prop} {X : Tree → Prop} (hX : Origin.Ends W X) (cfg : Cfg) (hr : Origin.Rules N R cfg.lang)
    (hf : ∀ path toks, W.fs.get? path = some (.file toks) → ∀ n as, Token.start n as ∈ toks → onKind n ≠ none → Origin.TagOk N R E as)
    (h0 : cfg.tree0 = []) (sh : Shared) (hs : sh.parseFileMap = []) :
    Origin.Fair N R E (Added W cfg.lang [[], cfg.package] sh.outputs fun t => Origin.Tr N R E t ∧ X t) (Origin.Tr N R E) (Parse W cfg sh) := by
  refine Origin.fair_parse W hX hr hf (written W _ _ _ _ (by simp)) _ cfg rfl (written W _ _ _ _ (by simp)) ?_ sh ⟨?_, fun x hx => .inl hx⟩
  · rw [h0]; intro n h; cases h
  · rw [hs]; intro n h; cases h

/-- C90 for one call of the parser: the tree returned, the trees kept for later and the trees the files are written from contain names, types
and enumeration values of the project only; the latter satisfy what the tree of every file satisfies.  The outcome may be an error. -/
theorem parsed_on (W : World) {X : Tree → Prop} (hX : Origin.Ends W X) (cfg : Cfg) (h0 : cfg.tree0 = []) (sh : Shared) (hs : sh.parseFileMap = []) :
    (∀ t sh', Parse W cfg sh = .ok t sh' → MadeOf W cfg.lang t) ∧ (∀ x ∈ (Parse W cfg sh).state.parseFileMap, MadeOf W cfg.lang x.2) ∧
    ∀ x ∈ (Parse W cfg sh).state.outputs, x ∈ sh.outputs ∨ ∃ pkg ∈ [[], cfg.package], ∃ t, (MadeOf W cfg.lang t ∧ X t) ∧
      x.2 = contents W.gofmt cfg.lang pkg t := by
  obtain ⟨h1, h2⟩ := obeyed W hX cfg (rules W cfg.lang) (tag_ok W cfg.lang) h0 sh hs
  refine ⟨fun t sh' e => made_nodes (h2 t sh' e), fun x hx => made_nodes (h1.trees x hx), fun x hx => ?_⟩
  exact (h1.outputs x hx).imp id fun ⟨pkg, hp, t, ht, e⟩ => ⟨pkg, hp, t, ⟨made_nodes ht.1, ht.2⟩, e⟩

/-- The same without the addition. -/
theorem parsed (W : World) (cfg : Cfg) (h0 : cfg.tree0 = []) (sh : Shared) (hs : sh.parseFileMap = []) :
    (∀ t sh', Parse W cfg sh = .ok t sh' → MadeOf W cfg.lang t) ∧ (∀ x ∈ (Parse W cfg sh).state.parseFileMap, MadeOf W cfg.lang x.2) ∧
    ∀ x ∈ (Parse W cfg sh).state.outputs, x ∈ sh.outputs ∨ ∃ pkg ∈ [[], cfg.package], ∃ t, MadeOf W cfg.lang t ∧
      x.2 = contents W.gofmt cfg.lang pkg t := by
  obtain ⟨h1, h2, h3⟩ := parsed_on W (X := fun _ => True) (fun _ _ _ _ _ _ _ _ _ => trivial) cfg h0 sh hs
  exact ⟨h1, h2, fun x hx => (h3 x hx).imp id fun ⟨pkg, hp, t, ht, e⟩ => ⟨pkg, hp, t, ht.1, e⟩⟩

theorem loop (W : World) {X : Tree → Prop} (hX : Origin.Ends W X) (c : Config) (files : List Str) : ∀ sh, (∀ x ∈ sh.outputs, ∃ pkg ∈ [[], c.pkg], ∃ t, (MadeOf W c.lang t ∧ X t) ∧
      x.2 = contents W.gofmt c.lang pkg t) →
    ∀ x ∈ (mainLoop W c files sh).2.outputs, ∃ pkg ∈ [[], c.pkg], ∃ t, (MadeOf W c.lang t ∧ X t) ∧ x.2 = contents W.gofmt c.lang pkg t := by
  induction files with
  | nil => exact fun sh h => h
  | cons f files ih =>
    intro sh h
    have hp := (parsed_on W hX (mainCfg c f) rfl { outputs := sh.outputs, tick := sh.tick, log := sh.log } rfl).2.2
    have hq : ∀ x ∈ (Parse W (mainCfg c f) { outputs := sh.outputs, tick := sh.tick, log := sh.log }).state.outputs,
        ∃ pkg ∈ [[], c.pkg], ∃ t, (MadeOf W c.lang t ∧ X t) ∧ x.2 = contents W.gofmt c.lang pkg t :=
      fun x hx => (hp x hx).elim (h x) id
    unfold mainLoop
    cases e : Parse W (mainCfg c f) { outputs := sh.outputs, tick := sh.tick, log := sh.log } with
    | ok t s => rw [e] at hq; exact ih s hq
    | err er s => rw [e] at hq; exact hq
    | halt hl s => rw [e] at hq; cases hl <;> exact hq

/-- C90 for the command: whatever it writes, and however it ends, is written from trees that contain names, types and enumeration values of
the project only, and that satisfy what the tree of every file satisfies. -/
theorem command_on (W : World) {X : Tree → Prop} (hX : Origin.Ends W X) (walk : Str → List Str) (f : Flags) :
    ∀ x ∈ (main' W walk f).2.outputs, ∃ pkg ∈ [[], if f.p ≠ [] then f.p else c!"schema"], ∃ t, (MadeOf W f.l t ∧ X t) ∧
      x.2 = contents W.gofmt f.l pkg t := by
  unfold main'
  cases e : parseFlags f with
  | exit n => intro x hx; cases hx
  | go c =>
    have hc : c.lang = f.l ∧ c.pkg = if f.p ≠ [] then f.p else c!"schema" := by
      unfold parseFlags at e
      split at e
      · cases e
      split at e
      · cases e
      split at e
      · cases e
      split at e
      · cases e
      split at e
      · cases e
      injection e with e
      subst e
      exact ⟨rfl, rfl⟩
    dsimp only
    cases getFileList W walk c.i with
    | none => intro x hx; cases hx
    | some files =>
      have := loop W hX c files {} (by intro x hx; cases hx)
      rw [hc.1, hc.2] at this
      exact this

/-- The same without the addition. -/
theorem command (W : World) (walk : Str → List Str) (f : Flags) :
    ∀ x ∈ (main' W walk f).2.outputs, ∃ pkg ∈ [[], if f.p ≠ [] then f.p else c!"schema"], ∃ t, MadeOf W f.l t ∧
      x.2 = contents W.gofmt f.l pkg t := fun x hx => by
  obtain ⟨pkg, hp, t, ht, e⟩ := command_on W (X := fun _ => True) (fun _ _ _ _ _ _ _ _ _ => trivial) walk f x hx
  exact ⟨pkg, hp, t, ht.1, e⟩

/-! ## Well-spelled projects -/

/-- The attributes of a tag are spelled as XML Schema demands: names contain no quotes, brackets, separators or white space, lists of names no
such characters besides blanks, enumeration values no line breaks. -/
def Spelled (as : List Attr) : Prop :=
  ∀ a ∈ as, (a.local ∈ [c!"name", c!"ref", c!"base", c!"type", c!"itemType"] → Clean notInNames a.value) ∧
    (a.local = c!"memberTypes" → ∀ c ∈ notInNames, c ≠ ' ' → c ∉ a.value) ∧ (a.local = c!"value" → '\n' ∉ a.value)

/-- The same for all tags with handlers in all files. -/
def AllSpelled (W : World) : Prop :=
  ∀ path toks, W.fs.get? path = some (.file toks) → ∀ n as, Token.start n as ∈ toks → makeFirstUpperCase n ∈ Handled.startHandled → Spelled as

omit [Uni] in
theorem Local.clean {w v : Str} (h : Local w v) {bad : List Char} (hw : Clean bad w) : Clean bad v := by
  rcases h with rfl | ⟨p, rfl, -, -⟩
  · exact hw
  · exact fun c hc hm => hw c hc (by simp [hm])

theorem occurs_clean {W : World} (h : AllSpelled W) {ls : List Str} {v : Str} (ho : Occurs W ls v)
    (hl : ∀ l ∈ ls, l ∈ [c!"name", c!"ref", c!"base", c!"type", c!"itemType"]) : Clean notInNames v := by
  obtain ⟨path, toks, n, as, a, h1, h2, h3, h4, h5, h6⟩ := ho
  rw [← h6]
  exact (h path toks h1 n as h2 h3 a h4).1 (hl _ h5)

theorem member_clean {W : World} (h : AllSpelled W) {v : Str} (ho : Member W v) : Clean notInNames v := by
  obtain ⟨l, ⟨path, toks, n, as, a, h1, h2, h3, h4, h5, h6⟩, hv⟩ := ho
  have hs := (h path toks h1 n as h2 h3 a h4).2.1 (List.mem_singleton.1 h5)
  intro c hc hm
  by_cases e : c = ' '
  · subst e
    exact not_mem_of_mem_splitOn hv hm
  · rw [h6] at hs
    exact hs c hc e (C59.mem_of_mem_splitOn hv hm)

/-- Trees made of well-spelled files are legible. -/
theorem legible {W : World} (h : AllSpelled W) {lang : Str} {t : Tree} (ht : MadeOf W lang t) : Legible t := by
  intro n hn
  obtain ⟨h1, h2, h3⟩ := ht n hn
  refine ⟨fun s hs => ?_, fun s hs => ?_, fun s hs => ?_⟩
  · rcases h1 s hs with rfl | ho | ⟨w, hw, hl⟩
    · exact C59.nil_clean _
    · exact occurs_clean h ho (by decide)
    · exact hl.clean (member_clean h hw)
  · rcases h2 s hs with rfl | ⟨e, he, hv⟩ | ⟨w, hw | hw, hl⟩
    · exact C59.nil_clean _
    · exact (by decide +kernel : ∀ x ∈ buildInTypes, ∀ s ∈ x.2, Clean notInTypes s) e he s (List.mem_of_getElem? hv)
    · exact hl.clean (C59.weaken (occurs_clean h hw fun l hl => hl))
    · exact hl.clean (C59.weaken (member_clean h hw))
  · obtain ⟨path, toks, n, as, a, h1, h2, h4, h5, h6, h7⟩ := h3 s hs
    rw [← h7]
    exact (h path toks h1 n as h2 h4 a h5).2.2 (List.mem_singleton.1 h6)

/-! ## What is written reads as declarations -/

variable [UniLaws]

/-- C90, C: every file the command writes reads as the declarations of a tree made of what the files contain. -/
theorem c (W : World) (h : AllSpelled W) (walk : Str → List Str) (f : Flags) (hl : f.l = c!"C") :
    ∀ x ∈ (main' W walk f).2.outputs, ∃ t order, MadeOf W c!"C" t ∧ C58.Order order ∧ C58.C.declsOf x.2 = C59.cDecls order t := by
  intro x hx
  obtain ⟨pkg, hp, t, ht, e⟩ := command W walk f x hx
  rw [hl] at ht e
  obtain ⟨order, ho, hr⟩ := C58.C.file t (legible h ht)
  refine ⟨t, order, ht, ho, ?_⟩
  rw [e]
  unfold contents
  rw [C24.title_lang (by decide)]
  exact hr

/-- C90, Rust. -/
theorem rust (W : World) (h : AllSpelled W) (walk : Str → List Str) (f : Flags) (hl : f.l = c!"Rust") :
    ∀ x ∈ (main' W walk f).2.outputs, ∃ t order, MadeOf W c!"Rust" t ∧ C58.Order order ∧ C58.Rust.declsOf x.2 = C59.rustDecls order t := by
  intro x hx
  obtain ⟨pkg, hp, t, ht, e⟩ := command W walk f x hx
  rw [hl] at ht e
  obtain ⟨order, ho, hr⟩ := C58.Rust.file t (legible h ht)
  refine ⟨t, order, ht, ho, ?_⟩
  rw [e]
  unfold contents
  rw [C24.title_lang (by decide)]
  exact hr

omit [Uni] [UniLaws] in
theorem package_nl {f : Flags} (hp : '\n' ∉ f.p) {pkg : Str} (h : pkg ∈ [[], if f.p ≠ [] then f.p else c!"schema"]) : '\n' ∉ pkg := by
  simp only [List.mem_cons, List.not_mem_nil, or_false] at h
  rcases h with rfl | rfl
  · decide
  · split
    · exact hp
    · decide

/-- C90, Java. -/
theorem java (W : World) (h : AllSpelled W) (walk : Str → List Str) (f : Flags) (hl : f.l = c!"Java") (hp : '\n' ∉ f.p) :
    ∀ x ∈ (main' W walk f).2.outputs, ∃ t order, MadeOf W c!"Java" t ∧ C58.Order order ∧ C58.Java.declsOf x.2 = C59.javaDecls order t := by
  intro x hx
  obtain ⟨pkg, hk, t, ht, e⟩ := command W walk f x hx
  rw [hl] at ht e
  obtain ⟨order, ho, hr⟩ := C58.Java.file pkg t (package_nl hp hk) (legible h ht)
  refine ⟨t, order, ht, ho, ?_⟩
  rw [e]
  unfold contents
  rw [C24.title_lang (by decide)]
  exact hr

/-- C90, Go: what is written is what the formatter makes of a source that reads so; if it refuses, the source as it stands. -/
theorem go (W : World) (h : AllSpelled W) (walk : Str → List Str) (f : Flags) (hl : f.l = c!"Go") (hp : '\n' ∉ f.p) :
    ∀ x ∈ (main' W walk f).2.outputs, ∃ pkg t order, MadeOf W c!"Go" t ∧ C58.Order order ∧
      C58.Go.declsOf (goSource pkg t) = C59.goDecls order t ∧ x.2 = (W.gofmt (goSource pkg t)).getD (goRawSource pkg t) := by
  intro x hx
  obtain ⟨pkg, hk, t, ht, e⟩ := command W walk f x hx
  rw [hl] at ht e
  obtain ⟨order, ho, hr⟩ := C58.Go.file pkg t (package_nl hp hk) (legible h ht)
  refine ⟨pkg, t, order, ht, ho, hr, ?_⟩
  rw [e]
  unfold contents
  rw [C24.title_lang (by decide)]
  rfl

/-- C90, TypeScript, where enumeration values can be read and list types with enumeration values are the first of their names. -/
theorem ts_partial (W : World) (h : AllSpelled W) (hv : ∀ v, Occurs W [c!"value"] v → C49.Plain v) (walk : Str → List Str) (f : Flags)
    (hl : f.l = c!"TypeScript") : ∀ x ∈ (main' W walk f).2.outputs, ∃ t, MadeOf W c!"TypeScript" t ∧
      (C15.ListsNew (nodes t) → ∃ order, C58.Order order ∧ C58.TS.declsOf x.2 = C59.tsDecls order t) := by
  intro x hx
  obtain ⟨pkg, hk, t, ht, e⟩ := command W walk f x hx
  rw [hl] at ht e
  refine ⟨t, ht, fun hn => ?_⟩
  obtain ⟨order, ho, hr⟩ := C58.TS.file_partial t (legible h ht) (fun n hn s hs => hv s ((ht n hn).2.2 s hs)) hn
  refine ⟨order, ho, ?_⟩
  rw [e]
  unfold contents
  rw [C24.title_lang (by decide)]
  exact hr

end

/-! ## Examples -/

open Ex
attribute [local instance] asciiUni

/-- Decides whether a tag is well spelled. -/
instance (as : List Attr) : Decidable (Spelled as) := by unfold Spelled Clean; infer_instance

/-- Decides whether a file is well spelled. -/
instance (toks : List Token) : Decidable (∀ n as, Token.start n as ∈ toks → makeFirstUpperCase n ∈ Handled.startHandled → Spelled as) :=
  C59.decStarts _ toks

/-- A project of two files obeys the hypothesis. -/
theorem wordy_spelled : AllSpelled C64.wordy := by
  intro path toks h
  have h := GoMap.mem_of_get? h
  simp [C64.wordy, world] at h
  rcases h with ⟨-, h⟩ | ⟨-, h⟩ <;> (subst h; decide +kernel)

/-- The flags of a run on it. -/
def flags (lang : Str) : Flags := { i := c!"a.xsd", o := c!"out", l := lang }

set_option synthInstance.maxSize 1000 in
/-- What is read in the two files it writes. -/
example : (main' C64.wordy (fun _ => []) (flags c!"C")).2.outputs.map (fun x => (x.1, C58.C.declsOf x.2)) =
    [(c!"out/o.xsd.h", [(c!"typedef int S;", [], [c!"S"])]), (c!"out.h", [(c!"typedef struct {", [⟨c!"int", c!"A", false, []⟩], [c!"T"])])] := by
  decide +kernel

/-- A schema whose only name is spelled to break out of its place. -/
def evil : World := world [("a.xsd", [on "schema", on "complexType" [("name", "A {\n}\npub struct Evil")], off "complexType", off "schema"])]

/-- Without the hypothesis: one type is declared, and two are read. -/
theorem unspelled : (main' evil (fun _ => []) (flags c!"Rust")).2.outputs.map (fun x => (C58.Rust.declsOf x.2).map (·.1)) =
    [[c!"pub struct Evil ...\r", c!"pub struct A {", c!"pub struct Evil {"]] := by decide +kernel

end Xgen.C90
