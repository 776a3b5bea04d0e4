import Verif.Props.C32
import Verif.Props.C57

/-! # C64: rewording the documentation of a set of schemas changes nothing but comments

C57 is about one document, all other files being the same.  Here every file of the project may be reworded: text added, removed or changed,
comments, white space and unhandled tags inserted or taken away, in the main schema and in whatever it imports and includes. -/

namespace Xgen.C64
open C57
variable [Uni]

/-! ## Specification -/

/-- Lists related member by member. -/
inductive Each {α : Type} (R : α → α → Prop) : List α → List α → Prop
  | nil : Each R [] []
  | cons {a b : α} {as bs : List α} : R a b → Each R as bs → Each R (a :: as) (b :: bs)

/-- What the program acts on in a file: its handled tags. -/
def essence (toks : List Token) : List Token := C32.strip (noText toks)

/-- The same kind of entry; files with the same handled tags. -/
def Reworded : Entry → Entry → Prop
  | .dir, .dir => True
  | .noOpen, .noOpen => True
  | .file toks, .file toks' => essence toks = essence toks'
  | _, _ => False

/-- The same paths in the same order, reworded. -/
def AllReworded (fs fs' : GoMap Entry) : Prop := Each (fun e e' => e.1 = e'.1 ∧ Reworded e.2 e'.2) fs fs'

/-- The text a generator writes for a tree: for Go the formatted source, or the raw one if the formatter refuses it. -/
def contents (F : Str → Option Str) (lang pkg : Str) (t : Tree) : Str :=
  let l := makeFirstUpperCase lang
  if l = c!"Go" then (F (goSource pkg t)).getD (goRawSource pkg t)
  else if l = c!"C" then cSource t
  else if l = c!"Java" then javaSource pkg t
  else if l = c!"Rust" then rustSource t
  else tsSource t

/-- The same path, and contents generated for the language from trees that differ in documentation only, the first of which satisfies `P`. -/
def SameOutput (F : Str → Option Str) (L : Str) (P : Tree → Prop) (x y : Str × Str) : Prop :=
  x.1 = y.1 ∧ (x.2 = y.2 ∨ ∃ pkg t t', P t ∧ bare t = bare t' ∧ x.2 = contents F L pkg t ∧ y.2 = contents F L pkg t')

/-- Everything shared by the parsers is the same, but for documentation in the trees kept and in the files written. -/
structure Kept (F : Str → Option Str) (L : Str) (P : Tree → Prop) (s t : Shared) : Prop where
  includeMap : s.includeMap = t.includeMap
  localNS : s.localNS = t.localNS
  nsLoc : s.nsLoc = t.nsLoc
  parseFileList : s.parseFileList = t.parseFileList
  tick : s.tick = t.tick
  log : s.log = t.log
  parseFileMap : s.parseFileMap.map (fun e => (e.1, bare e.2)) = t.parseFileMap.map (fun e => (e.1, bare e.2))
  outputs : Each (SameOutput F L P) s.outputs t.outputs

/-- The same kind of outcome, with results related by `A`. -/
def SameEnd (F : Str → Option Str) (L : Str) (P : Tree → Prop) {α : Type} (A : α → α → Prop) : Out Shared α → Out Shared α → Prop
  | .ok a s, .ok b t => A a b ∧ Kept F L P s t
  | .err a s, .err b t => a = b ∧ Kept F L P s t
  | .halt a s, .halt b t => a = b ∧ Kept F L P s t
  | _, _ => False

/-- All trees. -/
def anyTree (_ : Tree) : Prop := True

/-- Whether the formatter accepts a source does not depend on the documentation in it.  (C09: documentation cannot leave its comment.) -/
def Indifferent (F : Str → Option Str) : Prop := ∀ pkg t t', bare t = bare t' → (F (goSource pkg t)).isSome = (F (goSource pkg t')).isSome

/-- The same for trees that satisfy `P`. -/
def IndifferentOn (P : Tree → Prop) (F : Str → Option Str) : Prop :=
  ∀ pkg t t', P t → bare t = bare t' → (F (goSource pkg t)).isSome = (F (goSource pkg t')).isSome

/-- The trees of all files satisfy `P`, whatever references are resolved to. -/
def Trees (W : World) (P : Tree → Prop) : Prop :=
  ∀ path toks, W.fs.get? path = some (.file toks) → ∀ gvt : Gvt, (∀ v s r s', gvt v s = .ok r s' → s'.p = s.p) →
    ∀ sh r s, run W gvt toks { sh := sh, p := {} } = .ok r s → P s.p.freeze

/-! ## Proof -/

variable {W : World} {L : Str} {P : Tree → Prop}

omit [Uni] in
theorem Each.refl {α : Type} {R : α → α → Prop} (h : ∀ a, R a a) : ∀ l, Each R l l
  | [] => .nil
  | a :: l => .cons (h a) (Each.refl h l)

omit [Uni] in
theorem Each.append {α : Type} {R : α → α → Prop} {a b c d : List α} (h : Each R a b) (h' : Each R c d) : Each R (a ++ c) (b ++ d) := by
  induction h with
  | nil => exact h'
  | cons h1 _ ih => exact .cons h1 ih

omit [Uni] in
theorem Each.length_eq {α : Type} {R : α → α → Prop} {a b : List α} (h : Each R a b) : a.length = b.length := by
  induction h with
  | nil => rfl
  | cons _ _ ih => rw [List.length_cons, List.length_cons, ih]

theorem Kept.refl {F : Str → Option Str} (s : Shared) : Kept F L P s s :=
  ⟨rfl, rfl, rfl, rfl, rfl, rfl, rfl, Each.refl (fun _ => ⟨rfl, .inl rfl⟩) _⟩

/-- Two documents with the same tags, started alike, end alike. -/
theorem run_alike {R : Shared → Shared → Prop} (hR : Respects R W.isURL) {gvt gvt' : Gvt} (hg : ∀ v, Same R (gvt v) (gvt' v))
    (toks : List Token) : ∀ toks', noText toks = noText toks' → Same R (run W gvt toks) (run W gvt' toks') := by
  have htext : ∀ (m : Go St Unit) x ts gvt, Same R m (run W gvt ts) → Same R m (run W gvt (.text x :: ts)) := by
    intro m x ts gvt h s t hst
    rw [run, Go.bind_apply, C31.total]
    exact h _ _ ⟨hst.1, hst.2.trans (onCharData_erase x t.p).symm⟩
  induction toks with
  | nil =>
    intro toks'
    induction toks' with
    | nil => exact fun _ s t h => ⟨rfl, h⟩
    | cons tok' ts' ih' =>
      intro h
      cases tok' with
      | text x => exact htext _ _ _ _ (ih' h)
      | start n as => cases h
      | stop n => cases h
      | other => cases h
  | cons tok ts ih =>
    intro toks' h
    by_cases hx : isTag tok = true
    · unfold noText at h
      rw [List.filter_cons_of_pos hx] at h
      induction toks' with
      | nil => cases h
      | cons tok' ts' ih' =>
        by_cases hx' : isTag tok' = true
        · rw [List.filter_cons_of_pos hx'] at h
          injection h with h1 h2
          subst h1
          exact (same_closed hg).bind (step_same W hR hg tok) fun _ => ih _ h2
        · rw [List.filter_cons_of_neg hx'] at h
          cases tok' with
          | text x => exact htext _ _ _ _ (ih' h)
          | start n as => exact absurd rfl hx'
          | stop n => exact absurd rfl hx'
          | other => exact absurd rfl hx'
    · unfold noText at h
      rw [List.filter_cons_of_neg hx] at h
      cases tok with
      | text x =>
        intro s t hst
        rw [run, Go.bind_apply, C31.total]
        exact ih _ h _ _ ⟨hst.1, (onCharData_erase x s.p).trans hst.2⟩
      | start n as => exact absurd rfl hx
      | stop n => exact absurd rfl hx
      | other => exact absurd rfl hx

theorem kept_import (isURL : Str → Bool) (as : List Attr) {s t : Shared} (h : Kept W.gofmt L P s t) : Kept W.gofmt L P (onImport isURL as s) (onImport isURL as t) := by
  have key : ∀ (as : List Attr) (a b : Str × Shared), a.1 = b.1 → Kept W.gofmt L P a.2 b.2 →
      (as.foldl (onImportAttr isURL) a).1 = (as.foldl (onImportAttr isURL) b).1 ∧
      Kept W.gofmt L P (as.foldl (onImportAttr isURL) a).2 (as.foldl (onImportAttr isURL) b).2 := by
    intro as
    induction as with
    | nil => exact fun a b h1 h2 => ⟨h1, h2⟩
    | cons x as ih =>
      intro a b h1 h2
      refine ih _ _ ?_ ?_
      · unfold onImportAttr
        rw [h1, h2.nsLoc]
        repeat' split <;> try rfl
        all_goals exact h1
      · unfold onImportAttr
        rw [h1, h2.nsLoc]
        by_cases c1 : x.local = c!"namespace"
        · rw [if_pos c1, if_pos c1]; exact h2
        rw [if_neg c1, if_neg c1]
        by_cases c2 : x.local = c!"schemaLocation"
        · rw [if_pos c2, if_pos c2]
          by_cases c3 : b.2.nsLoc.has b.1 = true
          · rw [if_pos c3, if_pos c3]; exact h2
          rw [if_neg c3, if_neg c3]
          by_cases c4 : isURL x.value = true
          · rw [if_pos c4, if_pos c4]; exact h2
          rw [if_neg c4, if_neg c4]
          exact { h2 with nsLoc := rfl }
        · rw [if_neg c2, if_neg c2]; exact h2
  exact (key as ([], s) ([], t) rfl h).2

theorem kept_include (as : List Attr) : ∀ {s t : Shared}, Kept W.gofmt L P s t → Kept W.gofmt L P (onInclude as s) (onInclude as t) := by
  unfold onInclude
  induction as with
  | nil => exact fun h => h
  | cons x as ih =>
    intro s t h
    refine ih ?_
    dsimp only
    rw [h.includeMap]
    by_cases c1 : x.local = c!"schemaLocation"
    · rw [if_pos c1, if_pos c1]
      by_cases c2 : t.includeMap.has x.value = true
      · rw [if_pos c2, if_pos c2]; exact h
      · rw [if_neg c2, if_neg c2]; exact { h with includeMap := rfl }
    · rw [if_neg c1, if_neg c1]; exact h

theorem kept_schema (as : List Attr) : ∀ {s t : Shared}, Kept W.gofmt L P s t → Kept W.gofmt L P (onSchema as s) (onSchema as t) := by
  unfold onSchema
  induction as with
  | nil => exact fun h => h
  | cons x as ih =>
    intro s t h
    refine ih ?_
    dsimp only
    rw [h.localNS]
    by_cases c1 : x.space = c!"xmlns"
    · rw [if_pos c1, if_pos c1]; exact { h with localNS := rfl }
    · rw [if_neg c1, if_neg c1]; exact h

theorem kept_respects (isURL : Str → Bool) : Respects (Kept W.gofmt L P) isURL :=
  ⟨fun as _ _ h => kept_import isURL as h, fun as _ _ h => kept_include as h, fun as _ _ h => kept_schema as h⟩

omit [Uni] in
theorem base_alike (name : Str) {t t' : Tree} (h : bare t = bare t') : getBasefromSimpleType name t = getBasefromSimpleType name t' := by
  rw [← base_bare, h, base_bare]

omit [Uni] in
theorem map_set (m : GoMap Tree) (k : Str) (t : Tree) :
    (m.set k t).map (fun e => (e.1, bare e.2)) = GoMap.set (m.map (fun e => (e.1, bare e.2))) k (bare t) := by
  induction m with
  | nil => rfl
  | cons e m ih =>
    obtain ⟨k', v⟩ := e
    unfold GoMap.set
    simp only [List.map_cons]
    by_cases h : k' = k
    · rw [if_pos h, if_pos h]; rfl
    · rw [if_neg h, if_neg h, List.map_cons, ih]

omit [Uni] in
theorem map_get? (m : GoMap Tree) (k : Str) : GoMap.get? (m.map (fun e => (e.1, bare e.2))) k = (m.get? k).map bare := by
  induction m with
  | nil => rfl
  | cons e m ih =>
    obtain ⟨k', v⟩ := e
    simp only [List.map_cons, GoMap.get?]
    by_cases h : k' = k
    · rw [if_pos h, if_pos h]; rfl
    · rw [if_neg h, if_neg h, ih]

theorem kept_register (path : Str) {t t' : Tree} (ht : bare t = bare t') {a b : Shared} (h : Kept W.gofmt L P a b) :
    Kept W.gofmt L P (register path t a) (register path t' b) :=
  { h with
    parseFileList := by show a.parseFileList.set path true = b.parseFileList.set path true; rw [h.parseFileList]
    parseFileMap := by
      show (a.parseFileMap.set path t).map _ = (b.parseFileMap.set path t').map _
      rw [map_set, map_set, h.parseFileMap, ht] }

theorem kept_begin (cfg : Cfg) {a b : Shared} (h : Kept W.gofmt cfg.lang P a b) : Kept W.gofmt cfg.lang P (beginParse cfg a) (beginParse cfg b) := by
  have h1 : Kept W.gofmt cfg.lang P { a with log := a.log ++ [(cfg.filePath, cfg.extract)] } { b with log := b.log ++ [(cfg.filePath, cfg.extract)] } :=
    { h with log := by show a.log ++ _ = b.log ++ _; rw [h.log] }
  unfold beginParse
  dsimp only
  by_cases c : cfg.extract = true
  · rw [if_pos c, if_pos c]; exact h1
  · rw [if_neg c, if_neg c]; exact kept_register _ rfl h1

theorem writeFile_alike (path : Str) {x y : Str} (hxy : SameOutput W.gofmt L P (path, x) (path, y)) {a b : Shared} (h : Kept W.gofmt L P a b) :
    SameEnd W.gofmt L P (· = ·) (writeFile W path x a) (writeFile W path y b) := by
  unfold writeFile
  by_cases c : W.createOk path = true
  · rw [if_pos c, if_pos c]
    refine ⟨rfl, { h with outputs := ?_ }⟩
    exact Each.append h.outputs (.cons hxy .nil)
  · rw [if_neg c, if_neg c]
    exact ⟨rfl, h⟩

theorem writeGo_alike (hW : IndifferentOn P W.gofmt) (lang file pkg : Str) (hl : makeFirstUpperCase lang = c!"Go") {t t' : Tree} (hP : P t) (ht : bare t = bare t')
    {a b : Shared} (h : Kept W.gofmt lang P a b) : SameEnd W.gofmt lang P (· = ·) (writeGo W file pkg t a) (writeGo W file pkg t' b) := by
  have hc : ∀ t, contents W.gofmt lang pkg t = (W.gofmt (goSource pkg t)).getD (goRawSource pkg t) := by
    intro t; unfold contents; rw [hl]; rfl
  have hs := hW pkg t t' hP ht
  have c1 := hc t
  have c2 := hc t'
  unfold writeGo
  revert hs c1 c2
  cases W.gofmt (goSource pkg t) with
  | none =>
    cases W.gofmt (goSource pkg t') with
    | none =>
      intro _ c1 c2
      have := writeFile_alike (fileWithExtension file c!".go") (x := goRawSource pkg t) (y := goRawSource pkg t')
        ⟨rfl, .inr ⟨pkg, t, t', hP, ht, c1.symm, c2.symm⟩⟩ h
      dsimp only
      revert this
      cases writeFile W (fileWithExtension file c!".go") (goRawSource pkg t) a <;>
        cases writeFile W (fileWithExtension file c!".go") (goRawSource pkg t') b <;> intro this
      case ok.ok => exact ⟨rfl, this.2⟩
      case err.err => exact this
      case halt.halt => exact this
      all_goals exact this.elim
    | some y => intro hs; cases hs
  | some x =>
    cases W.gofmt (goSource pkg t') with
    | none => intro hs; cases hs
    | some y =>
      intro _ c1 c2
      exact writeFile_alike (x := x) (y := y) _ ⟨rfl, .inr ⟨pkg, t, t', hP, ht, c1.symm, c2.symm⟩⟩ h

theorem generate_alike (lang pkg file : Str) (hW : makeFirstUpperCase lang = c!"Go" → IndifferentOn P W.gofmt) {t t' : Tree} (hP : P t) (ht : bare t = bare t')
    {a b : Shared} (h : Kept W.gofmt lang P a b) : SameEnd W.gofmt lang P (· = ·) (generate W lang pkg file t a) (generate W lang pkg file t' b) := by
  unfold generate
  by_cases c1 : makeFirstUpperCase lang = c!"Go"
  · rw [if_pos c1, if_pos c1]
    exact writeGo_alike (hW c1) lang file pkg c1 hP ht h
  rw [if_neg c1, if_neg c1]
  have key : ∀ (Q : Prop) [Decidable Q] (path : Str) (src : Tree → Str) (m : Tree → Go Shared Unit),
      (Q → ∀ t, contents W.gofmt lang pkg t = src t) → (¬Q → SameEnd W.gofmt lang P (· = ·) (m t a) (m t' b)) →
      SameEnd W.gofmt lang P (· = ·) ((if Q then writeFile W path (src t) else m t) a) ((if Q then writeFile W path (src t') else m t') b) := by
    intro Q _ path src m h1 h2
    by_cases hp : Q
    · rw [if_pos hp, if_pos hp]
      exact writeFile_alike (x := src t) (y := src t') _ ⟨rfl, .inr ⟨pkg, t, t', hP, ht, (h1 hp t).symm, (h1 hp t').symm⟩⟩ h
    · rw [if_neg hp, if_neg hp]; exact h2 hp
  refine key (makeFirstUpperCase lang = c!"C") _ cSource (fun t => if makeFirstUpperCase lang = c!"Java" then writeFile W (fileWithExtension file c!".java") (javaSource pkg t)
    else if makeFirstUpperCase lang = c!"Rust" then writeFile W (fileWithExtension file c!".rs") (rustSource t)
    else if makeFirstUpperCase lang = c!"TypeScript" then writeFile W (fileWithExtension file c!".ts") (tsSource t)
    else pure ()) (fun hp t => by unfold contents; simp only [hp]; rfl) fun c2 => ?_
  refine key (makeFirstUpperCase lang = c!"Java") _ (javaSource pkg) (fun t => if makeFirstUpperCase lang = c!"Rust" then writeFile W (fileWithExtension file c!".rs") (rustSource t)
    else if makeFirstUpperCase lang = c!"TypeScript" then writeFile W (fileWithExtension file c!".ts") (tsSource t)
    else pure ()) (fun hp t => by unfold contents; simp only [hp]; rfl) fun c3 => ?_
  refine key (makeFirstUpperCase lang = c!"Rust") _ rustSource (fun t => if makeFirstUpperCase lang = c!"TypeScript" then writeFile W (fileWithExtension file c!".ts") (tsSource t)
    else pure ()) (fun hp t => by unfold contents; simp only [hp]; rfl) fun c4 => ?_
  refine key (makeFirstUpperCase lang = c!"TypeScript") _ tsSource (fun _ => pure ()) (fun hp t => by unfold contents; simp only [hp]; rfl) fun c5 => ?_
  exact ⟨rfl, h⟩

theorem finish_alike (cfg : Cfg) (hW : makeFirstUpperCase cfg.lang = c!"Go" → IndifferentOn P W.gofmt) {t t' : Tree} (hP : P t) (ht : bare t = bare t') {a b : Shared} (h : Kept W.gofmt cfg.lang P a b) :
    SameEnd W.gofmt cfg.lang P (fun t t' => bare t = bare t') (finish W cfg t a) (finish W cfg t' b) := by
  unfold finish
  by_cases c : cfg.extract = true
  · rw [if_pos c, if_pos c]; exact ⟨ht, h⟩
  rw [if_neg c, if_neg c]
  dsimp only
  have hr := kept_register cfg.filePath ht h
  by_cases c1 : W.mkdirOk (pathDir (outputPath cfg)) = true
  · rw [if_pos c1, if_pos c1]
    have := generate_alike cfg.lang cfg.package (outputPath cfg) hW hP ht hr
    revert this
    cases generate W cfg.lang cfg.package (outputPath cfg) t (register cfg.filePath t a) <;>
      cases generate W cfg.lang cfg.package (outputPath cfg) t' (register cfg.filePath t' b) <;> intro this
    case ok.ok => exact ⟨ht, this.2⟩
    case err.err => exact this
    case halt.halt => exact this
    all_goals exact this.elim
  · rw [if_neg c1, if_neg c1]; exact ⟨rfl, hr⟩

/-- Two parsers for the language `L` that end alike when started alike. -/
def Twins (F : Str → Option Str) (L : Str) (P : Tree → Prop) (rec rec' : Cfg → Go Shared Tree) : Prop :=
  ∀ cfg a b, cfg.lang = L → Kept F L P a b → SameEnd F L P (fun t t' => bare t = bare t') (rec cfg a) (rec' cfg b)

variable {rec rec' : Cfg → Go Shared Tree}

theorem includeLoop_alike (cfg : Cfg) (fs' : GoMap Entry) (hrec : Twins W.gofmt cfg.lang P rec rec') (name : Str) (init : List Str) (k : Nat) :
    ∀ visited vt a b, Kept W.gofmt cfg.lang P a b → SameEnd W.gofmt cfg.lang P (· = ·) (includeLoop W rec cfg name init k visited vt a)
      (includeLoop { W with fs := fs' } rec' cfg name init k visited vt b) := by
  induction k with
  | zero => exact fun _ _ a b h => ⟨rfl, h⟩
  | succ k ih =>
    intro visited vt a b h
    unfold includeLoop
    have hk : nextKey { W with fs := fs' } init visited b = nextKey W init visited a := by
      unfold nextKey; rw [h.includeMap, h.tick]
    rw [hk]
    dsimp only
    have h1 : Kept W.gofmt cfg.lang P { a with tick := a.tick + 1 } { b with tick := b.tick + 1 } :=
      { h with tick := by show a.tick + 1 = b.tick + 1; rw [h.tick] }
    cases nextKey W init visited a with
    | none => exact ⟨rfl, h1⟩
    | some inc =>
      dsimp only
      have h2 := hrec (nestedCfg cfg (pathJoin cfg.fileDir inc) true) _ _ rfl h1
      revert h2
      cases rec (nestedCfg cfg (pathJoin cfg.fileDir inc) true) { a with tick := a.tick + 1 } <;>
        cases rec' (nestedCfg cfg (pathJoin cfg.fileDir inc) true) { b with tick := b.tick + 1 } <;> intro h2
      case ok.ok t s t' s' =>
        dsimp only
        rw [base_alike name h2.1]
        exact ih _ _ _ _ h2.2
      case err.err => exact ⟨rfl, h2.2⟩
      case halt.halt => exact h2
      all_goals exact h2.elim

theorem resolveInDep_alike (cfg : Cfg) (hrec : Twins W.gofmt cfg.lang P rec rec') (name xsdFile : Str) {t t' : Tree} (ht : bare t = bare t') {a b : Shared}
    (h : Kept W.gofmt cfg.lang P a b) : SameEnd W.gofmt cfg.lang P (· = ·) (resolveInDep rec cfg name xsdFile t a) (resolveInDep rec' cfg name xsdFile t' b) := by
  unfold resolveInDep
  dsimp only
  rw [base_alike name ht]
  cases (getBasefromSimpleType name t' ≠ name && getBasefromSimpleType name t' ≠ []) with
  | true => exact ⟨rfl, h⟩
  | false =>
    have h2 := hrec (nestedCfg cfg xsdFile true) _ _ rfl h
    revert h2
    cases rec (nestedCfg cfg xsdFile true) a <;> cases rec' (nestedCfg cfg xsdFile true) b <;> intro h2
    case ok.ok t s t' s' =>
      refine ⟨?_, h2.2⟩
      rw [base_alike name h2.1]
    case err.err => exact ⟨rfl, h2.2⟩
    case halt.halt => exact h2
    all_goals exact h2.elim

theorem resolveInFile_alike (cfg : Cfg) (hrec : Twins W.gofmt cfg.lang P rec rec') (name vt xsdFile : Str) {a b : Shared}
    (h : Kept W.gofmt cfg.lang P a b) : SameEnd W.gofmt cfg.lang P (· = ·) (resolveInFile rec cfg name vt xsdFile a) (resolveInFile rec' cfg name vt xsdFile b) := by
  have hm : (a.parseFileMap.get? xsdFile).map bare = (b.parseFileMap.get? xsdFile).map bare := by
    rw [← map_get?, h.parseFileMap, map_get?]
  unfold resolveInFile
  revert hm
  cases a.parseFileMap.get? xsdFile <;> cases b.parseFileMap.get? xsdFile <;> intro hm
  case some.some t t' => injection hm with hm; exact resolveInDep_alike cfg hrec name xsdFile hm h
  case none.none =>
    dsimp only
    have h2 := hrec (nestedCfg cfg xsdFile false) _ _ rfl h
    revert h2
    cases rec (nestedCfg cfg xsdFile false) a <;> cases rec' (nestedCfg cfg xsdFile false) b <;> intro h2
    case ok.ok t s t' s' => exact resolveInDep_alike cfg hrec name xsdFile h2.1 h2.2
    case err.err => exact ⟨rfl, h2.2⟩
    case halt.halt => exact h2
    all_goals exact h2.elim
  all_goals cases hm

/-- The same, for files that differ in text only. -/
def TextOnly : Entry → Entry → Prop
  | .dir, .dir => True
  | .noOpen, .noOpen => True
  | .file toks, .file toks' => noText toks = noText toks'
  | _, _ => False

/-- All files differ in text only. -/
def AllTextOnly (fs fs' : GoMap Entry) : Prop := Each (fun e e' => e.1 = e'.1 ∧ TextOnly e.2 e'.2) fs fs'

variable {fs' : GoMap Entry}

omit [Uni] in
theorem get?_alike {fs fs' : GoMap Entry} (h : AllTextOnly fs fs') (path : Str) :
    (fs.get? path = none ∧ fs'.get? path = none) ∨ ∃ e e', fs.get? path = some e ∧ fs'.get? path = some e' ∧ TextOnly e e' := by
  induction h with
  | nil => exact .inl ⟨rfl, rfl⟩
  | @cons e e' fs fs' h1 h2 ih =>
    obtain ⟨k, v⟩ := e
    obtain ⟨k', v'⟩ := e'
    obtain ⟨h1, h3⟩ := h1
    dsimp only at h1 h3
    subst h1
    unfold GoMap.get?
    by_cases h : k = path
    · rw [if_pos h, if_pos h]; exact .inr ⟨v, v', rfl, rfl, h3⟩
    · rw [if_neg h, if_neg h]; exact ih

omit [Uni] in
theorem size_noText (toks : List Token) : ((noText toks).map Token.size).sum = (toks.map Token.size).sum := by
  induction toks with
  | nil => rfl
  | cons t ts ih =>
    unfold noText at ih ⊢
    cases t <;> simp [List.filter_cons, isTag, ih, Token.size]

omit [Uni] in
theorem size_alike (h : AllTextOnly W.fs fs') : ({ W with fs := fs' } : World).size = W.size := by
  show (fs'.map (fun e => e.2.size)).sum = (W.fs.map (fun e => e.2.size)).sum
  generalize W.fs = fs at h
  induction h with
  | nil => rfl
  | @cons e e' fs fs' h1 h2 ih =>
    obtain ⟨k, v⟩ := e
    obtain ⟨k', v'⟩ := e'
    have : v'.size = v.size := by
      have h3 := h1.2
      cases v <;> cases v' <;> first | rfl | exact h3.elim | skip
      case file.file a b =>
        show (b.map Token.size).sum = (a.map Token.size).sum
        rw [← size_noText, ← size_noText a]
        exact congrArg (fun l => (l.map Token.size).sum) h3.symm
    rw [List.map_cons, List.map_cons, List.sum_cons, List.sum_cons, ih, this]

theorem getValueType_alike (cfg : Cfg) (hf : AllTextOnly W.fs fs') (hrec : Twins W.gofmt cfg.lang P rec rec') (value : Str) {t t' : Tree}
    (ht : bare t = bare t') {a b : Shared} (h : Kept W.gofmt cfg.lang P a b) :
    SameEnd W.gofmt cfg.lang P (· = ·) (getValueType W rec cfg value t a) (getValueType { W with fs := fs' } rec' cfg value t' b) := by
  unfold getValueType
  dsimp only
  rw [base_alike (trimNSPrefix value) ht]
  cases getBuildInTypeByLang (trimNSPrefix value) cfg.lang with
  | some x => exact ⟨rfl, h⟩
  | none =>
    dsimp only
    cases (getBasefromSimpleType (trimNSPrefix value) t' ≠ trimNSPrefix value && getBasefromSimpleType (trimNSPrefix value) t' ≠ []) with
    | true => exact ⟨rfl, h⟩
    | false =>
      cases cfg.extract with
      | true => exact ⟨rfl, h⟩
      | false =>
        show SameEnd W.gofmt cfg.lang P (· = ·) (resolveOutside W rec cfg value _ a) (resolveOutside { W with fs := fs' } rec' cfg value _ b)
        unfold resolveOutside
        dsimp only
        rw [h.nsLoc, h.localNS]
        cases W.isURL (b.nsLoc.getStr (b.localNS.getStr (getNSPrefix value))) with
        | true => exact ⟨rfl, h⟩
        | false =>
          simp only [Bool.false_eq_true, if_false]
          rcases get?_alike hf (pathJoin cfg.fileDir (b.nsLoc.getStr (b.localNS.getStr (getNSPrefix value)))) with ⟨h1, h2⟩ | ⟨e, e', h1, h2, h3⟩
          · rw [h1, h2]; exact ⟨rfl, h⟩
          · rw [h1, h2]
            cases e <;> cases e' <;> first | exact h3.elim | skip
            case dir.dir =>
              dsimp only
              rw [size_alike hf, h.includeMap]
              have hl := includeLoop_alike cfg fs' hrec (trimNSPrefix value) b.includeMap.keys (b.includeMap.length + W.size + 1) [] [] a b h
              revert hl
              cases includeLoop W rec cfg (trimNSPrefix value) b.includeMap.keys (b.includeMap.length + W.size + 1) [] [] a <;>
                cases includeLoop { W with fs := fs' } rec' cfg (trimNSPrefix value) b.includeMap.keys (b.includeMap.length + W.size + 1) [] [] b <;>
                intro hl
              case ok.ok => exact ⟨by rw [hl.1], hl.2⟩
              case err.err => exact hl
              case halt.halt => exact hl
              all_goals exact hl.elim
            all_goals exact resolveInFile_alike cfg hrec _ _ _ h

theorem gvtOf_alike (cfg : Cfg) (hf : AllTextOnly W.fs fs') (hrec : Twins W.gofmt cfg.lang P rec rec') (v : Str) :
    Same (Kept W.gofmt cfg.lang P) (gvtOf W rec cfg v) (gvtOf { W with fs := fs' } rec' cfg v) := by
  intro s t h
  have hb : bare s.p.freeze = bare t.p.freeze := by rw [← freeze_erase, h.2, freeze_erase]
  have := getValueType_alike cfg hf hrec v hb h.1
  unfold gvtOf
  revert this
  cases getValueType W rec cfg v s.p.freeze s.sh <;> cases getValueType { W with fs := fs' } rec' cfg v t.p.freeze t.sh <;> intro this
  case ok.ok => exact ⟨this.1, this.2, h.2⟩
  case err.err => exact ⟨this.1, this.2, h.2⟩
  case halt.halt => exact ⟨this.1, this.2, h.2⟩
  all_goals exact this.elim

theorem finish_world (fs' : GoMap Entry) (cfg : Cfg) (t : Tree) (sh : Shared) : finish { W with fs := fs' } cfg t sh = finish W cfg t sh := rfl

theorem gvtOf_still (W : World) (rec : Cfg → Go Shared Tree) (cfg : Cfg) (v : Str) (s : St) (r : Str × Option Err) (s' : St)
    (h : gvtOf W rec cfg v s = .ok r s') : s'.p = s.p := by
  unfold gvtOf at h
  cases e : getValueType W rec cfg v s.p.freeze s.sh with
  | ok x sh => rw [e] at h; cases h; rfl
  | err x sh => rw [e] at h; cases h
  | halt x sh => rw [e] at h; cases h

theorem parseWith_twins {L : Str} (hW : makeFirstUpperCase L = c!"Go" → IndifferentOn P W.gofmt) (hf : AllTextOnly W.fs fs')
    (ht : Trees W P) (hrec : Twins W.gofmt L P rec rec') : Twins W.gofmt L P (parseWith W rec) (parseWith { W with fs := fs' } rec') := by
  intro cfg a b hL h
  subst hL
  unfold parseWith
  rcases get?_alike hf cfg.filePath with ⟨h1, h2⟩ | ⟨e, e', h1, h2, h3⟩
  · rw [h1, h2]; exact ⟨rfl, h⟩
  · rw [h1, h2]
    cases e <;> cases e' <;> first | exact h3.elim | skip
    case dir.dir => exact ⟨rfl, h⟩
    case noOpen.noOpen => exact ⟨rfl, h⟩
    case file.file toks toks' =>
      dsimp only
      unfold parseOpen
      rw [C32.run_world (W := W) (W' := { W with fs := fs' }) rfl]
      have hr := run_alike (kept_respects W.isURL) (gvtOf_alike cfg hf hrec) toks toks' h3 { sh := beginParse cfg a, p := {} }
        { sh := beginParse cfg b, p := {} } ⟨kept_begin cfg h, rfl⟩
      have hp := ht cfg.filePath toks h1 (gvtOf W rec cfg) (gvtOf_still W rec cfg) (beginParse cfg a)
      revert hr hp
      cases run W (gvtOf W rec cfg) toks { sh := beginParse cfg a, p := {} } <;>
        cases run W (gvtOf { W with fs := fs' } rec' cfg) toks' { sh := beginParse cfg b, p := {} } <;> intro hr hp
      case ok.ok x s y t =>
        have hb : bare s.p.freeze = bare t.p.freeze := by rw [← freeze_erase, hr.2.2, freeze_erase]
        exact finish_alike cfg hW (hp x s rfl) hb hr.2.1
      case err.err => exact ⟨hr.1, hr.2.1⟩
      case halt.halt => exact ⟨hr.1, hr.2.1⟩
      all_goals exact hr.elim

theorem parse_twins {L : Str} (hW : makeFirstUpperCase L = c!"Go" → IndifferentOn P W.gofmt) (hf : AllTextOnly W.fs fs') (ht : Trees W P) (n : Nat) :
    Twins W.gofmt L P (parse W n) (parse { W with fs := fs' } n) := by
  induction n with
  | zero => exact fun cfg a b _ h => ⟨rfl, h⟩
  | succ n ih => exact parseWith_twins hW hf ht ih

omit [Uni] in
theorem noText_strip [Uni] (toks : List Token) : noText (C32.strip toks) = essence toks := by
  unfold essence noText C32.strip
  rw [List.filter_filter, List.filter_filter]
  congr 1
  funext t
  exact Bool.and_comm _ _

/-- C64 for trees that satisfy `P`: two projects whose files differ only in text, comments and unhandled tags are translated alike: the same outcome, the same files
read and written, contents generated from trees that differ in documentation only. -/
theorem reworded_on (cfg : Cfg) (hW : makeFirstUpperCase cfg.lang = c!"Go" → IndifferentOn P W.gofmt) (hf : AllReworded W.fs fs')
    (hn : ∀ path toks, W.fs.get? path = some (.file toks) → C32.NamesOk toks)
    (hn' : ∀ path toks, fs'.get? path = some (.file toks) → C32.NamesOk toks) (ht : Trees (C32.stripWorld W) P)
    (a b : Shared) (h : Kept W.gofmt cfg.lang P a b) :
    SameEnd W.gofmt cfg.lang P (fun t t' => bare t = bare t') (Parse W cfg a) (Parse { W with fs := fs' } cfg b) := by
  rw [← C32.transparent_world W hn, ← C32.transparent_world { W with fs := fs' } hn']
  have h1 : AllTextOnly (C32.stripWorld W).fs (C32.stripWorld { W with fs := fs' }).fs := by
    show AllTextOnly (W.fs.map _) (fs'.map _)
    generalize W.fs = fs at hf
    clear hn hn'
    induction hf with
    | nil => exact .nil
    | @cons e e' fs fs' h1 h2 ih =>
      refine .cons ⟨h1.1, ?_⟩ ih
      obtain ⟨k, v⟩ := e
      obtain ⟨k', v'⟩ := e'
      have h3 := h1.2
      cases v <;> cases v' <;> first | exact h3.elim | trivial | skip
      case file.file a b =>
        show noText (C32.strip a) = noText (C32.strip b)
        rw [noText_strip, noText_strip]
        exact h3
  have hl : (C32.stripWorld { W with fs := fs' }).fs.length = (C32.stripWorld W).fs.length := h1.length_eq.symm
  unfold Parse
  rw [hl]
  exact parse_twins (W := C32.stripWorld W) hW h1 ht _ cfg a b rfl h

/-- C64: two projects whose files differ only in text, comments and unhandled tags are translated alike: the same outcome, the same files
read and written, contents generated from trees that differ in documentation only. -/
theorem reworded (cfg : Cfg) (hW : makeFirstUpperCase cfg.lang = c!"Go" → Indifferent W.gofmt) (hf : AllReworded W.fs fs')
    (hn : ∀ path toks, W.fs.get? path = some (.file toks) → C32.NamesOk toks)
    (hn' : ∀ path toks, fs'.get? path = some (.file toks) → C32.NamesOk toks) (sh : Shared) :
    SameEnd W.gofmt cfg.lang anyTree (fun t t' => bare t = bare t') (Parse W cfg sh) (Parse { W with fs := fs' } cfg sh) :=
  reworded_on cfg (fun h pkg t t' _ hb => hW h pkg t t' hb) hf hn hn' (fun _ _ _ _ _ _ _ _ _ => trivial) sh sh (Kept.refl sh)

/-! ## Example -/

open Ex

/-- A schema importing another one. -/
def plainMain : List Token :=
  [on "schema" [("xmlns:o", "urn:o")], on "import" [("namespace", "urn:o"), ("schemaLocation", "o.xsd")], off "import",
    on "complexType" [("name", "T")], on "sequence", on "element" [("name", "a"), ("type", "o:S")], off "element", off "sequence",
    off "complexType", off "schema"]

/-- The imported schema. -/
def plainOther : List Token :=
  [on "schema", on "simpleType" [("name", "S")], on "restriction" [("base", "xs:int")], off "restriction", off "simpleType", off "schema"]

/-- The schema with white space, documentation and comments. -/
def wordyMain : List Token :=
  [txt "\n", on "schema" [("xmlns:o", "urn:o")], txt "\n ", on "import" [("namespace", "urn:o"), ("schemaLocation", "o.xsd")], off "import", .other,
    on "complexType" [("name", "T")], on "annotation", on "documentation", txt "A type.", off "documentation", off "annotation",
    on "sequence", on "element" [("name", "a"), ("type", "o:S")], off "element", off "sequence",
    off "complexType", txt "\n", off "schema"]

/-- The imported schema with documentation. -/
def wordyOther : List Token :=
  [on "schema", on "simpleType" [("name", "S")], on "annotation", on "documentation", txt "A number.", off "documentation", off "annotation",
    on "restriction" [("base", "xs:int")], off "restriction", off "simpleType", off "schema"]

/-- The plain project. -/
def plain : World := world [("a.xsd", plainMain), ("o.xsd", plainOther)]

/-- The project with documentation. -/
def wordy : World := world [("a.xsd", wordyMain), ("o.xsd", wordyOther)]

instance (toks : List Token) : Decidable (C32.NamesOk toks) :=
  decidable_of_iff (toks.all fun | .start n _ => n ≠ [] | _ => true) (by
    rw [List.all_eq_true]
    constructor
    · intro h n as hm
      simpa using h _ hm
    · intro h t ht
      cases t with
      | start n as => simpa using h n as ht
      | stop n => rfl
      | text x => rfl
      | other => rfl)

/-- The hypotheses hold. -/
example : @AllReworded asciiUni plain.fs wordy.fs ∧ @Indifferent asciiUni plain.gofmt ∧
    (∀ path toks, plain.fs.get? path = some (.file toks) → C32.NamesOk toks) ∧
    (∀ path toks, wordy.fs.get? path = some (.file toks) → C32.NamesOk toks) := by
  refine ⟨?_, fun _ _ _ _ => rfl, ?_, ?_⟩
  · refine .cons ⟨rfl, trivial⟩ (.cons ⟨rfl, ?_⟩ (.cons ⟨rfl, ?_⟩ .nil))
    · show @essence asciiUni plainMain = @essence asciiUni wordyMain; decide +kernel
    · show @essence asciiUni plainOther = @essence asciiUni wordyOther; decide +kernel
  all_goals
    intro path toks h
    have h := GoMap.mem_of_get? h
    simp [plain, wordy, world] at h
    rcases h with ⟨-, h⟩ | ⟨-, h⟩ <;> (subst h; decide)

/-- What is written for the main schema: the result type and the paths and contents. -/
def written (W : World) : Option (List (Str × Str)) :=
  match Ex.parse W "a.xsd" "Rust" with
  | .ok _ sh => some sh.outputs
  | _ => none

/-- The same files, differing in comments. -/
example : (written plain).map (·.map (·.1)) = some [c!"o.xsd.rs", c!"a.xsd.rs"] ∧ (written wordy).map (·.map (·.1)) = (written plain).map (·.map (·.1)) ∧
    written wordy ≠ written plain := by decide +kernel

/-- Without the hypothesis on the formatter: one that refuses the letter Q in a comment makes the translation fail. -/
def picky : World := { wordy with gofmt := fun s => if s.contains 'Q' then none else some s,
                                  fs := [(c!".", .dir), (c!"a.xsd", .file [on "complexType" [("name", "T")], txt "Q", off "complexType"])] }

/-- The same without the text. -/
def pickyPlain : World := { picky with fs := [(c!".", .dir), (c!"a.xsd", .file [on "complexType" [("name", "T")], off "complexType"])] }

theorem formatter_matters : kind (Ex.parse picky "a.xsd" "Go") = some none ∧ kind (Ex.parse pickyPlain "a.xsd" "Go") = none := by decide +kernel

end Xgen.C64
