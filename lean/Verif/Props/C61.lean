import Verif.Props.C12
import Verif.Props.C29
import Verif.Props.C38
import Verif.Props.C59
import Verif.Props.C60
import Verif.Lemmas.Path

/-! # C61: generating from a directory

The command on a directory visits every entry below it once, in the order of the components of its path.  If all files are
documents of regular core schemas (C59), it ends with "done", and has written exactly one file per schema, in that order: at the
same place below the output directory, and reading as the declarations of that schema. -/

namespace Xgen.C61
open C11 (descend Below)
open C12 (Ordinary)

/-! ## Which paths -/

/-- Specification: the components `l` lead to an entry. -/
inductive Leads : Forest → List Str → Prop
  | leaf {n k} : Leads (.leaf n k) [n]
  | leafNext {n k l} : Leads k l → Leads (.leaf n k) l
  | dir {n s k} : Leads (.dir n s k) [n]
  | dirSub {n s k l} : Leads s l → Leads (.dir n s k) (n :: l)
  | dirNext {n s k l} : Leads k l → Leads (.dir n s k) l

/-- The places of all entries, directories before what is in them. -/
def places : Forest → List (List Str)
  | .nil => []
  | .leaf n k => [n] :: places k
  | .dir n s k => [n] :: ((places s).map (n :: ·) ++ places k)

/-- All names are names: no slash, not "." or "..". -/
def Named : Forest → Prop
  | .nil => True
  | .leaf n k => Below n ∧ Named k
  | .dir n s k => Below n ∧ Named s ∧ Named k

/-- The names at the top. -/
def tops : Forest → List Str
  | .nil => []
  | .leaf n k => n :: tops k
  | .dir n _ k => n :: tops k

/-- The entries of each directory are sorted by name (as `readDirNames` leaves them), and different. -/
def Ordered : Forest → Prop
  | .nil => True
  | .leaf n k => (∀ m ∈ tops k, n < m) ∧ Ordered k
  | .dir n s k => (∀ m ∈ tops k, n < m) ∧ Ordered s ∧ Ordered k

/-- `places` are exactly the entries. -/
theorem mem_places (f : Forest) (l : List Str) : l ∈ places f ↔ Leads f l := by
  induction f generalizing l with
  | nil => constructor <;> intro h <;> cases h
  | leaf n k ih =>
    rw [places, List.mem_cons, ih]
    constructor
    · rintro (rfl | h)
      · exact .leaf
      · exact .leafNext h
    · rintro (_ | h)
      · exact .inl rfl
      · exact .inr h
  | dir n s k ihs ih =>
    rw [places, List.mem_cons, List.mem_append, List.mem_map, ih]
    constructor
    · rintro (rfl | ⟨m, hm, rfl⟩ | h)
      · exact .dir
      · exact .dirSub ((ihs m).1 hm)
      · exact .dirNext h
    · intro h
      cases h with
      | dir => exact .inl rfl
      | dirSub h => exact .inr (.inl ⟨_, (ihs _).2 h, rfl⟩)
      | dirNext h => exact .inr (.inr h)

theorem Leads.top {f : Forest} {l : List Str} (h : Leads f l) : ∃ n r, l = n :: r ∧ n ∈ tops f := by
  induction h with
  | leaf => exact ⟨_, _, rfl, List.mem_cons_self⟩
  | leafNext _ ih => obtain ⟨n, r, e, h⟩ := ih; exact ⟨n, r, e, List.mem_cons_of_mem _ h⟩
  | dir => exact ⟨_, _, rfl, List.mem_cons_self⟩
  | dirSub _ _ => exact ⟨_, _, rfl, List.mem_cons_self⟩
  | dirNext _ ih => obtain ⟨n, r, e, h⟩ := ih; exact ⟨n, r, e, List.mem_cons_of_mem _ h⟩

theorem Leads.ordinary {f : Forest} {l : List Str} (h : Leads f l) (hf : Named f) : Ordinary l := by
  have one : ∀ {n : Str}, Below n → Ordinary [n] := fun hn => ⟨by simp, fun c hc => by rw [List.mem_singleton.1 hc]; exact hn⟩
  induction h with
  | leaf => exact one hf.1
  | leafNext _ ih => exact ih hf.2
  | dir => exact one hf.1
  | dirSub _ ih =>
    refine ⟨by simp, fun c hc => ?_⟩
    rcases List.mem_cons.1 hc with rfl | hc
    · exact hf.1
    · exact (ih hf.2.1).2 c hc
  | dirNext _ ih => exact ih hf.2.2

/-- Sorted directories are visited in the order of the components; in particular every entry only once. -/
theorem in_order (f : Forest) (h : Ordered f) : (places f).Pairwise (· < ·) := by
  have later : ∀ {n : Str} {r : List Str} {k : Forest}, (∀ m ∈ tops k, n < m) → ∀ l ∈ places k, n :: r < l := by
    intro n r k hk l hl
    obtain ⟨m, s, rfl, hm⟩ := ((mem_places k l).1 hl).top
    exact List.cons_lt_cons_iff.2 (.inl (hk m hm))
  induction f with
  | nil => exact .nil
  | leaf n k ih => exact List.pairwise_cons.2 ⟨later h.1, ih h.2⟩
  | dir n s k ihs ih =>
    refine List.pairwise_cons.2 ⟨fun l hl => ?_, List.pairwise_append.2 ⟨?_, ih h.2.2, ?_⟩⟩
    · rcases List.mem_append.1 hl with hl | hl
      · obtain ⟨m, hm, rfl⟩ := List.mem_map.1 hl
        obtain ⟨x, r, rfl, -⟩ := ((mem_places s m).1 hm).top
        exact List.cons_lt_cons_iff.2 (.inr ⟨rfl, List.nil_lt_cons _ _⟩)
      · exact later h.1 l hl
    · rw [List.pairwise_map]
      exact (ihs h.2.1).imp fun hab => List.cons_lt_cons_iff.2 (.inr ⟨rfl, hab⟩)
    · intro a ha b hb
      obtain ⟨m, hm, rfl⟩ := List.mem_map.1 ha
      exact later h.1 b hb

theorem join_name {path n : Str} (hp : path ≠ []) (hn : Below n) : pathJoin path n = descend (clean path) [n] := by
  have hs : splitOn '/' n = [n] := splitOn_of_not_mem hn.2.2.2
  rw [C11.join_below path n hp (by rw [hs, List.mem_singleton]; exact fun e => hn.2.2.1 e.symm), hs]
  have : [n].filter realComp = [n] := by simp [realComp, hn.1, hn.2.1]
  rw [this]

theorem walk_places (f : Forest) (hf : Named f) : ∀ path, path ≠ [] → walkBelow path f = (places f).map (descend (clean path)) := by
  induction f with
  | nil => intros; rfl
  | leaf n k ih =>
    intro path hp
    rw [walkBelow, ih hf.2 path hp, join_name hp hf.1]
    rfl
  | dir n s k ihs ih =>
    intro path hp
    have hj : clean (pathJoin path n) = pathJoin path n := by
      rw [pathJoin, if_pos hp, clean_idem]
    have hne : pathJoin path n ≠ [] := by rw [← hj]; exact clean_ne_nil _
    rw [walkBelow, ih hf.2.2 path hp, ihs hf.2.1 _ hne, hj, join_name hp hf.1]
    simp only [places, List.map_cons, List.map_append, List.map_map]
    rfl

/-! ## Where the output goes -/

/-- The input directory is spelled plainly: as `filepath.Clean` would, or with one slash behind. -/
def Plainly (dir : Str) : Prop := clean dir = dir ∨ dir = clean dir ++ c!"/"

theorem trim_nothing {s p : Str} (h : ¬ p <+: s) : trimPrefix s p = s := by
  unfold trimPrefix
  rw [if_neg fun e => h ((hasPrefix_iff s p).1 e)]

theorem head_below {n : Str} (h : Below n) : ∃ c r, n = c :: r ∧ c ≠ '/' := by
  cases n with
  | nil => exact absurd rfl h.1
  | cons c r => exact ⟨c, r, rfl, by rintro rfl; exact h.2.2.2 List.mem_cons_self⟩

theorem joinSlash_head {l : List Str} (h : Ordinary l) : ∃ n m s, l = n :: m ∧ joinSlash l = n ++ s ∧ (s = [] ∨ s.head? = some '/') := by
  cases l with
  | nil => exact absurd rfl h.1
  | cons n m =>
    cases m with
    | nil => exact ⟨n, [], [], rfl, by simp [joinSlash], .inl rfl⟩
    | cons a m => exact ⟨n, a :: m, '/' :: joinSlash (a :: m), rfl, rfl, .inr rfl⟩

theorem below_of_trim {out : Str} (ho : out ≠ []) {l : List Str} (hl : Ordinary l) {s : Str}
    (h : s = joinSlash l ∨ s = '/' :: joinSlash l) : pathJoin out s = descend (clean out) l := by
  have hj := splitOn_joinSlash l hl.1 (fun c hc => (hl.2 c hc).2.2.2)
  have hs : (splitOn '/' s).filter realComp = l ∧ c!".." ∉ splitOn '/' s := by
    have hno : c!".." ∉ l := fun h => (hl.2 _ h).2.2.1 rfl
    rcases h with rfl | rfl
    · rw [hj]; exact ⟨C12.filter_real hl.2, hno⟩
    · rw [splitOn_cons_sep, hj]
      refine ⟨?_, by simpa using hno⟩
      have : ([] :: l).filter realComp = l.filter realComp := by simp [realComp]
      rw [this, C12.filter_real hl.2]
  rw [C11.join_below _ _ ho hs.2, hs.1]

/-- What is left of an entry's path without the input directory, when that is spelled plainly. -/
theorem trimmed {dir : Str} (hd : Plainly dir) {l : List Str} (hl : Ordinary l)
    (hh : dir = c!"." → ∀ n, l.head? = some n → n.head? ≠ some '.') :
    trimPrefix (descend (clean dir) l) dir = joinSlash l ∨ trimPrefix (descend (clean dir) l) dir = '/' :: joinSlash l := by
  rw [C12.descend_eq _ l hl]
  obtain ⟨n, m, s, rfl, hj, hs⟩ := joinSlash_head hl
  have hb := hl.2 n List.mem_cons_self
  obtain ⟨c, r, hc, hc'⟩ := head_below hb
  rcases hd with hd | hd
  · rw [hd]
    by_cases h1 : dir = c!"."
    · left
      rw [if_pos h1, List.nil_append, h1]
      refine trim_nothing fun ⟨t, e⟩ => hh h1 n rfl ?_
      rw [hj, hc] at e
      have := congrArg List.head? e
      rw [hc]
      simpa using this.symm
    · rw [if_neg h1]
      by_cases h2 : dir = c!"/"
      · left; rw [if_pos h2, h2]; exact C12.trimPrefix_append _ _
      · right; rw [if_neg h2, List.append_assoc]; exact C12.trimPrefix_append _ _
  · by_cases h1 : clean dir = c!"."
    · left
      rw [if_pos h1, List.nil_append, hd, h1]
      refine trim_nothing fun ⟨t, e⟩ => ?_
      rw [hj] at e
      rw [hc] at e hb
      injection e with e1 e2
      cases r with
      | nil => exact hb.2.1 (by rw [← e1])
      | cons d r =>
        injection e2 with e2 e3
        exact hb.2.2.2 (by rw [← e2]; simp)
    · rw [if_neg h1]
      by_cases h2 : clean dir = c!"/"
      · right
        rw [if_pos h2, hd, h2]
        refine trim_nothing fun ⟨t, e⟩ => ?_
        rw [hj, hc] at e
        injection e with _ e
        injection e with e _
        exact hc' e.symm
      · left
        rw [if_neg h2]
        conv => lhs; rw [hd]
        rw [show clean (clean dir ++ c!"/") = clean dir by rw [clean_slash _ (clean_ne_nil dir), clean_idem]]
        exact C12.trimPrefix_append _ _

/-- An entry is written to the same place below the output directory, with the extension of the language. -/
theorem mirrored {c : Config} (ho : c.o ≠ []) (hd : Plainly c.i) {l : List Str} (hl : Ordinary l)
    (hh : c.i = c!"." → ∀ n, l.head? = some n → n.head? ≠ some '.') (ext : Str) :
    C24.documentedPath (mainCfg c (descend (clean c.i) l)) ext = fileWithExtension (descend (clean c.o) l) ext := by
  show fileWithExtension (pathJoin c.o (trimPrefix (descend (clean c.i) l) c.i)) ext = _
  rw [below_of_trim ho hl (trimmed hd hl hh)]

/-- With other spellings the place is another: the input directory is then part of the output path. -/
theorem unclean_elsewhere :
    C24.documentedPath (mainCfg { i := c!"./in", o := c!"out" } (descend (clean c!"./in") [c!"a.xsd"])) c!".go" = c!"out/in/a.xsd.go" ∧
    C24.documentedPath (mainCfg { i := c!"in", o := c!"out" } (descend (clean c!"in") [c!"a.xsd"])) c!".go" = c!"out/a.xsd.go" := by
  decide

/-- In the current directory a hidden file takes the place of another: `.a.xsd` and `a.xsd` are both written to `out/a.xsd.go`. -/
theorem hidden_clash :
    C24.documentedPath (mainCfg { i := c!".", o := c!"out" } (descend (clean c!".") [c!".a.xsd"])) c!".go" = c!"out/a.xsd.go" ∧
    C24.documentedPath (mainCfg { i := c!".", o := c!"out" } (descend (clean c!".") [c!"a.xsd"])) c!".go" = c!"out/a.xsd.go" := by
  decide

/-! ## The whole run -/

section
variable [Uni]
open Core C40 Decl
open C57 (bare)

/-- The text of a file reads as the declarations of a schema.  For Go this is the text the formatter was given. -/
def Reads (W : World) (lang text : Str) (ds : List Core.Decl) : Prop := ∃ order, C58.Order order ∧
  ((lang = c!"Go" ∧ ∃ source, W.gofmt source = some text ∧ C58.Go.declsOf source = C59.goDecls order (treeOf (typeRef lang false) [] ds)) ∨
   (lang = c!"C" ∧ C58.C.declsOf text = C59.cDecls order (treeOf (typeRef lang false) [] ds)) ∨
   (lang = c!"Java" ∧ C58.Java.declsOf text = C59.javaDecls order (treeOf (typeRef lang false) [] ds)) ∨
   (lang = c!"Rust" ∧ C58.Rust.declsOf text = C59.rustDecls order (treeOf (typeRef lang false) [] ds)) ∨
   (lang = c!"TypeScript" ∧ C58.TS.declsOf text = C59.tsDecls order (treeOf (typeRef lang false) [] ds)))

/-- Two lists agree, member by member. -/
inductive Each {α β : Type} (R : α → β → Prop) : List α → List β → Prop
  | nil : Each R [] []
  | cons {a b as bs} : R a b → Each R as bs → Each R (a :: as) (b :: bs)

/-- A path is that of a readable schema document. -/
structure Schema (W : World) (c : Config) (path : Str) (ds : List Core.Decl) (toks : List Token) : Prop where
  doc : C59.Document W (mainCfg c path) {} ds toks
  /-- enumeration values can be read -/
  values : c.lang = c!"TypeScript" → C59.ValuesOk toks
  /-- the formatter accepts the source, whatever documentation is in it -/
  formats : c.lang = c!"Go" → ∀ t, bare t = bare (treeOf (typeRef c!"Go" false) [] ds) → W.gofmt (goSource c.pkg t) ≠ none

theorem doc_fresh {W : World} {cfg : Cfg} {ds : List Core.Decl} {toks : List Token} (h : C59.Document W cfg {} ds toks) (sh : Shared) :
    C59.Document W cfg (C39.fresh sh) ds toks where
  file := h.file
  names := h.names
  tags := h.tags
  spelled := h.spelled
  alone := h.alone.imp id fun ⟨_, _, h3, h4⟩ => ⟨rfl, rfl, h3, h4⟩
  regular := h.regular
  writes := h.writes
  dir := h.dir
  create := h.create

variable [UniLaws]

/-- One file. -/
theorem parses {W : World} {c : Config} {path : Str} {ds : List Core.Decl} {toks : List Token} (h : Schema W c path ds toks)
    (hp : '\n' ∉ c.pkg) {ext : Str} (he : (c.lang, ext) ∈ C24.extensions) (sh : Shared) :
    ∃ t sh' text, Parse W (mainCfg c path) (C39.fresh sh) = .ok t sh' ∧
      sh'.outputs = sh.outputs ++ [(C24.documentedPath (mainCfg c path) ext, text)] ∧ Reads W c.lang text ds := by
  have hd := doc_fresh h.doc sh
  simp only [C24.extensions, List.mem_cons, Prod.mk.injEq, List.not_mem_nil, or_false] at he
  rcases he with ⟨hl, rfl⟩ | ⟨hl, rfl⟩ | ⟨hl, rfl⟩ | ⟨hl, rfl⟩ | ⟨hl, rfl⟩
  · obtain ⟨t, sh1, h1, h2, h3, h4⟩ := hd.tree
    obtain ⟨order, ho, hr⟩ := C58.Go.file c.pkg t hp h3
    have hl' : (mainCfg c path).lang = c!"Go" := hl
    rw [hl'] at h2
    cases hg : W.gofmt (goSource c.pkg t) with
    | none => exact absurd hg (h.formats hl t h2)
    | some text =>
      obtain ⟨sh2, h5, h6⟩ := hd.write (t := t) (sh' := sh1) (ext := c!".go") (text := text) (by
        have e : generate W (mainCfg c path).lang (mainCfg c path).package (outputPath (mainCfg c path)) t =
            writeGo W (outputPath (mainCfg c path)) c.pkg t := by
          rw [generate, hl', C24.title_lang (by decide)]; rfl
        rw [e]; funext s; unfold writeGo; rw [hg])
      refine ⟨t, sh2, text, h4.trans h5, by rw [h6, h1]; rfl, order, ho, .inl ⟨hl, _, hg, hr.trans ?_⟩⟩
      show C59.goDecls order t = _
      rw [← C59.go_bare, h2, C59.go_bare, hl]
  · obtain ⟨t, sh', text, order, h1, h2, h3, h4⟩ := C59.c hd hl
    exact ⟨t, sh', text, h1, h2, order, h3, .inr (.inl ⟨hl, by rw [hl]; exact h4⟩)⟩
  · obtain ⟨t, sh', text, order, h1, h2, h3, h4⟩ := C59.java hd hl hp
    exact ⟨t, sh', text, h1, h2, order, h3, .inr (.inr (.inl ⟨hl, by rw [hl]; exact h4⟩))⟩
  · obtain ⟨t, sh', text, order, h1, h2, h3, h4⟩ := C59.rust hd hl
    exact ⟨t, sh', text, h1, h2, order, h3, .inr (.inr (.inr (.inl ⟨hl, by rw [hl]; exact h4⟩)))⟩
  · obtain ⟨t, sh', text, order, h1, h2, h3, h4⟩ := C59.ts_partial hd (h.values hl) hl
    exact ⟨t, sh', text, h1, h2, order, h3, .inr (.inr (.inr (.inr ⟨hl, by rw [hl]; exact h4⟩)))⟩

/-- What lies at a path: a directory, or a schema document with these declarations. -/
def Lies (W : World) (c : Config) (path : Str) : Option (List Core.Decl) → Prop
  | none => W.fs.get? path = some .dir
  | some ds => ∃ toks, Schema W c path ds toks

/-- All files of a list, in order. -/
theorem loop {W : World} {c : Config} (hp : '\n' ∉ c.pkg) {ext : Str} (he : (c.lang, ext) ∈ C24.extensions)
    (files : List (Str × Option (List Core.Decl))) (hf : ∀ x ∈ files, Lies W c x.1 x.2) : ∀ sh, ∃ sh' new,
      mainLoop W c (files.map (·.1)) sh = (.done, sh') ∧ sh'.outputs = sh.outputs ++ new ∧
      Each (fun x out => out.1 = C24.documentedPath (mainCfg c x.1) ext ∧ Reads W c.lang out.2 x.2)
        (files.filterMap fun x => x.2.map (x.1, ·)) new := by
  induction files with
  | nil => intro sh; exact ⟨sh, [], rfl, by simp, .nil⟩
  | cons x files ih =>
    intro sh
    obtain ⟨path, d⟩ := x
    have hx := hf _ List.mem_cons_self
    have ih := ih fun y hy => hf y (List.mem_cons_of_mem _ hy)
    rw [List.map_cons, mainLoop]
    cases d with
    | none =>
      have hdir := (C29.not_a_file W (mainCfg c path) (C39.fresh sh)).2.2 hx
      have hfr : ({ outputs := sh.outputs, tick := sh.tick, log := sh.log } : Shared) = C39.fresh sh := rfl
      rw [hfr, hdir]
      obtain ⟨sh', new, h1, h2, h3⟩ := ih (C39.fresh sh)
      exact ⟨sh', new, h1, h2, h3⟩
    | some ds =>
      obtain ⟨toks, hs⟩ := hx
      obtain ⟨t, sh1, text, h1, h2, h3⟩ := parses hs hp he sh
      have hfr : ({ outputs := sh.outputs, tick := sh.tick, log := sh.log } : Shared) = C39.fresh sh := rfl
      rw [hfr, h1]
      obtain ⟨sh', new, h4, h5, h6⟩ := ih sh1
      refine ⟨sh', (C24.documentedPath (mainCfg c path) ext, text) :: new, h4, ?_, .cons ⟨rfl, h3⟩ h6⟩
      rw [h5, h2]
      simp

/-- A directory to generate from: `content` says what lies at each place below it. -/
structure Folder (W : World) (c : Config) (d : Forest) (content : List Str → Option (List Core.Decl)) : Prop where
  input : c.i ≠ []
  output : c.o ≠ []
  package : '\n' ∉ c.pkg
  plain : Plainly c.i
  named : Named d
  hidden : c.i = c!"." → ∀ n ∈ tops d, n.head? ≠ some '.'
  isDir : W.fs.get? c.i = some .dir
  lies : ∀ l, Leads d l → Lies W c (descend (clean c.i) l) (content l)

/-- C61: a directory of schemas is generated completely: the command ends with "done", and it has written one file for each schema
in it, in the order of their places, to the same place below the output directory, each reading as the declarations of its schema. -/
theorem directory {W : World} {lstat : Str → Option Forest} {items : List C60.Item} (hv : ∀ it ∈ items, it.Valid) {rest : List Str}
    (hr : C60.Stops rest) {c : Config} (hc : parseFlags (C60.meaning items) = .go c) {d : Forest} (hd : lstat c.i = some d)
    {content : List Str → Option (List Core.Decl)} (h : Folder W c d content) {ext : Str} (he : (c.lang, ext) ∈ C24.extensions) :
    ∃ sh, xgen W lstat (items.flatMap C60.Item.args ++ rest) = (.done, sh) ∧
      Each (fun x out => out.1 = fileWithExtension (descend (clean c.o) x.1) ext ∧ Reads W c.lang out.2 x.2)
        ((places d).filterMap fun l => (content l).map (l, ·)) sh.outputs := by
  let at' := fun l => (descend (clean c.i) l, content l)
  obtain ⟨sh, new, h1, h2, h3⟩ := loop h.package he ((c.i, none) :: ((places d).map at' ++ [(c.i, none)])) (by
    intro x hx
    simp only [List.mem_cons, List.mem_append, List.mem_map, List.not_mem_nil, or_false] at hx
    rcases hx with rfl | ⟨l, hl, rfl⟩ | rfl
    · exact h.isDir
    · exact h.lies l ((mem_places d l).1 hl)
    · exact h.isDir) {}
  refine ⟨sh, ?_, ?_⟩
  · rw [(C60.run W lstat items hv).1 hr]
    unfold main' getFileList walkFrom
    rw [hc]
    dsimp only
    rw [h.isDir, hd]
    dsimp only
    rw [walk_places d h.named c.i h.input]
    simp only [List.map_cons, List.map_append, List.map_map, List.map_nil] at h1
    exact h1
  · have e : (sh.outputs : List (Str × Str)) = new := by rw [h2]; rfl
    rw [e]
    have hm : ((c.i, none) :: ((places d).map at' ++ [(c.i, none)])).filterMap (fun x => x.2.map (x.1, ·)) =
        ((places d).filterMap fun l => (content l).map (l, ·)).map fun x => (descend (clean c.i) x.1, x.2) := by
      simp only [List.filterMap_cons, List.filterMap_append, List.filterMap_nil, List.append_nil, Option.map_none, List.filterMap_map,
        List.map_filterMap]
      congr 1
      funext l
      simp only [Function.comp, at', Option.map_map]
      rfl
    rw [hm] at h3
    have hpl : ∀ x ∈ (places d).filterMap (fun l => (content l).map (l, ·)), Leads d x.1 := by
      intro x hx
      obtain ⟨l, hl, hx⟩ := List.mem_filterMap.1 hx
      obtain ⟨ds, -, rfl⟩ := Option.map_eq_some_iff.1 hx
      exact (mem_places d l).1 hl
    clear hm h2 e h1
    generalize (places d).filterMap (fun l => (content l).map (l, ·)) = xs at h3 hpl
    induction xs generalizing new with
    | nil => cases h3; exact .nil
    | cons x xs ih =>
      cases h3 with
      | cons hab h3 =>
        refine .cons ⟨hab.1.trans ?_, hab.2⟩ (ih _ h3 fun y hy => hpl y (List.mem_cons_of_mem _ hy))
        have hx := hpl x List.mem_cons_self
        refine mirrored h.output h.plain (hx.ordinary h.named) (fun e n hn => ?_) ext
        obtain ⟨m, r, e', hm⟩ := hx.top
        rw [e'] at hn
        injection hn with hn
        rw [← hn]
        exact h.hidden e m hm

end

/-! ## Example: a directory with two schemas, one of them in a subdirectory -/

/-- The directory. -/
def tree0 : Forest := .leaf c!"a.xsd" (.dir c!"sub" (.leaf c!"b.xsd" .nil) .nil)

/-- The documents in it. -/
def W0 : World := Ex.world [("in/a.xsd", C40.annotated), ("in/sub/b.xsd", C40.document)] ["in", "in/sub"]

/-- What lies where. -/
def content0 (l : List Str) : Option (List Core.Decl) := if l = [c!"sub"] then none else some C40.declarations

/-- The arguments. -/
def args0 (lang : Str) : List C60.Item := [.text false c!"i" c!"in", .textEq true c!"l" lang, .text false c!"o" c!"out"]

/-- The options the arguments amount to. -/
def config0 (lang : Str) : Config := { i := c!"in", o := c!"out", lang := lang }

theorem schema0 (lang : Str) (h : lang ∈ C24.extensions.map (·.1)) (path : Str) (toks : List Token)
    (hp : (path, toks) ∈ [(c!"in/a.xsd", C40.annotated), (c!"in/sub/b.xsd", C40.document)]) :
    @Schema asciiUni W0 (config0 lang) path C40.declarations toks := by
  refine @Schema.mk asciiUni _ _ _ _ _ ?_ (fun _ => ?_) (fun _ t _ h => by cases h)
  · simp only [C24.extensions, List.map_cons, List.map_nil, List.mem_cons, List.not_mem_nil, or_false, Prod.mk.injEq] at h hp
    rcases hp with ⟨rfl, rfl⟩ | ⟨rfl, rfl⟩
    · refine @C59.Document.mk asciiUni _ _ _ _ _ rfl (by decide +kernel) ⟨C40.root, by decide +kernel⟩ (by decide +kernel)
        (.inr ⟨rfl, rfl, by decide, rfl⟩) ?_ rfl rfl fun _ => rfl
      rcases h with rfl | rfl | rfl | rfl | rfl <;> decide +kernel
    · refine @C59.Document.mk asciiUni _ _ _ _ _ rfl (by decide +kernel) ⟨C40.root, by decide +kernel⟩ (by decide +kernel)
        (.inr ⟨rfl, rfl, by decide, rfl⟩) ?_ rfl rfl fun _ => rfl
      rcases h with rfl | rfl | rfl | rfl | rfl <;> decide +kernel
  · simp only [List.mem_cons, List.not_mem_nil, or_false, Prod.mk.injEq] at hp
    rcases hp with ⟨-, rfl⟩ | ⟨-, rfl⟩ <;> decide +kernel

/-- The example is one of `directory`, in every language. -/
theorem folder0 (lang : Str) (h : lang ∈ C24.extensions.map (·.1)) : @Folder asciiUni W0 (config0 lang) tree0 content0 := by
  refine @Folder.mk asciiUni _ _ _ _ (by decide : c!"in" ≠ []) (by decide : c!"out" ≠ []) (by decide : '\n' ∉ c!"schema")
    (.inl (by decide : clean c!"in" = c!"in"))
    ⟨⟨by decide, by decide, by decide, by decide⟩, ⟨by decide, by decide, by decide, by decide⟩,
      ⟨⟨by decide, by decide, by decide, by decide⟩, trivial⟩, trivial⟩ (fun e => by cases e) rfl fun l hl => ?_
  have : l = [c!"a.xsd"] ∨ l = [c!"sub"] ∨ l = [c!"sub", c!"b.xsd"] := by simpa [tree0, places] using (mem_places tree0 l).2 hl
  rcases this with rfl | rfl | rfl
  · exact ⟨_, schema0 lang h c!"in/a.xsd" _ List.mem_cons_self⟩
  · rfl
  · exact ⟨_, schema0 lang h c!"in/sub/b.xsd" C40.document (by simp)⟩

example : (@xgen asciiUni W0 (fun p => if p = c!"in" then some tree0 else none) ((args0 c!"Rust").flatMap C60.Item.args ++ [c!"x"])).2.outputs.map
    (·.1) = [c!"out/a.xsd.rs", c!"out/sub/b.xsd.rs"] ∧ Ordered tree0 ∧ (args0 c!"Rust").flatMap C60.Item.args =
    [c!"-i", c!"in", c!"--l=Rust", c!"-o", c!"out"] ∧ parseFlags (C60.meaning (args0 c!"Rust")) = .go (config0 c!"Rust") :=
  ⟨by decide +kernel, by simp only [Ordered, tree0, tops]; decide, by decide, by decide⟩

/-- A symbolic link to a directory is not walked (`os.Lstat`), so that nothing is generated and the command still says "done". -/
theorem linked_directory :
    (@xgen asciiUni W0 (fun _ => none) ((args0 c!"Rust").flatMap C60.Item.args)) = (.done, {}) := by decide +kernel

example : places tree0 = [[c!"a.xsd"], [c!"sub"], [c!"sub", c!"b.xsd"]] := by decide

end Xgen.C61
