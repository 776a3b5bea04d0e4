import Verif.Props.C81
import Verif.Props.C84
import Verif.Props.C91
import Verif.Props.C95
import Verif.Props.C103

/-! # C107: from the arguments and the bytes on the disk to source files

The parts put together: the command line (C60), the bytes of the schemas in their encodings (C91), their text as XML (C81), the
components of all schemas that are needed (C62), the files written for them (C65) and the grammar of the language (C103), what the command prints
(C95), and the disk that changes meanwhile (C84). -/

namespace Xgen.C107
open C62 C65 C91
open C103 (Follows Fit Harmless)
open Xgen.Xml Xgen.Text Xgen.Bytes

section
variable [Uni] [NameChars] [Charsets]

/-! ## Specification -/

/-- The bytes of a file are an XML document, either in UTF-8 without a declaration, or behind a declaration in the encoding that this names. -/
inductive Holds (bs : List Byte) (doc : Nodes) : Prop where
  | plain (ok : doc.Ok) (bare : Bare doc.written) (bytes : InUtf8 bs doc.written)
  | declared (d : Decl) (hd tl : List Byte) (head : d.Ok) (ok : doc.Ok) (bare : Bare doc.written) (h : InUtf8 hd d.written)
      (t : Stored d tl doc.written) (bytes : bs = hd ++ tl)

/-- What a disk has at a path. -/
def at? (disk : List (Str × Stock)) (p : Str) : Option Stock := (disk.find? fun e => e.1 = p).map (·.2)

/-- The disk has the schemas of the project: each as an XML document, with texts, comments, other tags and white space anywhere, and without
documentation that would be no comment in the language. -/
structure Keeps (disk : List (Str × Stock)) (π : Project) : Prop where
  shown : Shown disk π.W.fs
  files : ∀ f ∈ π.all ++ π.included, ∃ bs doc, at? disk f = some (.file bs) ∧ Holds bs doc ∧
    C40.skeleton (C57.noText (doc.tokens [])) = C40.skeleton (π.docs f).tokens ∧
    (f ∈ π.all → ∀ x, Token.text x ∈ doc.tokens [] → Harmless π.cfg.lang (trimSpace x))

/-- The formatter for Go gives a source file with the same package, the same declarations and the same set of imports for every source file. -/
def Formats (gofmt : Str → Option Str) : Prop :=
  ∀ x f, GoSyntax.parse x = some f → ∃ y g, gofmt x = some y ∧ GoSyntax.parse y = some g ∧ g.package = f.package ∧ g.decls = f.decls ∧
    ∀ i, i ∈ g.imports ↔ i ∈ f.imports

/-- The text is a source file with what the tree says, for Go up to the order of the imports. -/
def Accepted (lang pkg : Str) (order : List (Str × Str) → List (Str × Str)) (t : Tree) (text : Str) : Prop :=
  if lang = c!"Go" then ∃ g, GoSyntax.parse text = some g ∧ g.package = (C96.fileOf order pkg t).package ∧
    g.decls = (C96.fileOf order pkg t).decls ∧ ∀ i, i ∈ g.imports ↔ i ∈ (C96.fileOf order pkg t).imports
  else Follows lang pkg order t text

/-! ## Files -/

omit [Uni] in
theorem Holds.delivers {bs : List Byte} {doc : Nodes} (h : Holds bs doc) :
    ∃ ts, Delivers bs ts ∧ (ts = doc.tokens [] ∨ ts = .other :: doc.tokens []) := by
  cases h with
  | plain ok bare bytes => exact ⟨_, utf8_bare bytes bare, .inl (C81.decode_written doc ok)⟩
  | declared d hd tl head ok bare h t e =>
    subst e
    exact ⟨_, stored_read head bare h t, .inr (by rw [C81.decode_written doc ok])⟩

omit [Uni] [NameChars] [Charsets] in
theorem delivers_once [NameChars] [Charsets] {bs : List Byte} {ts ts' : List Token} (h : Delivers bs ts) (h' : Delivers bs ts') : ts = ts' := by
  obtain ⟨n, h⟩ := h
  obtain ⟨m, h'⟩ := h'
  rw [← h (max n m) (Nat.le_max_left ..), ← h' (max n m) (Nat.le_max_right ..)]

omit [Uni] in
theorem shown_get {disk : List (Str × Stock)} {m : GoMap Entry} (h : Shown disk m) {p : Str} {bs : List Byte}
    (hp : at? disk p = some (.file bs)) : ∃ ts, Delivers bs ts ∧ m.get? p = some (.file ts) := by
  induction h with
  | nil => cases hp
  | @cons k e x fs m hs _ ih =>
    unfold at? at hp
    rw [List.find?_cons] at hp
    by_cases hk : k = p
    · rw [decide_eq_true hk] at hp
      cases hp
      obtain ⟨ts, h1, rfl⟩ := hs
      exact ⟨ts, h1, by simp [GoMap.get?, hk]⟩
    · rw [decide_eq_false hk] at hp
      obtain ⟨ts, h1, h2⟩ := ih hp
      exact ⟨ts, h1, by simpa [GoMap.get?, hk] using h2⟩

theorem Keeps.file {disk : List (Str × Stock)} {π : Project} (h : Keeps disk π) {f : Str} (hf : f ∈ π.all ++ π.included) :
    ∃ toks, π.W.fs.get? f = some (.file toks) ∧ C32.NamesOk toks ∧ C40.skeleton (C57.noText toks) = C40.skeleton (π.docs f).tokens ∧
      (f ∈ π.all → ∀ x, Token.text x ∈ toks → Harmless π.cfg.lang (trimSpace x)) := by
  obtain ⟨bs, doc, h1, h2, h3, h4⟩ := h.files f hf
  obtain ⟨ts, h5, h6⟩ := shown_get h.shown h1
  obtain ⟨ts', h7, h8⟩ := h2.delivers
  cases delivers_once h5 h7
  refine ⟨ts, h6, (C91.any h5).2.1, ?_, fun hf x hx => ?_⟩
  · rcases h8 with rfl | rfl
    · exact h3
    · exact h3
  · rcases h8 with rfl | rfl
    · exact h4 hf x hx
    · exact h4 hf x (by simpa using hx)

/-! ## The command -/

variable [UniLaws]

/-- C107: the arguments name a schema, an output and a language; the disk has the schema and the schemas it imports and includes, as XML documents in some
encoding; the components are regular, the files can be created, and the formatter for Go is one.  Then the command prints "done", and it has written a file for the schema
and for every imported schema it needs, each a source file of the language with the components of its schema; and if what it reads is apart from what it writes, then
so it is on the disk that changes meanwhile.  (Missing: as for C103.) -/
theorem command_partial {π : Project} {disk : List (Str × Stock)} {lstat : Str → Option Forest} {items : List C60.Item}
    (hv : ∀ it ∈ items, it.Valid) {rest : List Str} (hr : C60.Stops rest) {c : Config} (hcfg : parseFlags (C60.meaning items) = .go c)
    (hπ : π.cfg = mainCfg c c.i) (hk : Keeps disk π) (hs : (∀ f ∈ π.all ++ π.included, Contains π.W f (π.docs f)) → π.Sound) {ext : Str} (hc : C103.Creatable π ext)
    (hf : ∀ f ∈ π.all, Fit π.cfg.lang (π.trees f)) (hg : c.lang = c!"Go" → Formats π.W.gofmt) (T : Print.Texts) :
    ∃ (gs : List Str) (wt : Str → Tree) (text : Str → Str) (sh : Shared), gs.Nodup ∧ (∀ g ∈ gs, g ∈ π.files) ∧
      (∀ f ∈ c.i :: gs, ∀ g, π.Needs f g → g ∈ gs) ∧
      (∀ f ∈ c.i :: gs, C57.bare (wt f) = C57.bare (π.trees f) ∧ ∃ order, C58.Order order ∧
        Accepted c.lang (if f = c.i then c.pkg else []) order (wt f) (text f)) ∧
      sh.outputs = gs.map (fun g => (C24.documentedPath (π.part g) ext, text g)) ++ [(C24.documentedPath π.cfg ext, text c.i)] ∧
      xgen π.W lstat (items.flatMap C60.Item.args ++ rest) = (.done, sh) ∧
      Print.xgenText π.W T lstat (items.flatMap C60.Item.args ++ rest) = c!"done\n" ∧
      ∀ cwd S n, C84.Apart π.W cwd c ext [c.i] S → π.W.fs.length + 2 ≤ n →
        Disk.mainNow π.W cwd n (walkFrom lstat) (C60.meaning items) = (.done, sh) ∧ ∀ q, S q → Disk.look π.W cwd sh.outputs q = π.W.fs.get? q := by
  have hsound : π.Sound := hs fun f hf => by
    obtain ⟨toks, h1, h2, h3, -⟩ := hk.file hf
    exact ⟨toks, h1, h2, h3⟩
  have hd : ∀ f ∈ π.all, ∀ toks, π.W.fs.get? f = some (.file toks) → ∀ x, Token.text x ∈ toks → Harmless π.cfg.lang (trimSpace x) := by
    intro f hf toks ht
    obtain ⟨toks', h1, -, -, h4⟩ := hk.file (List.mem_append_left _ hf)
    rw [h1] at ht
    cases ht
    exact h4 hf
  have hin : π.cfg.filePath = c.i := by rw [hπ]; rfl
  have hlang : π.cfg.lang = c.lang := by rw [hπ]; rfl
  have hpkg : π.cfg.package = c.pkg := by rw [hπ]; rfl
  obtain ⟨gs, wt, text, sh, g1, g2, g3, g4, g5, g6⟩ := C103.project_partial hsound hc hf hd {} ⟨rfl, rfl, rfl, fun _ _ => rfl⟩
  rw [hin] at g3 g4 g5 g6
  rw [hlang, hpkg] at g4
  have hlist : getFileList π.W (walkFrom lstat) c.i = some [c.i] := by
    obtain ⟨toks, h1, -⟩ := hk.file (f := c.i) (List.mem_append_left _ (by rw [← hin]; simp [Project.all]))
    unfold getFileList
    rw [h1]
  have hparse : Parse π.W (mainCfg c c.i) {} = .ok (wt c.i) sh := by rw [← hπ]; exact g6
  have hmain : main' π.W (walkFrom lstat) (C60.meaning items) = (.done, sh) := by
    unfold main'
    rw [hcfg]
    dsimp only
    rw [hlist]
    dsimp only
    unfold mainLoop
    rw [show ({ outputs := ({} : Shared).outputs, tick := ({} : Shared).tick, log := ({} : Shared).log } : Shared) = {} from rfl, hparse]
    rfl
  refine ⟨gs, wt, text, sh, g1, g2, g3, fun f hf => ?_, by simpa using g5, ?_, ?_, fun cwd S n ha hn => ?_⟩
  · obtain ⟨h1, source, order, h2, h3, h4⟩ := g4 f hf
    refine ⟨h1, order, h2, ?_⟩
    unfold Accepted
    split
    · rename_i hl
      rw [if_pos hl] at h4
      rcases h3 with ⟨-, h3⟩ | ⟨e, -⟩ | ⟨e, -⟩ | ⟨e, -⟩ | ⟨e, -⟩
      · obtain ⟨y, g, h5, h6, h7⟩ := hg hl _ _ h3
        rw [h4] at h5
        cases h5
        exact ⟨g, h6, h7⟩
      all_goals exact absurd (hl.symm.trans e) (by decide)
    · rename_i hl
      rw [if_neg hl] at h4
      rw [h4]
      exact h3
  · rw [(C60.run π.W lstat items hv).1 hr]; exact hmain
  · unfold Print.xgenText
    rw [C60.reads items hv hr]
    dsimp only
    unfold Print.mainText
    rw [hcfg]
    dsimp only
    rw [hlist]
    dsimp only
    unfold Print.loopText
    rw [show ({ outputs := ({} : Shared).outputs, tick := ({} : Shared).tick, log := ({} : Shared).log } : Shared) = {} from rfl, hparse]
    rfl
  · have he : (c.lang, ext) ∈ C24.extensions := by rw [← hlang]; exact hc.lang
    have h1 := C84.as_at_the_start (walkFrom lstat) _ hcfg hlist he ha hn
    refine ⟨h1.trans hmain, fun q hq => ?_⟩
    have h2 := C84.reads_kept (walkFrom lstat) _ hcfg hlist he ha hq
    rw [hmain] at h2
    exact h2

end

instance (toks : List Token) : Decidable (∀ x, Token.text x ∈ toks → ∀ c ∈ trimSpace x, GoSyntax.banned c = false) := C98.decTexts _ toks

instance [Uni] (s : Str) : Decidable (C96.Proper s) := by unfold C96.Proper; infer_instance

/-! ## Example: a schema in ISO-8859-1 that imports one in UTF-8, to Go -/

section
attribute [local instance] asciiUni C81.asciiNames noOther

/-- An attribute without a prefix. -/
def plainAttr (n v : Str) : AttrText := { name := ⟨[], n⟩, value := C81.plain v }

/-- The tag of an XML schema. -/
def xs (n : Str) (as : List AttrText) : Tag := { name := ⟨c!"xs", n⟩, attrs := as }

/-- The declaration of a name space. -/
def ns (n v : Str) : AttrText := { name := ⟨c!"xmlns", n⟩, value := C81.plain v }

/-- A schema that imports another one. -/
def first : Nodes :=
  .text [.crlf] <| .elem (xs c!"schema" [ns c!"xs" c!"http://www.w3.org/2001/XMLSchema", ns c!"b" c!"urn:b"])
    (.text [.char '\n'] <|
     .empty (xs c!"import" [plainAttr c!"namespace" c!"urn:b", { name := ⟨[], c!"schemaLocation"⟩, quote := '\'', value := C81.plain c!"b.xsd" }]) <|
     .comment c!" la commande é " <|
     .elem (xs c!"complexType" [plainAttr c!"name" c!"Order"])
      (.elem (xs c!"sequence" []) (.empty (xs c!"element" [plainAttr c!"name" c!"size", plainAttr c!"type" c!"b:Size"]) .nil) [] .nil) c!" " .nil) [] .nil

/-- The imported schema. -/
def second : Nodes :=
  .elem (xs c!"schema" [ns c!"xs" c!"http://www.w3.org/2001/XMLSchema"])
    (.elem (xs c!"simpleType" [{ name := ⟨[], c!"name"⟩, value := [.char 'S', .number true true [6, 9], .char 'z', .char 'e'] }])
      (.empty (xs c!"restriction" [plainAttr c!"base" c!"xs:int"]) .nil) [] .nil) [] .nil

/-- The bytes of the first. -/
def firstBytes : List Byte := encode declLatin.written ++ first.written.map fun c => byte c.toNat

/-- The disk. -/
def disk : List (Str × Stock) := [(c!".", .dir), (c!"a.xsd", .file firstBytes), (c!"b.xsd", .file (encode second.written))]

/-- What is in the first. -/
def docFirst : Doc where
  root := [⟨c!"xmlns", c!"xs", c!"http://www.w3.org/2001/XMLSchema"⟩, ⟨c!"xmlns", c!"b", c!"urn:b"⟩]
  heads := [.import [⟨[], c!"namespace", c!"urn:b"⟩, ⟨[], c!"schemaLocation", c!"b.xsd"⟩]]
  decls := [.complex [⟨[], c!"name", c!"Order"⟩] (.elem [⟨[], c!"name", c!"size"⟩, ⟨[], c!"type", c!"b:Size"⟩] .nil)]

/-- What is in the second. -/
def docSecond : Doc where
  root := [⟨c!"xmlns", c!"xs", c!"http://www.w3.org/2001/XMLSchema"⟩]
  decls := [.simple [⟨[], c!"name", c!"Size"⟩] (.restriction [⟨[], c!"base", c!"xs:int"⟩] [])]

/-- The configuration. -/
def config : Config := { i := c!"a.xsd", o := c!"out", lang := c!"Go" }

/-- The project, with the translation of the second schema. -/
def halfway : Project where
  W := { Ex.world [] with fs := [(c!".", .dir), (c!"a.xsd", .file (.other :: first.tokens [])), (c!"b.xsd", .file (second.tokens []))] }
  cfg := mainCfg config c!"a.xsd"
  docs f := if f = c!"a.xsd" then docFirst else docSecond
  trees _ := Core.treeOf (C40.typeRef c!"Go" false) [] docSecond.decls
  rank f := if f = c!"a.xsd" then 1 else 0

/-- The project. -/
def pair : Project := { halfway with trees := fun f => Core.treeOf (halfway.ref f) [] (halfway.docs f).decls }

theorem first_ok : first.Ok := by decide +kernel
theorem second_ok : second.Ok := by decide +kernel

theorem first_holds : Holds firstBytes first :=
  .declared declLatin _ _ declLatin_ok first_ok (by unfold Bare; decide +kernel) (by unfold InUtf8; decide +kernel)
    (.latin (by decide) (by unfold Latin1; decide +kernel) (by unfold InLatin1; decide +kernel)) rfl

theorem second_holds : Holds (encode second.written) second :=
  .plain second_ok (by unfold Bare; decide +kernel) (by unfold InUtf8; decide +kernel)

theorem pair_all : pair.all = [c!"a.xsd", c!"b.xsd"] ∧ pair.included = [] := by decide +kernel

theorem pair_keeps : Keeps disk pair where
  shown := by
    refine .cons rfl (.cons ⟨_, ?_, rfl⟩ (.cons ⟨_, ?_, rfl⟩ .nil))
    · have := stored_read declLatin_ok (s := first.written) (by unfold Bare; decide +kernel) (show InUtf8 (encode declLatin.written) _ by unfold InUtf8; decide +kernel)
        (.latin (bs := first.written.map fun c => byte c.toNat) (by decide) (by unfold Latin1; decide +kernel) (by unfold InLatin1; decide +kernel))
      rwa [C81.decode_written first first_ok] at this
    · have := utf8_bare (bs := encode second.written) (s := second.written) (by unfold InUtf8; decide +kernel) (by unfold Bare; decide +kernel)
      rwa [C81.decode_written second second_ok] at this
  files := by
    intro f hf
    rw [pair_all.1, pair_all.2] at hf
    simp only [List.append_nil, List.mem_cons, List.not_mem_nil, or_false] at hf
    rcases hf with rfl | rfl
    · refine ⟨firstBytes, first, rfl, first_holds, by decide +kernel, fun _ x hx => ⟨fun _ => ?_, fun h => absurd h (by decide), fun h => absurd h (by decide), fun h => absurd h (by decide)⟩⟩
      revert x
      decide +kernel
    · refine ⟨_, second, rfl, second_holds, by decide +kernel, fun _ x hx => ⟨fun _ => ?_, fun h => absurd h (by decide), fun h => absurd h (by decide), fun h => absurd h (by decide)⟩⟩
      revert x
      decide +kernel

theorem pair_sound (h : ∀ f ∈ pair.all ++ pair.included, Contains pair.W f (pair.docs f)) : pair.Sound := by
  refine @Project.Sound.mk asciiUni pair ?_ ?_ ?_ ?_ ?_ ?_ ?_ h ?_ ?_ ?_ ?_ ?_ ?_ ?_ ?_ ?_ <;> decide +kernel

theorem pair_creatable : C103.Creatable pair c!".go" :=
  .mk (by decide) (fun _ _ => rfl) (fun _ _ => rfl) (fun _ _ _ => rfl) (fun _ => .inr (by decide)) (fun h => absurd h (by decide))

/-- The arguments. -/
def arguments : List C60.Item := [.text false c!"l" c!"Go", .textEq true c!"o" c!"out", .text false c!"i" c!"a.xsd"]

/-- Items of lists have types, as something that can be computed. -/
def itemsOk (t : Tree) : Bool := (Decl.nodes t).all fun n => match n with
  | .simple v => !v.list || decide (Names.meaning t v.base ≠ [])
  | _ => true

theorem items_ok {t : Tree} (h : itemsOk t = true) (v : SimpleType) (hv : Node.simple v ∈ Decl.nodes t) (hl : v.list = true) : Names.meaning t v.base ≠ [] := by
  have := List.all_eq_true.1 h _ hv
  simpa [hl] using this

theorem pair_fit : ∀ f ∈ pair.all, Fit pair.cfg.lang (pair.trees f) := by
  intro f hf
  rw [pair_all.1] at hf
  simp only [List.mem_cons, List.not_mem_nil, or_false] at hf
  refine ⟨fun _ => ?_, fun h => absurd h (by decide), fun h => absurd h (by decide), fun h => absurd h (by decide), fun h => absurd h (by decide)⟩
  rcases hf with rfl | rfl
  · exact ⟨by decide +kernel, by decide +kernel, by decide +kernel, items_ok (by decide +kernel), by decide +kernel⟩
  · exact ⟨by decide +kernel, by decide +kernel, by decide +kernel, items_ok (by decide +kernel), by decide +kernel⟩

theorem needs : pair.Needs c!"a.xsd" c!"b.xsd" := C62.needs_of (v := c!"b:Size") (by decide +kernel) (by decide +kernel) (by decide) (by decide) (by decide +kernel)

/-- Both files are written, and are Go. -/
example (T : Print.Texts) : ∃ (wt : Str → Tree) (text : Str → Str) (sh : Shared), (∀ f ∈ [c!"a.xsd", c!"b.xsd"], ∃ order, C58.Order order ∧
      Accepted c!"Go" (if f = c!"a.xsd" then c!"schema" else []) order (wt f) (text f)) ∧
    sh.outputs = [(c!"out/b.xsd.go", text c!"b.xsd"), (c!"out.go", text c!"a.xsd")] ∧
    xgen pair.W (fun _ => none) [c!"-l", c!"Go", c!"--o=out", c!"-i", c!"a.xsd", c!"--", c!"-q"] = (.done, sh) ∧
    Print.xgenText pair.W T (fun _ => none) [c!"-l", c!"Go", c!"--o=out", c!"-i", c!"a.xsd", c!"--", c!"-q"] = c!"done\n" := by
  obtain ⟨gs, wt, text, sh, h1, h2, h3, h4, h5, h6, h7, -⟩ := command_partial (π := pair) (lstat := fun _ => none) (items := arguments) (by simp [arguments, C60.Item.Valid, C60.texts]) (.terminator [c!"-q"]) (c := config) (by decide)
    rfl pair_keeps pair_sound pair_creatable pair_fit (fun _ x f hf => ⟨x, f, rfl, hf, rfl, rfl, fun _ => Iff.rfl⟩) T
  have hb : c!"b.xsd" ∈ gs := h3 _ (by simp [config]) _ needs
  have hgs : gs = [c!"b.xsd"] := by
    have hin : ∀ g ∈ gs, g = c!"b.xsd" := fun g hg => by
      have := h2 g hg
      rw [show pair.files = [c!"b.xsd"] by decide +kernel] at this
      exact List.mem_singleton.1 this
    match gs, hb, h1, hin with
    | [g], _, _, hin => rw [hin g (by simp)]
    | g :: g' :: gs, _, h1, hin => exact absurd ((hin g (by simp)).trans (hin g' (by simp)).symm) (by simp at h1; exact h1.1.1)
  subst hgs
  refine ⟨wt, text, sh, fun f hf => (h4 f hf).2, ?_, h6, h7⟩
  rw [h5]
  rfl

end

end Xgen.C107
