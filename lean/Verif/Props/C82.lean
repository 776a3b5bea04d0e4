import Verif.Props.C81
import Verif.Props.C64
import Verif.Props.C59

/-! # C82: what the parser sees of any text, well-formed or not

Whatever a file contains, the tokens read from it nest properly, and their elements have names.  A file that ends early, or goes on
differently, is read up to there as before.  So files given as texts need no assumptions on their tokens: documents that differ in layout
and text only are translated alike, and a document of a regular core schema is translated as C59 says, however it is written
down. -/

namespace Xgen.C82
open Xml Text
variable [NameChars]

/-! ## Tokens nest -/

/-- Tags nest within some open elements: every end tag closes the innermost open element. -/
def Nested : List Str → List Token → Prop
  | _, [] => True
  | st, .start n _ :: ts => Nested (n :: st) ts
  | st, .stop n :: ts => ∃ st', st = n :: st' ∧ Nested st' ts
  | st, _ :: ts => Nested st ts

/-- The local names of the open elements of a decoder. -/
def names (d : Dec) : List Str := d.stack.map fun e => e.1.local

/-- How a token changes the open elements. -/
def Moves (st : List Str) : Token → List Str → Prop
  | .start n _, st' => st' = n :: st
  | .stop n, st' => st = n :: st'
  | _, st' => st' = st

omit [NameChars] in
theorem pop_moves {n : Name} {d d' : Dec} {t : Token} (h : popElement n d = some (t, d')) : Moves (names d) t (names d') := by
  unfold popElement at h
  cases hs : d.stack with
  | nil => rw [hs] at h; cases h
  | cons x st =>
    obtain ⟨m, ns⟩ := x
    rw [hs] at h
    simp only at h
    split at h
    · next hm =>
      cases h
      simp [Moves, names, hs, hm]
    · cases h

theorem name_ne {s r : Str} {n : Name} (h : nsname s = some (n, r)) : n.local ≠ [] := by
  unfold nsname at h
  cases hn : name s with
  | none => rw [hn] at h; cases h
  | some x =>
    obtain ⟨m, t⟩ := x
    have hm : m ≠ [] := by
      unfold name at hn
      cases hr : readName s with
      | none => rw [hr] at hn; cases hn
      | some y =>
        rw [hr] at hn
        simp only at hn
        split at hn
        · cases hn; exact (readName_inv hr).2.1
        · cases hn
    rw [hn] at h
    simp only at h
    split at h
    · cases h
    · split at h
      · cases h; exact hm
      · next hne =>
        cases h
        simp only [not_or] at hne
        exact hne.2.2

/-- Start tags have names, and there are only characters that are allowed in XML. -/
def Named : Token → Prop
  | .start n as => n ≠ [] ∧ ∀ a ∈ as, ∀ c ∈ a.value, Allowed c
  | .text x => ∀ c ∈ x, Allowed c
  | _ => True

theorem allowed_of {c : Char} (h : inRange c = true) : Allowed c := by
  simp only [inRange, Bool.or_eq_true, Bool.and_eq_true, decide_eq_true_eq] at h
  rcases h with (((h | h) | h) | h) | h
  · exact .inl h
  · exact .inr (.inl h)
  · exact .inr (.inr (.inl h))
  · exact .inr (.inr (.inr (by omega)))
  · exact .inr (.inr (.inr (by omega)))

theorem text_allowed {q : Option Char} {s x r : Str} (h : text q s = some (x, r)) : ∀ c ∈ x, Allowed c := by
  unfold text at h
  split at h
  · cases h
  · split at h
    · next hx => cases h; exact fun c hc => allowed_of (List.all_eq_true.1 hx c hc)
    · cases h

theorem cdata_allowed {s x r : Str} (h : cdata s = some (x, r)) : ∀ c ∈ x, Allowed c := by
  unfold cdata at h
  split at h
  · cases h
  · split at h
    · next hx => cases h; exact fun c hc => allowed_of (List.all_eq_true.1 hx c hc)
    · cases h

theorem attrs_allowed : ∀ {n : Nat} {s r : Str} {as : List (Name × Str)} {e : Bool}, attrs n s = some (as, e, r) → ∀ a ∈ as, ∀ c ∈ a.2, Allowed c
  | 0, _, _, _, _, h => by cases h
  | n + 1, s, r, as, e, h => by
    unfold attrs at h
    split at h
    · cases h
    · split at h
      · split at h
        · cases h
        · split at h
          · cases h; exact fun a ha => by cases ha
          · cases h
      · split at h
        · cases h; exact fun a ha => by cases ha
        · split at h
          · cases h
          · split at h
            · cases h
            · split at h
              · cases h
              · split at h
                · cases h
                · next v r' hv =>
                  cases hk : attrs n r' with
                  | none => rw [hk] at h; cases h
                  | some y =>
                    obtain ⟨ys, e', r''⟩ := y
                    rw [hk] at h
                    cases h
                    intro a ha
                    rcases List.mem_cons.1 ha with rfl | ha
                    · unfold attrval at hv
                      split at hv
                      · cases hv
                      · split at hv
                        · exact text_allowed hv
                        · cases hv
                    · exact attrs_allowed hk a ha

omit [NameChars] in
theorem pop_named {n : Name} {d d' : Dec} {t : Token} (h : popElement n d = some (t, d')) : Named t := by
  unfold popElement at h
  cases hs : d.stack with
  | nil => rw [hs] at h; cases h
  | cons x st =>
    rw [hs] at h
    simp only at h
    split at h
    · cases h; trivial
    · cases h

theorem markup_moves {d d' : Dec} {s : Str} {t : Token} (h : markup d s = some (t, d')) :
    Moves (names d) t (names d') ∧ Named t := by
  unfold markup at h
  cases s with
  | nil => cases h
  | cons b r =>
    simp only at h
    split at h
    · split at h
      · cases h
      · split at h
        · cases h
        · split at h
          · have := pop_moves h; exact ⟨this, pop_named h⟩
          · cases h
    · split at h
      · split at h
        · cases h
        · split at h
          · cases h
          · split at h
            · cases h
            · cases h; exact ⟨rfl, trivial⟩
      · split at h
        · split at h
          · cases h
          · split at h
            · split at h
              · cases h
              · split at h
                · cases hk : comment nul nul _ with
                  | none => rw [hk] at h; cases h
                  | some y => rw [hk] at h; cases h; exact ⟨rfl, trivial⟩
                · cases h
            · split at h
              · split at h
                · cases hk : cdata _ with
                  | none => rw [hk] at h; cases h
                  | some y => rw [hk] at h; cases h; exact ⟨rfl, cdata_allowed hk⟩
                · cases h
              · cases hk : directive .plain 0 _ with
                | none => rw [hk] at h; cases h
                | some y => rw [hk] at h; cases h; exact ⟨rfl, trivial⟩
        · cases hn : nsname (b :: r) with
          | none => rw [hn] at h; cases h
          | some y =>
            obtain ⟨n, r'⟩ := y
            rw [hn] at h
            simp only at h
            split at h
            · cases h
            · next ha =>
              cases h
              refine ⟨rfl, name_ne hn, fun a h => ?_⟩
              obtain ⟨b, hb, rfl⟩ := List.mem_map.1 h
              have := attrs_allowed ha b hb
              unfold translate
              split
              · exact this
              · split
                · exact this
                · exact this

theorem token_moves {d d' : Dec} {t : Token} (h : token d = some (t, d')) : Moves (names d) t (names d') ∧ Named t := by
  unfold token at h
  split at h
  · exact ⟨pop_moves (d := { d with close := none }) h, pop_named h⟩
  · split at h
    · cases h
    · split at h
      · exact markup_moves h
      · cases ht : text none _ with
        | none => rw [ht] at h; cases h
        | some y => rw [ht] at h; cases h; exact ⟨rfl, text_allowed ht⟩

theorem tokens_nested (n : Nat) (d : Dec) : Nested (names d) (tokens n d) ∧ ∀ t ∈ tokens n d, Named t := by
  induction n generalizing d with
  | zero => exact ⟨trivial, fun t h => by cases h⟩
  | succ n ih =>
    unfold tokens
    cases ht : token d with
    | none => exact ⟨trivial, fun t h => by cases h⟩
    | some x =>
      obtain ⟨t, e⟩ := x
      obtain ⟨h1, h2⟩ := token_moves ht
      obtain ⟨h3, h4⟩ := ih e
      constructor
      · show Nested (names d) (t :: tokens n e)
        cases t with
        | start m as => simp only [Moves] at h1; simp only [Nested]; rw [← h1]; exact h3
        | stop m => exact ⟨names e, h1, h3⟩
        | text x => simp only [Moves] at h1; simp only [Nested]; rw [← h1]; exact h3
        | other => simp only [Moves] at h1; simp only [Nested]; rw [← h1]; exact h3
      · intro u hu
        rcases List.mem_cons.mp hu with rfl | hu
        · exact h2
        · exact h4 u hu

/-- C82: the tokens of any text nest. -/
theorem nested (s : Str) : Nested [] (decode s) := (tokens_nested _ { rest := s }).1

/-- C82: the elements of any text have names. -/
theorem named (s : Str) : C32.NamesOk (decode s) := fun n as h => ((tokens_nested _ { rest := s }).2 _ h).1

/-- C82: text and values consist of characters that are allowed in XML, however they are written. -/
theorem characters (s : Str) : (∀ x, .text x ∈ decode s → ∀ c ∈ x, Allowed c) ∧ ∀ n as, .start n as ∈ decode s → ∀ a ∈ as, ∀ c ∈ a.value, Allowed c :=
  ⟨fun _ h => (tokens_nested _ { rest := s }).2 _ h, fun _ _ h => ((tokens_nested _ { rest := s }).2 _ h).2⟩

/-- A form feed ends the document, as a character or by its number. -/
example : @decode C81.asciiNames c!"<a>x</a>\x0c" = [.start c!"a" [], .text c!"x", .stop c!"a"] ∧
    @decode C81.asciiNames c!"<a b='&#12;'/>" = [] ∧ @decode C81.asciiNames c!"<a b='&#13;'/>" = [.start c!"a" [⟨[], c!"b", c!"\r"⟩], .stop c!"a"] := by decide +kernel

/-! ## Texts that end early -/

/-- Nothing, or character data. -/
def AtMostText (ts : List Token) : Prop := ts = [] ∨ ∃ x, ts = [.text x]

theorem markup_text {d e : Dec} {r s : Str} (h : markup d r = some (.text s, e)) (hc : d.close = none) : e.close = none := by
  unfold markup at h
  cases r with
  | nil => cases h
  | cons b r =>
    simp only at h
    split at h
    · split at h
      · cases h
      · split at h
        · cases h
        · split at h
          · exact absurd rfl ((pop_inv h).2.2.1 s)
          · cases h
    · split at h
      · split at h
        · cases h
        · split at h
          · cases h
          · split at h <;> cases h
      · split at h
        · split at h
          · cases h
          · split at h
            · split at h
              · cases h
              · split at h
                · cases hk : comment nul nul _ with
                  | none => rw [hk] at h; cases h
                  | some y => rw [hk] at h; cases h
                · cases h
            · split at h
              · split at h
                · cases hk : cdata _ with
                  | none => rw [hk] at h; cases h
                  | some y => rw [hk] at h; cases h; exact hc
                · cases h
              · cases hk : directive .plain 0 _ with
                | none => rw [hk] at h; cases h
                | some y => rw [hk] at h; cases h
        · split at h
          · cases h
          · split at h <;> cases h

theorem tokens_cut (u : Str) {n m : Nat} : ∀ {d : Dec}, d.size < n → (d.more u).size < m →
    ∃ ts last, tokens n d = ts ++ last ∧ AtMostText last ∧ ts <+: tokens m (d.more u) := by
  induction n generalizing m with
  | zero => intro d h; cases h
  | succ n ih =>
    intro d h h'
    cases m with
    | zero => cases h'
    | succ m =>
      unfold tokens
      cases ht : token d with
      | none => exact ⟨[], [], rfl, .inl rfl, List.nil_prefix⟩
      | some x =>
        obtain ⟨t, e⟩ := x
        have hinv := token_inv ht
        by_cases hne : (∀ s, t ≠ .text s) ∨ e.rest ≠ []
        · have hu := hinv.2 hne u
          have hsz := (token_inv hu).1
          obtain ⟨ts, last, h1, h2, h3⟩ := ih (m := m) (d := e) (by have := hinv.1; omega) (by omega)
          refine ⟨t :: ts, last, ?_, h2, ?_⟩
          · simp only [h1]; rfl
          · rw [hu]
            simp only
            exact List.prefix_cons_inj _ |>.mpr h3
        · have hr : e.rest = [] := Decidable.byContradiction fun hh => hne (.inr hh)
          have htx : ∃ s, t = .text s := Classical.byContradiction fun hh => hne (.inl fun s hs => hh ⟨s, hs⟩)
          obtain ⟨s, rfl⟩ := htx
          refine ⟨[], [.text s], ?_, .inr ⟨s, rfl⟩, List.nil_prefix⟩
          have hc : e.close = none := by
            unfold token at ht
            split at ht
            · exact absurd rfl ((pop_inv ht).2.2.1 s)
            · next hcl =>
              split at ht
              · cases ht
              · split at ht
                · exact markup_text ht hcl
                · cases hk : text none _ with
                  | none => rw [hk] at ht; cases ht
                  | some y => rw [hk] at ht; cases ht; exact hcl
          simp only [List.nil_append]
          cases n with
          | zero => rfl
          | succ n => simp [tokens, token, hc, hr]

/-- C82: a text that ends early gives the same tokens up to its end, except for character data at the end itself. -/
theorem cut (s u : Str) : ∃ ts last, decode s = ts ++ last ∧ AtMostText last ∧ ts <+: decode (s ++ u) :=
  tokens_cut u (d := { rest := s }) (by simp [Dec.size]) (by simp [Dec.size, Dec.more])

/-! ## Projects given as texts -/

/-- A file system whose files are texts. -/
inductive Source where
  | dir
  | file (text : Str)
  | noOpen

/-- What a parse sees of an entry. -/
def Source.entry : Source → Entry
  | .dir => .dir
  | .file s => .file (decode s)
  | .noOpen => .noOpen

/-- What a parse sees of a file system. -/
def seen (fs : List (Str × Source)) : GoMap Entry := fs.map fun e => (e.1, e.2.entry)

theorem seen_named {fs : List (Str × Source)} {path : Str} {toks : List Token} (h : GoMap.get? (seen fs) path = some (.file toks)) :
    C32.NamesOk toks := by
  induction fs with
  | nil => cases h
  | cons e fs ih =>
    obtain ⟨k, v⟩ := e
    have e1 : GoMap.get? (seen ((k, v) :: fs)) path = if k = path then some v.entry else GoMap.get? (seen fs) path := by
      show GoMap.get? ((k, v.entry) :: seen fs) path = _
      conv => lhs; unfold GoMap.get?
    rw [e1] at h
    split at h
    · simp only [Option.some.injEq] at h
      cases v with
      | dir => cases h
      | noOpen => cases h
      | file s =>
        simp only [Source.entry, Entry.file.injEq] at h
        rw [← h]
        exact named s
    · exact ih h

variable [Uni]

/-- The same kind of entry; files whose tokens differ in text, comments and unhandled tags only. -/
def Relaid : Source → Source → Prop
  | .dir, .dir => True
  | .noOpen, .noOpen => True
  | .file s, .file s' => C64.essence (decode s) = C64.essence (decode s')
  | _, _ => False

/-- C82: two projects whose files differ in layout, text, comments and unhandled tags only are translated alike (C64), without any
assumption on the texts. -/
theorem relaid (W : World) (cfg : Cfg) (hW : makeFirstUpperCase cfg.lang = c!"Go" → C64.Indifferent W.gofmt) (fs fs' : List (Str × Source))
    (h : C64.Each (fun e e' => e.1 = e'.1 ∧ Relaid e.2 e'.2) fs fs') (sh : Shared) :
    C64.SameEnd W.gofmt cfg.lang C64.anyTree (fun t t' => C57.bare t = C57.bare t') (Parse { W with fs := seen fs } cfg sh) (Parse { W with fs := seen fs' } cfg sh) := by
  refine C64.reworded (W := { W with fs := seen fs }) (fs' := seen fs') cfg hW ?_ (fun _ _ h => seen_named h) (fun _ _ h => seen_named h) sh
  show C64.AllReworded (seen fs) (seen fs')
  induction h with
  | nil => exact .nil
  | @cons e e' fs fs' h1 h2 ih =>
    refine .cons ⟨h1.1, ?_⟩ ih
    obtain ⟨k, v⟩ := e
    obtain ⟨k', v'⟩ := e'
    cases v <;> cases v' <;> exact h1.2

/-- Documents written in two ways. -/
theorem relaid_written {doc doc' : Nodes} (h : doc.Ok) (h' : doc'.Ok)
    (he : C64.essence (doc.tokens []) = C64.essence (doc'.tokens [])) : Relaid (.file doc.written) (.file doc'.written) := by
  show C64.essence (decode _) = C64.essence (decode _)
  rw [C81.decode_written doc h, C81.decode_written doc' h', he]

/-- C82: a document of a regular core schema, written down in any way, meets the conditions of C59 (so its theorems apply); what is left is
how names are spelled, and that the output can be written. -/
theorem document {W : World} {cfg : Cfg} {sh : Shared} {ds : List Core.Decl} {doc : Nodes} (hd : doc.Ok)
    (file : W.fs.get? cfg.filePath = some (Source.file doc.written).entry)
    (tags : ∃ as, C40.skeleton (C57.noText (doc.tokens [])) = C40.skeleton (Core.schemaTokens as ds))
    (spelled : C59.AllSpelled (doc.tokens [])) (alone : C40.Alone W cfg sh) (regular : Core.Regular (C40.typeRef cfg.lang false) [] ds)
    (writes : cfg.extract = false)
    (dir : W.mkdirOk (pathDir (pathJoin cfg.outputDir (trimPrefix cfg.filePath cfg.inputDir))) = true)
    (create : ∀ ext, W.createOk (C24.documentedPath cfg ext) = true) : C59.Document W cfg sh ds (doc.tokens []) := by
  have e := C81.decode_written doc hd
  exact ⟨by rw [file, ← e]; rfl, e ▸ named _, tags, spelled, alone, regular, writes, dir, create⟩

/-! ## Examples -/

omit [NameChars] [Uni]

/-- A project with one schema given as text. -/
def project (text : Str) : World :=
  { Ex.world [] with fs := @seen C81.asciiNames [(c!".", .dir), (c!"xsd", .dir), (c!"xsd/base64.xsd", .file text)] }

/-- What is written in C for a text: nothing if the parse fails. -/
def written (text : Str) : Option (List (Str × Str)) :=
  match @Parse asciiUni (project text) { filePath := c!"xsd/base64.xsd", inputDir := c!"xsd", outputDir := c!"out", lang := c!"C" } {} with
  | .ok _ sh => some sh.outputs
  | _ => none

/-- From the text of the fixture of the repository to the expected output of the repository. -/
theorem fixture_written : written C81.fixture = some [(c!"out/base64.xsd.h", Fixture.expectedC)] := by decide +kernel

/-- The fixture, cut off within a tag: no error, and a file with the types before the cut. -/
theorem cut_written : written (C81.fixture.take 420) = some [(c!"out/base64.xsd.h",
    c!"// Code generated by xgen. DO NOT EDIT.\n\r\n// MyType1 ...\r\ntypedef char MyType1[];\n")] := by decide +kernel

/-- The same schema, with tabs, other quotes, references and a comment, in one line. -/
def oneLine : Nodes :=
  .elem { name := ⟨c!"s", c!"schema"⟩, attrs := [{ name := ⟨c!"xmlns", c!"s"⟩, value := C81.plain c!"u" }] }
    (.comment c!"x" <| .empty { name := ⟨c!"s", c!"element"⟩, attrs := [{ sep := c!"\t", name := ⟨[], c!"name"⟩, quote := '\'', value := [.number true false [6, 1]] }] } .nil) [] .nil

/-- The same schema, in several lines. -/
def someLines : Nodes :=
  .elem { name := ⟨[], c!"schema"⟩, attrs := [{ name := ⟨c!"xmlns", c!"s"⟩, value := C81.plain c!"u" }] }
    (.text [.crlf, .char ' '] <| .elem { name := ⟨[], c!"element"⟩, attrs := [{ name := ⟨[], c!"name"⟩, value := C81.plain c!"a" }] }
      (.text [.crlf] .nil) [] <| .text [.crlf] .nil) [] .nil

example : @Nodes.Ok C81.asciiNames oneLine ∧ @Nodes.Ok C81.asciiNames someLines ∧
    @C64.essence asciiUni (oneLine.tokens []) = @C64.essence asciiUni (someLines.tokens []) := by decide +kernel

example : oneLine.written = c!"<s:schema xmlns:s=\"u\"><!--x--><s:element\tname='&#x61;'/></s:schema>" ∧
    someLines.written = c!"<schema xmlns:s=\"u\">\r\n <element name=\"a\">\r\n</element>\r\n</schema>" := by decide +kernel

end Xgen.C82
