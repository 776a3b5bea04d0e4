import Verif.Lemmas.SyntaxNames

/-! # C99: generated Rust files are Rust

A generated Rust file is read by the rules of the language itself: comments are found by its lexical rules, the rest is split into
tokens, and the tokens follow the grammar.  The result is the four items of the header and then one struct for each component to
be declared, with the fields and attributes it should have. -/

namespace Xgen.C99
open Core C40 Decl Syntax
open C74 (membersOf)
open C80 (Word)
open C58 (isUnion)
open C58.Rust (numbered)
open C48.Rust (rename vec opt typeOf)
open Syntax.Rust (Field Item)

/-! ## Types -/

/-- Texts that are types. -/
inductive TypeText : Str → List Tok → Prop where
  | name {w : Str} : Ident .rust w → TypeText w [.ident w]
  | of {a u : Str} {ts : List Tok} : Ident .rust a → TypeText u ts → TypeText (a ++ '<' :: u ++ c!">") (.ident a :: .op '<' :: ts ++ [.op '>'])

theorem TypeText.emits {u : Str} {ts : List Tok} (h : TypeText u ts) : Emits .rust u ts := by
  induction h with
  | name h => exact h.emits
  | @of a u ts h _ ih =>
    intro rest hr
    have : a ++ '<' :: u ++ c!">" ++ rest = a ++ ('<' :: (u ++ '>' :: rest)) := by simp
    have op : ∀ c s, start .rust c = some ([.op c], .gap) → lex .rust .gap (c :: s) = (lex .rust .gap s).map (.op c :: ·) := by
      intro c s hs
      have : Syntax.step .rust .gap c = some ([.op c], .gap) := hs
      rw [lex, this]
      rfl
    rw [this, h.emits _ (apart (by decide)), op _ _ (by decide), ih _ (apart (by decide)), op _ _ (by decide)]
    cases lex .rust .gap rest <;> simp

theorem TypeText.parses {u : Str} {ts : List Tok} (h : TypeText u ts) {c : Char} (hc : c ≠ '<') (r : List Tok) :
    Syntax.Rust.type (ts ++ .op c :: r) = some (u, .op c :: r) := by
  induction h generalizing c r with
  | name h =>
    rw [List.singleton_append, Syntax.Rust.type.eq_def]
    split
    · rename_i heq; injection heq with _ e; injection e with e; injection e with e; exact absurd e hc
    · rename_i heq; injection heq with e e'; injection e with e; subst e; rw [e']
    · rename_i h1 h2; exact absurd rfl (h2 _ _)
  | of h _ ih =>
    simp only [List.cons_append, List.append_assoc]
    rw [Syntax.Rust.type, ih (by decide)]
    simp

/-- What a reference may stand for: a target type, nothing, or a name. -/
def Proper [Uni] (s : Str) : Prop := s ∈ rustBuildinType ∨ s = [] ∨ Word s ∧ Names.strict s ≠ c!"Self"

/-- The target types that are not names. -/
def vectors : List Str := [c!"Vec<char>", c!"Vec<String>", c!"Vec<u8>"]

theorem builtin_type {s : Str} (h : s ∈ rustBuildinType) : ∃ ts, TypeText s ts := by
  have := (by decide : ∀ s ∈ rustBuildinType, Ident .rust s ∨ (s = c!"Vec" ++ '<' :: (s.drop 4).dropLast ++ c!">" ∧ Ident .rust (s.drop 4).dropLast)) s h
  rcases this with h | ⟨e, h⟩
  · exact ⟨_, .name h⟩
  · rw [e]; exact ⟨_, .of (by decide) (.name h)⟩

section
variable [Uni] [UniLaws]

theorem proper_type {s : Str} (h : Proper s) : ∃ ts, TypeText (Names.rustType rustBuildinType s) ts := by
  unfold Names.rustType
  by_cases hb : s ∈ rustBuildinType
  · rw [if_pos hb]; exact builtin_type hb
  · rw [if_neg hb]
    rcases h with h | rfl | ⟨h, hs⟩
    · exact absurd h hb
    · have e : Names.strict [] = [] := rfl
      rw [if_pos e]; exact ⟨_, .name (by decide)⟩
    · have hc := strict_capital h
      rw [if_neg (by obtain ⟨⟨c, r, e, -⟩, -⟩ := hc; rw [e]; simp)]
      exact ⟨_, .name (hc.ident hs)⟩

theorem type_word {s : Str} (h : Proper s) (hv : s ∉ vectors) : Word (Names.rustType rustBuildinType s) := by
  unfold Names.rustType
  by_cases hb : s ∈ rustBuildinType
  · rw [if_pos hb]
    have := (by decide : ∀ s ∈ rustBuildinType, s ∈ vectors ∨ (s.head?.any isAsciiLetter && s.all C13.nameChar) = true) s hb
    rcases this with h | h
    · exact absurd h hv
    · exact ascii_word h
  · rw [if_neg hb]
    rcases h with h | rfl | ⟨h, hs⟩
    · exact absurd h hb
    · have e : Names.strict [] = [] := rfl
      rw [if_pos e]; exact ascii_word (by decide)
    · have hc := strict_capital h
      rw [if_neg (by obtain ⟨⟨c, r, e, -⟩, -⟩ := hc; rw [e]; simp)]
      exact hc.word

end

theorem vec_type {u : Str} (h : ∃ ts, TypeText u ts) : ∃ ts, TypeText (vec u) ts := by
  obtain ⟨ts, h⟩ := h
  exact ⟨_, .of (a := c!"Vec") (by decide) h⟩

theorem opt_type {u : Str} (h : ∃ ts, TypeText u ts) : ∃ ts, TypeText (opt u) ts := by
  obtain ⟨ts, h⟩ := h
  exact ⟨_, .of (a := c!"Option") (by decide) h⟩

/-! ## Fields -/

/-- A field as Rust sees it. -/
def ofMember (m : C48.Rust.Member) : Field := ⟨m.annotation, m.name, m.type⟩

/-- The line with the field. -/
theorem lex_field {n u : Str} {ts : List Tok} (hn : Ident .rust n) (h : TypeText u ts) :
    lex .rust .gap (c!"\tpub " ++ n ++ c!": " ++ u ++ c!",") = some ([.keyword c!"pub", .ident n, .op ':'] ++ ts ++ [.op ',']) := by
  have e : c!"\tpub " ++ n ++ c!": " ++ u ++ c!"," = c!"\tpub " ++ (n ++ (c!": " ++ (u ++ c!","))) := by simp
  have h1 := lex_emit (L := .rust) h.emits (rest := c!",") (apart (by decide)) (ts' := [.op ',']) (by decide)
  have h2 := lex_lit (L := .rust) (l := c!": ") (ts := [.op ':']) (by decide) h1
  have h3 := lex_emit (rest := c!": " ++ (u ++ c!",")) hn.emits (apart (by decide)) h2
  have h4 := lex_lit (L := .rust) (l := c!"\tpub ") (ts := [.keyword c!"pub"]) (by decide) h3
  rw [e, h4]
  simp

theorem field_eq {ts0 : List Tok} {a : Str} {n u : Str} {ts : List Tok} (h0 : ∀ r, Syntax.Rust.attr (ts0 ++ r) = some (a, r)) (h : TypeText u ts) (r : List Tok) :
    Syntax.Rust.field (.op '#' :: ts0 ++ ([.keyword c!"pub", .ident n, .op ':'] ++ ts ++ [.op ',']) ++ r) = some (⟨some a, n, u⟩, r) := by
  have e : .op '#' :: ts0 ++ ([.keyword c!"pub", .ident n, .op ':'] ++ ts ++ [.op ',']) ++ r =
    .op '#' :: (ts0 ++ (.keyword c!"pub" :: .ident n :: .op ':' :: (ts ++ .op ',' :: r))) := by simp
  rw [e, Syntax.Rust.field, Syntax.Rust.attrs, h0]
  show (if c!"pub" = c!"pub" then _ else _) = _
  rw [if_pos rfl, h.parses (by decide)]
  rfl

/-- A field with its XML name. -/
theorem renamed {x n u : Str} (hx : Inside '"' x) (hn : Ident .rust n) (h : ∃ ts, TypeText u ts) :
    Part .rust (.op '}') Syntax.Rust.field (rustField x n u) [ofMember ⟨rename x, n, u⟩] := by
  obtain ⟨ts, h⟩ := h
  have e : rustField x n u = (c!"\t#[serde(rename = \"" ++ x ++ c!"\")]") ++ c!"\n" ++ ((c!"\tpub " ++ n ++ c!": " ++ u ++ c!",") ++ c!"\n") := by
    simp [rustField]
  have h1 : lex .rust .gap (c!"\t#[serde(rename = \"" ++ x ++ c!"\")]") =
      some (.op '#' :: [.op '[', .ident c!"serde", .op '(', .ident c!"rename", .op '=', .str '"' x, .op ')', .op ']']) := by
    have e : c!"\t#[serde(rename = \"" ++ x ++ c!"\")]" = c!"\t#[serde(rename = " ++ ('"' :: (x ++ '"' :: c!")]")) := by simp
    rw [e, lex_lit (L := .rust) (ts := [.op '#', .op '[', .ident c!"serde", .op '(', .ident c!"rename", .op '=']) (by decide)
      (lex_str (.inl rfl) hx (ts := [.op ')', .op ']']) (by decide))]
    rfl
  rw [e]
  refine Part.one ((Toks.line h1).append (Toks.line (lex_field hn h))) (fun r => ?_) (by decide)
  refine field_eq (fun r => ?_) h r
  simp [Syntax.Rust.attr, Syntax.Rust.inputs]

/-- The field of an extended type. -/
theorem flattened {n u : Str} (hn : Ident .rust n) (h : ∃ ts, TypeText u ts) :
    Part .rust (.op '}') Syntax.Rust.field (c!"\t#[serde(flatten)]\n\tpub " ++ n ++ c!": " ++ u ++ c!",\n") [ofMember ⟨some c!"#[serde(flatten)]", n, u⟩] := by
  obtain ⟨ts, h⟩ := h
  have e : c!"\t#[serde(flatten)]\n\tpub " ++ n ++ c!": " ++ u ++ c!",\n" = c!"\t#[serde(flatten)]" ++ c!"\n" ++ ((c!"\tpub " ++ n ++ c!": " ++ u ++ c!",") ++ c!"\n") := by
    simp
  rw [e]
  refine Part.one ((Toks.line (ts := .op '#' :: [.op '[', .ident c!"serde", .op '(', .ident c!"flatten", .op ')', .op ']']) (by decide)).append
    (Toks.line (lex_field hn h))) (fun r => ?_) (by decide)
  exact field_eq (fun r => rfl) h r

/-! ## Declarations -/

/-- What is before every struct. -/
def derive : Str := c!"#[derive(Debug, Deserialize, Serialize, PartialEq)]"

theorem struct {fn s : Str} {fs : List Field} (hf : Ident .rust fn) (h : Part .rust (.op '}') Syntax.Rust.field s fs) :
    ∃ t ts, Toks .rust (rustStruct fn s) (t :: ts) ∧ ∀ r, Syntax.Rust.item (t :: ts ++ r) = some (⟨some derive, .struct fn fs⟩, r) := by
  obtain ⟨ts, h1, h2⟩ := h.closed
  have e : rustStruct fn s = derive ++ c!"\n" ++ ((c!"pub struct " ++ fn ++ c!" {") ++ c!"\n" ++ (s ++ (c!"}" ++ c!"\n"))) := by
    simp [rustStruct, derive]
  have l2 : lex .rust .gap (c!"pub struct " ++ fn ++ c!" {") = some [.keyword c!"pub", .keyword c!"struct", .ident fn, .op '{'] := by
    rw [List.append_assoc, lex_lit (L := .rust) (ts := [.keyword c!"pub", .keyword c!"struct"]) (by decide)
      (lex_emit hf.emits (apart (by decide)) (ts' := [.op '{']) (by decide))]
    rfl
  have k : Toks .rust (rustStruct fn s) (.op '#' :: ([.op '[', .ident c!"derive", .op '(', .ident c!"Debug", .op ',', .ident c!"Deserialize", .op ',',
      .ident c!"Serialize", .op ',', .ident c!"PartialEq", .op ')', .op ']'] ++ ([.keyword c!"pub", .keyword c!"struct", .ident fn, .op '{'] ++ (ts ++ [.op '}'])))) := by
    rw [e]
    exact (Toks.line (s := derive) (ts := .op '#' :: [.op '[', .ident c!"derive", .op '(', .ident c!"Debug", .op ',', .ident c!"Deserialize", .op ',',
      .ident c!"Serialize", .op ',', .ident c!"PartialEq", .op ')', .op ']']) (by decide)).append
      ((Toks.line l2).append (h1.append (Toks.line (L := .rust) (s := c!"}") (ts := [.op '}']) (by decide))))
  refine ⟨.op '#', _, k, ?_⟩
  · intro r
    have ha : ∀ r : List Tok, Syntax.Rust.attr ([.op '[', .ident c!"derive", .op '(', .ident c!"Debug", .op ',', .ident c!"Deserialize", .op ',',
      .ident c!"Serialize", .op ',', .ident c!"PartialEq", .op ')', .op ']'] ++ r) = some (derive, r) := fun r => rfl
    have hr : Syntax.Rust.attrs (.op '#' :: ([.op '[', .ident c!"derive", .op '(', .ident c!"Debug", .op ',', .ident c!"Deserialize", .op ',',
      .ident c!"Serialize", .op ',', .ident c!"PartialEq", .op ')', .op ']'] ++ (.keyword c!"pub" :: .keyword c!"struct" :: .ident fn :: .op '{' :: (ts ++ .op '}' :: r)))) =
      some (some derive, .keyword c!"pub" :: .keyword c!"struct" :: .ident fn :: .op '{' :: (ts ++ .op '}' :: r)) := by
      rw [Syntax.Rust.attrs, ha]; rfl
    unfold Syntax.Rust.item
    simp only [List.cons_append, List.nil_append, List.append_assoc] at hr ⊢
    rw [hr]
    dsimp only
    rw [if_neg (by decide), if_pos (by decide), h2]

theorem declared {fn doc s : Str} {fs : List Field} (hf : Ident .rust fn) (hd : C98.Safe .rust doc) (h : Part .rust (.op '}') Syntax.Rust.field s fs) :
    ∃ t ts, Toks .rust (rustDecl fn doc s) (t :: ts) ∧ ∀ r, Syntax.Rust.item (t :: ts ++ r) = some (⟨some derive, .struct fn fs⟩, r) := by
  obtain ⟨t, ts, h1, h2⟩ := struct hf h
  refine ⟨t, ts, ?_, h2⟩
  have e : rustDecl fn doc s = [] ++ c!"\n" ++ (genFieldComment fn doc c!"//" ++ rustStruct fn s) := by simp [rustDecl]
  rw [e]
  exact (Toks.line (ts := []) (by decide)).append ((Toks.comment hf.named hd).append (ts := []) h1)

/-! ## Which trees -/

section
variable [Uni]

/-- Names start with a letter that has a capital and consist of letters, ASCII digits, `:`, `.`, `-` and `_`, and no struct is to be called
`Self`; references stand for target types or names; an extended type is a name or predefined; documentation is any text. -/
structure Fair (t : Tree) : Prop extends Worded (C98.Safe .rust) t where
  selves : ∀ n ∈ nodes t, numbered n = true → Names.strict (nodeName n) ≠ c!"Self"
  types : ∀ n ∈ nodes t, ∀ s ∈ references t n, Proper s
  bases : ∀ n ∈ nodes t, C74.baseOf n = [] ∨ C74.baseOf n ∈ rustBuildinType ∨ Names.meaning t (C74.baseOf n) ∉ vectors

/-- The items before the declarations. -/
def header : List Item := [⟨some c!"#[macro_use]", .crate c!"serde_derive"⟩, ⟨none, .crate c!"serde"⟩, ⟨none, .crate c!"serde_xml_rs"⟩,
  ⟨none, .use [c!"serde_xml_rs", c!"from_reader"]⟩]

/-- What a file is to be: the header, and a struct for every component to be declared. -/
def fileOf (order : List (Str × Str) → List (Str × Str)) (t : Tree) : List Item :=
  header ++ (C58.declarations C56.Rust.baseName numbered (fun _ => false) t).map fun x => ⟨some derive, .struct x.2 ((C58.Rust.members order t x.1).map ofMember)⟩

variable [UniLaws]

/-! ## One declaration -/

/-- A field with its XML name, as the schema gives it. -/
theorem member_part {name u line : Str} (hn : Word name) (hu : ∃ ts, TypeText u ts) (hl : line = rustField name (Names.rustMember rustKeywords name) u) :
    Part .rust (.op '}') Syntax.Rust.field line [ofMember ⟨rename name, Names.rustMember rustKeywords name, u⟩] := by
  rw [hl]; exact renamed (word_inside (.inl rfl) hn) (member_ident hn) hu

omit [Uni] [UniLaws] in
theorem if_type {u v : Str} (b : Bool) (hu : ∃ ts, TypeText u ts) (hv : ∃ ts, TypeText v ts) : ∃ ts, TypeText (if b then u else v) ts := by
  cases b
  · exact hv
  · exact hu

theorem grouped_part {t : Tree} {name type : Str} (b : Bool) (hn : Word name) (hu : Proper (Names.meaning t type)) :
    Part .rust (.op '}') Syntax.Rust.field (rustGroupMember t b name type)
      [ofMember ⟨rename name, Names.rustMember rustKeywords name, if b then vec (typeOf t type) else typeOf t type⟩] :=
  member_part hn (if_type b (vec_type (proper_type hu)) (proper_type hu)) (by
    unfold rustGroupMember typeOf vec rustVec
    rw [Names.rust_member_name, Names.rust_type, Names.meaning_eq])

theorem base_part {t : Tree} {base : Str} (h : base ≠ [] → Proper (Names.meaning t base)) (hb : base = [] ∨ base ∈ rustBuildinType ∨ Names.meaning t base ∉ vectors) :
    Part .rust (.op '}') Syntax.Rust.field (rustBaseLine t base) ((if base = [] then [] else if base ∈ rustBuildinType then
      [(⟨rename c!"$value", c!"value", typeOf t base⟩ : C48.Rust.Member)]
      else [⟨some c!"#[serde(flatten)]", Names.rustMember rustKeywords (typeOf t base), typeOf t base⟩]).map ofMember) := by
  unfold rustBaseLine
  by_cases h0 : base = []
  · rw [if_neg (by simp [h0]), if_pos h0]; exact Part.nil
  · rw [if_pos h0, if_neg h0]
    have hu := proper_type (h h0)
    have et : genRustFieldType (resolveIn t base) = typeOf t base := by
      unfold typeOf
      rw [Names.rust_type, Names.meaning_eq]
    rw [et]
    by_cases hm : base ∈ rustBuildinType
    · rw [if_pos (by simpa [isRustBuiltInType] using hm), if_pos hm]
      exact renamed (by decide) (by decide) hu
    · rw [if_neg (by simpa [isRustBuiltInType] using hm), if_neg hm, Names.rust_member_name]
      exact flattened (member_ident (type_word (h h0) ((hb.resolve_left h0).resolve_left hm))) hu

theorem complex_part {t : Tree} {v : ComplexType} (h1 : ∀ m ∈ membersOf (.complex v), Word m.1) (h2 : ∀ s ∈ references t (.complex v), Proper s)
    (h3 : v.base = [] ∨ v.base ∈ rustBuildinType ∨ Names.meaning t v.base ∉ vectors) :
    Part .rust (.op '}') Syntax.Rust.field (rustComplexContent t v) ((C48.Rust.expected t v).map ofMember) := by
  simp only [membersOf, references, C96.references, List.mem_append, List.mem_map, if_true, List.not_mem_nil, or_false] at h1 h2
  simp only [C48.Rust.expected, rustComplexContent, List.map_append, List.map_map]
  refine ((((?_ : Part ..).append ?_).append ?_).append ?_).append (base_part (fun hb => h2 _ (.inr (by simp [hb]))) h3)
  · refine Part.flatMap fun a ha => ?_
    exact member_part (h1 _ (.inl (.inl (.inl ⟨a, ha, rfl⟩)))) (vec_type (proper_type (h2 _ (.inl (.inl (.inl (.inl ⟨a, ha, rfl⟩))))))) (by
      unfold rustAttrGroupLine rustVec
      rw [Names.rust_member_name, Names.rust_type, Names.meaning_eq]; rfl)
  · refine Part.flatMap fun a ha => ?_
    have hu := proper_type (h2 _ (.inl (.inl (.inl (.inr ⟨a, ha, rfl⟩)))))
    exact member_part (h1 _ (.inl (.inl (.inr ⟨a, ha, rfl⟩)))) (if_type a.optional (opt_type hu) hu) (by
      unfold rustAttrLine rustOption opt
      rw [Names.rust_member_name, Names.rust_type, Names.meaning_eq]; rfl)
  · refine Part.flatMap fun a ha => ?_
    have hu := proper_type (h2 _ (.inl (.inl (.inr ⟨a, ha, rfl⟩))))
    exact member_part (h1 _ (.inl (.inr ⟨a, ha, rfl⟩))) (if_type a.plural (vec_type hu) hu) (by
      unfold rustGroupLine rustVec vec
      rw [Names.rust_member_name, Names.rust_type, Names.meaning_eq]; rfl)
  · refine Part.flatMap fun a ha => ?_
    have hu := proper_type (h2 _ (.inl (.inr ⟨a, ha, rfl⟩)))
    exact member_part (h1 _ (.inr ⟨a, ha, rfl⟩)) (if_type a.plural (vec_type hu) (if_type a.optional (opt_type hu) hu)) (by
      unfold rustElemLine rustVec vec rustOption opt
      rw [Names.rust_member_name, Names.rust_type, Names.meaning_eq]; rfl)

/-- One declaration. -/
theorem one {t : Tree} (h : Fair t) {n : Node Element} (hn : n ∈ nodes t) {fn : Str} (hf : Ident .rust fn) :
    ∃ x xs, Toks .rust ((C15.rustLang t).text n fn) (x :: xs) ∧
      ∀ r, Syntax.Rust.item (x :: xs ++ r) = some (⟨some derive, .struct fn ((C58.Rust.members toSortedPairs t n).map ofMember)⟩, r) := by
  have hd := h.docs n hn
  have h0 := h.names n hn
  have h1 := h.members n hn
  have h2 := h.types n hn
  cases n with
  | simple v =>
    simp only [C15.rustLang, C58.Rust.members]
    by_cases hl : v.list = true
    · have hu : isUnion v = false := by simp [isUnion, hl]
      rw [if_pos hl, if_pos hl]
      refine declared hf hd (member_part h0 (vec_type (proper_type (h2 (Names.meaning t v.base) (by simp [references, C96.references, hu])))) ?_)
      rw [Names.rust_member_name, Names.rust_type, Names.meaning_eq]; rfl
    · rw [if_neg hl, if_neg hl]
      by_cases hu : isUnion v = true
      · have hu' : (v.union && decide (v.memberTypes.length > 0)) = true := by simpa [isUnion, hl] using hu
        rw [if_pos hu', if_pos hu, List.map_map]
        have hp : Part .rust (.op '}') Syntax.Rust.field ((toSortedPairs v.memberTypes).flatMap (rustMemberLine t v.name))
            ((toSortedPairs v.memberTypes).map (ofMember ∘ fun m => ⟨rename v.name, Names.rustMember rustKeywords m.1,
              Names.rustType rustBuildinType (C55.memberMeaning t m)⟩)) := by
          refine Part.flatMap fun m hm => ?_
          have hm := (C08.toSortedPairs_perm v.memberTypes).mem_iff.1 hm
          have hw := h1 (m.1, false) (by simp only [membersOf, hu, if_true]; exact List.mem_map_of_mem hm)
          have hp := h2 (C55.memberMeaning t m) (by simp only [references, C96.references, hu, if_true]; exact List.mem_map_of_mem hm)
          unfold rustMemberLine
          rw [Names.rust_member_name, Names.rust_type, C55.memberMeaning_eq]
          exact renamed (word_inside (.inl rfl) h0) (member_ident hw) (proper_type hp)
        obtain ⟨x, xs, k1, k2⟩ := struct hf hp
        refine ⟨x, xs, ?_, k2⟩
        exact (Toks.line (s := []) (ts := []) (by decide)).append k1
      · have hu' : ¬ (v.union && decide (v.memberTypes.length > 0)) = true := by simpa [isUnion, hl] using hu
        rw [if_neg hu', if_neg hu]
        refine declared hf hd (member_part h0 (proper_type (h2 (Names.meaning t v.base) (by simp [references, C96.references, hu]))) ?_)
        rw [Names.rust_member_name, Names.rust_type, Names.meaning_eq]; rfl
  | attr v => exact declared hf hd (grouped_part v.plural h0 (h2 (Names.meaning t v.type) (by simp [references, C96.references])))
  | elem v => exact declared hf hd (grouped_part v.plural h0 (h2 (Names.meaning t v.type) (by simp [references, C96.references])))
  | complex v => exact declared hf hd (complex_part h1 h2 (h.bases _ hn))
  | group v =>
    simp only [membersOf, references, C96.references, List.mem_append, List.mem_map] at h1 h2
    simp only [C58.Rust.members, C54.Rust.group, List.map_append, List.map_map]
    exact declared hf hd (Part.append
      (Part.flatMap fun e he => grouped_part v.plural (h1 _ (.inl ⟨e, he, rfl⟩)) (h2 _ (.inl ⟨e, he, rfl⟩)))
      (Part.flatMap fun g hg => grouped_part v.plural (h1 _ (.inr ⟨g, hg, rfl⟩)) (h2 _ (.inr ⟨g, hg, rfl⟩))))
  | attrGroup v =>
    simp only [membersOf, references, C96.references, List.mem_map] at h1 h2
    simp only [C58.Rust.members, C54.Rust.attrs, List.map_map]
    refine declared hf hd (Part.flatMap fun a ha => ?_)
    have hu := proper_type (h2 _ ⟨a, ha, rfl⟩)
    exact member_part (h1 _ ⟨a, ha, rfl⟩) (if_type a.optional (opt_type hu) (vec_type hu)) (by
      unfold rustAttrGroupAttrLine rustVec vec rustOption opt
      rw [Names.rust_member_name, Names.rust_type, Names.meaning_eq]; rfl)

/-! ## The file -/

omit [Uni] [UniLaws] in
theorem header_toks : ∃ ts, Toks .rust (copyright ++
    c!"\n\n#[macro_use]\nextern crate serde_derive;\nextern crate serde;\nextern crate serde_xml_rs;\n\nuse serde_xml_rs::from_reader;\n") ts ∧ 4 < ts.length ∧
    ∀ k ts', Syntax.all Syntax.Rust.item (k + 4) (ts ++ ts') = (Syntax.all Syntax.Rust.item k ts').map (header ++ ·) := by
  refine ⟨[.op '#', .op '[', .ident c!"macro_use", .op ']', .keyword c!"extern", .keyword c!"crate", .ident c!"serde_derive", .op ';',
    .keyword c!"extern", .keyword c!"crate", .ident c!"serde", .op ';', .keyword c!"extern", .keyword c!"crate", .ident c!"serde_xml_rs", .op ';',
    .keyword c!"use", .ident c!"serde_xml_rs", .path, .ident c!"from_reader", .op ';'],
    Toks.lit (ls' := [c!"#[macro_use]", c!"extern crate serde_derive;", c!"extern crate serde;", c!"extern crate serde_xml_rs;",
      c!"use serde_xml_rs::from_reader;"]) (by decide +kernel) (by decide +kernel), by decide, fun k ts' => ?_⟩
  have step : ∀ (k : Nat) (t : Tok) (ts r : List Tok) (i : Item), Syntax.Rust.item (t :: ts ++ r) = some (i, r) →
      Syntax.all Syntax.Rust.item (k + 1) (t :: ts ++ r) = (Syntax.all Syntax.Rust.item k r).map (i :: ·) := by
    intro k t ts r i h
    rw [List.cons_append] at h ⊢
    rw [Syntax.all, h]
  have s1 := step (k + 3) (.op '#') [.op '[', .ident c!"macro_use", .op ']', .keyword c!"extern", .keyword c!"crate", .ident c!"serde_derive", .op ';']
  have s2 := step (k + 2) (.keyword c!"extern") [.keyword c!"crate", .ident c!"serde", .op ';']
  have s3 := step (k + 1) (.keyword c!"extern") [.keyword c!"crate", .ident c!"serde_xml_rs", .op ';']
  have s4 := step k (.keyword c!"use") [.ident c!"serde_xml_rs", .path, .ident c!"from_reader", .op ';']
  refine (s1 _ _ rfl).trans ?_
  rw [show (k + 3) = (k + 2) + 1 from rfl]
  refine (congrArg _ (s2 _ _ rfl)).trans ?_
  refine (congrArg _ (congrArg _ (s3 _ _ rfl))).trans ?_
  refine (congrArg _ (congrArg _ (congrArg _ (s4 ts' _ rfl)))).trans ?_
  simp only [Option.map_map]
  rfl

/-- C99: a generated Rust file is a Rust source file, with the items it should have. -/
theorem file {t : Tree} (h : Fair t) : ∃ order, C58.Order order ∧ Syntax.Rust.parse (rustSource t) = some (fileOf order t) := by
  refine ⟨_, C58.order, ?_⟩
  have hm : ∀ n ∈ C56.firsts (fun _ => false) (nodes t), n ∈ nodes t := C71.firsts_mem _ _
  have hx : ∀ x ∈ C58.declarations C56.Rust.baseName numbered (fun _ => false) t, x.1 ∈ nodes t ∧ Ident .rust x.2 := by
    intro x hx
    refine ⟨hm _ (List.of_mem_zip hx).1, finals_all (P := Ident .rust) [] (fun n hn => ?_) _ (List.of_mem_zip hx).2⟩
    have hw := h.names n (hm n hn)
    have hs := h.selves n (hm n hn)
    have key : Names.strict (nodeName n) ≠ c!"Self" → Ident .rust (Names.strict (nodeName n)) ∧ (numbered n = true →
        ∀ k, Ident .rust (C14.numbered (Names.strict (nodeName n)) k)) := fun hs =>
      have hc := strict_capital hw
      ⟨hc.ident hs, fun _ k => (hc.numbered k).ident (numbered_self hs k)⟩
    cases n with
    | elem v => exact ⟨member_ident hw, fun h => by cases h⟩
    | attr v => exact ⟨member_ident hw, fun h => by cases h⟩
    | simple v => exact key (hs rfl)
    | complex v => exact key (hs rfl)
    | group v => exact key (hs rfl)
    | attrGroup v => exact key (hs rfl)
  have hfield : (rustGen t).field = (C58.declarations C56.Rust.baseName numbered (fun _ => false) t).flatMap fun x => (C15.rustLang t).text x.1 x.2 := by
    have hnm : C58.declarations C56.Rust.baseName numbered (fun _ => false) t = named (C15.rustLang t) [] (Decl.declared (C15.rustLang t) (nodes t)) := by
      rw [C58.named_declarations]
      congr 1
      funext n
      cases n with
      | elem v => exact (Names.rust_member_name _).symm
      | attr v => exact (Names.rust_member_name _).symm
      | _ => exact (Names.rust_struct_name _).symm
    rw [C15.rust, render_named, hnm]
  obtain ⟨ts, h1, h2, h3⟩ := alls (f := fun x => (C15.rustLang t).text x.1 x.2)
    (g := fun x => (⟨some derive, .struct x.2 ((C58.Rust.members toSortedPairs t x.1).map ofMember)⟩ : Item)) fun x hx' => one h (hx x hx').1 (hx x hx').2
  rw [← hfield] at h1
  obtain ⟨ts0, k1, k2, k3⟩ := header_toks
  unfold Syntax.Rust.parse rustSource
  rw [(k1.append h1).tokens]
  dsimp only [Option.bind]
  have hl : (ts0 ++ ts).length + 1 = (ts0.length - 4 + ts.length + 1) + 4 := by rw [List.length_append]; omega
  rw [hl, k3, h3 _ (by omega)]
  rfl

/-! ## Documents -/

omit [UniLaws] in
theorem ok_proper {t : Tree} (hn : ∀ n ∈ nodes t, Word (nodeName n)) (hs : ∀ n ∈ nodes t, C71.typelike n = true → Names.strict (nodeName n) ≠ c!"Self")
    {s : Str} (h : C71.Ok c!"Rust" (C71.typeNames t) s) : Proper s := by
  rcases h with rfl | ⟨k, hk⟩ | ⟨h1, h2, h3⟩
  · exact .inr (.inl rfl)
  · exact .inl (C71.Rust.table hk)
  · obtain ⟨n, h4, rfl⟩ := List.mem_map.1 h1
    exact .inr (.inr ⟨hn n (List.mem_filter.1 h4).1, hs n (List.mem_filter.1 h4).1 (List.mem_filter.1 h4).2⟩)

/-- Schemas without dangling references, with names of letters, none of which becomes `Self`, in which no complex type extends a simple
type that is declared behind it and is a vector in Rust. -/
structure Suitable (ds : List Core.Decl) : Prop extends Plain c!"Rust" ds where
  selves : ∀ d ∈ ds, ∀ s ∈ C73.namesOf d, Names.strict s ≠ c!"Self"
  bases : ∀ n ∈ nodes (treeOf (typeRef c!"Rust" false) [] ds), C74.baseOf n = [] ∨ C74.baseOf n ∈ rustBuildinType ∨
    Names.meaning (treeOf (typeRef c!"Rust" false) [] ds) (C74.baseOf n) ∉ vectors

/-- C99: the file of a document is a Rust source file.  (Missing: names with other letters than those of `Alphabet`; schemas for which the text need not be Rust, see
below.) -/
theorem document_partial {W : World} {cfg : Cfg} {sh : Shared} {ds : List Core.Decl} {toks : List Token} (h : C59.Document W cfg sh ds toks)
    (hl : cfg.lang = c!"Rust") (hs : Suitable ds) :
    ∃ t order sh', C57.bare t = C57.bare (treeOf (typeRef c!"Rust" false) [] ds) ∧ C58.Order order ∧
    Syntax.Rust.parse (rustSource t) = some (fileOf order t) ∧
    Parse W cfg sh = .ok t sh' ∧ sh'.outputs = sh.outputs ++ [(C24.documentedPath cfg c!".rs", rustSource t)] := by
  obtain ⟨t, sh', h0, h1, h2, h3, h4⟩ := document_tree h hl hs.toPlain (D := C98.Safe .rust) trivial fun _ _ => trivial
  have hself : ∀ n ∈ nodes t, Names.strict (nodeName n) ≠ c!"Self" := fun n hn => by
    obtain ⟨d, hd, h1⟩ := C73.names_alike h1 n hn
    exact hs.selves d hd _ h1
  have hf : Fair t := by
    refine ⟨h2, fun n hn _ => hself n hn, fun n hn s hs => ok_proper h2.names (fun n hn _ => hself n hn) (references_ok h3 n hn s hs), fun n hn => ?_⟩
    obtain ⟨m, hm, -, e⟩ := C74.alike h1 hn
    have em : Names.meaning t = Names.meaning (treeOf (typeRef c!"Rust" false) [] ds) := by rw [← C59.meaning_bare t, h1, C59.meaning_bare]
    rw [em, e]
    exact hs.bases m hm
  obtain ⟨order, ho, hp⟩ := file hf
  obtain ⟨sh'', h5, h6⟩ := h.write (t := t) (sh' := sh') (ext := c!".rs") (text := rustSource t) (by
    rw [generate, hl, C24.title_lang (by decide)]; rfl)
  exact ⟨t, order, sh'', h1, ho, hp, h4.trans h5, by rw [h6, h0]⟩

end

/-! ## Examples -/

open C70 (a)

theorem suitable : @Suitable asciiUni C80.schema :=
  @Suitable.mk asciiUni _ (@Plain.mk asciiUni _ _ (by decide +kernel) (by decide +kernel) (by decide +kernel)) (by decide +kernel) (by decide +kernel)

theorem document : @C59.Document asciiUni (Ex.world [("a.xsd", schemaTokens C40.root C80.schema)]) (C59.doc c!"Rust") {} C80.schema
    (schemaTokens C40.root C80.schema) :=
  @C59.Document.mk asciiUni _ _ _ _ _ rfl (by decide +kernel) ⟨C40.root, by decide +kernel⟩ (by decide +kernel)
    (.inr ⟨rfl, rfl, by decide, rfl⟩) (by decide +kernel) rfl rfl fun _ => rfl

/-- A document that satisfies all that is demanded. -/
example : ∃ t order, C57.bare t = C57.bare (treeOf (typeRef c!"Rust" false) [] C80.schema) ∧ C58.Order order ∧
    Syntax.Rust.parse (@rustSource asciiUni t) = some (@fileOf asciiUni order t) := by
  obtain ⟨t, order, -, h1, h2, h3, -⟩ := @document_partial asciiUni asciiUniLaws _ _ _ _ _ document rfl suitable
  exact ⟨t, order, h1, h2, h3⟩

/-- The names and types in an item. -/
def shape (i : Item) : Str × List (Str × Str) := match i.body with
  | .struct n fs => (n, fs.map fun f => (f.name, f.type))
  | .crate n => (n, [])
  | .use ns => (ns.flatten, [])

set_option synthInstance.maxSize 1000 in
/-- What Rust reads in the file of its first components. -/
example : (Syntax.Rust.parse (C71.file c!"Rust" (C80.schema.take 3))).map (fun f => (f.length, f.map shape)) =
    some (7, [(c!"serde_derive", []), (c!"serde", []), (c!"serde_xml_rs", []), (c!"serde_xml_rsfrom_reader", []),
       (c!"Day", [(c!"day", c!"String")]), (c!"Visit", [(c!"from", c!"String"), (c!"what", c!"String")]), (c!"Item", [(c!"x", c!"i32")])]) := by
  decide +kernel

/-! ## Files that are not Rust -/

/-- The file of a schema with one simple type. -/
def single (name : String) (b : SimpleBody) : Str := C71.file c!"Rust" [.simple (a [("name", name)]) b]

/-- Names whose letters are all dropped, or that start with a digit then; both are names in XML.  A name with a space is none. -/
theorem bad_names : (Syntax.Rust.parse (single "a1" (C80.limited "xs:int"))).isSome = true ∧
    Syntax.Rust.parse (single "_" (C80.limited "xs:int")) = none ∧ Syntax.Rust.parse (single "_1" (C80.limited "xs:int")) = none ∧
    Syntax.Rust.parse (single "a b" (C80.limited "xs:int")) = none := by decide +kernel

/-- The names of members avoid keywords, those of structs do not: the only keyword with a capital is `Self`. -/
theorem keyword : Syntax.Rust.parse (single "self" (C80.limited "xs:int")) = none ∧
    (Syntax.Rust.parse (single "match" (C80.limited "xs:int"))).map (fun f => (f.drop 4).map shape) = some [(c!"Match", [(c!"match_attr", c!"i32")])] := by
  decide +kernel

/-- A type that extends a simple type declared behind it, which is a vector in Rust: the field is called `vec<string>`. -/
theorem vector_base : let ds := [Core.Decl.complex (a [("name", "T")]) (.ext (a [("base", "A")]) .nil .nil),
      .simple (a [("name", "A")]) (C80.limited "xs:ENTITIES")]
    C71.Bound c!"Rust" ds ∧ Syntax.Rust.parse (C71.file c!"Rust" ds) = none ∧ (Syntax.Rust.parse (C71.file c!"Rust" ds.reverse)).isSome = true ∧
    (splitOn '\n' (C71.file c!"Rust" ds)).contains c!"\tpub vec<string>: Vec<String>," = true := by decide +kernel

end Xgen.C99
