import Verif.Lemmas.SyntaxNames

/-! # C100: generated Java files are Java

A generated Java file is read by the rules of the language itself: comments are found by its lexical rules, the rest is split into
tokens, and the tokens follow the grammar.  The result is the package, the imports and then one class for each component to be
declared, with the fields and annotations it should have. -/

namespace Xgen.C100
open Core C40 Decl Syntax
open C74 (membersOf)
open C80 (Word)
open C58 (isUnion)
open C48.Java (typeOf listOf)
open Syntax.Java (Field Class File)

/-! ## Types -/

/-- Texts that are types. -/
inductive TypeText : Str → List Tok → Prop where
  | name {w : Str} : Ident .java w → TypeText w [.ident w]
  | of {a u : Str} {ts : List Tok} : Ident .java a → TypeText u ts → TypeText (a ++ '<' :: u ++ c!">") (.ident a :: .op '<' :: ts ++ [.op '>'])

theorem TypeText.emits {u : Str} {ts : List Tok} (h : TypeText u ts) : Emits .java u ts := by
  induction h with
  | name h => exact h.emits
  | @of a u ts h _ ih =>
    intro rest hr
    have : a ++ '<' :: u ++ c!">" ++ rest = a ++ ('<' :: (u ++ '>' :: rest)) := by simp
    have op : ∀ c s, start .java c = some ([.op c], .gap) → lex .java .gap (c :: s) = (lex .java .gap s).map (.op c :: ·) := by
      intro c s hs
      have : Syntax.step .java .gap c = some ([.op c], .gap) := hs
      rw [lex, this]
      rfl
    rw [this, h.emits _ (apart (by decide)), op _ _ (by decide), ih _ (apart (by decide)), op _ _ (by decide)]
    cases lex .java .gap rest <;> simp

theorem TypeText.parses {u : Str} {ts : List Tok} (h : TypeText u ts) {x : Tok} (hx : x ≠ .op '<') (r : List Tok) :
    Syntax.Java.type (ts ++ x :: r) = some (u, x :: r) := by
  induction h generalizing x r with
  | name h =>
    rw [List.singleton_append, Syntax.Java.type.eq_def]
    split
    · rename_i heq; injection heq with _ e; injection e with e; exact absurd e hx
    · rename_i heq; injection heq with e e'; injection e with e; subst e; rw [e']
    · rename_i h1 h2; exact absurd rfl (h2 _ _)
  | of h _ ih =>
    simp only [List.cons_append, List.append_assoc]
    rw [Syntax.Java.type, ih (by decide)]
    simp

/-- What a reference may stand for: a target type or a name. -/
def Proper [Uni] (s : Str) : Prop := s ∈ javaBuildInType ∨ Word s ∧ ':' ∉ s

/-- The target types that are not names. -/
def lists : List Str := [c!"List<String>", c!"List<Byte>"]

theorem builtin_type {s : Str} (h : s ∈ javaBuildInType) : ∃ ts, TypeText s ts := by
  have := (by decide : ∀ s ∈ javaBuildInType, Ident .java s ∨ (s = c!"List" ++ '<' :: (s.drop 5).dropLast ++ c!">" ∧ Ident .java (s.drop 5).dropLast)) s h
  rcases this with h | ⟨e, h⟩
  · exact ⟨_, .name h⟩
  · rw [e]; exact ⟨_, .of (by decide) (.name h)⟩

theorem list_type {u : Str} (b : Bool) (h : ∃ ts, TypeText u ts) : ∃ ts, TypeText (listOf b u) ts := by
  obtain ⟨ts, h⟩ := h
  cases b
  · exact ⟨ts, h⟩
  · exact ⟨_, .of (a := c!"List") (by decide) h⟩

section
variable [Uni] [UniLaws]

theorem proper_type {s : Str} (h : Proper s) : ∃ ts, TypeText (Names.plainType c!"void" javaBuildInType s) ts := by
  unfold Names.plainType
  by_cases hb : s ∈ javaBuildInType
  · rw [if_pos hb]; exact builtin_type hb
  · rw [if_neg hb]
    obtain ⟨h, hc⟩ := h.resolve_left hb
    have hc := type_capital h hc
    rw [if_neg (by obtain ⟨⟨c, r, e, -⟩, -⟩ := hc; rw [e]; simp)]
    exact ⟨_, .name (hc.ident' (by decide))⟩

/-- With the suffix that the types in attribute groups get. -/
theorem suffixed_type {s : Str} (h : s = [] ∨ Proper s) (hl : s ∉ lists) : ∃ ts, TypeText (Names.plainType c!"void" javaBuildInType s ++ c!"Attr") ts := by
  unfold Names.plainType
  by_cases hb : s ∈ javaBuildInType
  · rw [if_pos hb]
    have := (by decide : ∀ s ∈ javaBuildInType, s ∈ lists ∨ Ident .java (s ++ c!"Attr")) s hb
    exact ⟨_, .name (this.resolve_left hl)⟩
  · rw [if_neg hb]
    rcases h with rfl | h
    · have e : Names.cap (Names.camel Names.dot Names.hyphen true []) = [] := rfl
      rw [if_pos e]; exact ⟨_, .name (by decide)⟩
    · obtain ⟨h, hc⟩ := h.resolve_left hb
      have hc := type_capital h hc
      rw [if_neg (by obtain ⟨⟨c, r, e, -⟩, -⟩ := hc; rw [e]; simp)]
      exact ⟨_, .name ((hc.append (by decide)).ident' (by decide))⟩

end

/-! ## Annotations -/

/-- A line with an annotation. -/
def Annot (line a : Str) : Prop := ∃ ts, lex .java .gap line = some (.op '@' :: ts) ∧
  ∀ x r, x ≠ .op '(' → Syntax.Java.annotation (ts ++ x :: r) = some (a, x :: r)

theorem annot_value : Annot c!"\t@XmlValue" c!"@XmlValue" := by
  refine ⟨[.ident c!"XmlValue"], by decide, fun x r hx => ?_⟩
  rw [List.singleton_append, Syntax.Java.annotation.eq_def]
  split
  · rename_i heq; injection heq with _ e; injection e with e; exact absurd e hx
  · rename_i heq; injection heq with e e'; injection e with e; subst e; rw [e']
  · rename_i h1 h2; exact absurd rfl (h2 _ _)

theorem annot_required : Annot c!"\t@XmlElement(required = true)" c!"@XmlElement(required = true)" :=
  ⟨[.ident c!"XmlElement", .op '(', .ident c!"required", .op '=', .keyword c!"true", .op ')'], by decide, fun _ _ _ => rfl⟩

theorem annot_access : Annot c!"@XmlAccessorType(XmlAccessType.FIELD)" c!"@XmlAccessorType(XmlAccessType.FIELD)" :=
  ⟨[.ident c!"XmlAccessorType", .op '(', .ident c!"XmlAccessType", .op '.', .ident c!"FIELD", .op ')'], by decide, fun _ _ _ => rfl⟩

/-- `@kind(required = true, name = "x")` -/
theorem annot_named {pre kind x : Str} (hp : lexTo .java .gap pre = some ([.op '@'], .gap)) (hk : Ident .java kind) (hx : Inside '"' x) :
    Annot (pre ++ kind ++ c!"(required = true, name = \"" ++ x ++ c!"\")") (c!"@" ++ kind ++ c!"(required = true, name = \"" ++ x ++ c!"\")") := by
  refine ⟨[.ident kind, .op '(', .ident c!"required", .op '=', .keyword c!"true", .op ',', .ident c!"name", .op '=', .str '"' x, .op ')'], ?_, fun y r _ => ?_⟩
  · have e : pre ++ kind ++ c!"(required = true, name = \"" ++ x ++ c!"\")" =
        pre ++ (kind ++ (c!"(required = true, name = " ++ ('"' :: (x ++ '"' :: c!")")))) := by simp
    rw [e]
    have h1 := lex_lit (L := .java) (l := c!"(required = true, name = ") (ts := [.op '(', .ident c!"required", .op '=',
      .keyword c!"true", .op ',', .ident c!"name", .op '=']) (by decide) (lex_str (.inl rfl) hx (rest := c!")") (ts := [.op ')']) (by decide))
    exact lex_lit (L := .java) hp (lex_emit hk.emits (apart (by decide)) h1)
  · simp [Syntax.Java.annotation, Syntax.Java.value, Syntax.Java.pairs]

/-- `@XmlAttribute(name = "x", required = true)` -/
theorem annot_attr {x : Str} (b : Bool) (hx : Inside '"' x) :
    Annot (c!"\t@XmlAttribute(name = \"" ++ x ++ c!"\"" ++ (if b then [] else c!", required = true") ++ c!")")
      (c!"@XmlAttribute(name = \"" ++ x ++ c!"\"" ++ (if b then [] else c!", required = true") ++ c!")") := by
  refine ⟨[.ident c!"XmlAttribute", .op '(', .ident c!"name", .op '=', .str '"' x] ++ (if b then [] else [.op ',', .ident c!"required", .op '=',
    .keyword c!"true"]) ++ [.op ')'], ?_, fun y r _ => ?_⟩
  · have e : c!"\t@XmlAttribute(name = \"" ++ x ++ c!"\"" ++ (if b then [] else c!", required = true") ++ c!")" =
        c!"\t@XmlAttribute(name = " ++ ('"' :: (x ++ '"' :: ((if b then [] else c!", required = true") ++ c!")"))) := by simp
    rw [e, lex_lit (L := .java) (ts := [.op '@', .ident c!"XmlAttribute", .op '(', .ident c!"name", .op '=']) (by decide) (lex_str (.inl rfl) hx
      (ts := (if b then [] else [.op ',', .ident c!"required", .op '=', .keyword c!"true"]) ++ [.op ')']) (by cases b <;> decide))]
    simp
  · cases b <;> simp [Syntax.Java.annotation, Syntax.Java.value, Syntax.Java.pairs]

/-! ## Fields -/

/-- A field as Java sees it. -/
def ofMember (m : C48.Java.Member) : Field := ⟨m.annotation.toList, m.type, m.name⟩

/-- The line with the field. -/
theorem lex_field {n u : Str} {ts : List Tok} (hn : Ident .java n) (h : TypeText u ts) :
    lex .java .gap (c!"\tprotected " ++ u ++ c!" " ++ n ++ c!";") = some (.keyword c!"protected" :: (ts ++ [.ident n, .op ';'])) := by
  have e : c!"\tprotected " ++ u ++ c!" " ++ n ++ c!";" = c!"\tprotected " ++ (u ++ (c!" " ++ (n ++ c!";"))) := by simp
  have h1 := lex_emit hn.emits (rest := c!";") (apart (by decide)) (ts' := [.op ';']) (by decide)
  have h2 := lex_lit (L := .java) (l := c!" ") (ts := []) (by decide) h1
  have h3 := lex_emit (rest := c!" " ++ (n ++ c!";")) h.emits (apart (by decide)) h2
  have h4 := lex_lit (L := .java) (l := c!"\tprotected ") (ts := [.keyword c!"protected"]) (by decide) h3
  rw [e, h4]
  simp

/-- A field without annotation. -/
theorem bare_field {n u : Str} (hn : Ident .java n) (h : ∃ ts, TypeText u ts) :
    Part .java (.op '}') Syntax.Java.field (c!"\tprotected " ++ u ++ c!" " ++ n ++ c!";\n") [ofMember ⟨none, u, n⟩] := by
  obtain ⟨ts, h⟩ := h
  have e : c!"\tprotected " ++ u ++ c!" " ++ n ++ c!";\n" = (c!"\tprotected " ++ u ++ c!" " ++ n ++ c!";") ++ c!"\n" := by simp
  rw [e]
  refine Part.one (Toks.line (lex_field hn h)) (fun r => ?_) (by decide)
  have e : .keyword c!"protected" :: (ts ++ [.ident n, .op ';']) ++ r = .keyword c!"protected" :: (ts ++ .ident n :: (.op ';' :: r)) := by simp
  rw [e, Syntax.Java.field, Syntax.Java.annotations]
  · show (if c!"protected" = c!"protected" then _ else _) = _
    rw [if_pos rfl, h.parses (by simp)]
    rfl
  · intro r h; cases h

/-- A field with an annotation. -/
theorem annotated {line a n u : Str} (ha : Annot line a) (hn : Ident .java n) (h : ∃ ts, TypeText u ts) :
    Part .java (.op '}') Syntax.Java.field (line ++ c!"\n" ++ (c!"\tprotected " ++ u ++ c!" " ++ n ++ c!";\n")) [ofMember ⟨some a, u, n⟩] := by
  obtain ⟨ts, h⟩ := h
  obtain ⟨ts0, h0, h1⟩ := ha
  have e : c!"\tprotected " ++ u ++ c!" " ++ n ++ c!";\n" = (c!"\tprotected " ++ u ++ c!" " ++ n ++ c!";") ++ c!"\n" := by simp
  rw [e]
  refine Part.one ((Toks.line h0).append (Toks.line (lex_field hn h))) (fun r => ?_) (by decide)
  have e : (.op '@' :: ts0) ++ (.keyword c!"protected" :: (ts ++ [.ident n, .op ';'])) ++ r =
    .op '@' :: (ts0 ++ .keyword c!"protected" :: (ts ++ .ident n :: (.op ';' :: r))) := by simp
  have e' : Syntax.Java.annotations ((.op '@' :: (ts0 ++ .keyword c!"protected" :: (ts ++ .ident n :: (.op ';' :: r)))).length + 1)
      (.op '@' :: (ts0 ++ .keyword c!"protected" :: (ts ++ .ident n :: (.op ';' :: r)))) =
      some ([a], .keyword c!"protected" :: (ts ++ .ident n :: (.op ';' :: r))) := by
    rw [Syntax.Java.annotations, h1 _ _ (by decide), List.length_cons]
    rfl
  refine (congrArg Syntax.Java.field e).trans ?_
  rw [Syntax.Java.field, e']
  show (if c!"protected" = c!"protected" then _ else _) = _
  rw [if_pos rfl, h.parses (by simp)]
  rfl

/-! ## Declarations -/

/-- What goes on with the name of a class: `extends` or nothing. -/
def Extends (s : Str) (b : Option Str) : Prop := ∃ ts, lex .java .gap (s ++ c!" {") = some (ts ++ [.op '{']) ∧ Apart (s ++ c!" {") ∧
  ∀ r, Syntax.Java.extends_ (ts ++ .op '{' :: r) = some (b, .op '{' :: r)

theorem extends_none : Extends [] none := ⟨[], by decide, apart (by decide), fun r => rfl⟩

theorem extends_some {u : Str} (h : ∃ ts, TypeText u ts) : Extends (c!" extends " ++ u ++ c!" ") (some u) := by
  obtain ⟨ts, h⟩ := h
  refine ⟨.keyword c!"extends" :: ts, ?_, apart (by decide), fun r => ?_⟩
  · have e : c!" extends " ++ u ++ c!" " ++ c!" {" = c!" extends " ++ (u ++ c!"  {") := by simp
    rw [e, lex_lit (L := .java) (ts := [.keyword c!"extends"]) (by decide) (lex_emit h.emits (apart (by decide)) (ts' := [.op '{']) (by decide))]
    rfl
  · rw [List.cons_append, Syntax.Java.extends_, if_pos rfl, h.parses (by decide)]
    rfl

/-- The tokens of a class behind its annotations. -/
theorem body {fn x s : Str} {b : Option Str} {fs : List Field} (hf : Ident .java fn) (hx : Extends x b) (h : Part .java (.op '}') Syntax.Java.field s fs) :
    ∃ ts, Toks .java (c!"public class " ++ fn ++ x ++ c!" {\n" ++ s ++ c!"}\n") (.keyword c!"public" :: .keyword c!"class" :: .ident fn :: ts) ∧
    ∀ (as : List Str) (r r' : List Tok), Syntax.Java.annotations (r.length + 1) r = some (as, .keyword c!"public" :: .keyword c!"class" :: .ident fn :: (ts ++ r')) →
      Syntax.Java.decl r = some (⟨as, fn, b, fs⟩, r') := by
  obtain ⟨ts, h1, h2⟩ := h.closed
  obtain ⟨te, h3, h4, h5⟩ := hx
  have e : c!"public class " ++ fn ++ x ++ c!" {\n" ++ s ++ c!"}\n" = (c!"public class " ++ (fn ++ (x ++ c!" {"))) ++ c!"\n" ++ (s ++ (c!"}" ++ c!"\n")) := by simp
  have l : lex .java .gap (c!"public class " ++ (fn ++ (x ++ c!" {"))) = some ([.keyword c!"public", .keyword c!"class"] ++ ([.ident fn] ++ (te ++ [.op '{']))) :=
    lex_lit (L := .java) (by decide) (lex_emit hf.emits h4 h3)
  refine ⟨te ++ [.op '{'] ++ (ts ++ [.op '}']), ?_, ?_⟩
  · have k := (Toks.line l).append (h1.append (Toks.line (L := .java) (s := c!"}") (ts := [.op '}']) (by decide)))
    rw [e]
    simpa using k
  · intro as r r' ha
    have e : te ++ [.op '{'] ++ (ts ++ [.op '}']) ++ r' = te ++ .op '{' :: (ts ++ .op '}' :: r') := by simp
    rw [e] at ha
    rw [Syntax.Java.decl, ha]
    dsimp only
    rw [if_pos ⟨rfl, rfl⟩, h5]
    simp only [h2]

/-- A class without annotations. -/
theorem declared {fn doc x s : Str} {b : Option Str} {fs : List Field} (hf : Ident .java fn) (hd : C98.Safe .java doc) (hx : Extends x b)
    (h : Part .java (.op '}') Syntax.Java.field s fs) :
    ∃ t ts, Toks .java (genFieldComment fn doc c!"//" ++ (c!"public class " ++ fn ++ x ++ c!" {\n" ++ s ++ c!"}\n")) (t :: ts) ∧
    ∀ r, Syntax.Java.decl (t :: ts ++ r) = some (⟨[], fn, b, fs⟩, r) := by
  obtain ⟨ts, h1, h2⟩ := body hf hx h
  refine ⟨_, _, (Toks.comment hf.named hd).append (ts := []) h1, fun r => h2 [] _ r ?_⟩
  rw [List.cons_append, Syntax.Java.annotations]
  · rfl
  · intro r h; cases h

/-- The annotations of a wrapper. -/
def wrapping (kind name : Str) : List Str :=
  [c!"@XmlAccessorType(XmlAccessType.FIELD)", c!"@" ++ kind ++ c!"(required = true, name = \"" ++ name ++ c!"\")"]

/-- A class with annotations. -/
theorem wrapped {kind name fn s : Str} {fs : List Field} (hk : Ident .java kind) (hn : Inside '"' name) (hf : Ident .java fn)
    (h : Part .java (.op '}') Syntax.Java.field s fs) :
    ∃ t ts, Toks .java (javaWrapper kind name fn s) (t :: ts) ∧ ∀ r, Syntax.Java.decl (t :: ts ++ r) = some (⟨wrapping kind name, fn, none, fs⟩, r) := by
  obtain ⟨ts, h1, h2⟩ := body hf extends_none h
  obtain ⟨t1, a1, a2⟩ := annot_access
  obtain ⟨t2, b1, b2⟩ := annot_named (pre := c!"@") (by decide) hk hn
  have e : javaWrapper kind name fn s = c!"@XmlAccessorType(XmlAccessType.FIELD)" ++ c!"\n" ++ ((c!"@" ++ kind ++ c!"(required = true, name = \"" ++ name ++ c!"\")") ++ c!"\n" ++
      (c!"public class " ++ fn ++ [] ++ c!" {\n" ++ s ++ c!"}\n")) := by simp [javaWrapper]
  refine ⟨.op '@', t1 ++ (.op '@' :: t2 ++ (.keyword c!"public" :: .keyword c!"class" :: .ident fn :: ts)), ?_, fun r => h2 _ _ r ?_⟩
  · rw [e]
    exact (Toks.line a1).append ((Toks.line b1).append h1)
  · have e : (.op '@' :: (t1 ++ (.op '@' :: t2 ++ (.keyword c!"public" :: .keyword c!"class" :: .ident fn :: ts)))) ++ r =
        .op '@' :: (t1 ++ .op '@' :: (t2 ++ .keyword c!"public" :: (.keyword c!"class" :: .ident fn :: (ts ++ r)))) := by simp
    rw [e, Syntax.Java.annotations, a2 _ _ (by decide), List.length_cons]
    dsimp only
    rw [Syntax.Java.annotations, b2 _ _ (by decide), List.length_append, List.length_cons]
    rw [← Nat.add_assoc]
    rfl

/-! ## Which trees -/

section
variable [Uni]

/-- Whether the component is an attribute group. -/
def grouping : Node Element → Bool
  | .attrGroup _ => true
  | _ => false

/-- Names start with a letter that has a capital and consist of letters, ASCII digits, `:`, `.`, `-` and `_`; references stand for target types or names, and those
of attributes in attribute groups not for lists; documentation does not leave comments. -/
structure Fair (t : Tree) : Prop extends Worded (C98.Safe .java) t where
  types : ∀ n ∈ nodes t, ∀ s ∈ references t n, if grouping n then (s = [] ∨ Proper s) ∧ s ∉ lists else Proper s

/-- A name with dots. -/
inductive Dotted : Str → Prop where
  | one {w : Str} : Ident .java w → Dotted w
  | more {w s : Str} : Ident .java w → Dotted s → Dotted (w ++ '.' :: s)

/-- The imports. -/
def imported : List Str := [c!"java.util.ArrayList", c!"java.util.List", c!"javax.xml.bind.annotation.XmlAccessType",
  c!"javax.xml.bind.annotation.XmlAccessorType", c!"javax.xml.bind.annotation.XmlAttribute", c!"javax.xml.bind.annotation.XmlElement",
  c!"javax.xml.bind.annotation.XmlSchemaType", c!"javax.xml.bind.annotation.XmlType", c!"javax.xml.bind.annotation.XmlValue"]

/-- The annotations of a class. -/
def annotations : Node Element → List Str
  | .simple v => if isUnion v then [] else wrapping c!"XmlAttribute" v.name
  | .attr v => wrapping c!"XmlAttribute" v.name
  | .elem v => wrapping c!"XmlElement" v.name
  | _ => []

/-- What a class extends: types that are no target types. -/
def extended (t : Tree) : Node Element → Option Str
  | .complex v => if v.base ≠ [] && !decide (v.base ∈ javaBuildInType) then some (typeOf t v.base) else none
  | _ => none

/-- What a file is to be: a package, the imports, and a class for every component to be declared. -/
def fileOf (order : List (Str × Str) → List (Str × Str)) (pkg : Str) (t : Tree) : File :=
  ⟨packageName pkg, imported, (C58.declarations C58.Java.base (fun _ => true) (fun _ => false) t).map fun x =>
    ⟨annotations x.1, x.2, extended t x.1, (C58.Java.members order t x.1).map ofMember⟩⟩

variable [UniLaws]

/-! ## One declaration -/

theorem name_ident {s : Str} (h : Word s) : Ident .java (Names.plain s) := (plain_capital h).ident' (by decide)

theorem elem_part {t : Tree} {e : Element} (hn : Word e.name) (hu : Proper (Names.meaning t e.type)) :
    Part .java (.op '}') Syntax.Java.field (javaElemLine t e)
      [ofMember ⟨some (c!"@XmlElement(required = true, name = \"" ++ e.name ++ c!"\")"), listOf e.plural (typeOf t e.type), Names.plain e.name⟩] := by
  have hp := annotated (annot_named (pre := c!"\t@") (kind := c!"XmlElement") (by decide) (by decide) (word_inside (.inl rfl) hn)) (name_ident hn)
    (list_type e.plural (proper_type hu))
  have hq : javaElemLine t e = (c!"\t@" ++ c!"XmlElement" ++ c!"(required = true, name = \"" ++ e.name ++ c!"\")") ++ c!"\n" ++
      (c!"\tprotected " ++ listOf e.plural (typeOf t e.type) ++ c!" " ++ Names.plain e.name ++ c!";\n") := by
    unfold javaElemLine typeOf
    rw [Names.java_name, Names.java_type, Names.meaning_eq]
    simp [javaPlural, listOf]
  rw [hq]
  exact hp

theorem group_part {t : Tree} {e : GroupRef} (hn : Word e.name) (hu : Proper (Names.meaning t e.ref)) :
    Part .java (.op '}') Syntax.Java.field (javaGroupLine t e) [ofMember ⟨none, listOf e.plural (typeOf t e.ref), Names.plain e.name⟩] := by
  unfold javaGroupLine
  rw [Names.java_name, Names.java_type, Names.meaning_eq]
  exact bare_field (name_ident hn) (list_type e.plural (proper_type hu))

theorem complex_part {t : Tree} {v : ComplexType} (h1 : ∀ m ∈ membersOf (.complex v), Word m.1) (h2 : ∀ s ∈ references t (.complex v), Proper s) :
    Part .java (.op '}') Syntax.Java.field (v.attributeGroup.flatMap (javaAttrGroupLine t) ++ v.attributes.flatMap (javaAttrLine t) ++
      v.groups.flatMap (javaGroupLine t) ++ v.elements.flatMap (javaElemLine t) ++ javaValueLine t v.base) ((C48.Java.expected t v).map ofMember) := by
  simp only [membersOf, references, C96.references, List.mem_append, List.mem_map, if_true, List.not_mem_nil, or_false] at h1 h2
  simp only [C48.Java.expected, List.map_append, List.map_map]
  refine ((((?_ : Part ..).append ?_).append ?_).append ?_).append ?_
  · refine Part.flatMap fun a ha => ?_
    have hp := annotated annot_required (name_ident (h1 _ (.inl (.inl (.inl ⟨a, ha, rfl⟩))))) (proper_type (h2 _ (.inl (.inl (.inl (.inl ⟨a, ha, rfl⟩))))))
    have hq : javaAttrGroupLine t a = c!"\t@XmlElement(required = true)" ++ c!"\n" ++ (c!"\tprotected " ++
        Names.plainType c!"void" javaBuildInType (Names.meaning t a.ref) ++ c!" " ++ Names.plain a.name ++ c!";\n") := by
      unfold javaAttrGroupLine
      rw [Names.java_name, Names.java_type, Names.meaning_eq]
      simp
    rw [hq]
    exact hp
  · refine Part.flatMap fun a ha => ?_
    have hn := h1 _ (.inl (.inl (.inr ⟨a, ha, rfl⟩)))
    have hp := annotated (annot_attr a.optional (word_inside (.inl rfl) hn)) (((plain_capital hn).append (e := c!"Attr") (by decide)).ident' (by decide))
      (proper_type (h2 _ (.inl (.inl (.inl (.inr ⟨a, ha, rfl⟩))))))
    have hq : javaAttrLine t a = (c!"\t@XmlAttribute(name = \"" ++ a.name ++ c!"\"" ++ (if a.optional then [] else c!", required = true") ++ c!")") ++ c!"\n" ++
        (c!"\tprotected " ++ Names.plainType c!"void" javaBuildInType (Names.meaning t a.type) ++ c!" " ++ (Names.plain a.name ++ c!"Attr") ++ c!";\n") := by
      unfold javaAttrLine
      rw [Names.java_name, Names.java_type, Names.meaning_eq]
      simp
    rw [hq]
    exact hp
  · exact Part.flatMap fun a ha => group_part (h1 _ (.inl (.inr ⟨a, ha, rfl⟩))) (h2 _ (.inl (.inl (.inr ⟨a, ha, rfl⟩))))
  · exact Part.flatMap fun a ha => elem_part (h1 _ (.inr ⟨a, ha, rfl⟩)) (h2 _ (.inl (.inr ⟨a, ha, rfl⟩)))
  · unfold javaValueLine
    by_cases hb : v.base ≠ [] ∧ v.base ∈ javaBuildInType
    · rw [if_pos (by simpa [isBuiltInJavaType] using hb), if_pos (by simpa using hb), Names.java_type, Names.meaning_eq]
      have hp := annotated annot_value (n := c!"value") (by decide) (proper_type (h2 (Names.meaning t v.base) (.inr (by simp [hb.1]))))
      have hq : ∀ u : Str, c!"\t@XmlValue\n\tprotected " ++ u ++ c!" value;\n" = c!"\t@XmlValue" ++ c!"\n" ++ (c!"\tprotected " ++ u ++ c!" " ++ c!"value" ++ c!";\n") := by
        intro u; simp
      rw [hq]
      exact hp
    · rw [if_neg (by simpa [isBuiltInJavaType] using hb), if_neg (by simpa using hb)]
      exact Part.nil

/-- One declaration. -/
theorem one {t : Tree} (h : Fair t) {n : Node Element} (hn : n ∈ nodes t) {fn : Str} (hf : Ident .java fn) :
    ∃ x xs, Toks .java ((C15.javaLang t).text n fn) (x :: xs) ∧
      ∀ r, Syntax.Java.decl (x :: xs ++ r) = some (⟨annotations n, fn, extended t n, (C58.Java.members toSortedPairs t n).map ofMember⟩, r) := by
  have hd := h.docs n hn
  have h0 := h.names n hn
  have h1 := h.members n hn
  have h2 := h.types n hn
  have nl : ∀ {s : Str} {x : Tok} {xs : List Tok}, Toks .java s (x :: xs) → Toks .java (c!"\n" ++ s) (x :: xs) :=
    fun k => (Toks.line (s := []) (ts := []) (by decide)).append k
  cases n with
  | simple v =>
    have h2 : ∀ s ∈ references t (.simple v), Proper s := h2
    simp only [C15.javaLang, C58.Java.members, annotations, extended]
    by_cases hl : v.list = true
    · have hu : isUnion v = false := by simp [isUnion, hl]
      rw [if_pos hl, if_pos hl, if_neg (by simp [hu])]
      obtain ⟨x, xs, k1, k2⟩ := wrapped (kind := c!"XmlAttribute") (by decide) (word_inside (.inl rfl) h0) hf
        (bare_field (name_ident h0) (list_type true (proper_type (h2 (Names.meaning t v.base) (by simp [references, C96.references, hu])))))
      refine ⟨x, xs, nl ?_, k2⟩
      rw [Names.java_name, Names.java_type, Names.meaning_eq]
      simpa [listOf, nodeName] using k1
    · rw [if_neg hl, if_neg hl]
      by_cases hu : isUnion v = true
      · have hu' : (v.union && decide (v.memberTypes.length > 0)) = true := by simpa [isUnion, hl] using hu
        rw [if_pos hu', if_pos hu, if_pos hu, List.map_map]
        have hp : Part .java (.op '}') Syntax.Java.field ((toSortedPairs v.memberTypes).flatMap (javaMemberLine t))
            ((toSortedPairs v.memberTypes).map (ofMember ∘ fun m => ⟨some c!"@XmlElement(required = true)",
              Names.plainType c!"void" javaBuildInType (C55.memberMeaning t m), Names.plain m.1⟩)) := by
          refine Part.flatMap fun m hm => ?_
          have hm := (C08.toSortedPairs_perm v.memberTypes).mem_iff.1 hm
          have hw := h1 (m.1, false) (by simp only [membersOf, hu, if_true]; exact List.mem_map_of_mem hm)
          have hp := h2 (C55.memberMeaning t m) (by simp only [references, C96.references, hu, if_true]; exact List.mem_map_of_mem hm)
          have := annotated annot_required (name_ident hw) (proper_type hp)
          have hq : javaMemberLine t m = c!"\t@XmlElement(required = true)" ++ c!"\n" ++ (c!"\tprotected " ++
              Names.plainType c!"void" javaBuildInType (C55.memberMeaning t m) ++ c!" " ++ Names.plain m.1 ++ c!";\n") := by
            unfold javaMemberLine
            rw [Names.java_name, Names.java_type, C55.memberMeaning_eq]
            simp
          rw [hq]
          exact this
        obtain ⟨x, xs, k1, k2⟩ := declared hf hd extends_none hp
        refine ⟨x, xs, ?_, k2⟩
        simpa [javaDecl, C96.docOf] using k1
      · have hu' : ¬ (v.union && decide (v.memberTypes.length > 0)) = true := by simpa [isUnion, hl] using hu
        rw [if_neg hu', if_neg hu, if_neg hu]
        obtain ⟨x, xs, k1, k2⟩ := wrapped (kind := c!"XmlAttribute") (by decide) (word_inside (.inl rfl) h0) hf
          (bare_field (name_ident h0) (proper_type (h2 (Names.meaning t v.base) (by simp [references, C96.references, hu]))))
        refine ⟨x, xs, ?_, k2⟩
        rw [Names.java_name, Names.java_type, Names.meaning_eq]
        exact (Toks.comment hf.named hd).append (ts := []) k1
  | attr v =>
    obtain ⟨x, xs, k1, k2⟩ := wrapped (kind := c!"XmlAttribute") (by decide) (word_inside (.inl rfl) h0) hf
      (bare_field (name_ident h0) (list_type v.plural (proper_type (h2 (Names.meaning t v.type) (by simp [references, C96.references])))))
    refine ⟨x, xs, nl ?_, k2⟩
    rw [Names.java_name, Names.java_type, Names.meaning_eq]
    exact k1
  | elem v =>
    obtain ⟨x, xs, k1, k2⟩ := wrapped (kind := c!"XmlElement") (by decide) (word_inside (.inl rfl) h0) hf
      (bare_field (name_ident h0) (list_type v.plural (proper_type (h2 (Names.meaning t v.type) (by simp [references, C96.references])))))
    refine ⟨x, xs, nl ?_, k2⟩
    rw [Names.java_name, Names.java_type, Names.meaning_eq]
    exact k1
  | complex v =>
    have h2 : ∀ s ∈ references t (.complex v), Proper s := h2
    have hx : Extends (javaExtends t v.base) (extended t (.complex v)) := by
      show Extends (javaExtends t v.base) (if v.base ≠ [] && !decide (v.base ∈ javaBuildInType) then some (typeOf t v.base) else none)
      unfold javaExtends
      by_cases hb : v.base ≠ [] ∧ v.base ∉ javaBuildInType
      · rw [if_pos (by simpa [isBuiltInJavaType] using hb), if_pos (by simpa using hb), Names.java_type, Names.meaning_eq]
        exact extends_some (proper_type (h2 _ (by simp [references, hb.1])))
      · rw [if_neg (by simpa [isBuiltInJavaType] using hb), if_neg (by simpa using hb)]
        exact extends_none
    obtain ⟨x, xs, k1, k2⟩ := declared hf hd hx (complex_part h1 h2)
    refine ⟨x, xs, ?_, k2⟩
    simpa [C15.javaLang, javaComplexContent, C96.docOf] using k1
  | group v =>
    have h2 : ∀ s ∈ references t (.group v), Proper s := h2
    simp only [membersOf, references, C96.references, List.mem_append, List.mem_map] at h1 h2
    simp only [C58.Java.members, C54.Java.group, List.map_append, List.map_map, annotations, extended]
    obtain ⟨x, xs, k1, k2⟩ := declared hf hd extends_none (Part.append
      (Part.flatMap fun e he => elem_part (h1 _ (.inl ⟨e, he, rfl⟩)) (h2 _ (.inl ⟨e, he, rfl⟩)))
      (Part.flatMap fun g hg => group_part (h1 _ (.inr ⟨g, hg, rfl⟩)) (h2 _ (.inr ⟨g, hg, rfl⟩))))
    refine ⟨x, xs, ?_, k2⟩
    simpa [C15.javaLang, javaDecl, C96.docOf] using k1
  | attrGroup v =>
    have h2 : ∀ s ∈ references t (.attrGroup v), (s = [] ∨ Proper s) ∧ s ∉ lists := h2
    simp only [membersOf, references, C96.references, List.mem_map] at h1 h2
    simp only [C58.Java.members, C54.Java.attrs, List.map_map, annotations, extended]
    have hp : Part .java (.op '}') Syntax.Java.field (v.attributes.flatMap (javaAttrGroupAttrLine t)) (v.attributes.map (ofMember ∘ fun a =>
        ⟨some (c!"@XmlAttribute(name = \"" ++ a.name ++ c!"\"" ++ (if a.optional then [] else c!", required = true") ++ c!")"),
          typeOf t a.type ++ c!"Attr", Names.plain a.name⟩)) := by
      refine Part.flatMap fun a ha => ?_
      have hn := h1 _ ⟨a, ha, rfl⟩
      have hp := annotated (annot_attr a.optional (word_inside (.inl rfl) hn)) (name_ident hn) (suffixed_type (h2 _ ⟨a, ha, rfl⟩).1 (h2 _ ⟨a, ha, rfl⟩).2)
      have hq : javaAttrGroupAttrLine t a = (c!"\t@XmlAttribute(name = \"" ++ a.name ++ c!"\"" ++ (if a.optional then [] else c!", required = true") ++ c!")") ++ c!"\n" ++
          (c!"\tprotected " ++ (Names.plainType c!"void" javaBuildInType (Names.meaning t a.type) ++ c!"Attr") ++ c!" " ++ Names.plain a.name ++ c!";\n") := by
        unfold javaAttrGroupAttrLine
        rw [Names.java_name, Names.java_type, Names.meaning_eq]
        simp
      rw [hq]
      exact hp
    obtain ⟨x, xs, k1, k2⟩ := declared hf hd extends_none hp
    refine ⟨x, xs, ?_, k2⟩
    simpa [C15.javaLang, javaDecl, C96.docOf] using k1

/-! ## The file -/

omit [Uni] [UniLaws] in
theorem Dotted.toks {s : Str} (h : Dotted s) : ∃ t ts, lex .java .gap (s ++ c!";") = some (.ident t :: ts ++ [.op ';']) ∧ ∀ r,
    Syntax.Java.name (.ident t :: ts ++ .op ';' :: r) = some (s, r) := by
  induction h with
  | one h => exact ⟨_, [], lex_emit h.emits (apart (by decide)) (ts' := [.op ';']) (by decide), fun r => rfl⟩
  | @more w s h _ ih =>
    obtain ⟨t, ts, h1, h2⟩ := ih
    refine ⟨w, .op '.' :: .ident t :: ts, ?_, fun r => ?_⟩
    · have e : w ++ '.' :: s ++ c!";" = w ++ (c!"." ++ (s ++ c!";")) := by simp
      rw [e]
      exact lex_emit (rest := c!"." ++ (s ++ c!";")) (ts := [.ident w]) h.emits (apart (by decide)) (lex_lit (L := .java) (l := c!".") (ts := [.op '.']) (by decide) h1)
    · have := h2 r
      simp only [List.cons_append] at this ⊢
      rw [Syntax.Java.name, this]
      rfl

omit [Uni] [UniLaws] in
theorem header_toks : ∃ ts, Toks .java (c!"\n" ++ javaImports ++ c!"\n") ts ∧ 9 ≤ ts.length ∧
    ∀ ts', (∀ k a r, ts' ≠ .keyword k :: .ident a :: r) → ∀ k, Syntax.Java.imports (k + 10) (ts ++ ts') = some (imported, ts') := by
  refine ⟨[.keyword c!"import", .ident c!"java", .op '.', .ident c!"util", .op '.', .ident c!"ArrayList", .op ';',
      .keyword c!"import", .ident c!"java", .op '.', .ident c!"util", .op '.', .ident c!"List", .op ';',
      .keyword c!"import", .ident c!"javax", .op '.', .ident c!"xml", .op '.', .ident c!"bind", .op '.', .ident c!"annotation", .op '.', .ident c!"XmlAccessType", .op ';',
      .keyword c!"import", .ident c!"javax", .op '.', .ident c!"xml", .op '.', .ident c!"bind", .op '.', .ident c!"annotation", .op '.', .ident c!"XmlAccessorType", .op ';',
      .keyword c!"import", .ident c!"javax", .op '.', .ident c!"xml", .op '.', .ident c!"bind", .op '.', .ident c!"annotation", .op '.', .ident c!"XmlAttribute", .op ';',
      .keyword c!"import", .ident c!"javax", .op '.', .ident c!"xml", .op '.', .ident c!"bind", .op '.', .ident c!"annotation", .op '.', .ident c!"XmlElement", .op ';',
      .keyword c!"import", .ident c!"javax", .op '.', .ident c!"xml", .op '.', .ident c!"bind", .op '.', .ident c!"annotation", .op '.', .ident c!"XmlSchemaType", .op ';',
      .keyword c!"import", .ident c!"javax", .op '.', .ident c!"xml", .op '.', .ident c!"bind", .op '.', .ident c!"annotation", .op '.', .ident c!"XmlType", .op ';',
      .keyword c!"import", .ident c!"javax", .op '.', .ident c!"xml", .op '.', .ident c!"bind", .op '.', .ident c!"annotation", .op '.', .ident c!"XmlValue", .op ';'],
    Toks.lit (ls' := imported.map fun s => c!"import " ++ s ++ c!";") (by decide +kernel) (by decide +kernel), by decide, fun ts' hn k => ?_⟩
  have stop : Syntax.Java.imports (k + 1) ts' = some ([], ts') := by
    rw [Syntax.Java.imports.eq_def]
    dsimp only
    split
    · exact absurd rfl (hn _ _ _)
    · rfl
  simp [Syntax.Java.imports, Syntax.Java.name, stop, imported]

/-- C100: a generated Java file is a Java source file, with the classes it should have. -/
theorem file {pkg : Str} {t : Tree} (hp : Dotted (packageName pkg)) (h : Fair t) :
    ∃ order, C58.Order order ∧ Syntax.Java.parse (javaSource pkg t) = some (fileOf order pkg t) := by
  refine ⟨_, C58.order, ?_⟩
  have hm : ∀ n ∈ C56.firsts (fun _ => false) (nodes t), n ∈ nodes t := C71.firsts_mem _ _
  have hx : ∀ x ∈ C58.declarations C58.Java.base (fun _ => true) (fun _ => false) t, x.1 ∈ nodes t ∧ Ident .java x.2 := by
    intro x hx
    refine ⟨hm _ (List.of_mem_zip hx).1, finals_all (P := Ident .java) [] (fun n hn => ?_) _ (List.of_mem_zip hx).2⟩
    have hc := plain_capital (h.names n (hm n hn))
    exact ⟨hc.ident' (by decide), fun _ k => (hc.numbered k).ident' (by decide)⟩
  have hfield : (javaGen t).field = (C58.declarations C58.Java.base (fun _ => true) (fun _ => false) t).flatMap fun x => (C15.javaLang t).text x.1 x.2 := by
    have hnm : C58.declarations C58.Java.base (fun _ => true) (fun _ => false) t = named (C15.javaLang t) [] (Decl.declared (C15.javaLang t) (nodes t)) := by
      rw [C58.named_declarations]
      congr 1
      funext n; exact (Names.java_name _).symm
    rw [C15.java, render_named, hnm]
  obtain ⟨ts, h1, h2, h3⟩ := alls (f := fun x => (C15.javaLang t).text x.1 x.2)
    (g := fun x => (⟨annotations x.1, x.2, extended t x.1, (C58.Java.members toSortedPairs t x.1).map ofMember⟩ : Class)) fun x hx' => one h (hx x hx').1 (hx x hx').2
  rw [← hfield] at h1
  have hstart : ∀ k a r, ts ≠ .keyword k :: .ident a :: r := by
    rintro k a r rfl
    have := h3 _ (Nat.lt_succ_self _)
    have hd : Syntax.Java.decl (.keyword k :: .ident a :: r) = none := by
      rw [Syntax.Java.decl, Syntax.Java.annotations]
      · intro r h; cases h
    rw [Syntax.all, hd] at this
    cases this
  obtain ⟨x, xs, k1, k2⟩ := hp.toks
  obtain ⟨ts0, k3, k0, k4⟩ := header_toks
  have e : javaSource pkg t = (copyright ++ c!"\n\n") ++ ((c!"package " ++ (packageName pkg ++ c!";")) ++ c!"\n" ++ ((c!"\n" ++ javaImports ++ c!"\n") ++ (javaGen t).field)) := by
    simp [javaSource]
  have k5 : Toks .java (copyright ++ c!"\n\n") [] := Toks.lit (ls' := []) (by decide +kernel) rfl
  have k6 := lex_lit (L := .java) (l := c!"package ") (ts := [.keyword c!"package"]) (by decide) k1
  have k7 := k5.append ((Toks.line k6).append (k3.append h1))
  unfold Syntax.Java.parse
  rw [e, k7.tokens]
  have e2 : ([] : List Tok) ++ ([.keyword c!"package"] ++ (.ident x :: xs ++ [.op ';']) ++ (ts0 ++ ts)) = .keyword c!"package" :: (.ident x :: xs ++ .op ';' :: (ts0 ++ ts)) := by
    simp
  rw [e2]
  dsimp only [Option.bind]
  rw [Syntax.Java.file, if_pos rfl, k2]
  dsimp only
  have hl : (ts0 ++ ts).length + 1 = (ts0.length + ts.length - 9) + 10 := by rw [List.length_append]; omega
  rw [hl, k4 ts hstart]
  dsimp only
  rw [h3 _ (by omega)]
  rfl

/-! ## Documents -/

omit [UniLaws] in
theorem ok_proper {t : Tree} (hn : ∀ n ∈ nodes t, Word (nodeName n)) {s : Str} (h : C71.Ok c!"Java" (C71.typeNames t) s) : s = [] ∨ Proper s := by
  rcases h with rfl | ⟨k, hk⟩ | ⟨h1, h2, h3⟩
  · exact .inl rfl
  · exact .inr (.inl (C71.Java.table k s hk).1)
  · obtain ⟨n, h4, rfl⟩ := List.mem_map.1 h1
    exact .inr (.inr ⟨hn n (List.mem_filter.1 h4).1, h2.2⟩)

/-- Schemas without dangling references, with names of letters, in which everything but attributes in attribute groups has a type, and these are no lists. -/
structure Suitable (ds : List Core.Decl) : Prop extends Plain c!"Java" ds where
  types : ∀ n ∈ nodes (treeOf (typeRef c!"Java" false) [] ds), ∀ s ∈ references (treeOf (typeRef c!"Java" false) [] ds) n,
    if grouping n then s ∉ lists else s ≠ []

/-- C100: the file of a document is a Java source file.  (Missing: names with other letters than those of `Alphabet`; schemas for which the text need not be Java, see
below.) -/
theorem document_partial {W : World} {cfg : Cfg} {sh : Shared} {ds : List Core.Decl} {toks : List Token} (h : C59.Document W cfg sh ds toks)
    (hl : cfg.lang = c!"Java") (hp : Dotted (packageName cfg.package)) (hs : Suitable ds) (hd : ∀ x, Token.text x ∈ toks → C98.Safe .java (trimSpace x)) :
    ∃ t order sh', C57.bare t = C57.bare (treeOf (typeRef c!"Java" false) [] ds) ∧ C58.Order order ∧
    Syntax.Java.parse (javaSource cfg.package t) = some (fileOf order cfg.package t) ∧
    Parse W cfg sh = .ok t sh' ∧ sh'.outputs = sh.outputs ++ [(C24.documentedPath cfg c!".java", javaSource cfg.package t)] := by
  obtain ⟨t, sh', h0, h1, h2, h3, h4⟩ := document_tree h hl hs.toPlain (D := C98.Safe .java) (by decide) hd
  have hf : Fair t := by
    refine ⟨h2, fun n hn s hs' => ?_⟩
    have hok := ok_proper h2.names (references_ok h3 n hn s hs')
    obtain ⟨m, hm, e1, e2⟩ := references_alike h1 hn
    rw [e1] at hs'
    have hty := hs.types m hm s hs'
    have eg : grouping n = grouping m := by
      have hb : ∀ n, grouping (C57.noDocNode C31.noDocE n) = grouping n := fun n => by cases n <;> rfl
      rw [← hb n, e2, hb]
    rw [eg]
    cases hg : grouping m with
    | true => rw [hg] at hty; exact ⟨hok, hty⟩
    | false => rw [hg] at hty; exact hok.resolve_left hty
  obtain ⟨order, ho, hp⟩ := file hp hf
  obtain ⟨sh'', h5, h6⟩ := h.write (t := t) (sh' := sh') (ext := c!".java") (text := javaSource cfg.package t) (by
    rw [generate, hl, C24.title_lang (by decide)]; rfl)
  exact ⟨t, order, sh'', h1, ho, hp, h4.trans h5, by rw [h6, h0]⟩

end

/-! ## Examples -/

open C70 (a)

theorem suitable : @Suitable asciiUni C80.schema :=
  @Suitable.mk asciiUni _ (@Plain.mk asciiUni _ _ (by decide +kernel) (by decide +kernel) (by decide +kernel)) (by decide +kernel)

theorem document : @C59.Document asciiUni (Ex.world [("a.xsd", schemaTokens C40.root C80.schema)]) (C59.doc c!"Java") {} C80.schema
    (schemaTokens C40.root C80.schema) :=
  @C59.Document.mk asciiUni _ _ _ _ _ rfl (by decide +kernel) ⟨C40.root, by decide +kernel⟩ (by decide +kernel)
    (.inr ⟨rfl, rfl, by decide, rfl⟩) (by decide +kernel) rfl rfl fun _ => rfl

/-- Names of packages. -/
example : Dotted (packageName []) ∧ Dotted (packageName c!"org.acme.orders") :=
  ⟨.one (by decide), .more (w := c!"org") (by decide) (.more (w := c!"acme") (by decide) (.one (by decide)))⟩

/-- A document that satisfies all that is demanded. -/
example : ∃ t order, C57.bare t = C57.bare (treeOf (typeRef c!"Java" false) [] C80.schema) ∧ C58.Order order ∧
    Syntax.Java.parse (@javaSource asciiUni (C59.doc c!"Java").package t) = some (@fileOf asciiUni order (C59.doc c!"Java").package t) := by
  obtain ⟨t, order, -, h1, h2, h3, -⟩ := @document_partial asciiUni asciiUniLaws _ _ _ _ _ document rfl (.one (by decide)) suitable (by decide +kernel)
  exact ⟨t, order, h1, h2, h3⟩

/-- The names and types in a class. -/
def shape (i : Class) : Str × Option Str × List (Str × Str) := (i.name, i.base, i.fields.map fun f => (f.name, f.type))

set_option synthInstance.maxSize 1000 in
/-- What Java reads in the file of its first components. -/
example : (Syntax.Java.parse (C71.file c!"Java" (C80.schema.take 3))).map (fun f => (f.package, f.imports.length, f.classes.map shape)) =
    some (c!"schema", 9, [(c!"Day", none, [(c!"Day", c!"String")]), (c!"Visit", none, [(c!"From", c!"String"), (c!"What", c!"String")]),
      (c!"Item", none, [(c!"X", c!"Integer")])]) := by
  decide +kernel

/-! ## Files that are not Java -/

/-- The file of a schema with one simple type. -/
def single (name : String) (b : SimpleBody) : Str := C71.file c!"Java" [.simple (a [("name", name)]) b]

/-- Names that start with a digit when underscores and hyphens are dropped are fine, as underscores stay, but `_` itself and names with a space are
not. -/
theorem bad_names : (Syntax.Java.parse (single "_1" (C80.limited "xs:int"))).isSome = true ∧
    Syntax.Java.parse (single "_" (C80.limited "xs:int")) = none ∧ Syntax.Java.parse (single "a b" (C80.limited "xs:int")) = none := by decide +kernel

/-- Attributes without a type, and unions without members: `void` is no type of a field. -/
theorem no_type : let ds := [Core.Decl.complex (a [("name", "T")]) (.«attribute» (a [("name", "x")]) .nil)]
    C71.Bound c!"Java" ds ∧ Syntax.Java.parse (C71.file c!"Java" ds) = none ∧
    (splitOn '\n' (C71.file c!"Java" ds)).contains c!"\tprotected void XAttr;" = true ∧
    Syntax.Java.parse (single "T" (.union [])) = none := by decide +kernel

/-- An attribute of an attribute group, whose type is a list: `List<String>Attr`. -/
theorem list_attr : let ds := [Core.Decl.attrGroup (a [("name", "G")]) (.«attribute» (a [("name", "x"), ("type", "xs:ENTITIES")]) .nil)]
    C71.Bound c!"Java" ds ∧ Syntax.Java.parse (C71.file c!"Java" ds) = none ∧
    (splitOn '\n' (C71.file c!"Java" ds)).contains c!"\tprotected List<String>Attr X;" = true := by decide +kernel

end Xgen.C100
