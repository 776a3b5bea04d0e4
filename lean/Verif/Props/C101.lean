import Verif.Lemmas.SyntaxNames

/-! # C101: generated TypeScript files are TypeScript

A generated TypeScript file is read by the rules of the language itself: comments are found by its lexical rules, the rest is split
into tokens, and the tokens follow the grammar.  The result is one type, class or enumeration for each component to be declared,
with the fields and values it should have. -/

namespace Xgen.C101
open Core C40 Decl Syntax
open C74 (membersOf)
open C80 (Word)
open C58 (isUnion)
open C48.TS (typeOf)
open Syntax.TS (Field Value Body)

/-! ## Types -/

/-- Texts that are types. -/
inductive TypeText : Str → List Tok → Prop where
  | name {w : Str} : Ident .ts w → TypeText w [.ident w]
  | of {a u : Str} {ts : List Tok} : Ident .ts a → TypeText u ts → TypeText (a ++ '<' :: u ++ c!">") (.ident a :: .op '<' :: ts ++ [.op '>'])
  | keyword {k : Str} : k = c!"void" ∨ k = c!"null" → TypeText k [.keyword k]

theorem TypeText.emits {u : Str} {ts : List Tok} (h : TypeText u ts) : Emits .ts u ts := by
  induction h with
  | name h => exact h.emits
  | keyword h => rcases h with rfl | rfl <;> exact any_word (by decide) (by decide)
  | @of a u ts h _ ih =>
    intro rest hr
    have : a ++ '<' :: u ++ c!">" ++ rest = a ++ ('<' :: (u ++ '>' :: rest)) := by simp
    have op : ∀ c s, start .ts c = some ([.op c], .gap) → lex .ts .gap (c :: s) = (lex .ts .gap s).map (.op c :: ·) := by
      intro c s hs
      have : Syntax.step .ts .gap c = some ([.op c], .gap) := hs
      rw [lex, this]
      rfl
    rw [this, h.emits _ (apart (by decide)), op _ _ (by decide), ih _ (apart (by decide)), op _ _ (by decide)]
    cases lex .ts .gap rest <;> simp

theorem TypeText.parses {u : Str} {ts : List Tok} (h : TypeText u ts) {x : Tok} (hx : x ≠ .op '<') (r : List Tok) :
    Syntax.TS.single (ts ++ x :: r) = some (u, x :: r) := by
  induction h generalizing x r with
  | name h =>
    rw [List.singleton_append, Syntax.TS.single.eq_def]
    split
    · rename_i heq; injection heq with _ e; injection e with e; exact absurd e hx
    · rename_i heq; injection heq with e e'; injection e with e; subst e; rw [e']
    · rename_i heq; injection heq with e; cases e
    · rename_i h1 h2 h3; exact absurd rfl (h2 _ _)
  | keyword h => rw [List.singleton_append, Syntax.TS.single, if_pos h]
  | of h _ ih =>
    simp only [List.cons_append, List.append_assoc]
    rw [Syntax.TS.single, ih (by decide)]
    simp

/-- Texts that are types, possibly with a bar. -/
def Whole (u : Str) : Prop := ∃ ts, Emits .ts u ts ∧ ∀ x r, x ≠ .op '<' → x ≠ .op '|' → Syntax.TS.type (ts ++ x :: r) = some (u, x :: r)

theorem TypeText.whole {u : Str} {ts : List Tok} (h : TypeText u ts) : Whole u := by
  refine ⟨ts, h.emits, fun x r h1 h2 => ?_⟩
  rw [Syntax.TS.type, h.parses h1]
  split
  · rename_i heq
    injection heq with heq
    injection heq with _ heq
    injection heq with heq
    exact absurd heq h2
  · rfl

theorem TypeText.nullable {u : Str} {ts : List Tok} (h : TypeText u ts) (b : Bool) : Whole (u ++ if b then c!" | null" else []) := by
  cases b
  · simpa using h.whole
  refine ⟨ts ++ [.op '|', .keyword c!"null"], fun rest hr => ?_, fun x r h1 h2 => ?_⟩
  · have e : u ++ (if true = true then c!" | null" else []) ++ rest = u ++ (c!" | " ++ (c!"null" ++ rest)) := by simp
    rw [e, h.emits (c!" | " ++ (c!"null" ++ rest)) (apart (by decide)), lex_append]
    have hl : lexTo .ts .gap c!" | " = some ([.op '|'], .gap) := by decide
    rw [hl]
    dsimp only
    rw [any_word (L := .ts) (w := c!"null") (t := .keyword c!"null") (by decide) (by decide) rest hr]
    cases lex .ts .gap rest <;> simp
  · have e : ts ++ [.op '|', .keyword c!"null"] ++ x :: r = ts ++ .op '|' :: (.keyword c!"null" :: x :: r) := by simp
    rw [e, Syntax.TS.type, h.parses (by decide)]
    simp [Syntax.TS.single]

/-- What a reference may stand for: a target type, nothing, or a name. -/
def Proper [Uni] (s : Str) : Prop := s ∈ typeScriptBuildInType ∨ s = c!"Array<string>" ∨ s = [] ∨ Word s ∧ ':' ∉ s

/-- The types of the language that have no constructor. -/
def primitive : List Str := [c!"void", c!"null", c!"any", c!"number", c!"boolean", c!"string", c!"undefined"]

theorem builtin_type {s : Str} (h : s ∈ typeScriptBuildInType) : ∃ ts, TypeText s ts := by
  rcases (by decide : ∀ s ∈ typeScriptBuildInType, Ident .ts s ∨ s = c!"void" ∨ s = c!"null") s h with h | h
  · exact ⟨_, .name h⟩
  · exact ⟨_, .keyword h⟩

theorem array_type {u : Str} (b : Bool) (h : ∃ ts, TypeText u ts) : ∃ ts, TypeText (if b then c!"Array<" ++ u ++ c!">" else u) ts := by
  obtain ⟨ts, h⟩ := h
  cases b
  · exact ⟨ts, h⟩
  · exact ⟨_, .of (a := c!"Array") (by decide) h⟩

section
variable [Uni] [UniLaws]

theorem proper_type {s : Str} (h : Proper s) (b : Bool) : ∃ ts, TypeText (Names.tsType typeScriptBuildInType s b) ts := by
  unfold Names.tsType
  by_cases hb : s ∈ typeScriptBuildInType
  · rw [if_pos hb]; exact builtin_type hb
  · rw [if_neg hb]
    refine array_type b ?_
    have h := h.resolve_left hb
    split
    · exact ⟨_, .name (by decide)⟩
    · rename_i hw
      simp only [not_or] at hw
      rcases h with rfl | rfl | ⟨h, hc⟩
      · have hA : Uni.upper 'A' = 'A' := by rw [UniLaws.upper_ascii _ (by decide)]; decide
        have e : Names.cap (Names.camel Names.dot Names.hyphen true c!"Array<string>") = c!"Array" ++ '<' :: c!"string" ++ c!">" := by
          simp [Names.camel, Names.cap, Names.dot, Names.hyphen, hA]
        rw [e]
        exact ⟨_, .of (by decide) (.name (by decide))⟩
      · exact absurd rfl hw.1
      · exact ⟨_, .name ((type_capital h hc).ident' (by decide))⟩

/-- Types for classes to extend. -/
theorem proper_base {s : Str} (h : Proper s) (hp : Names.tsType typeScriptBuildInType s false ∉ primitive) :
    Names.tsType typeScriptBuildInType s false ∉ c!"void" :: c!"null" :: Syntax.TS.predefined := by
  have hne : ∀ u, u ∈ c!"void" :: c!"null" :: Syntax.TS.predefined → u ∈ primitive ∨ (small (u.headD 'A') = true ∧ u ∉ typeScriptBuildInType ∧ u ≠ c!"any") := by decide
  intro hm
  rcases hne _ hm with h' | ⟨h1, h2, h3⟩
  · exact hp h'
  · unfold Names.tsType at h1 h2 h3
    by_cases hb : s ∈ typeScriptBuildInType
    · rw [if_pos hb] at h2; exact h2 hb
    · rw [if_neg hb] at h1 h3
      simp only [Bool.false_eq_true, if_false] at h1 h3
      split at h3
      · exact h3 rfl
      · rename_i hw
        rw [if_neg hw] at h1
        simp only [not_or] at hw
        rcases h.resolve_left hb with rfl | rfl | ⟨h, hc⟩
        · have hA : Uni.upper 'A' = 'A' := by rw [UniLaws.upper_ascii _ (by decide)]; decide
          have e : Names.cap (Names.camel Names.dot Names.hyphen true c!"Array<string>") = c!"Array<string>" := by
            simp [Names.camel, Names.cap, Names.dot, Names.hyphen, hA]
          rw [e] at h1
          revert h1; decide
        · exact hw.1 rfl
        · obtain ⟨⟨c, r, e, hc, -⟩, -⟩ := type_capital h hc
          rw [e] at h1
          simp [hc] at h1

end

/-! ## Fields and values -/

/-- A field as TypeScript sees it. -/
def ofMember (m : C48.TS.Member) : Field := ⟨m.name, m.type⟩

/-- A field. -/
theorem field_part {n u : Str} (hn : Ident .ts n) (hc : n ≠ c!"constructor") (h : Whole u) :
    Part .ts (.op '}') Syntax.TS.field (c!"\t" ++ n ++ c!": " ++ u ++ c!";\n") [ofMember ⟨n, u⟩] := by
  obtain ⟨ts, h1, h2⟩ := h
  have e : c!"\t" ++ n ++ c!": " ++ u ++ c!";\n" = (c!"\t" ++ (n ++ (c!": " ++ (u ++ c!";")))) ++ c!"\n" := by simp
  have k1 := lex_emit h1 (rest := c!";") (apart (by decide)) (ts' := [.op ';']) (by decide)
  have k2 := lex_lit (L := .ts) (l := c!": ") (ts := [.op ':']) (by decide) k1
  have k3 := lex_emit (rest := c!": " ++ (u ++ c!";")) hn.emits (apart (by decide)) k2
  have k4 := lex_lit (L := .ts) (l := c!"\t") (ts := []) (by decide) k3
  rw [e]
  refine Part.one (Toks.line k4) (fun r => ?_) (by simp)
  have e : .ident n :: ([.op ':'] ++ (ts ++ [.op ';'])) ++ r = .ident n :: .op ':' :: (ts ++ .op ';' :: r) := by simp
  refine (congrArg Syntax.TS.field e).trans ?_
  rw [Syntax.TS.field, if_neg hc, h2 _ _ (by decide) (by decide)]
  rfl

/-- What enumeration values have to be: names if the type is `string`, decimal numbers if it is `number`, and otherwise letters, digits and
underscores. -/
def Literal (base v : Str) : Prop :=
  if base = c!"string" then (∃ c r, v = c :: r ∧ letter c = true) ∧ ∀ c ∈ v, wordChar c = true
  else if base = c!"number" then v ≠ [] ∧ (∀ c ∈ v, digit c = true) ∧ (v.head? = some '0' → v = c!"0")
  else ∀ c ∈ v, wordChar c = true

instance (v : Str) : Decidable (∃ c r, v = c :: r ∧ letter c = true) := match v with
  | [] => .isFalse (by simp)
  | c :: r => decidable_of_iff (letter c = true) (by simp)

instance (base v : Str) : Decidable (Literal base v) := by unfold Literal; infer_instance

/-- A value as TypeScript sees it. -/
def ofValue (base : Str) (m : C49.Member) : Value := ⟨m.name, if base = c!"number" then m.literal else '\'' :: m.literal ++ c!"'"⟩

theorem words_inside {v : Str} (h : ∀ c ∈ v, wordChar c = true) : Inside '\'' v := fun c hc => by
  have hw := h c hc
  refine ⟨?_, fun hm => ?_⟩
  · rintro rfl; revert hw; decide
  · rw [(by decide : ∀ c ∈ ['\\', '\n', '\r', ' ', ' '], wordChar c = false) c hm] at hw
    cases hw

/-- A value in quotes. -/
theorem quoted_part {n v : Str} {t : Tok} (hn : ∀ c ∈ n, wordChar c = true) (ht : word .ts n = some t) (hk : t = .ident n ∨ t = .keyword n)
    (hv : Inside '\'' v) :
    Part .ts (.op '}') Syntax.TS.value (c!"\t" ++ n ++ c!" = '" ++ v ++ c!"',\n") [⟨n, '\'' :: v ++ c!"'"⟩] := by
  have e : c!"\t" ++ n ++ c!" = '" ++ v ++ c!"',\n" = (c!"\t" ++ (n ++ (c!" = " ++ ('\'' :: (v ++ '\'' :: c!","))))) ++ c!"\n" := by simp
  have k1 := lex_str (L := .ts) (q := '\'') (.inr ⟨rfl, rfl⟩) hv (rest := c!",") (ts := [.op ',']) (by decide)
  have k2 := lex_lit (L := .ts) (l := c!" = ") (ts := [.op '=']) (by decide) k1
  have k3 := lex_emit (rest := c!" = " ++ ('\'' :: (v ++ '\'' :: c!","))) (any_word hn ht) (apart (by decide)) k2
  have k4 := lex_lit (L := .ts) (l := c!"\t") (ts := []) (by decide) k3
  rw [e]
  refine Part.one (Toks.line k4) (fun r => ?_) (by rcases hk with rfl | rfl <;> simp)
  rcases hk with rfl | rfl <;> rfl

theorem word_token {n : Str} (h : ∃ c r, n = c :: r ∧ letter c = true) : ∃ t, word .ts n = some t ∧ (t = .ident n ∨ t = .keyword n) := by
  obtain ⟨c, r, rfl, hc⟩ := h
  by_cases hk : c :: r ∈ keywords .ts
  · exact ⟨.keyword (c :: r), by rw [word, if_pos hc, if_pos hk], .inr rfl⟩
  · exact ⟨.ident (c :: r), by rw [word, if_pos hc, if_neg hk], .inl rfl⟩

theorem value_part {base v : Str} (h : Literal base v) :
    Part .ts (.op '}') Syntax.TS.value (tsEnumLine base v) [ofValue base ⟨if base = c!"string" then v else c!"Enum" ++ v, v⟩] := by
  unfold Literal at h
  unfold tsEnumLine ofValue
  have named : (∀ c ∈ v, wordChar c = true) → ∀ c ∈ c!"Enum" ++ v, wordChar c = true := fun h c hc => by
    rcases List.mem_append.1 hc with hc | hc
    · exact (by decide : ∀ c ∈ c!"Enum", wordChar c = true) c hc
    · exact h c hc
  by_cases hs : base = c!"string"
  · subst hs
    rw [if_pos rfl] at h
    obtain ⟨t, h1, h2⟩ := word_token h.1
    exact quoted_part h.2 h1 h2 (words_inside h.2)
  rw [if_neg hs] at h
  rw [if_neg hs]
  dsimp only
  rw [if_neg hs]
  obtain ⟨t, h1, h2⟩ := word_token (n := c!"Enum" ++ v) ⟨_, _, rfl, by decide⟩
  by_cases hn : base = c!"number"
  · rw [if_pos hn] at h
    rw [if_pos hn, if_pos hn]
    obtain ⟨h3, h4, h5⟩ := h
    have hw : ∀ c ∈ v, wordChar c = true := fun c hc => by simp [wordChar, h4 c hc]
    have ht : word .ts v = some (.num v) := by
      cases v with
      | nil => exact absurd rfl h3
      | cons c r =>
        have hl : letter c = false := by
          have := h4 c (by simp)
          simp only [digit, Bool.and_eq_true, decide_eq_true_eq] at this
          have hn : Alphabet.national c = false := by
            cases h : Alphabet.national c
            · rfl
            · have := (Alphabet.national_range h).1
              omega
          simp only [letter, hn, Bool.or_false, Bool.or_eq_false_iff, Bool.and_eq_false_iff, decide_eq_false_iff_not]
          omega
        rw [word, if_neg (by simp [hl]), if_pos]
        refine ⟨List.all_eq_true.2 fun d hd => h4 d (by simp [hd]), ?_⟩
        by_cases hc : c = '0'
        · right
          have := h5 (by simp [hc])
          injection this
        · exact .inl hc
    have hi : Tok.ident (c!"Enum" ++ v) = t := by
      rcases h2 with rfl | rfl
      · rfl
      · exfalso
        have : word .ts (c!"Enum" ++ v) = some (.ident (c!"Enum" ++ v)) := by
          have hk : c!"Enum" ++ v ∉ keywords .ts := fun hk => by
            have := (by decide : ∀ k ∈ keywords .ts, k.head? ≠ some 'E') _ hk
            exact this rfl
          have e : c!"Enum" ++ v = 'E' :: (c!"num" ++ v) := rfl
          rw [e] at hk ⊢
          rw [word, if_pos (by decide), if_neg hk]
        rw [this] at h1
        cases h1
    subst hi
    have e : c!"\tEnum" ++ v ++ c!" = " ++ v ++ c!",\n" = (c!"\t" ++ ((c!"Enum" ++ v) ++ (c!" = " ++ (v ++ c!",")))) ++ c!"\n" := by simp
    have k1 := lex_emit (any_word hw ht) (rest := c!",") (apart (by decide)) (ts' := [.op ',']) (by decide)
    have k2 := lex_lit (L := .ts) (l := c!" = ") (ts := [.op '=']) (by decide) k1
    have k3 := lex_emit (rest := c!" = " ++ (v ++ c!",")) (any_word (named hw) h1) (apart (by decide)) k2
    have k4 := lex_lit (L := .ts) (l := c!"\t") (ts := []) (by decide) k3
    rw [e]
    exact Part.one (Toks.line k4) (fun r => rfl) (by simp)
  · rw [if_neg hn] at h
    rw [if_neg hn, if_neg hn]
    have := quoted_part (named h) h1 h2 (words_inside h)
    have e : c!"\tEnum" ++ v ++ c!" = '" ++ v ++ c!"',\n" = c!"\t" ++ (c!"Enum" ++ v) ++ c!" = '" ++ v ++ c!"',\n" := by simp
    rw [e]
    exact this

/-! ## Declarations -/

/-- Names for declarations. -/
def Own (fn : Str) : Prop := Ident .ts fn ∧ fn ∉ Syntax.TS.predefined

theorem capital_own [Uni] {w : Str} (h : Capital w) : Own w := by
  refine ⟨h.ident' (by decide), fun hp => ?_⟩
  obtain ⟨⟨c, r, rfl, hc, -⟩, -⟩ := h
  have := (by decide : ∀ k ∈ Syntax.TS.predefined, k.head?.all small = true) _ hp
  simp [hc] at this

/-- A synonym. -/
theorem alias {fn doc u : Str} (hf : Own fn) (hd : C98.Safe .ts doc) (h : ∃ ts, TypeText u ts) :
    ∃ t ts, Toks .ts (genFieldComment fn doc c!"//" ++ (c!"export type " ++ fn ++ c!" = " ++ u ++ c!";\n")) (t :: ts) ∧
    ∀ r, Syntax.TS.decl (t :: ts ++ r) = some (⟨fn, .type u⟩, r) := by
  obtain ⟨ts, h⟩ := h
  obtain ⟨ts, h1, h2⟩ := h.whole
  have e : c!"export type " ++ fn ++ c!" = " ++ u ++ c!";\n" = (c!"export type " ++ (fn ++ (c!" = " ++ (u ++ c!";")))) ++ c!"\n" := by simp
  have k1 := lex_emit h1 (rest := c!";") (apart (by decide)) (ts' := [.op ';']) (by decide)
  have k2 := lex_lit (L := .ts) (l := c!" = ") (ts := [.op '=']) (by decide) k1
  have k3 := lex_emit (rest := c!" = " ++ (u ++ c!";")) hf.1.emits (apart (by decide)) k2
  have k4 := lex_lit (L := .ts) (l := c!"export type ") (ts := [.keyword c!"export", .ident c!"type"]) (by decide) k3
  rw [e]
  refine ⟨_, _, (Toks.comment hf.1.named hd).append (ts := []) (Toks.line k4), fun r => ?_⟩
  have e : .keyword c!"export" :: ([.ident c!"type"] ++ ([.ident fn] ++ ([.op '='] ++ (ts ++ [.op ';'])))) ++ r =
    .keyword c!"export" :: .ident c!"type" :: .ident fn :: .op '=' :: (ts ++ .op ';' :: r) := by simp
  refine (congrArg Syntax.TS.decl e).trans ?_
  rw [Syntax.TS.decl, if_pos ⟨rfl, rfl, hf.2⟩, h2 _ _ (by decide) (by decide)]
  rfl

/-- What goes on with the name of a class: `extends` or nothing. -/
def Extends (s : Str) (b : Option Str) : Prop := ∃ ts, lex .ts .gap (s ++ c!" {") = some (ts ++ [.op '{']) ∧ Apart (s ++ c!" {") ∧
  ∀ r, Syntax.TS.classBody (ts ++ .op '{' :: r) = (upTo (.op '}') Syntax.TS.field (r.length + 1) r).map fun x => (.class b x.1, x.2)

theorem extends_none : Extends [] none := ⟨[], by decide, apart (by decide), fun r => rfl⟩

theorem extends_some {u : Str} (h : ∃ ts, TypeText u ts) (hu : u ∉ c!"void" :: c!"null" :: Syntax.TS.predefined) :
    Extends (c!" extends " ++ u ++ c!" ") (some u) := by
  obtain ⟨ts, h⟩ := h
  refine ⟨.keyword c!"extends" :: ts, ?_, apart (by decide), fun r => ?_⟩
  · have e : c!" extends " ++ u ++ c!" " ++ c!" {" = c!" extends " ++ (u ++ c!"  {") := by simp
    rw [e, lex_lit (L := .ts) (ts := [.keyword c!"extends"]) (by decide) (lex_emit h.emits (apart (by decide)) (ts' := [.op '{']) (by decide))]
    rfl
  · rw [List.cons_append, Syntax.TS.classBody, if_pos rfl, h.parses (by decide)]
    simp only [hu, if_false]

theorem decl_class (k n : Str) (r : List Tok) : Syntax.TS.decl (.keyword c!"export" :: .keyword k :: .ident n :: r) =
    if c!"export" = c!"export" ∧ k = c!"class" ∧ n ∉ Syntax.TS.predefined then (Syntax.TS.classBody r).map fun x => (⟨n, x.1⟩, x.2)
    else if c!"export" = c!"export" ∧ k = c!"enum" ∧ n ∉ Syntax.TS.predefined then match r with
      | .op '{' :: r => (upTo (.op '}') Syntax.TS.value (r.length + 1) r).map fun x => (⟨n, .enum x.1⟩, x.2)
      | _ => none
    else none := rfl

/-- A class. -/
theorem classed {fn doc x s : Str} {b : Option Str} {fs : List Field} (hf : Own fn) (hd : C98.Safe .ts doc) (hx : Extends x b)
    (h : Part .ts (.op '}') Syntax.TS.field s fs) :
    ∃ t ts, Toks .ts (genFieldComment fn doc c!"//" ++ (c!"export class " ++ fn ++ x ++ c!" {\n" ++ s ++ c!"}\n")) (t :: ts) ∧
    ∀ r, Syntax.TS.decl (t :: ts ++ r) = some (⟨fn, .class b fs⟩, r) := by
  obtain ⟨ts, h1, h2⟩ := h.closed
  obtain ⟨te, h3, h4, h5⟩ := hx
  have e : c!"export class " ++ fn ++ x ++ c!" {\n" ++ s ++ c!"}\n" = (c!"export class " ++ (fn ++ (x ++ c!" {"))) ++ c!"\n" ++ (s ++ (c!"}" ++ c!"\n")) := by simp
  have l := lex_lit (L := .ts) (l := c!"export class ") (ts := [.keyword c!"export", .keyword c!"class"]) (by decide) (lex_emit hf.1.emits h4 h3)
  have k := (Toks.line l).append (h1.append (Toks.line (L := .ts) (s := c!"}") (ts := [.op '}']) (by decide)))
  rw [e]
  refine ⟨_, _, (Toks.comment hf.1.named hd).append (ts := []) k, fun r => ?_⟩
  have e : .keyword c!"export" :: ([.keyword c!"class"] ++ ([.ident fn] ++ (te ++ [.op '{'])) ++ (ts ++ [.op '}'])) ++ r =
    .keyword c!"export" :: .keyword c!"class" :: .ident fn :: (te ++ .op '{' :: (ts ++ .op '}' :: r)) := by simp
  refine (congrArg Syntax.TS.decl e).trans ?_
  rw [decl_class, if_pos ⟨rfl, rfl, hf.2⟩, h5, h2]
  rfl

/-- An enumeration. -/
theorem enumerated {fn doc s : Str} {vs : List Value} (hf : Own fn) (hd : C98.Safe .ts doc) (h : Part .ts (.op '}') Syntax.TS.value s vs) :
    ∃ t ts, Toks .ts (genFieldComment fn doc c!"//" ++ (c!"export enum " ++ fn ++ c!" {\n" ++ s ++ c!"}\n")) (t :: ts) ∧
    ∀ r, Syntax.TS.decl (t :: ts ++ r) = some (⟨fn, .enum vs⟩, r) := by
  obtain ⟨ts, h1, h2⟩ := h.closed
  have e : c!"export enum " ++ fn ++ c!" {\n" ++ s ++ c!"}\n" = (c!"export enum " ++ (fn ++ c!" {")) ++ c!"\n" ++ (s ++ (c!"}" ++ c!"\n")) := by simp
  have l := lex_lit (L := .ts) (l := c!"export enum ") (ts := [.keyword c!"export", .keyword c!"enum"]) (by decide)
    (lex_emit hf.1.emits (rest := c!" {") (apart (by decide)) (ts' := [.op '{']) (by decide))
  have k := (Toks.line l).append (h1.append (Toks.line (L := .ts) (s := c!"}") (ts := [.op '}']) (by decide)))
  rw [e]
  refine ⟨_, _, (Toks.comment hf.1.named hd).append (ts := []) k, fun r => ?_⟩
  have e : .keyword c!"export" :: ([.keyword c!"enum"] ++ ([.ident fn] ++ [.op '{']) ++ (ts ++ [.op '}'])) ++ r =
    .keyword c!"export" :: .keyword c!"enum" :: .ident fn :: .op '{' :: (ts ++ .op '}' :: r) := by simp
  refine (congrArg Syntax.TS.decl e).trans ?_
  rw [decl_class, if_neg (by simp), if_pos ⟨rfl, rfl, hf.2⟩]
  simp only [h2]
  rfl

/-! ## Which trees -/

section
variable [Uni]

/-- What a class extends: types that are no target types. -/
def extended (t : Tree) : Node Element → Option Str
  | .complex v => if v.base ≠ [] && !decide (v.base ∈ typeScriptBuildInType) then some (typeOf t v.base false) else none
  | _ => none

/-- The type of enumeration values. -/
def baseOf (t : Tree) : Node Element → Str
  | .simple v => typeOf t v.base false
  | _ => []

/-- The type that a component is a synonym of. -/
def synonym (t : Tree) : Node Element → Option Str
  | .simple v => if v.list then some (typeOf t v.base true) else if isUnion v then none else if v.enum ≠ [] then none else some (typeOf t v.base false)
  | .attr v => some (typeOf t v.type v.plural)
  | .elem v => some (typeOf t v.type v.plural)
  | _ => none

/-- What is declared for a component. -/
def bodyOf (order : List (Str × Str) → List (Str × Str)) (t : Tree) (n : Node Element) : Body := match synonym t n with
  | some u => .type u
  | none => match C58.TS.members order t n with
    | .class ms => .class (extended t n) (ms.map ofMember)
    | .enum ms => .enum (ms.map (ofValue (baseOf t n)))

/-- What a file is to be: a declaration for every component to be declared. -/
def fileOf (order : List (Str × Str) → List (Str × Str)) (t : Tree) : List Syntax.TS.Decl :=
  (C58.declarations C58.TS.base (fun _ => true) C15.isEnum t).map fun x => ⟨x.2, bodyOf order t x.1⟩

/-- The values of enumerations. -/
def values : Node Element → List Str
  | .simple v => if v.list || isUnion v then [] else v.enum
  | _ => []

/-- Names start with a letter that has a capital and consist of letters, ASCII digits, `:`, `.`, `-` and `_`; references stand for target types or names;
classes do not extend types without a constructor; enumeration values are words; documentation does not leave comments. -/
structure Fair (t : Tree) : Prop extends Worded (C98.Safe .ts) t where
  types : ∀ n ∈ nodes t, ∀ s ∈ references t n, Proper s
  bases : ∀ n ∈ nodes t, ∀ u ∈ extended t n, u ∉ primitive
  values : ∀ n ∈ nodes t, ∀ s ∈ values n, Literal (baseOf t n) s
  lists : C15.ListsNew (nodes t)

variable [UniLaws]

/-! ## One declaration -/

theorem name_ident {s : Str} (h : Word s) : Ident .ts (Names.plain s) ∧ Names.plain s ≠ c!"constructor" := by
  have := plain_capital h
  refine ⟨this.ident' (by decide), fun e => ?_⟩
  obtain ⟨⟨c, r, e', hc, -⟩, -⟩ := this
  rw [e] at e'
  injection e' with e'
  rw [← e'] at hc
  revert hc; decide

theorem any_part {n s : Str} (hn : Word n) (hs : Proper s) (b : Bool) :
    Part .ts (.op '}') Syntax.TS.field (c!"\t" ++ Names.plain n ++ c!": " ++ Names.tsType typeScriptBuildInType s b ++ c!";\n")
      [ofMember ⟨Names.plain n, Names.tsType typeScriptBuildInType s b⟩] := by
  obtain ⟨ts, h⟩ := proper_type hs b
  exact field_part (name_ident hn).1 (name_ident hn).2 h.whole

theorem elem_part {t : Tree} {e : Element} (hn : Word e.name) (hu : Proper (Names.meaning t e.type)) :
    Part .ts (.op '}') Syntax.TS.field (tsElemLine t e) [ofMember ⟨Names.plain e.name, typeOf t e.type e.plural⟩] := by
  unfold tsElemLine
  rw [Names.ts_name, Names.ts_type, Names.meaning_eq]
  exact any_part hn hu _

theorem group_part {t : Tree} {e : GroupRef} (hn : Word e.name) (hu : Proper (Names.meaning t e.ref)) :
    Part .ts (.op '}') Syntax.TS.field (tsGroupLine t e) [ofMember ⟨Names.plain e.name, typeOf t e.ref e.plural⟩] := by
  unfold tsGroupLine
  rw [Names.ts_name, Names.ts_type, Names.meaning_eq]
  exact any_part hn hu _

theorem attr_part {t : Tree} {a : Attribute} (hn : Word a.name) (hu : Proper (Names.meaning t a.type)) :
    Part .ts (.op '}') Syntax.TS.field (tsAttrLine t a)
      [ofMember ⟨Names.plain a.name ++ c!"Attr", typeOf t a.type a.plural ++ (if a.optional then c!" | null" else [])⟩] := by
  obtain ⟨ts, h⟩ := proper_type hu a.plural
  have hc := (plain_capital hn).append (e := c!"Attr") (by decide)
  have hp := field_part (n := Names.plain a.name ++ c!"Attr") (hc.ident' (by decide)) (fun e => by
    obtain ⟨⟨c, r, e', hc, -⟩, -⟩ := hc
    rw [e] at e'
    injection e' with e'
    rw [← e'] at hc
    revert hc; decide) (h.nullable a.optional)
  have hq : tsAttrLine t a = c!"\t" ++ (Names.plain a.name ++ c!"Attr") ++ c!": " ++
      (Names.tsType typeScriptBuildInType (Names.meaning t a.type) a.plural ++ (if a.optional then c!" | null" else [])) ++ c!";\n" := by
    unfold tsAttrLine
    rw [Names.ts_name, Names.ts_type, Names.meaning_eq]
    simp
  rw [hq]
  exact hp

theorem complex_part {t : Tree} {v : ComplexType} (h1 : ∀ m ∈ membersOf (.complex v), Word m.1) (h2 : ∀ s ∈ references t (.complex v), Proper s) :
    Part .ts (.op '}') Syntax.TS.field (v.attributeGroup.flatMap (tsAttrGroupLine t) ++ v.attributes.flatMap (tsAttrLine t) ++
      v.groups.flatMap (tsGroupLine t) ++ v.elements.flatMap (tsElemLine t) ++ tsValueLine t v.base) ((C48.TS.expected t v).map ofMember) := by
  simp only [membersOf, references, C96.references, List.mem_append, List.mem_map, if_true, List.not_mem_nil, or_false] at h1 h2
  simp only [C48.TS.expected, List.map_append, List.map_map]
  refine ((((?_ : Part ..).append ?_).append ?_).append ?_).append ?_
  · refine Part.flatMap fun a ha => ?_
    unfold tsAttrGroupLine
    rw [Names.ts_name, Names.ts_type, Names.meaning_eq]
    exact any_part (h1 _ (.inl (.inl (.inl ⟨a, ha, rfl⟩)))) (h2 _ (.inl (.inl (.inl (.inl ⟨a, ha, rfl⟩))))) _
  · exact Part.flatMap fun a ha => attr_part (h1 _ (.inl (.inl (.inr ⟨a, ha, rfl⟩)))) (h2 _ (.inl (.inl (.inl (.inr ⟨a, ha, rfl⟩)))))
  · exact Part.flatMap fun a ha => group_part (h1 _ (.inl (.inr ⟨a, ha, rfl⟩))) (h2 _ (.inl (.inl (.inr ⟨a, ha, rfl⟩))))
  · exact Part.flatMap fun a ha => elem_part (h1 _ (.inr ⟨a, ha, rfl⟩)) (h2 _ (.inl (.inr ⟨a, ha, rfl⟩)))
  · unfold tsValueLine
    by_cases hb : v.base ≠ [] ∧ v.base ∈ typeScriptBuildInType
    · rw [if_pos (by simpa [isBuiltInTypeScriptType] using hb), if_pos (by simpa using hb), Names.ts_type, Names.meaning_eq]
      obtain ⟨ts, h⟩ := proper_type (h2 (Names.meaning t v.base) (.inr (by simp [hb.1]))) false
      exact field_part (n := c!"Value") (by decide) (by decide) h.whole
    · rw [if_neg (by simpa [isBuiltInTypeScriptType] using hb), if_neg (by simpa using hb)]
      exact Part.nil

/-- One declaration. -/
theorem one {t : Tree} (h : Fair t) {n : Node Element} (hn : n ∈ nodes t) {fn : Str} (hf : Own fn) :
    ∃ x xs, Toks .ts ((C15.tsLang t).text n fn) (x :: xs) ∧
      ∀ r, Syntax.TS.decl (x :: xs ++ r) = some (⟨fn, bodyOf toSortedPairs t n⟩, r) := by
  have hd := h.docs n hn
  have h1 := h.members n hn
  have h2 := h.types n hn
  have h3 := h.bases n hn
  have h4 := h.values n hn
  have al : ∀ {s : Str} {b : Bool} {doc : Str}, Proper (Names.meaning t s) → C98.Safe .ts doc →
      ∃ x xs, Toks .ts (genFieldComment fn doc c!"//" ++ (c!"export type " ++ fn ++ c!" = " ++ typeOf t s b ++ c!";\n")) (x :: xs) ∧
      ∀ r, Syntax.TS.decl (x :: xs ++ r) = some (⟨fn, .type (typeOf t s b)⟩, r) :=
    fun hs hd => alias hf hd (proper_type hs _)
  cases n with
  | simple v =>
    simp only [C15.tsLang, bodyOf, synonym, C58.TS.members]
    by_cases hl : v.list = true
    · have hu : isUnion v = false := by simp [isUnion, hl]
      rw [if_pos hl, if_pos hl]
      obtain ⟨x, xs, k1, k2⟩ := al (s := v.base) (b := true) (h2 _ (by simp [references, C96.references, hu])) hd
      refine ⟨x, xs, ?_, k2⟩
      rw [Names.ts_type, Names.meaning_eq]
      simpa [tsComment, C96.docOf, typeOf] using k1
    · rw [if_neg hl, if_neg hl, if_neg hl]
      by_cases hu : isUnion v = true
      · have hu' : (v.union && decide (v.memberTypes.length > 0)) = true := by simpa [isUnion, hl] using hu
        rw [if_pos hu', if_pos hu, if_pos hu]
        dsimp only
        rw [List.map_map]
        have hp : Part .ts (.op '}') Syntax.TS.field ((toSortedPairs v.memberTypes).flatMap (tsMemberLine t))
            ((toSortedPairs v.memberTypes).map (ofMember ∘ fun m => ⟨Names.plain m.1, Names.tsType typeScriptBuildInType (C55.memberMeaning t m) false⟩)) := by
          refine Part.flatMap fun m hm => ?_
          have hm := (C08.toSortedPairs_perm v.memberTypes).mem_iff.1 hm
          have hw := h1 (m.1, false) (by simp only [membersOf, hu, if_true]; exact List.mem_map_of_mem hm)
          have hp := h2 (C55.memberMeaning t m) (by simp only [references, C96.references, hu, if_true]; exact List.mem_map_of_mem hm)
          unfold tsMemberLine
          rw [Names.ts_name, Names.ts_type, C55.memberMeaning_eq]
          exact any_part hw hp _
        obtain ⟨x, xs, k1, k2⟩ := classed hf hd extends_none hp
        refine ⟨x, xs, ?_, k2⟩
        simpa [tsClass, tsComment, C96.docOf] using k1
      · have hu' : ¬ (v.union && decide (v.memberTypes.length > 0)) = true := by simpa [isUnion, hl] using hu
        rw [if_neg hu', if_neg hu, if_neg hu]
        have hp : Proper (Names.meaning t v.base) := h2 _ (by simp [references, C96.references, hu])
        by_cases he : v.enum = []
        · rw [if_neg (by simp [he]), if_neg (by simp [he])]
          obtain ⟨x, xs, k1, k2⟩ := al (s := v.base) (b := false) hp hd
          refine ⟨x, xs, ?_, k2⟩
          rw [Names.ts_type, Names.meaning_eq]
          simpa [tsAlias, tsComment, C96.docOf, typeOf] using k1
        · rw [if_pos (List.length_pos_iff.2 he), if_pos he, if_pos he]
          dsimp only
          rw [C49.expected, List.map_map]
          have hv : ∀ s ∈ v.enum, Literal (typeOf t v.base false) s := fun s hs => h4 s (by
            simpa [values, hl, hu] using hs)
          obtain ⟨x, xs, k1, k2⟩ := enumerated hf hd (Part.flatMap (g := fun s => ofValue (typeOf t v.base false) ⟨if typeOf t v.base false = c!"string" then s
            else c!"Enum" ++ s, s⟩) fun s hs => value_part (hv s hs))
          refine ⟨x, xs, ?_, k2⟩
          rw [Names.ts_type, Names.meaning_eq]
          simpa [tsComment, C96.docOf, typeOf] using k1
  | attr v =>
    obtain ⟨x, xs, k1, k2⟩ := al (s := v.type) (b := v.plural) (h2 _ (by simp [references, C96.references])) hd
    refine ⟨x, xs, ?_, k2⟩
    simp only [C15.tsLang]
    rw [Names.ts_type, Names.meaning_eq]
    simpa [tsAlias, tsComment, C96.docOf, typeOf] using k1
  | elem v =>
    obtain ⟨x, xs, k1, k2⟩ := al (s := v.type) (b := v.plural) (h2 _ (by simp [references, C96.references])) hd
    refine ⟨x, xs, ?_, k2⟩
    simp only [C15.tsLang]
    rw [Names.ts_type, Names.meaning_eq]
    simpa [tsAlias, tsComment, C96.docOf, typeOf] using k1
  | complex v =>
    have hx : Extends (tsExtends t v.base) (extended t (.complex v)) := by
      have h3 : ∀ u ∈ (if v.base ≠ [] && !decide (v.base ∈ typeScriptBuildInType) then some (typeOf t v.base false) else none), u ∉ primitive := h3
      show Extends (tsExtends t v.base) (if v.base ≠ [] && !decide (v.base ∈ typeScriptBuildInType) then some (typeOf t v.base false) else none)
      unfold tsExtends
      by_cases hb : v.base ≠ [] ∧ v.base ∉ typeScriptBuildInType
      · rw [if_pos (by simpa using hb)] at h3
        rw [if_pos (by simpa [isBuiltInTypeScriptType] using hb), if_pos (by simpa using hb), Names.ts_type, Names.meaning_eq]
        have hp : Proper (Names.meaning t v.base) := h2 _ (by simp [references, hb.1])
        exact extends_some (proper_type hp false) (proper_base hp (h3 _ rfl))
      · rw [if_neg (by simpa [isBuiltInTypeScriptType] using hb), if_neg (by simpa using hb)]
        exact extends_none
    obtain ⟨x, xs, k1, k2⟩ := classed hf hd hx (complex_part h1 h2)
    refine ⟨x, xs, ?_, k2⟩
    simpa [C15.tsLang, tsComplexContent, tsComment, C96.docOf] using k1
  | group v =>
    simp only [membersOf, references, C96.references, List.mem_append, List.mem_map] at h1 h2
    simp only [bodyOf, synonym, extended, C58.TS.members, C54.TS.group, List.map_append, List.map_map]
    obtain ⟨x, xs, k1, k2⟩ := classed hf hd extends_none (Part.append
      (Part.flatMap fun e he => elem_part (h1 _ (.inl ⟨e, he, rfl⟩)) (h2 _ (.inl ⟨e, he, rfl⟩)))
      (Part.flatMap fun g hg => group_part (h1 _ (.inr ⟨g, hg, rfl⟩)) (h2 _ (.inr ⟨g, hg, rfl⟩))))
    refine ⟨x, xs, ?_, k2⟩
    simpa [C15.tsLang, tsClass, tsComment, C96.docOf] using k1
  | attrGroup v =>
    simp only [membersOf, references, C96.references, List.mem_map] at h1 h2
    have e : C48.TS.expected t (C54.withAttrs v) = v.attributes.map fun a => ⟨Names.plain a.name ++ c!"Attr",
        typeOf t a.type a.plural ++ (if a.optional then c!" | null" else [])⟩ := by simp [C48.TS.expected, C54.withAttrs]
    simp only [bodyOf, synonym, extended, C58.TS.members, e, List.map_map]
    obtain ⟨x, xs, k1, k2⟩ := classed hf hd extends_none
      (Part.flatMap fun a ha => attr_part (h1 _ ⟨a, ha, rfl⟩) (h2 _ ⟨a, ha, rfl⟩))
    refine ⟨x, xs, ?_, k2⟩
    simpa [C15.tsLang, tsClass, tsComment, C96.docOf] using k1

/-! ## The file -/

/-- C101: a generated TypeScript file is a TypeScript source file, with the declarations it should have. -/
theorem file {t : Tree} (h : Fair t) :
    ∃ order, C58.Order order ∧ Syntax.TS.parse (tsSource t) = some (fileOf order t) := by
  refine ⟨_, C58.order, ?_⟩
  have hm : ∀ n ∈ C56.firsts C15.isEnum (nodes t), n ∈ nodes t := C71.firsts_mem _ _
  have hx : ∀ x ∈ C58.declarations C58.TS.base (fun _ => true) C15.isEnum t, x.1 ∈ nodes t ∧ Own x.2 := by
    intro x hx
    refine ⟨hm _ (List.of_mem_zip hx).1, finals_all (P := Own) [] (fun n hn => ?_) _ (List.of_mem_zip hx).2⟩
    have hc := plain_capital (h.names n (hm n hn))
    exact ⟨capital_own hc, fun _ k => capital_own (hc.numbered k)⟩
  have hfield : (tsGen t).field = (C58.declarations C58.TS.base (fun _ => true) C15.isEnum t).flatMap fun x => (C15.tsLang t).text x.1 x.2 := by
    have hnm : C58.declarations C58.TS.base (fun _ => true) C15.isEnum t = named (C15.tsLang t) [] (Decl.declared (C15.tsLang t) (nodes t)) := by
      rw [C58.named_declarations]
      congr 1
      funext n; exact (Names.ts_name _).symm
    rw [C15.ts_partial t h.lists, render_named, hnm]
  obtain ⟨ts, h1, h2, h3⟩ := alls (f := fun x => (C15.tsLang t).text x.1 x.2)
    (g := fun x => (⟨x.2, bodyOf toSortedPairs t x.1⟩ : Syntax.TS.Decl)) fun x hx' => one h (hx x hx').1 (hx x hx').2
  rw [← hfield] at h1
  have k5 : Toks .ts (copyright ++ c!"\n") [] := Toks.lit (ls' := []) (by decide +kernel) rfl
  have k7 := k5.append h1
  unfold Syntax.TS.parse tsSource
  rw [k7.tokens]
  show Syntax.all Syntax.TS.decl (ts.length + 1) ts = _
  rw [h3 _ (by omega)]
  rfl

/-! ## Documents -/

theorem ok_proper {t : Tree} (hn : ∀ n ∈ nodes t, Word (nodeName n)) {s : Str} (h : C71.Ok c!"TypeScript" (C71.typeNames t) s) : Proper s := by
  rcases h with rfl | ⟨k, hk⟩ | ⟨h1, h2, h3⟩
  · exact .inr (.inr (.inl rfl))
  · have := C71.TS.table hk
    simp only [C06.tsTargets, List.mem_cons, List.not_mem_nil, or_false] at this
    rcases this with rfl | rfl | rfl | rfl | rfl | rfl
    · exact .inl (by decide)
    · exact .inr (.inl rfl)
    · exact .inr (.inr (.inr ⟨ascii_word (by decide), by decide⟩))
    · exact .inl (by decide)
    · exact .inl (by decide)
    · exact .inl (by decide)
  · obtain ⟨n, h4, rfl⟩ := List.mem_map.1 h1
    exact .inr (.inr (.inr ⟨hn n (List.mem_filter.1 h4).1, h2.2⟩))

omit [Uni] [UniLaws] in
/-- In documents lists have no enumeration values. -/
theorem no_lists (ref : Tree → Str → Str) (ds : List Core.Decl) : ∀ t, (∀ n ∈ Xgen.Decl.nodes t, C15.isEnumList n = false) →
    ∀ n ∈ Xgen.Decl.nodes (treeOf ref t ds), C15.isEnumList n = false := by
  induction ds with
  | nil => intro t h; exact h
  | cons d ds ih =>
    intro t h
    refine ih _ fun n hn => ?_
    rw [Xgen.Decl.nodes, List.filterMap_append, List.mem_append] at hn
    rcases hn with hn | hn
    · exact h n hn
    · rw [List.filterMap_map] at hn
      have hn : n ∈ d.nodes (ref t) := by simpa using hn
      cases d with
      | simple as b =>
        rw [List.mem_singleton.1 hn]
        cases b <;> rfl
      | complex as b =>
        rcases List.mem_append.1 hn with hn | hn
        · obtain ⟨c, -, rfl⟩ := List.mem_map.1 hn; rfl
        · rw [List.mem_singleton.1 hn]; rfl
      | anon as cas b =>
        rcases List.mem_append.1 hn with hn | hn
        · obtain ⟨c, -, rfl⟩ := List.mem_map.1 hn; rfl
        · rcases List.mem_cons.1 hn with rfl | hn
          · rfl
          · rw [List.mem_singleton.1 hn]; rfl
      | attrGroup as b =>
        rcases List.mem_append.1 hn with hn | hn
        · obtain ⟨c, -, rfl⟩ := List.mem_map.1 hn; rfl
        · rw [List.mem_singleton.1 hn]; rfl
      | element as => rw [List.mem_singleton.1 hn]; rfl
      | elemAnon as ras fs => rw [List.mem_singleton.1 hn]; rfl
      | group as b => rw [List.mem_singleton.1 hn]; rfl
      | «attribute» as => rw [List.mem_singleton.1 hn]; rfl
      | attrAnon as ras fs => rw [List.mem_singleton.1 hn]; rfl

/-- Schemas without dangling references, with names of letters, in which classes do not extend types without a constructor and enumeration values are
words. -/
structure Suitable (ds : List Core.Decl) : Prop extends Plain c!"TypeScript" ds where
  bases : ∀ n ∈ nodes (treeOf (typeRef c!"TypeScript" false) [] ds), ∀ u ∈ extended (treeOf (typeRef c!"TypeScript" false) [] ds) n, u ∉ primitive
  values : ∀ n ∈ nodes (treeOf (typeRef c!"TypeScript" false) [] ds), ∀ s ∈ values n, Literal (baseOf (treeOf (typeRef c!"TypeScript" false) [] ds) n) s

/-- C101: the file of a document is a TypeScript source file.  (Missing: names with other letters than those of `Alphabet`; schemas for which the text need not be TypeScript, see
below.) -/
theorem document_partial {W : World} {cfg : Cfg} {sh : Shared} {ds : List Core.Decl} {toks : List Token} (h : C59.Document W cfg sh ds toks)
    (hl : cfg.lang = c!"TypeScript") (hs : Suitable ds) (hd : ∀ x, Token.text x ∈ toks → C98.Safe .ts (trimSpace x)) :
    ∃ t order sh', C57.bare t = C57.bare (treeOf (typeRef c!"TypeScript" false) [] ds) ∧ C58.Order order ∧
    Syntax.TS.parse (tsSource t) = some (fileOf order t) ∧
    Parse W cfg sh = .ok t sh' ∧ sh'.outputs = sh.outputs ++ [(C24.documentedPath cfg c!".ts", tsSource t)] := by
  obtain ⟨t, sh', h0, h1, h2, h3, h4⟩ := document_tree h hl hs.toPlain (D := C98.Safe .ts) (by decide) hd
  have em : Names.meaning t = Names.meaning (treeOf (typeRef c!"TypeScript" false) [] ds) := by rw [← C59.meaning_bare t, h1, C59.meaning_bare]
  have et : ∀ s b, typeOf t s b = typeOf (treeOf (typeRef c!"TypeScript" false) [] ds) s b := fun s b => by rw [typeOf, typeOf, em]
  have e1 : ∀ t n, extended t (C57.noDocNode C31.noDocE n) = extended t n := fun t n => by cases n <;> rfl
  have e2 : ∀ t n, baseOf t (C57.noDocNode C31.noDocE n) = baseOf t n := fun t n => by cases n <;> rfl
  have e3 : ∀ n, C101.values (C57.noDocNode C31.noDocE n) = C101.values n := fun n => by cases n <;> rfl
  have e4 : ∀ n, C15.isEnumList (C57.noDocNode C31.noDocE n) = C15.isEnumList n := fun n => by cases n <;> rfl
  have e5 : ∀ n, extended t n = extended (treeOf (typeRef c!"TypeScript" false) [] ds) n := fun n => by cases n <;> simp only [extended, et]
  have e6 : ∀ n, baseOf t n = baseOf (treeOf (typeRef c!"TypeScript" false) [] ds) n := fun n => by cases n <;> simp only [baseOf, et]
  have hf : Fair t := by
    refine ⟨h2, fun n hn s hs' => ok_proper h2.names (references_ok h3 n hn s hs'), fun n hn u hu => ?_, fun n hn s hs' => ?_, .of_none fun n hn => ?_⟩
    · obtain ⟨m, hm, -, e⟩ := references_alike h1 hn
      rw [e5, ← e1, e, e1] at hu
      exact hs.bases m hm u hu
    · obtain ⟨m, hm, -, e⟩ := references_alike h1 hn
      rw [← e3, e, e3] at hs'
      rw [e6, ← e2, e, e2]
      exact hs.values m hm s hs'
    · obtain ⟨m, hm, -, e⟩ := references_alike h1 hn
      rw [← e4, e, e4]
      exact no_lists _ ds [] (fun n hn => by cases hn) m hm
  obtain ⟨order, ho, hp⟩ := file hf
  obtain ⟨sh'', h5, h6⟩ := h.write (t := t) (sh' := sh') (ext := c!".ts") (text := tsSource t) (by
    rw [generate, hl, C24.title_lang (by decide)]; rfl)
  exact ⟨t, order, sh'', h1, ho, hp, h4.trans h5, by rw [h6, h0]⟩

end

/-! ## Examples -/

open C70 (a)

theorem suitable : @Suitable asciiUni C80.schema :=
  @Suitable.mk asciiUni C80.schema (@Plain.mk asciiUni _ _ (by decide +kernel) (by decide +kernel) (by decide +kernel)) (by decide +kernel) (by decide +kernel)

theorem document : @C59.Document asciiUni (Ex.world [("a.xsd", schemaTokens C40.root C80.schema)]) (C59.doc c!"TypeScript") {} C80.schema
    (schemaTokens C40.root C80.schema) :=
  @C59.Document.mk asciiUni _ _ _ _ _ rfl (by decide +kernel) ⟨C40.root, by decide +kernel⟩ (by decide +kernel)
    (.inr ⟨rfl, rfl, by decide, rfl⟩) (by decide +kernel) rfl rfl fun _ => rfl

/-- A document that satisfies all that is demanded. -/
example : ∃ t order, C57.bare t = C57.bare (treeOf (typeRef c!"TypeScript" false) [] C80.schema) ∧ C58.Order order ∧
    Syntax.TS.parse (@tsSource asciiUni t) = some (@fileOf asciiUni order t) := by
  obtain ⟨t, order, -, h1, h2, h3, -⟩ := @document_partial asciiUni asciiUniLaws _ _ _ _ _ document rfl suitable (by decide +kernel)
  exact ⟨t, order, h1, h2, h3⟩

/-- What TypeScript reads in a file. -/
example : Syntax.TS.parse (C71.file c!"TypeScript" [.simple (a [("name", "my-kind")]) (.restriction (a [("base", "xs:string")]) [⟨c!"enumeration", a [("value", "on")]⟩,
      ⟨c!"enumeration", a [("value", "default")]⟩]),
      .simple (a [("name", "level")]) (.restriction (a [("base", "xs:int")]) [⟨c!"enumeration", a [("value", "10")]⟩]),
      .complex (a [("name", "T")]) (.«attribute» (a [("name", "x"), ("type", "my-kind")]) .nil)]) =
    some [⟨c!"Mykind", .enum [⟨c!"on", c!"'on'"⟩, ⟨c!"default", c!"'default'"⟩]⟩, ⟨c!"Level", .enum [⟨c!"Enum10", c!"10"⟩]⟩,
      ⟨c!"T", .class none [⟨c!"XAttr", c!"string | null"⟩]⟩] := by
  decide +kernel

/-! ## Files that are not TypeScript -/

/-- The file of a schema with one enumeration. -/
def choices (base : String) (vs : List String) : Str := C71.file c!"TypeScript"
  [.simple (a [("name", "k")]) (.restriction (a [("base", base)]) (vs.map fun v => ⟨c!"enumeration", a [("value", v)]⟩))]

/-- Values with hyphens, with blanks, that start with a digit, or that are empty; numbers that are negative, or with a fraction, or with a leading
zero. -/
theorem bad_values : Syntax.TS.parse (choices "xs:string" ["a-b"]) = none ∧ Syntax.TS.parse (choices "xs:string" ["a b"]) = none ∧
    Syntax.TS.parse (choices "xs:string" ["1"]) = none ∧ Syntax.TS.parse (choices "xs:string" [""]) = none ∧
    Syntax.TS.parse (choices "xs:int" ["-1"]) = none ∧ Syntax.TS.parse (choices "xs:decimal" ["1.5"]) = none ∧
    Syntax.TS.parse (choices "xs:int" ["01"]) = none ∧
    (splitOn '\n' (choices "xs:decimal" ["1.5"])).contains c!"\tEnum1.5 = 1.5," = true ∧
    (Syntax.TS.parse (choices "xs:int" ["1"])).isSome = true ∧ (Syntax.TS.parse (choices "xs:string" ["a"])).isSome = true := by decide +kernel

/-- A complex type that extends a simple type that comes later: the class extends `string`.  The other way round it has a field. -/
theorem bad_bases : let T := Core.Decl.complex (a [("name", "T")]) (.ext (a [("base", "code")]) .nil .nil)
    let code := Core.Decl.simple (a [("name", "code")]) (C80.limited "xs:string")
    C71.Bound c!"TypeScript" [T, code] ∧ Syntax.TS.parse (C71.file c!"TypeScript" [T, code]) = none ∧
    (splitOn '\n' (C71.file c!"TypeScript" [T, code])).contains c!"export class T extends string  {" = true ∧
    Syntax.TS.parse (C71.file c!"TypeScript" [code, T]) = some [⟨c!"Code", .type c!"string"⟩, ⟨c!"T", .class none [⟨c!"Value", c!"string"⟩]⟩] := by decide +kernel

/-- Names with a space. -/
theorem bad_names : Syntax.TS.parse (C71.file c!"TypeScript" [.simple (a [("name", "a b")]) (C80.limited "xs:int")]) = none := by decide +kernel

end Xgen.C101
