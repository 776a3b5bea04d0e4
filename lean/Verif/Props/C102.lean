import Verif.Lemmas.SyntaxNames

/-! # C102: generated C files are C

A generated C file is read by the rules of the language itself: comments are found by its lexical rules, the rest is split into
tokens, and the tokens follow the grammar.  The result is one definition of a type for each component to be declared, with the
members it should have.  (Constraints beyond the grammar, such as that only the last member of a structure may be an array without
a length, are not part of this.) -/

namespace Xgen.C102
open Core C40 Decl Syntax
open C74 (membersOf)
open C80 (Word)
open C58 (isUnion)
open C56 (isStruct)
open C48.C (typeOf item isArray)
open Syntax.C (Member)

/-! ## Types -/

/-- Texts that are types. -/
inductive TypeText : Str → List Tok → Prop where
  | name {w : Str} : Ident .c w → TypeText w [.ident w]
  | one {a : Str} : a ∈ Syntax.C.specifiers → a ∈ keywords .c → TypeText a [.keyword a]
  | two {a b : Str} : a ++ ' ' :: b ∈ Syntax.C.specifiers → a ∈ keywords .c → b ∈ keywords .c → TypeText (a ++ ' ' :: b) [.keyword a, .keyword b]

theorem keyword_emits {a : Str} (h : a ∈ keywords .c) : Emits .c a [.keyword a] := by
  have := (by decide : ∀ a ∈ keywords .c, (∀ c ∈ a, wordChar c = true) ∧ word .c a = some (.keyword a)) a h
  exact any_word this.1 this.2

theorem TypeText.emits {u : Str} {ts : List Tok} (h : TypeText u ts) : Emits .c u ts := by
  cases h with
  | name h => exact h.emits
  | one _ h => exact keyword_emits h
  | @two a b _ h h' =>
    intro rest hr
    have e : a ++ ' ' :: b ++ rest = a ++ (c!" " ++ (b ++ rest)) := by simp
    have hl : lexTo .c .gap c!" " = some ([], .gap) := by decide
    rw [e, keyword_emits h (c!" " ++ (b ++ rest)) (apart (by decide)), lex_append, hl]
    dsimp only
    rw [keyword_emits h' _ hr]
    cases lex .c .gap rest <;> simp

theorem TypeText.parses {u : Str} {ts : List Tok} (h : TypeText u ts) (n : Str) (r : List Tok) :
    Syntax.C.type (ts ++ .ident n :: r) = some (u, .ident n :: r) := by
  cases h with
  | name h => rfl
  | one h _ => exact if_pos h
  | two h _ _ => exact if_pos h

/-- What a reference may stand for: a target type (other than `enum`, which is not one), nothing, or a name. -/
def Proper [Uni] (s : Str) : Prop := s ≠ c!"enum" ∧ (s = [] ∨ s ∈ cBuildInType ∨ Word s ∧ ':' ∉ s)

theorem builtin_type {s : Str} (h : s ∈ cBuildInType) (he : s ≠ c!"enum") : ∃ ts, TypeText (item s) ts := by
  have := (by decide : ∀ s ∈ cBuildInType, s ≠ c!"enum" → (item s ∈ Syntax.C.specifiers ∧ item s ∈ keywords .c) ∨
    ∃ a ∈ [c!"unsigned", c!"signed", c!"long"], item s = a ++ ' ' :: (item s).drop (a.length + 1) ∧ item s ∈ Syntax.C.specifiers ∧
      a ∈ keywords .c ∧ (item s).drop (a.length + 1) ∈ keywords .c) s h he
  rcases this with ⟨h1, h2⟩ | ⟨a, -, e, h1, h2, h3⟩
  · exact ⟨_, .one h1 h2⟩
  · have k := TypeText.two (a := a) (b := (item s).drop (a.length + 1)) (by rw [← e]; exact h1) h2 h3
    rw [← e] at k
    exact ⟨_, k⟩

section
variable [Uni] [UniLaws]

omit [UniLaws] in
theorem capital_item {w : Str} (h : Capital w) : item w = w := C71.C.item_clean fun hm => by
  have := (h.2 _ hm).1
  revert this; decide

theorem proper_item {s : Str} (h : Proper s) : ∃ ts, TypeText (item (Names.plainType c!"void" cBuildInType s)) ts := by
  unfold Names.plainType
  by_cases hb : s ∈ cBuildInType
  · rw [if_pos hb]
    exact builtin_type hb h.1
  · rw [if_neg hb]
    rcases h.2 with rfl | h | ⟨h, hc⟩
    · rw [if_pos (show Names.cap (Names.camel Names.dot Names.hyphen true []) = [] from rfl)]
      exact ⟨_, .one (a := c!"void") (by decide) (by decide)⟩
    · exact absurd h hb
    · have hc := type_capital h hc
      rw [if_neg (by obtain ⟨⟨c, r, e, -⟩, -⟩ := hc; rw [e]; simp), capital_item hc]
      exact ⟨_, .name (hc.ident' (by decide))⟩

/-- Types that are not split into an item type and brackets. -/
theorem proper_whole {s : Str} (h : Proper s) (ha : s ≠ c!"char[]") : ∃ ts, TypeText (Names.plainType c!"void" cBuildInType s) ts := by
  have e : item (Names.plainType c!"void" cBuildInType s) = Names.plainType c!"void" cBuildInType s := by
    unfold Names.plainType
    by_cases hb : s ∈ cBuildInType
    · rw [if_pos hb]
      exact (by decide : ∀ s ∈ cBuildInType, s ≠ c!"char[]" → item s = s) s hb ha
    · rw [if_neg hb]
      rcases h.2 with rfl | h | ⟨h, hc⟩
      · rfl
      · exact absurd h hb
      · have hc := type_capital h hc
        rw [if_neg (by obtain ⟨⟨c, r, e, -⟩, -⟩ := hc; rw [e]; simp), capital_item hc]
  rw [← e]
  exact proper_item h

end

/-! ## Members -/

/-- A member as C sees it. -/
def ofMember (m : C48.C.Member) : Member := ⟨m.type, m.name, m.array⟩

/-- The tokens of a declarator. -/
def declared (n : Str) (b : Bool) : List Tok := .ident n :: (if b then [.op '[', .op ']'] else []) ++ [.op ';']

theorem lex_member {u n tail : Str} {ts : List Tok} (b : Bool) (hu : TypeText u ts) (hn : Ident .c n) (ht : lex .c .gap tail = some [.op ';'])
    (ha : Apart tail) : lex .c .gap (u ++ (c!" " ++ (n ++ (cPlural b ++ tail)))) = some (ts ++ declared n b) := by
  have k1 : lex .c .gap (cPlural b ++ tail) = some ((if b then [.op '[', .op ']'] else []) ++ [.op ';']) := by
    cases b
    · simpa [cPlural] using ht
    · exact lex_lit (L := .c) (l := c!"[]") (ts := [.op '[', .op ']']) (by decide) ht
  have ha' : Apart (cPlural b ++ tail) := by
    cases b
    · simpa [cPlural] using ha
    · exact apart (by decide)
  have k2 := lex_emit hn.emits ha' k1
  have k3 := lex_lit (L := .c) (l := c!" ") (ts := []) (by decide) k2
  exact lex_emit hu.emits (rest := c!" " ++ (n ++ (cPlural b ++ tail))) (apart (by decide)) k3

theorem member_parses {u n : Str} {ts : List Tok} (b : Bool) (hu : TypeText u ts) (r : List Tok) :
    Syntax.C.member (ts ++ declared n b ++ r) = some (⟨u, n, b⟩, r) := by
  have e : ts ++ declared n b ++ r = ts ++ .ident n :: ((if b then [.op '[', .op ']'] else []) ++ .op ';' :: r) := by simp [declared]
  rw [e, Syntax.C.member, hu.parses]
  cases b <;> rfl

theorem TypeText.cons {u : Str} {ts : List Tok} (h : TypeText u ts) : ∃ t ts', ts = t :: ts' ∧ t ≠ .op '}' := by
  cases h <;> exact ⟨_, _, rfl, by simp⟩

theorem member_part {u n : Str} (b : Bool) (hu : ∃ ts, TypeText u ts) (hn : Ident .c n) :
    Part .c (.op '}') Syntax.C.member (c!"\t" ++ u ++ c!" " ++ n ++ cPlural b ++ c!";\n") [⟨u, n, b⟩] := by
  obtain ⟨ts, hu⟩ := hu
  obtain ⟨t, ts', rfl, ht⟩ := hu.cons
  have e : c!"\t" ++ u ++ c!" " ++ n ++ cPlural b ++ c!";\n" = (c!"\t" ++ (u ++ (c!" " ++ (n ++ (cPlural b ++ c!";"))))) ++ c!"\n" := by simp
  have k := lex_lit (L := .c) (l := c!"\t") (ts := []) (by decide) (lex_member b hu hn (tail := c!";") (by decide) (apart (by decide)))
  rw [e]
  exact Part.one (Toks.line k) (member_parses b hu) ht

theorem noted_part {u n : Str} (b o : Bool) (hu : ∃ ts, TypeText u ts) (hn : Ident .c n) :
    Part .c (.op '}') Syntax.C.member (c!"\t" ++ u ++ c!" " ++ n ++ cPlural b ++ c!"; // attr" ++ (if o then c!", optional" else []) ++ c!"\n") [⟨u, n, b⟩] := by
  obtain ⟨ts, hu⟩ := hu
  obtain ⟨t, ts', rfl, ht⟩ := hu.cons
  have e : c!"\t" ++ u ++ c!" " ++ n ++ cPlural b ++ c!"; // attr" ++ (if o then c!", optional" else []) ++ c!"\n" =
      (c!"\t" ++ (u ++ (c!" " ++ (n ++ (cPlural b ++ c!"; "))))) ++ c!"//" ++ (c!" attr" ++ (if o then c!", optional" else [])) ++ c!"\n" := by simp
  have k := lex_lit (L := .c) (l := c!"\t") (ts := []) (by decide) (lex_member b hu hn (tail := c!"; ") (by decide) (apart (by decide)))
  rw [e]
  exact Part.one (Toks.noted k (by unfold C98.Named; cases o <;> decide)) (member_parses b hu) ht

/-! ## Declarations -/

/-- A synonym. -/
theorem alias {u n : Str} (b : Bool) (hu : ∃ ts, TypeText u ts) (hn : Ident .c n) :
    ∃ t ts, Toks .c (c!"typedef " ++ (u ++ c!" " ++ n ++ cPlural b) ++ c!";\n") (t :: ts) ∧
    ∀ r, Syntax.C.decl (t :: ts ++ r) = some (.alias ⟨u, n, b⟩, r) := by
  obtain ⟨ts, hu⟩ := hu
  have e : c!"typedef " ++ (u ++ c!" " ++ n ++ cPlural b) ++ c!";\n" = (c!"typedef " ++ (u ++ (c!" " ++ (n ++ (cPlural b ++ c!";"))))) ++ c!"\n" := by simp
  have k := lex_lit (L := .c) (l := c!"typedef ") (ts := [.keyword c!"typedef"]) (by decide) (lex_member b hu hn (tail := c!";") (by decide) (apart (by decide)))
  rw [e]
  refine ⟨_, _, Toks.line k, fun r => ?_⟩
  have hm := member_parses (n := n) b hu r
  have e : .keyword c!"typedef" :: ([] ++ (ts ++ declared n b)) ++ r = .keyword c!"typedef" :: (ts ++ declared n b ++ r) := by simp
  refine (congrArg Syntax.C.decl e).trans ?_
  have : Syntax.C.decl (.keyword c!"typedef" :: (ts ++ declared n b ++ r)) = (Syntax.C.member (ts ++ declared n b ++ r)).map fun x => (.alias x.1, x.2) := by
    cases hu <;> rfl
  rw [this, hm]
  rfl

/-- A structure. -/
theorem struct {fn doc s : Str} {ms : List Member} (hf : Ident .c fn) (hd : C98.Safe .c doc) (hms : ms ≠ [])
    (h : Part .c (.op '}') Syntax.C.member s ms) :
    ∃ t ts, Toks .c (cDecl fn doc (c!"struct {\n" ++ s ++ c!"}")) (t :: ts) ∧ ∀ r, Syntax.C.decl (t :: ts ++ r) = some (.struct fn ms, r) := by
  obtain ⟨ts, h1, h2⟩ := h.closed
  have e : cDecl fn doc (c!"struct {\n" ++ s ++ c!"}") = genFieldComment fn doc c!"//" ++ (c!"typedef struct {" ++ c!"\n" ++ (s ++ ((c!"} " ++ (fn ++ c!";")) ++ c!"\n"))) := by
    simp [cDecl]
  have l := lex_lit (L := .c) (l := c!"} ") (ts := [.op '}']) (by decide) (lex_emit hf.emits (rest := c!";") (apart (by decide)) (ts' := [.op ';']) (by decide))
  have k := (Toks.line (L := .c) (s := c!"typedef struct {") (ts := [.keyword c!"typedef", .keyword c!"struct", .op '{']) (by decide)).append (h1.append (Toks.line l))
  rw [e]
  refine ⟨_, _, (Toks.comment hf.named hd).append (ts := []) k, fun r => ?_⟩
  have e : .keyword c!"typedef" :: ([.keyword c!"struct", .op '{'] ++ (ts ++ ([.op '}'] ++ ([.ident fn] ++ [.op ';'])))) ++ r =
    .keyword c!"typedef" :: .keyword c!"struct" :: .op '{' :: (ts ++ .op '}' :: (.ident fn :: .op ';' :: r)) := by simp
  refine (congrArg Syntax.C.decl e).trans ?_
  rw [Syntax.C.decl, if_pos ⟨rfl, rfl⟩, h2]
  exact if_neg hms

/-! ## Which trees -/

section
variable [Uni]

/-- The references whose types are split into an item type and brackets. -/
def split (t : Tree) : Node Element → List Str
  | .simple v => if v.list then [] else if isUnion v then v.memberTypes.map (C55.memberMeaning t) else [Names.meaning t v.base]
  | .attr v => [Names.meaning t v.type]
  | .elem v => [Names.meaning t v.type]
  | .complex v => v.attributes.map (fun a => Names.meaning t a.type) ++ v.elements.map (fun e => Names.meaning t e.type)
  | .group _ => []
  | .attrGroup v => v.attributes.map fun a => Names.meaning t a.type

/-- The other references. -/
def unsplit (t : Tree) : Node Element → List Str
  | .simple v => if v.list then [Names.meaning t v.base] else []
  | .complex v => v.attributeGroup.map (fun a => Names.meaning t a.ref) ++ v.groups.map (fun g => Names.meaning t g.ref)
  | .group v => v.elements.map (fun e => Names.meaning t e.type) ++ v.groups.map (fun g => Names.meaning t g.ref)
  | _ => []

/-- The synonym that a component is. -/
def synonym (t : Tree) : Node Element → Option Member
  | .simple v =>
    if v.list then some ⟨typeOf t v.base, Names.plain v.name, true⟩
    else if isUnion v then none
    else some ⟨item (typeOf t v.base), Names.plain v.name, isArray (typeOf t v.base)⟩
  | .attr v => some ⟨item (typeOf t v.type), Names.plain v.name, isArray (typeOf t v.type) || v.plural⟩
  | .elem v => some ⟨item (typeOf t v.type), Names.plain v.name, isArray (typeOf t v.type) || v.plural⟩
  | _ => none

/-- What is declared for a component. -/
def declOf (order : List (Str × Str) → List (Str × Str)) (t : Tree) (n : Node Element) (fn : Str) : Syntax.C.Decl := match synonym t n with
  | some m => .alias m
  | none => .struct fn ((C58.C.members order t n).map ofMember)

/-- What a file is to be: a declaration for every component to be declared. -/
def fileOf (order : List (Str × Str) → List (Str × Str)) (t : Tree) : List Syntax.C.Decl :=
  (C58.declarations C58.C.base C56.C.counted (fun _ => false) t).map fun x => declOf order t x.1 x.2

/-- There is a component; names start with a letter that has a capital and consist of letters, ASCII digits, `:`, `.`, `-` and `_`; references stand for target
types or names, and those in groups, to groups and in lists not for `char[]`; structures have members; documentation does not leave comments. -/
structure Fair (t : Tree) : Prop extends Worded (C98.Safe .c) t where
  some : nodes t ≠ []
  types : ∀ n ∈ nodes t, ∀ s ∈ split t n, Proper s
  others : ∀ n ∈ nodes t, ∀ s ∈ unsplit t n, Proper s ∧ s ≠ c!"char[]"
  full : ∀ n ∈ nodes t, isStruct n = true → membersOf n ≠ []

variable [UniLaws]

/-! ## One declaration -/

theorem name_ident {s : Str} (h : Word s) : Ident .c (Names.plain s) := (plain_capital h).ident' (by decide)

theorem attr_part {t : Tree} {a : Attribute} (hn : Word a.name) (hu : Proper (Names.meaning t a.type)) :
    Part .c (.op '}') Syntax.C.member (cAttrLine t a)
      [⟨item (typeOf t a.type), Names.plain a.name ++ c!"Attr", isArray (typeOf t a.type)⟩] := by
  have hc := (plain_capital hn).append (e := c!"Attr") (by decide)
  have hp := noted_part (isArray (typeOf t a.type)) a.optional (proper_item hu) (hc.ident' (by decide))
  unfold cAttrLine
  rw [Names.c_name, Names.c_type, Names.meaning_eq, C48.C.innerArray_eq]
  simpa [typeOf] using hp

theorem elem_part {t : Tree} {e : Element} (hn : Word e.name) (hu : Proper (Names.meaning t e.type)) :
    Part .c (.op '}') Syntax.C.member (cElemLine t e) [⟨item (typeOf t e.type), Names.plain e.name, isArray (typeOf t e.type) || e.plural⟩] := by
  unfold cElemLine
  rw [Names.c_name, Names.c_type, Names.meaning_eq, C48.C.innerArray_eq]
  exact member_part _ (proper_item hu) (name_ident hn)

theorem groupElem_part {t : Tree} {e : Element} (hn : Word e.name) (hu : Proper (Names.meaning t e.type)) (ha : Names.meaning t e.type ≠ c!"char[]") :
    Part .c (.op '}') Syntax.C.member (cGroupElemLine t e) [⟨typeOf t e.type, Names.plain e.name, e.plural⟩] := by
  unfold cGroupElemLine
  rw [Names.c_name, Names.c_type, Names.meaning_eq]
  exact member_part _ (proper_whole hu ha) (name_ident hn)

theorem group_part {t : Tree} {e : GroupRef} (hn : Word e.name) (hu : Proper (Names.meaning t e.ref)) (ha : Names.meaning t e.ref ≠ c!"char[]") :
    Part .c (.op '}') Syntax.C.member (cGroupLine t e) [⟨typeOf t e.ref, Names.plain e.name, e.plural⟩] := by
  unfold cGroupLine
  rw [Names.c_name, Names.c_type, Names.meaning_eq]
  exact member_part _ (proper_whole hu ha) (name_ident hn)

theorem attrGroup_part {t : Tree} {e : AttributeGroup} (hn : Word e.name) (hu : Proper (Names.meaning t e.ref)) (ha : Names.meaning t e.ref ≠ c!"char[]") :
    Part .c (.op '}') Syntax.C.member (cAttrGroupLine t e) [⟨typeOf t e.ref, Names.plain e.name, false⟩] := by
  have hp := member_part false (proper_whole hu ha) (name_ident hn)
  unfold cAttrGroupLine
  rw [Names.c_name, Names.c_type, Names.meaning_eq]
  simpa [cPlural, typeOf] using hp

/-- One declaration. -/
theorem one {t : Tree} (h : Fair t) {n : Node Element} (hn : n ∈ nodes t) {fn : Str} (hf : Ident .c fn) (he : ∀ v, n = .elem v → fn = cName v.name) :
    ∃ x xs, Toks .c ((C15.cLang t).text n fn) (x :: xs) ∧ ∀ r, Syntax.C.decl (x :: xs ++ r) = some (declOf toSortedPairs t n fn, r) := by
  have hd := h.docs n hn
  have h0 := h.names n hn
  have h1 := h.members n hn
  have h2 := h.types n hn
  have h3 := h.others n hn
  have h4 := h.full n hn
  have doc : ∀ {s : Str} {x : Tok} {xs : List Tok} {d : Str}, C98.Safe .c d → Toks .c s (x :: xs) → Toks .c (genFieldComment fn d c!"//" ++ s) (x :: xs) :=
    fun hd k => (Toks.comment hf.named hd).append (ts := []) k
  have ne : ∀ {α β : Type} {f : α → β} {l : List α}, l ≠ [] → l.map f ≠ [] := fun h e => h (List.map_eq_nil_iff.1 e)
  cases n with
  | simple v =>
    simp only [C15.cLang, declOf, synonym, C58.C.members]
    by_cases hl : v.list = true
    · have hu : isUnion v = false := by simp [isUnion, hl]
      rw [if_pos hl, if_pos hl]
      have hp := h3 (Names.meaning t v.base) (by simp [unsplit, hl])
      obtain ⟨x, xs, k1, k2⟩ := alias true (proper_whole hp.1 hp.2) (name_ident h0)
      refine ⟨x, xs, ?_, k2⟩
      have e : genCFieldType (genCFieldType (resolveIn t v.base)) = typeOf t v.base := by
        rw [Names.c_type, Names.c_type, C55.C.type_idem, typeOf, Names.meaning_eq]
      rw [e, Names.c_name]
      simpa [cPlural, typeOf, C96.docOf, nodeName] using doc hd k1
    · rw [if_neg hl, if_neg hl]
      by_cases hu : isUnion v = true
      · have hu' : (v.union && decide (v.memberTypes.length > 0)) = true := by simpa [isUnion, hl] using hu
        rw [if_pos hu', if_pos hu, if_pos hu]
        dsimp only
        rw [List.map_map]
        refine struct hf hd (ne ?_) (Part.flatMap fun m hm => ?_)
        · have := (C08.toSortedPairs_perm v.memberTypes).length_eq
          intro e
          rw [e] at this
          simp only [Bool.and_eq_true, decide_eq_true_eq] at hu'
          rw [← this] at hu'
          exact absurd hu'.2 (by simp)
        · have hm := (C08.toSortedPairs_perm v.memberTypes).mem_iff.1 hm
          have hw := h1 (m.1, false) (by simp only [membersOf, hu, if_true]; exact List.mem_map_of_mem hm)
          have hp := h2 (C55.memberMeaning t m) (by simp only [split, hl, hu, if_true, if_false]; exact List.mem_map_of_mem hm)
          unfold cMemberLine
          rw [Names.c_name, Names.c_type, C55.memberMeaning_eq, C48.C.innerArray_eq]
          exact member_part _ (proper_item hp) (name_ident hw)
      · have hu' : ¬ (v.union && decide (v.memberTypes.length > 0)) = true := by simpa [isUnion, hl] using hu
        rw [if_neg hu', if_neg hu]
        have hp := h2 (Names.meaning t v.base) (by simp [split, hl, hu])
        obtain ⟨x, xs, k1, k2⟩ := alias (isArray (typeOf t v.base)) (proper_item hp) (name_ident h0)
        refine ⟨x, xs, ?_, k2⟩
        rw [Names.c_name, Names.c_type, Names.meaning_eq, C48.C.innerArray_eq]
        simpa [typeOf, C96.docOf, nodeName] using doc hd k1
  | attr v =>
    obtain ⟨x, xs, k1, k2⟩ := alias (isArray (typeOf t v.type) || v.plural) (proper_item (h2 _ (List.mem_singleton.2 rfl))) (name_ident h0)
    refine ⟨x, xs, ?_, k2⟩
    simp only [C15.cLang]
    rw [Names.c_name, Names.c_type, Names.meaning_eq, C48.C.innerArray_eq]
    simpa [typeOf, C96.docOf, nodeName] using doc hd k1
  | elem v =>
    obtain ⟨x, xs, k1, k2⟩ := alias (isArray (typeOf t v.type) || v.plural) (proper_item (h2 _ (List.mem_singleton.2 rfl))) (name_ident h0)
    refine ⟨x, xs, ?_, k2⟩
    simp only [C15.cLang, he v rfl]
    rw [Names.c_name, Names.c_type, Names.meaning_eq, C48.C.innerArray_eq]
    have := (Toks.line (L := .c) (s := []) (ts := []) (by decide)).append k1
    simpa [typeOf, nodeName] using this
  | complex v =>
    have h4 := h4 rfl
    simp only [membersOf, split, unsplit, List.mem_append, List.mem_map] at h1 h2 h3
    simp only [C15.cLang, cComplexContent, declOf, synonym, C58.C.members, C48.C.expected, List.map_append, List.map_map]
    have hp : Part .c (.op '}') Syntax.C.member (v.attributeGroup.flatMap (cAttrGroupLine t) ++ v.attributes.flatMap (cAttrLine t) ++
        v.groups.flatMap (cGroupLine t) ++ v.elements.flatMap (cElemLine t)) _ := (((Part.flatMap fun a ha => attrGroup_part
          (h1 _ (.inl (.inl (.inl ⟨a, ha, rfl⟩)))) (h3 _ (.inl ⟨a, ha, rfl⟩)).1 (h3 _ (.inl ⟨a, ha, rfl⟩)).2).append
        (Part.flatMap fun a ha => attr_part (h1 _ (.inl (.inl (.inr ⟨a, ha, rfl⟩)))) (h2 _ (.inl ⟨a, ha, rfl⟩)))).append
        (Part.flatMap fun a ha => group_part (h1 _ (.inl (.inr ⟨a, ha, rfl⟩))) (h3 _ (.inr ⟨a, ha, rfl⟩)).1 (h3 _ (.inr ⟨a, ha, rfl⟩)).2)).append
        (Part.flatMap fun a ha => elem_part (h1 _ (.inr ⟨a, ha, rfl⟩)) (h2 _ (.inr ⟨a, ha, rfl⟩)))
    obtain ⟨x, xs, k1, k2⟩ := struct hf hd (by
      simp only [membersOf, ne_eq, List.append_eq_nil_iff, List.map_eq_nil_iff] at h4 ⊢
      exact h4) hp
    refine ⟨x, xs, ?_, k2⟩
    simpa [C96.docOf] using k1
  | group v =>
    have h4 := h4 rfl
    simp only [membersOf, unsplit, List.mem_append, List.mem_map] at h1 h3
    simp only [C15.cLang, declOf, synonym, C58.C.members, C54.C.group, List.map_append, List.map_map]
    obtain ⟨x, xs, k1, k2⟩ := struct hf hd (by
      simp only [membersOf, ne_eq, List.append_eq_nil_iff, List.map_eq_nil_iff] at h4 ⊢
      exact h4) (Part.append
      (Part.flatMap fun e he => groupElem_part (h1 _ (.inl ⟨e, he, rfl⟩)) (h3 _ (.inl ⟨e, he, rfl⟩)).1 (h3 _ (.inl ⟨e, he, rfl⟩)).2)
      (Part.flatMap fun g hg => group_part (h1 _ (.inr ⟨g, hg, rfl⟩)) (h3 _ (.inr ⟨g, hg, rfl⟩)).1 (h3 _ (.inr ⟨g, hg, rfl⟩)).2))
    refine ⟨x, xs, ?_, k2⟩
    simpa [C96.docOf] using k1
  | attrGroup v =>
    have h4 := h4 rfl
    simp only [membersOf, split, List.mem_map] at h1 h2
    have e : C48.C.expected t (C54.withAttrs v) = v.attributes.map fun a => ⟨item (typeOf t a.type), Names.plain a.name ++ c!"Attr",
        isArray (typeOf t a.type), if a.optional then c!" // attr, optional" else c!" // attr"⟩ := by simp [C48.C.expected, C54.withAttrs]
    simp only [C15.cLang, declOf, synonym, C58.C.members, e, List.map_map]
    exact struct hf hd (by
      simp only [membersOf, ne_eq, List.map_eq_nil_iff] at h4 ⊢
      exact h4) (Part.flatMap fun a ha => attr_part (h1 _ ⟨a, ha, rfl⟩) (h2 _ ⟨a, ha, rfl⟩))

/-! ## The file -/

/-- C102: a generated C file follows the grammar of C, with the declarations it should have. -/
theorem file {t : Tree} (h : Fair t) :
    ∃ order, C58.Order order ∧ Syntax.C.parse (cSource t) = some (fileOf order t) := by
  refine ⟨_, C58.order, ?_⟩
  have hnm : C58.declarations C58.C.base C56.C.counted (fun _ => false) t = named (C15.cLang t) [] (Decl.declared (C15.cLang t) (nodes t)) := by
    rw [C58.named_declarations]
    congr 1
    funext n; exact (Names.c_name _).symm
  have hm : ∀ n ∈ C56.firsts (fun _ => false) (nodes t), n ∈ nodes t := C71.firsts_mem _ _
  have hx : ∀ x ∈ C58.declarations C58.C.base C56.C.counted (fun _ => false) t, x.1 ∈ nodes t ∧ Ident .c x.2 ∧ ∀ v, x.1 = .elem v → x.2 = cName v.name := by
    intro x hx
    refine ⟨hm _ (List.of_mem_zip hx).1, finals_all (P := Ident .c) [] (fun n hn => ?_) _ (List.of_mem_zip hx).2, ?_⟩
    · have hc := plain_capital (h.names n (hm n hn))
      exact ⟨hc.ident' (by decide), fun _ k => (hc.numbered k).ident' (by decide)⟩
    · rw [hnm] at hx
      exact C56.C.elem_name t hx
  have hfield : (cGen t).field = (C58.declarations C58.C.base C56.C.counted (fun _ => false) t).flatMap fun x => (C15.cLang t).text x.1 x.2 := by
    rw [C15.c, render_named, hnm]
  have hne : 0 < (C58.declarations C58.C.base C56.C.counted (fun _ => false) t).length := by
    have h0 := h.some
    unfold C58.declarations
    cases e : nodes t with
    | nil => exact absurd e h0
    | cons n ns =>
      rw [C56.firsts, List.length_zip, C72.C.finals_length]
      simp
  obtain ⟨ts, h1, h2, h3⟩ := alls (f := fun x => (C15.cLang t).text x.1 x.2)
    (g := fun x => declOf toSortedPairs t x.1 x.2) fun x hx' => one h (hx x hx').1 (hx x hx').2.1 (hx x hx').2.2
  rw [← hfield] at h1
  have k5 : Toks .c (copyright ++ c!"\n") [] := Toks.lit (ls' := []) (by decide +kernel) rfl
  have k7 := k5.append h1
  unfold Syntax.C.parse cSource
  rw [k7.tokens]
  show (if ts = [] then none else Syntax.all Syntax.C.decl (ts.length + 1) ts) = _
  rw [if_neg (by rintro rfl; simp at h2; rw [h2] at hne; exact absurd hne (by simp)), h3 _ (by omega)]
  rfl

theorem ok_proper {t : Tree} (hn : ∀ n ∈ nodes t, Word (nodeName n)) {s : Str} (h : C71.Ok c!"C" (C71.typeNames t) s) : Proper s := by
  rcases h with rfl | ⟨k, hk⟩ | ⟨h1, h2, h3⟩
  · exact ⟨by decide, .inl rfl⟩
  · have := C71.C.table k s hk
    exact ⟨this.2.2 rfl, .inr (.inl this.1)⟩
  · obtain ⟨n, h4, rfl⟩ := List.mem_map.1 h1
    exact ⟨h3.2 rfl, .inr (.inr ⟨hn n (List.mem_filter.1 h4).1, h2.2⟩)⟩

omit [UniLaws] in
theorem split_sub (t : Tree) (n : Node Element) : (∀ s ∈ split t n, s ∈ references t n) ∧ ∀ s ∈ unsplit t n, s ∈ references t n := by
  cases n with
  | simple v =>
    by_cases hl : v.list = true
    · have hu : isUnion v = false := by simp [isUnion, hl]
      simp [split, unsplit, references, C96.references, hl, hu]
    · by_cases hu : isUnion v = true <;> simp [split, unsplit, references, C96.references, hl, hu]
  | attr v => simp [split, unsplit, references, C96.references]
  | elem v => simp [split, unsplit, references, C96.references]
  | complex v =>
    simp only [split, unsplit, references, C96.references, List.mem_append]
    constructor
    · rintro s (h | h) <;> simp [h]
    · rintro s (h | h) <;> simp [h]
  | group v => simp [split, unsplit, references, C96.references]
  | attrGroup v => simp [split, unsplit, references, C96.references]

/-- Schemas without dangling references, with names of letters, that are not empty, without structures without members, and in which `char[]` is not meant by
the items of lists, elements of groups, or references to groups. -/
structure Suitable (ds : List Core.Decl) : Prop extends Plain c!"C" ds where
  some : nodes (treeOf (typeRef c!"C" false) [] ds) ≠ []
  arrays : ∀ n ∈ nodes (treeOf (typeRef c!"C" false) [] ds), ∀ s ∈ unsplit (treeOf (typeRef c!"C" false) [] ds) n, s ≠ c!"char[]"
  full : ∀ n ∈ nodes (treeOf (typeRef c!"C" false) [] ds), isStruct n = true → membersOf n ≠ []

/-- C102: the file of a document is a C source file.  (Missing: names with other letters than those of `Alphabet`; schemas for which the text need not be C, see below.) -/
theorem document_partial {W : World} {cfg : Cfg} {sh : Shared} {ds : List Core.Decl} {toks : List Token} (h : C59.Document W cfg sh ds toks)
    (hl : cfg.lang = c!"C") (hs : Suitable ds) (hd : ∀ x, Token.text x ∈ toks → C98.Safe .c (trimSpace x)) :
    ∃ t order sh', C57.bare t = C57.bare (treeOf (typeRef c!"C" false) [] ds) ∧ C58.Order order ∧
    Syntax.C.parse (cSource t) = .some (fileOf order t) ∧
    Parse W cfg sh = .ok t sh' ∧ sh'.outputs = sh.outputs ++ [(C24.documentedPath cfg c!".h", cSource t)] := by
  obtain ⟨t, sh', h0, h1, h2, h3, h4⟩ := document_tree h hl hs.toPlain (D := C98.Safe .c) (by decide) hd
  have em : Names.meaning t = Names.meaning (treeOf (typeRef c!"C" false) [] ds) := by rw [← C59.meaning_bare t, h1, C59.meaning_bare]
  have e1 : ∀ t n, unsplit t (C57.noDocNode C31.noDocE n) = unsplit t n := fun t n => by
    cases n <;> simp [unsplit, C57.noDocNode, C31.noDocE, C31.noDocS, C31.noDocA, C31.noDocC, C31.noDocG, C31.noDocAG, Function.comp_def]
  have e2 : ∀ n, unsplit t n = unsplit (treeOf (typeRef c!"C" false) [] ds) n := fun n => by cases n <;> simp only [unsplit, em]
  have e3 : ∀ n, isStruct (C57.noDocNode C31.noDocE n) = isStruct n := fun n => by cases n <;> rfl
  have hf : Fair t := by
    refine ⟨h2, fun e => ?_, fun n hn s hs' => ok_proper h2.names (references_ok h3 n hn s ((split_sub t n).1 s hs')),
      fun n hn s hs' => ⟨ok_proper h2.names (references_ok h3 n hn s ((split_sub t n).2 s hs')), ?_⟩, fun n hn hs' => ?_⟩
    · have e' : nodes (C57.bare t) = [] := by rw [C59.nodes_bare, e]; rfl
      rw [h1, C59.nodes_bare] at e'
      exact hs.some (List.map_eq_nil_iff.1 e')
    · obtain ⟨m, hm, -, e⟩ := references_alike h1 hn
      rw [e2, ← e1, e, e1] at hs'
      exact hs.arrays m hm s hs'
    · obtain ⟨m, hm, -, e⟩ := references_alike h1 hn
      rw [← e3, e, e3] at hs'
      have := hs.full m hm hs'
      rwa [← C74.members_bare, ← e, C74.members_bare] at this
  obtain ⟨order, ho, hp⟩ := file hf
  obtain ⟨sh'', h5, h6⟩ := h.write (t := t) (sh' := sh') (ext := c!".h") (text := cSource t) (by
    rw [generate, hl, C24.title_lang (by decide)]; rfl)
  exact ⟨t, order, sh'', h1, ho, hp, h4.trans h5, by rw [h6, h0]⟩

end

/-! ## Examples -/

open C70 (a)

/-- A schema. -/
def sample : List Core.Decl :=
  [.simple (a [("name", "code")]) (C80.limited "xs:NMTOKENS"),
   .simple (a [("name", "level")]) (.restriction (a [("base", "xs:unsignedInt")]) [⟨c!"enumeration", a [("value", "1")]⟩]),
   .complex (a [("name", "my-type")]) (.«attribute» (a [("name", "id"), ("type", "code")]) (.elem (a [("name", "x"), ("type", "xs:double"), ("maxOccurs", "unbounded")])
     (.elem (a [("name", "note"), ("type", "xs:string")]) .nil))),
   .element (a [("name", "root"), ("type", "my-type")])]

theorem suitable : @Suitable asciiUni sample :=
  @Suitable.mk asciiUni sample (@Plain.mk asciiUni _ _ (by decide +kernel) (by decide +kernel) (by decide +kernel)) (by decide +kernel) (by decide +kernel)
    (by decide +kernel)

theorem document : @C59.Document asciiUni (Ex.world [("a.xsd", schemaTokens C40.root sample)]) (C59.doc c!"C") {} sample
    (schemaTokens C40.root sample) :=
  @C59.Document.mk asciiUni _ _ _ _ _ rfl (by decide +kernel) ⟨C40.root, by decide +kernel⟩ (by decide +kernel)
    (.inr ⟨rfl, rfl, by decide, rfl⟩) (by decide +kernel) rfl rfl fun _ => rfl

/-- A document that satisfies all that is demanded. -/
example : ∃ t order, C57.bare t = C57.bare (treeOf (typeRef c!"C" false) [] sample) ∧ C58.Order order ∧
    Syntax.C.parse (@cSource asciiUni t) = some (@fileOf asciiUni order t) := by
  obtain ⟨t, order, -, h1, h2, h3, -⟩ := @document_partial asciiUni asciiUniLaws _ _ _ _ _ document rfl suitable (by decide +kernel)
  exact ⟨t, order, h1, h2, h3⟩

/-- What C reads in the file. -/
example : Syntax.C.parse (C71.file c!"C" sample) =
    some [.alias ⟨c!"char", c!"Code", true⟩, .alias ⟨c!"unsigned int", c!"Level", false⟩,
      .struct c!"Mytype" [⟨c!"char", c!"IdAttr", true⟩, ⟨c!"float", c!"X", true⟩, ⟨c!"char", c!"Note", false⟩],
      .alias ⟨c!"Mytype", c!"Root", false⟩] := by decide +kernel

/-! ## Files that are not C -/

/-- Bytes in groups (`char[]`) and lists of lists: the brackets are behind the type. -/
theorem bad_arrays : let g := Core.Decl.group (a [("name", "g")]) (.elem (a [("name", "x"), ("type", "xs:byte")]) .nil)
    let l := Core.Decl.simple (a [("name", "l")]) (.list (a [("itemType", "xs:NMTOKENS")]))
    C71.Bound c!"C" [g] ∧ Syntax.C.parse (C71.file c!"C" [g]) = none ∧ (splitOn '\n' (C71.file c!"C" [g])).contains c!"\tchar[] X;" = true ∧
    C71.Bound c!"C" [l] ∧ Syntax.C.parse (C71.file c!"C" [l]) = none ∧
    (splitOn '\n' (C71.file c!"C" [l])).contains c!"typedef char[] L[];" = true := by decide +kernel

/-- Complex types, groups and attribute groups without members: a structure has at least one. -/
theorem bad_structures : Syntax.C.parse (C71.file c!"C" [.complex (a [("name", "T")]) .nil]) = none ∧
    Syntax.C.parse (C71.file c!"C" [.complex (a [("name", "T")]) (.ext (a [("base", "xs:int")]) .nil .nil)]) = none ∧
    Syntax.C.parse (C71.file c!"C" [.group (a [("name", "T")]) .nil]) = none := by decide +kernel

/-- A schema without declarations. -/
theorem bad_empty : Syntax.C.parse (C71.file c!"C" []) = none := by decide +kernel

/-- Names with a space, and a type `enum`. -/
theorem bad_names : Syntax.C.parse (C71.file c!"C" [.simple (a [("name", "a b")]) (C80.limited "xs:int")]) = none ∧
    Syntax.C.parse (C71.file c!"C" [.complex (a [("name", "enum")]) (.elem (a [("name", "x"), ("type", "xs:int")]) .nil),
      .element (a [("name", "e"), ("type", "enum")])]) = none := by decide +kernel

end Xgen.C102
