import Verif.Props.C80
import Verif.Lemmas.Docs
import Verif.Spec.GoSyntax

/-! # C96: generated Go files are Go

A generated Go file, before it is formatted, is read by the rules of the language itself: characters are grouped into tokens,
line breaks become semicolons, and the tokens follow the grammar.  The result is one type declaration for each component to be
declared, with the fields it should have; documentation is all in comments. -/

namespace Xgen.C96
open Core C40 Decl GoSyntax
open C13 (Exported nameChar nameRune letterly)
open Alphabet (national capital)
open C58 (isUnion)
open C74 (membersOf)
open C80 (Word used)

/-! ## Reading tokens -/

/-- The tokens of a text that is followed by others. -/
def Toks (s : Str) (ts : List Tok) : Prop := ∀ rest, lex (.gap false) (s ++ rest) = (lex (.gap false) rest).map (ts ++ ·)

theorem Toks.nil : Toks [] [] := fun rest => by cases h : lex (.gap false) rest <;> simp [h]

theorem Toks.append {s s' : Str} {ts ts' : List Tok} (h : Toks s ts) (h' : Toks s' ts') : Toks (s ++ s') (ts ++ ts') := fun rest => by
  rw [List.append_assoc, h, h', Option.map_map]
  congr 1
  funext x
  simp

theorem Toks.flatMap {α : Type} {l : List α} {f : α → Str} {g : α → List Tok} (h : ∀ a ∈ l, Toks (f a) (g a)) : Toks (l.flatMap f) (l.flatMap g) := by
  induction l with
  | nil => exact Toks.nil
  | cons a l ih =>
    rw [List.flatMap_cons, List.flatMap_cons]
    exact (h a (by simp)).append (ih fun b hb => h b (by simp [hb]))

/-- A text in the middle of a line, before something that does not go on with a word. -/
def Emits (s : Str) (ts : List Tok) : Prop := ∀ b c rest, wordChar c = false →
  lex (.gap b) (s ++ c :: rest) = (lex (.gap true) (c :: rest)).map (ts ++ ·)

/-- A name. -/
def Ident (w : Str) : Prop := (∃ c r, w = c :: r ∧ letter c = true) ∧ (∀ c ∈ w, wordChar c = true) ∧ w ∉ keywords

instance (w : Str) : Decidable (Ident w) := by
  cases w with
  | nil => exact .isFalse fun h => by obtain ⟨⟨c, r, h, -⟩, -⟩ := h; cases h
  | cons c r =>
    refine decidable_of_iff (letter c = true ∧ (∀ d ∈ c :: r, wordChar d = true) ∧ (c :: r) ∉ keywords) ?_
    exact ⟨fun h => ⟨⟨c, r, rfl, h.1⟩, h.2⟩, fun h => ⟨by obtain ⟨⟨c', r', e, h'⟩, -⟩ := h; cases e; exact h', h.2⟩⟩

theorem unbanned {c : Char} (h : wordChar c = true) : banned c = false := by
  simp only [wordChar, letter, Bool.or_eq_true, Bool.and_eq_true, decide_eq_true_eq] at h
  simp only [banned, Bool.or_eq_false_iff, decide_eq_false_iff_not]
  rcases h with (h | h) | h
  · omega
  · have := Alphabet.national_range h; omega
  · omega

theorem start_letter (b : Bool) {c : Char} (h : letter c = true) : start b c = some ([], .word [c]) := by
  have h' := h
  simp only [letter, Bool.or_eq_true, Bool.and_eq_true, decide_eq_true_eq] at h'
  have n1 : ¬ (c = ' ' ∨ c = '\t' ∨ c = '\r') := by rintro (rfl | rfl | rfl) <;> revert h <;> decide
  have n2 : ¬ c = '\n' := by rintro rfl; revert h; decide
  rw [start, if_neg n1, if_neg n2, if_pos h]

theorem lex_word {w : Str} (c : Char) (rest : Str) (hc : wordChar c = false) : ∀ v, (∀ d ∈ w, wordChar d = true) →
    lex (.word v) (w ++ c :: rest) = (lex (.gap (closes (v ++ w))) (c :: rest)).map (word (v ++ w) :: ·) := by
  induction w with
  | nil =>
    intro v _
    rw [List.nil_append, List.append_nil, lex, lex, GoSyntax.step, GoSyntax.step]
    by_cases hb : banned c = true
    · rw [if_pos hb, if_pos hb]; rfl
    · rw [if_neg hb, if_neg (by simp [hc]), if_neg hb]
      cases start (closes v) c with
      | none => rfl
      | some x =>
        dsimp only [Option.map]
        cases lex x.2 rest <;> rfl
  | cons d w ih =>
    intro v hw
    have hd := hw d (by simp)
    rw [List.cons_append, lex, GoSyntax.step, if_neg (by simp [unbanned hd])]
    rw [if_pos hd]
    dsimp only
    rw [ih (v ++ [d]) fun e he => hw e (by simp [he]), List.append_assoc]
    simp only [List.singleton_append, List.nil_append]
    cases lex (.gap (closes (v ++ d :: w))) (c :: rest) <;> rfl

theorem any_word {w : Str} (h1 : ∃ c r, w = c :: r ∧ letter c = true) (h2 : ∀ c ∈ w, wordChar c = true) (b : Bool) (c : Char) (rest : Str)
    (hc : wordChar c = false) : lex (.gap b) (w ++ c :: rest) = (lex (.gap (closes w)) (c :: rest)).map (word w :: ·) := by
  obtain ⟨d, r, rfl, hd⟩ := h1
  have hd' := h2 d (by simp)
  rw [List.cons_append, lex, GoSyntax.step, if_neg (by simp [unbanned hd'])]
  rw [start_letter b hd]
  dsimp only
  rw [lex_word c rest hc [d] fun e he => h2 e (by simp [he])]
  simp only [List.singleton_append, List.nil_append]
  cases lex (.gap (closes (d :: r))) (c :: rest) <;> rfl

theorem Ident.emits {w : Str} (h : Ident w) : Emits w [.ident w] := fun b c rest hc => by
  rw [any_word h.1 h.2.1 b c rest hc, closes, word, if_neg h.2.2]
  simp [h.2.2]

/-- A single character. -/
theorem lex_op {c : Char} (b b' : Bool) (hb : banned c = false) (h : start b c = some ([.op c], .gap b')) (rest : Str) :
    lex (.gap b) (c :: rest) = (lex (.gap b') rest).map (.op c :: ·) := by
  rw [lex, GoSyntax.step, if_neg (by simp [hb])]
  rw [h]
  rfl

theorem lex_blank {c : Char} (b : Bool) (hc : c = ' ' ∨ c = '\t' ∨ c = '\r') (rest : Str) : lex (.gap b) (c :: rest) = lex (.gap b) rest := by
  have hb : banned c = false := by rcases hc with rfl | rfl | rfl <;> decide
  rw [lex, GoSyntax.step, if_neg (by simp [hb])]
  rw [start, if_pos hc]
  dsimp only
  cases lex (.gap b) rest <;> rfl

theorem lex_newline (b : Bool) (rest : Str) : lex (.gap b) ('\n' :: rest) = (lex (.gap false) rest).map (newline b ++ ·) := by
  rw [lex, GoSyntax.step, if_neg (by decide)]
  rw [start, if_neg (by decide), if_pos rfl]

/-- The tokens of the start of a text, and where the reader is behind it. -/
def lexTo (m : GoSyntax.Mode) : Str → Option (List Tok × GoSyntax.Mode)
  | [] => some ([], m)
  | c :: s => match GoSyntax.step m c with
    | none => none
    | some (ts, m') => (lexTo m' s).map fun x => (ts ++ x.1, x.2)

theorem lex_append (s s' : Str) : ∀ m, lex m (s ++ s') = match lexTo m s with
    | none => none
    | some (ts, m') => (lex m' s').map (ts ++ ·) := by
  induction s with
  | nil =>
    intro m
    rw [List.nil_append, lexTo]
    dsimp only
    cases lex m s' <;> rfl
  | cons c s ih =>
    intro m
    rw [List.cons_append, lex, lexTo]
    cases GoSyntax.step m c with
    | none => rfl
    | some x =>
      dsimp only
      rw [ih]
      cases lexTo x.2 s with
      | none => rfl
      | some y =>
        dsimp only [Option.map]
        cases lex y.2 s' <;> simp

/-! ## Types -/

/-- Texts that are types. -/
inductive TypeText : Str → List Tok → Prop where
  | name {w : Str} : Ident w → TypeText w [.ident w]
  | qual {v w : Str} : Ident v → Ident w → TypeText (v ++ '.' :: w) [.ident v, .op '.', .ident w]
  | any : TypeText c!"interface{}" [.keyword c!"interface", .op '{', .op '}']
  | ptr {u : Str} {ts : List Tok} : TypeText u ts → TypeText ('*' :: u) (.op '*' :: ts)
  | slice {u : Str} {ts : List Tok} : TypeText u ts → TypeText (c!"[]" ++ u) (.op '[' :: .op ']' :: ts)

theorem TypeText.emits {u : Str} {ts : List Tok} (h : TypeText u ts) : Emits u ts := by
  induction h with
  | name h => exact h.emits
  | @qual v w h h' =>
    intro b c rest hc
    rw [List.append_assoc, List.cons_append, h.emits b '.' _ (by decide), lex_op true false (by decide) (by rfl), h'.emits false c rest hc]
    cases lex (.gap true) (c :: rest) <;> rfl
  | any =>
    intro b c rest hc
    have : c!"interface{}" ++ c :: rest = c!"interface" ++ '{' :: '}' :: c :: rest := rfl
    rw [this, any_word ⟨'i', c!"nterface", rfl, by decide⟩ (by decide) b '{' _ (by decide), lex_op _ false (by decide) (by decide),
      lex_op false true (by decide) (by decide)]
    cases lex (.gap true) (c :: rest) <;> rfl
  | ptr _ ih =>
    intro b c rest hc
    rw [List.cons_append, lex_op b false (by decide) (by cases b <;> decide), ih false c rest hc]
    cases lex (.gap true) (c :: rest) <;> rfl
  | slice _ ih =>
    intro b c rest hc
    have : ∀ u : Str, c!"[]" ++ u ++ c :: rest = '[' :: ']' :: (u ++ c :: rest) := fun _ => rfl
    rw [this, lex_op b false (by decide) (by cases b <;> decide), lex_op false true (by decide) (by decide), ih true c rest hc]
    cases lex (.gap true) (c :: rest) <;> rfl

/-- What may follow a type. -/
def Ends : List Tok → Prop
  | .op ';' :: _ => True
  | .raw _ :: _ => True
  | _ => False

theorem Ends.cases {r : List Tok} (h : Ends r) : (∃ r', r = .op ';' :: r') ∨ ∃ g r', r = .raw g :: r' := by
  unfold Ends at h
  split at h
  · exact .inl ⟨_, rfl⟩
  · exact .inr ⟨_, _, rfl⟩
  · cases h

theorem TypeText.parses {u : Str} {ts : List Tok} (h : TypeText u ts) {r : List Tok} (hr : Ends r) : type (ts ++ r) = some (u, r) := by
  induction h with
  | name h => rcases hr.cases with ⟨r, rfl⟩ | ⟨g, r, rfl⟩ <;> rfl
  | qual h h' => rfl
  | any => rfl
  | ptr _ ih => rw [List.cons_append, type, ih]; rfl
  | slice _ ih => rw [List.cons_append, List.cons_append, type, ih]; rfl

/-- The first token of a type. -/
theorem TypeText.head {u : Str} {ts : List Tok} (h : TypeText u ts) : ∃ x xs, ts = x :: xs ∧ x ≠ .op ';' ∧ x ≠ .op '}' := by
  cases h <;> exact ⟨_, _, rfl, by simp, by simp⟩

/-! ## Fields -/

/-- Lines of fields. -/
def Part (s : Str) (fs : List Field) : Prop := ∃ ts, Toks s ts ∧ fs.length ≤ ts.length ∧
  ∀ k r, fields (k + fs.length) (ts ++ r) = (fields k r).map fun x => (fs ++ x.1, x.2)

theorem Part.nil : Part [] [] := ⟨[], Toks.nil, by simp, fun k r => by
  rw [List.nil_append, List.length_nil, Nat.add_zero]
  cases fields k r <;> rfl⟩

theorem Part.append {s s' : Str} {fs fs' : List Field} (h : Part s fs) (h' : Part s' fs') : Part (s ++ s') (fs ++ fs') := by
  obtain ⟨ts, h1, h2, h3⟩ := h
  obtain ⟨ts', h1', h2', h3'⟩ := h'
  refine ⟨ts ++ ts', h1.append h1', by simp; omega, fun k r => ?_⟩
  rw [List.append_assoc, List.length_append, Nat.add_comm fs.length, ← Nat.add_assoc, h3, h3', Option.map_map]
  congr 1
  funext x
  simp

theorem Part.flatMap {α : Type} {l : List α} {f : α → Str} {g : α → Field} (h : ∀ a ∈ l, Part (f a) [g a]) : Part (l.flatMap f) (l.map g) := by
  induction l with
  | nil => exact Part.nil
  | cons a l ih =>
    rw [List.flatMap_cons, List.map_cons]
    exact (h a (by simp)).append (fs := [g a]) (ih fun b hb => h b (by simp [hb]))

theorem Part.one {s : Str} {ts : List Tok} {f : Field} (h : Toks s (ts ++ [.op ';'])) (h1 : ∀ r, field (ts ++ .op ';' :: r) = some (f, .op ';' :: r))
    (h2 : ∃ x xs, ts = x :: xs ∧ x ≠ .op '}') : Part s [f] := by
  refine ⟨_, h, by simp, fun k r => ?_⟩
  have hf := h1 r
  obtain ⟨x, xs, rfl, hx⟩ := h2
  rw [List.append_assoc, List.singleton_append, List.length_singleton, fields.eq_def]
  dsimp only
  rw [List.cons_append] at hf ⊢
  split
  · rename_i heq
    injection heq with e
    exact absurd e hx
  · rw [hf]
    rfl

theorem field_plain {n u : Str} {ts : List Tok} (h : TypeText u ts) (r : List Tok) :
    field ((.ident n :: ts) ++ .op ';' :: r) = some (⟨n, u, none⟩, .op ';' :: r) := by
  have hp := h.parses (r := .op ';' :: r) trivial
  obtain ⟨x, xs, rfl, hx, -⟩ := h.head
  rw [List.cons_append] at hp ⊢
  rw [List.cons_append, field.eq_def]
  split
  · rename_i heq; injection heq with e; cases e
  · rename_i heq; injection heq with e e'; injection e' with e'; exact absurd e' hx
  · rename_i heq
    injection heq with e e'
    injection e with e
    subst e; subst e'
    rw [hp]
  · rename_i h1 h2
    exact absurd rfl (h2 _ _)

theorem field_tagged {n u g : Str} {ts : List Tok} (h : TypeText u ts) (r : List Tok) :
    field ((.ident n :: (ts ++ [.raw g])) ++ .op ';' :: r) = some (⟨n, u, some g⟩, .op ';' :: r) := by
  have hp := h.parses (r := .raw g :: .op ';' :: r) trivial
  obtain ⟨x, xs, rfl, hx, -⟩ := h.head
  rw [List.cons_append] at hp
  rw [List.cons_append, List.append_assoc, List.singleton_append, List.cons_append, field.eq_def]
  split
  · rename_i heq; injection heq with e; cases e
  · rename_i heq; injection heq with e e'; injection e' with e'; exact absurd e' hx
  · rename_i heq
    injection heq with e e'
    injection e with e
    subst e; subst e'
    rw [hp]
  · rename_i h1 h2
    exact absurd rfl (h2 _ _)

/-- The end of a line after something that ends a declaration. -/
theorem line_end {s : Str} {ts : List Tok} (h : ∀ rest, lex (.gap false) (s ++ '\n' :: rest) = (lex (.gap true) ('\n' :: rest)).map (ts ++ ·)) :
    Toks (s ++ c!"\n") (ts ++ [.op ';']) := fun rest => by
  have : s ++ c!"\n" ++ rest = s ++ '\n' :: rest := by simp
  rw [this, h, lex_newline]
  cases lex (.gap false) rest <;> simp [newline]

/-- A line with a name and a type. -/
theorem Part.plain {n u : Str} {ts : List Tok} (hn : Ident n) (h : TypeText u ts) : Part (c!"\t" ++ n ++ c!"\t" ++ u ++ c!"\n") [⟨n, u, none⟩] := by
  refine Part.one (ts := .ident n :: ts) (line_end fun rest => ?_) (field_plain h) ⟨_, _, rfl, by simp⟩
  have : c!"\t" ++ n ++ c!"\t" ++ u ++ '\n' :: rest = '\t' :: (n ++ '\t' :: (u ++ '\n' :: rest)) := by simp
  rw [this, lex_blank false (by decide), hn.emits _ _ _ (by decide), lex_blank true (by decide), h.emits _ _ _ (by decide)]
  cases lex (.gap true) ('\n' :: rest) <;> rfl

/-- A string between backquotes. -/
theorem lex_raw {g : Str} (rest : Str) : ∀ v, (∀ c ∈ g, banned c = false ∧ c ≠ '`' ∧ c ≠ '\r') →
    lex (.raw v) (g ++ '`' :: rest) = (lex (.gap true) rest).map (.raw (v ++ g) :: ·) := by
  induction g with
  | nil =>
    intro v _
    rw [List.nil_append, List.append_nil, lex, GoSyntax.step, if_neg (by decide)]
    rfl
  | cons c g ih =>
    intro v h
    obtain ⟨h1, h2, h3⟩ := h c (by simp)
    rw [List.cons_append, lex, GoSyntax.step, if_neg (by simp [h1])]
    rw [if_neg h2, if_neg h3]
    dsimp only
    rw [ih (v ++ [c]) fun d hd => h d (by simp [hd]), List.append_assoc]
    cases lex (.gap true) rest <;> rfl

/-- A line with a name, a type and a tag. -/
theorem Part.tagged {n u g : Str} {ts : List Tok} (hn : Ident n) (h : TypeText u ts) (hg : ∀ c ∈ g, banned c = false ∧ c ≠ '`' ∧ c ≠ '\r') :
    Part (c!"\t" ++ n ++ c!"\t" ++ u ++ c!"\t`" ++ g ++ c!"`\n") [⟨n, u, some g⟩] := by
  have e : c!"\t" ++ n ++ c!"\t" ++ u ++ c!"\t`" ++ g ++ c!"`\n" = (c!"\t" ++ n ++ c!"\t" ++ u ++ c!"\t`" ++ g ++ c!"`") ++ c!"\n" := by simp
  rw [e]
  refine Part.one (ts := .ident n :: (ts ++ [.raw g])) (line_end fun rest => ?_) (field_tagged h) ⟨_, _, rfl, by simp⟩
  have : c!"\t" ++ n ++ c!"\t" ++ u ++ c!"\t`" ++ g ++ c!"`" ++ '\n' :: rest = '\t' :: (n ++ '\t' :: (u ++ '\t' :: '`' :: (g ++ '`' :: '\n' :: rest))) := by simp
  have hq : ∀ s : Str, lex (.gap true) ('`' :: s) = lex (.raw []) s := fun s => by
    rw [lex]
    have : GoSyntax.step (.gap true) '`' = some ([], .raw []) := by decide
    rw [this]
    dsimp only
    cases lex (.raw []) s <;> rfl
  rw [this, lex_blank false (by decide), hn.emits _ _ _ (by decide), lex_blank true (by decide), h.emits _ _ _ (by decide), lex_blank true (by decide),
    hq, lex_raw _ [] hg]
  cases lex (.gap true) ('\n' :: rest) <;> simp

/-- An embedded pointer. -/
theorem Part.embedded {w : Str} (h : Ident w) : Part (c!"\t" ++ '*' :: w ++ c!"\n") [⟨[], '*' :: w, none⟩] := by
  refine Part.one (ts := [.op '*', .ident w]) (line_end fun rest => ?_) (fun r => rfl) ⟨_, _, rfl, by simp⟩
  have : c!"\t" ++ '*' :: w ++ '\n' :: rest = '\t' :: ('*' :: w ++ '\n' :: rest) := by simp
  rw [this, lex_blank false (by decide), (TypeText.ptr (.name h)).emits _ _ _ (by decide)]

/-! ## Declarations -/

/-- Texts of declarations. -/
def Part' (s : Str) (d : GoSyntax.Decl) : Prop := ∃ ts, Toks s ts ∧ ts ≠ [] ∧ ∀ r, decl (ts ++ r) = some (d, r)

theorem lex_keyword {w : Str} (h1 : ∃ c r, w = c :: r ∧ letter c = true) (h2 : ∀ c ∈ w, wordChar c = true) (h3 : w ∈ keywords) (h4 : closes w = false)
    (b : Bool) (c : Char) (rest : Str) (hc : wordChar c = false) : lex (.gap b) (w ++ c :: rest) = (lex (.gap false) (c :: rest)).map (.keyword w :: ·) := by
  rw [any_word h1 h2 b c rest hc, h4, word, if_pos h3]

theorem lex_type {fn : Str} (h : Ident fn) (c : Char) (hc : wordChar c = false) (rest : Str) :
    lex (.gap false) (c!"type " ++ fn ++ c :: rest) = (lex (.gap true) (c :: rest)).map ([.keyword c!"type", .ident fn] ++ ·) := by
  have : c!"type " ++ fn ++ c :: rest = c!"type" ++ ' ' :: (fn ++ c :: rest) := by simp
  rw [this, lex_keyword ⟨'t', c!"ype", rfl, by decide⟩ (by decide) (by decide) (by decide) false ' ' _ (by decide), lex_blank false (by decide),
    h.emits _ _ _ hc]
  cases lex (.gap true) (c :: rest) <;> rfl

/-- Another name for a type. -/
theorem Part'.type {fn u : Str} {ts : List Tok} (hf : Ident fn) (h : TypeText u ts) {c : Char} (hc : c = ' ' ∨ c = '\t') :
    Part' (c!"type " ++ fn ++ (c :: u ++ c!"\n")) ⟨fn, .type u⟩ := by
  refine ⟨(.keyword c!"type" :: .ident fn :: ts) ++ [.op ';'], ?_, by simp, fun r => ?_⟩
  · rw [← List.append_assoc]
    refine line_end fun rest => ?_
    have hw : wordChar c = false := by rcases hc with rfl | rfl <;> decide
    have : c!"type " ++ fn ++ c :: u ++ '\n' :: rest = c!"type " ++ fn ++ c :: (u ++ '\n' :: rest) := by simp
    rw [this, lex_type hf c hw, lex_blank true (by rcases hc with rfl | rfl <;> simp), h.emits _ _ _ (by decide)]
    cases lex (.gap true) ('\n' :: rest) <;> rfl
  · have hp := h.parses (r := .op ';' :: r) trivial
    rw [List.append_assoc, List.singleton_append, List.cons_append, List.cons_append, decl.eq_def]
    split
    · rename_i k n k' r' heq
      injection heq with e1 e2
      injection e2 with e2 e3
      injection e1 with e1
      injection e2 with e2
      subst e1 e2
      rw [if_neg]
      · rw [if_pos rfl, ← e3, hp]; rfl
      · rintro ⟨-, rfl⟩
        have : GoSyntax.type (.keyword c!"struct" :: .op '{' :: r') = none := by
          rw [GoSyntax.type.eq_def]
          split <;> rename_i heq <;> first | (injection heq with a b; cases a; done) | rfl | skip
          injection heq with a b
          injection a with a
          subst a
          rfl
        rw [← e3, hp] at this
        cases this
    · rename_i k n r' _ heq
      injection heq with e1 e2
      injection e2 with e2 e3
      injection e1 with e1
      injection e2 with e2
      subst e1 e2 e3
      rw [if_pos rfl, hp]; rfl
    · rename_i h1 h2
      exact absurd rfl (h2 _ _ _)

/-- A struct. -/
theorem Part'.struct {fn s : Str} {fs : List Field} (hf : Ident fn) (h : Part s fs) :
    Part' (c!"type " ++ fn ++ (c!" struct {\n" ++ s ++ c!"}\n")) ⟨fn, .struct fs⟩ := by
  obtain ⟨ts, h1, h2, h3⟩ := h
  refine ⟨[.keyword c!"type", .ident fn, .keyword c!"struct", .op '{'] ++ ts ++ [.op '}', .op ';'], fun rest => ?_, by simp, fun r => ?_⟩
  · have : c!"type " ++ fn ++ (c!" struct {\n" ++ s ++ c!"}\n") ++ rest = c!"type " ++ fn ++ ' ' :: (c!"struct" ++ ' ' :: '{' :: '\n' :: (s ++ '}' :: '\n' :: rest)) := by simp
    rw [this, lex_type hf ' ' (by decide), lex_blank true (by decide),
      lex_keyword ⟨'s', c!"truct", rfl, by decide⟩ (by decide) (by decide) (by decide) true ' ' _ (by decide), lex_blank false (by decide),
      lex_op false false (by decide) (by decide), lex_newline, h1, lex_op false true (by decide) (by decide), lex_newline]
    cases lex (.gap false) rest <;> simp [newline]
  · have hl : (ts ++ .op '}' :: .op ';' :: r).length + 1 = (ts.length - fs.length + r.length + 2 + 1) + fs.length := by
      simp only [List.length_append, List.length_cons]; omega
    have hf : fields ((ts ++ .op '}' :: .op ';' :: r).length + 1) (ts ++ .op '}' :: .op ';' :: r) = some (fs, .op ';' :: r) := by
      rw [hl, h3, fields.eq_def]
      simp
    have : [Tok.keyword c!"type", .ident fn, .keyword c!"struct", .op '{'] ++ ts ++ [.op '}', .op ';'] ++ r =
      .keyword c!"type" :: .ident fn :: .keyword c!"struct" :: .op '{' :: (ts ++ .op '}' :: .op ';' :: r) := by simp
    rw [this, decl, if_pos ⟨rfl, rfl⟩, hf]; rfl

/-- What is in a comment does not matter. -/
theorem lex_note (b : Bool) {s : Str} (rest : Str) (h : ∀ c ∈ s, banned c = false ∧ c ≠ '\n') :
    lex (.note b) (s ++ '\n' :: rest) = (lex (.gap false) rest).map (newline b ++ ·) := by
  induction s with
  | nil => rw [List.nil_append, lex, GoSyntax.step, if_neg (by decide)]; rfl
  | cons c s ih =>
    obtain ⟨h1, h2⟩ := h c (by simp)
    rw [List.cons_append, lex, GoSyntax.step, if_neg (by simp [h1])]
    rw [if_neg h2]
    dsimp only
    rw [ih fun d hd => h d (by simp [hd])]
    cases lex (.gap false) rest <;> rfl

/-- A comment. -/
theorem note {s : Str} (h : ∀ c ∈ s, banned c = false ∧ c ≠ '\n') : Toks (c!"//" ++ s ++ c!"\n") [] := fun rest => by
  have : c!"//" ++ s ++ c!"\n" ++ rest = '/' :: '/' :: (s ++ '\n' :: rest) := by simp
  have e : ∀ s : Str, lex (.gap false) ('/' :: '/' :: s) = lex (.note false) s := fun s => by
    rw [lex]
    have : GoSyntax.step (.gap false) '/' = some ([], .slash false) := by decide
    rw [this]
    dsimp only
    rw [lex]
    have : GoSyntax.step (.slash false) '/' = some ([], .note false) := by decide
    rw [this]
    dsimp only
    cases lex (.note false) s <;> rfl
  rw [this, e, lex_note false rest h]
  rfl

theorem blank_line : Toks c!"\r\n" [] := fun rest => by
  have : c!"\r\n" ++ rest = '\r' :: '\n' :: rest := rfl
  rw [this, lex_blank false (by decide), lex_newline]
  rfl

/-- The lines of a comment. -/
theorem doc_note {doc : Str} (hd : ∀ c ∈ doc, banned c = false) : ∀ {s : Str}, (∀ c ∈ s, banned c = false ∧ c ≠ '\n') →
    Toks (c!"//" ++ s ++ docReplace c!"//" doc ++ c!"\r\n") [] := by
  induction doc with
  | nil =>
    intro s hs
    have : c!"//" ++ s ++ docReplace c!"//" [] ++ c!"\r\n" = c!"//" ++ (s ++ c!"\r") ++ c!"\n" := by simp [docReplace]
    rw [this]
    refine note fun c hc => ?_
    rcases List.mem_append.1 hc with hc | hc
    · exact hs c hc
    · rw [List.mem_singleton.1 hc]; decide
  | cons d doc ih =>
    intro s hs
    have ih' := fun {s : Str} => @ih (fun c hc => hd c (by simp [hc])) s
    rw [docReplace]
    by_cases h1 : d = '\n'
    · rw [if_pos h1]
      have : c!"//" ++ s ++ (c!"\r\n" ++ c!"//" ++ c!" " ++ docReplace c!"//" doc) ++ c!"\r\n" =
        (c!"//" ++ (s ++ c!"\r") ++ c!"\n") ++ (c!"//" ++ c!" " ++ docReplace c!"//" doc ++ c!"\r\n") := by simp
      rw [this]
      refine Toks.append (ts := []) (ts' := []) (note fun c hc => ?_) (ih' (by decide))
      rcases List.mem_append.1 hc with hc | hc
      · exact hs c hc
      · rw [List.mem_singleton.1 hc]; decide
    · rw [if_neg h1]
      by_cases h2 : d = '\t'
      · rw [if_pos h2]; exact ih' hs
      · rw [if_neg h2]
        have : c!"//" ++ s ++ d :: docReplace c!"//" doc ++ c!"\r\n" = c!"//" ++ (s ++ [d]) ++ docReplace c!"//" doc ++ c!"\r\n" := by simp
        rw [this]
        refine ih' fun c hc => ?_
        rcases List.mem_append.1 hc with hc | hc
        · exact hs c hc
        · rw [List.mem_singleton.1 hc]; exact ⟨hd d (by simp), h1⟩

theorem Ident.plain {w : Str} (h : Ident w) : ∀ c ∈ w, banned c = false ∧ c ≠ '\n' := fun c hc =>
  ⟨unbanned (h.2.1 c hc), by rintro rfl; have := h.2.1 _ hc; revert this; decide⟩

/-- The comment before a declaration. -/
theorem comment {fn doc : Str} (hf : Ident fn) (hd : ∀ c ∈ doc, banned c = false) : Toks (genFieldComment fn doc c!"//") [] := by
  have hin : ∀ t : Str, (∀ c ∈ t, banned c = false ∧ c ≠ '\n') → ∀ c ∈ c!" " ++ fn ++ t, banned c = false ∧ c ≠ '\n' := by
    intro t ht c hc
    rcases List.mem_append.1 hc with hc | hc
    · rcases List.mem_append.1 hc with hc | hc
      · rw [List.mem_singleton.1 hc]; decide
      · exact hf.plain c hc
    · exact ht c hc
  unfold genFieldComment
  split
  · have : c!"\r\n" ++ c!"//" ++ c!" " ++ fn ++ c!" ...\r\n" = c!"\r\n" ++ (c!"//" ++ (c!" " ++ fn ++ c!" ...\r") ++ c!"\n") := by simp
    rw [this]
    exact blank_line.append (ts' := []) (note (hin _ (by decide)))
  · have : c!"\r\n" ++ c!"//" ++ c!" " ++ fn ++ c!" is " ++ docReplace c!"//" doc ++ c!"\r\n" =
      c!"\r\n" ++ (c!"//" ++ (c!" " ++ fn ++ c!" is ") ++ docReplace c!"//" doc ++ c!"\r\n") := by simp
    rw [this]
    exact blank_line.append (ts' := []) (doc_note hd (hin _ (by decide)))

/-- A declaration with its comment. -/
theorem Part'.documented {fn doc s : Str} {d : GoSyntax.Decl} (hf : Ident fn) (hd : ∀ c ∈ doc, banned c = false) (h : Part' (c!"type " ++ fn ++ s) d) :
    Part' (goDecl fn doc s) d := by
  obtain ⟨ts, h1, h2, h3⟩ := h
  refine ⟨ts, ?_, h2, h3⟩
  have : goDecl fn doc s = genFieldComment fn doc c!"//" ++ (c!"type " ++ fn ++ s) := by simp [goDecl]
  rw [this]
  exact (comment hf hd).append (ts := []) h1

/-- Declarations one after the other. -/
theorem all {α : Type} {l : List α} {f : α → Str} {g : α → GoSyntax.Decl} (h : ∀ a ∈ l, Part' (f a) (g a)) :
    ∃ ts, Toks (l.flatMap f) ts ∧ l.length ≤ ts.length ∧ ∀ k, l.length < k → decls k ts = some (l.map g) := by
  induction l with
  | nil =>
    refine ⟨[], Toks.nil, by simp, fun k hk => ?_⟩
    cases k with
    | zero => cases hk
    | succ k => rfl
  | cons a l ih =>
    obtain ⟨ts, h1, h2, h3⟩ := ih fun b hb => h b (by simp [hb])
    obtain ⟨ts', h1', h2', h3'⟩ := h a (by simp)
    have hpos : 0 < ts'.length := List.length_pos_iff.2 h2'
    refine ⟨ts' ++ ts, h1'.append h1, by simp; omega, fun k hk => ?_⟩
    cases k with
    | zero => cases hk
    | succ k =>
      have hd := h3' ts
      have := h3 k (by simpa using hk)
      cases ts' with
      | nil => exact absurd rfl h2'
      | cons x xs =>
        rw [List.cons_append] at hd ⊢
        rw [decls, hd]
        · dsimp only
          rw [this]
          rfl
        · simp

/-! ## Which trees -/

/-- The documentation of a component. -/
def docOf : Node Element → Str
  | .simple v => v.doc
  | .attr v => v.doc
  | .elem v => v.doc
  | .complex v => v.doc
  | .group v => v.doc
  | .attrGroup v => v.doc

section
variable [Uni]

/-- What the references in a component stand for. -/
def references (t : Tree) : Node Element → List Str
  | .simple v => if isUnion v then v.memberTypes.map (C55.memberMeaning t) else [Names.meaning t v.base]
  | .attr v => [Names.meaning t v.type]
  | .elem v => [Names.meaning t v.type]
  | .complex v => v.attributeGroup.map (fun a => Names.meaning t a.ref) ++ v.attributes.map (fun a => Names.meaning t a.type) ++
      v.groups.map (fun g => Names.meaning t g.ref) ++ v.elements.map (fun e => Names.meaning t e.type) ++
      if v.base = [] then [] else [v.base]
  | .group v => v.elements.map (fun e => Names.meaning t e.type) ++ v.groups.map (fun g => Names.meaning t g.ref)
  | .attrGroup v => v.attributes.map fun a => Names.meaning t a.type

/-- Target types and names of types, but not the target type `interface`, which is a keyword. -/
def Proper (s : Str) : Prop := (s ∈ goBuildinType ∨ s = [] ∨ (Word s ∧ ':' ∉ s)) ∧ s ≠ c!"interface"

/-- Names start with a letter that has a capital and consist of letters, ASCII digits, `:`, `.`, `-` and `_`; types are proper, and those of
the items of lists are there; documentation is any text without the two characters that Go does not allow. -/
structure Fair (t : Tree) : Prop where
  names : ∀ n ∈ nodes t, Word (nodeName n)
  members : ∀ n ∈ nodes t, ∀ m ∈ membersOf n, Word m.1
  types : ∀ n ∈ nodes t, ∀ s ∈ references t n, Proper s
  items : ∀ v, Node.simple v ∈ nodes t → v.list = true → Names.meaning t v.base ≠ []
  docs : ∀ n ∈ nodes t, ∀ c ∈ docOf n, banned c = false

/-- The text of a tag. -/
def tagText (g : Str × List Str) : Str := c!"xml:\"" ++ g.1 ++ g.2.flatMap (',' :: ·) ++ c!"\""

/-- A field as Go sees it. -/
def ofField (f : C17.Field) : Field := ⟨f.name, f.type, f.tag.map tagText⟩

/-- What a component is declared to be. -/
def bodyOf (order : List (Str × Str) → List (Str × Str)) (t : Tree) (fn : Str) (n : Node Element) : Body :=
  match C80.aliased t n with
  | some a => .type a
  | none => .struct ((C58.Go.fields order t fn n).map ofField)

/-- What a file is to be: the package, the imports that are needed, and a declaration for every component to be declared. -/
def fileOf (order : List (Str × Str) → List (Str × Str)) (pkg : Str) (t : Tree) : File where
  package := if pkg = [] then c!"schema" else pkg
  imports := (if (C80.summary t).any (fun x => c!"time.Time" ∈ x.2.1) then [c!"time"] else []) ++
    (if (C80.summary t).any (fun x => x.2.2) then [c!"encoding/xml"] else [])
  decls := (C58.declarations C58.Go.base C58.Go.numbered (fun _ => false) t).map fun x => ⟨x.2, bodyOf order t x.2 x.1⟩

/-! ## Names and types -/

omit [Uni] in
theorem exported_ident {w : Str} (h : Exported w) : Ident w := by
  obtain ⟨c, r, rfl, hc, h⟩ := h
  refine ⟨⟨c, r, rfl, ?_⟩, fun d hd => ?_, fun hk => ?_⟩
  · rcases Bool.or_eq_true_iff.1 hc with hc | hc
    · simp only [isAsciiUpper, Bool.and_eq_true, decide_eq_true_eq] at hc
      simp [letter, hc]
    · simp [letter, Alphabet.capital_national hc]
  · have := h d hd
    simp only [letterly, isAsciiLetter, isAsciiUpper, isAsciiLower, isAsciiDigit, Bool.or_eq_true, Bool.and_eq_true, decide_eq_true_eq] at this
    simp only [wordChar, letter, Bool.or_eq_true, Bool.and_eq_true, decide_eq_true_eq]
    rcases this with (h | h) | h
    · exact .inl (.inl (.inl h))
    · exact .inl (.inr h)
    · exact .inr h
  · have := (by decide : ∀ k ∈ keywords, k.head?.all (fun c => !(isAsciiUpper c || capital c)) = true) _ hk
    rw [List.head?_cons, Option.all_some, hc] at this
    cases this

theorem word_plain {s : Str} (h : Word s) : ∀ c ∈ s, banned c = false ∧ c ≠ '`' ∧ c ≠ '\r' := fun c hc => by
  rcases Bool.or_eq_true_iff.1 (h.2 c hc) with this | this
  · refine ⟨?_, ?_, ?_⟩
    · simp only [nameChar, isAsciiLetter, isAsciiUpper, isAsciiLower, isAsciiDigit, Bool.or_eq_true, Bool.and_eq_true, decide_eq_true_eq] at this
      simp only [banned, Bool.or_eq_false_iff, decide_eq_false_iff_not]
      rcases this with (((((_ | _) | _) | rfl) | rfl) | rfl) | rfl <;> first | omega | decide
    · rintro rfl; revert this; decide
    · rintro rfl; revert this; decide
  · have hn : national c = true := by simp only [C13.cased, Bool.and_eq_true] at this; exact this.1.1.1
    have := Alphabet.national_range hn
    refine ⟨?_, Alphabet.national_ne hn (by decide), Alphabet.national_ne hn (by decide)⟩
    simp only [banned, Bool.or_eq_false_iff, decide_eq_false_iff_not]
    omega

variable [UniLaws]

theorem strict_ident {s : Str} (h : Word s) : Ident (Names.strict s) := exported_ident (C80.word h)

omit [Uni] [UniLaws] in
theorem builtin_type {s : Str} (h : s ∈ goBuildinType) (hi : s ≠ c!"interface") : ∃ ts, TypeText s ts := by
  have := (by decide : ∀ s ∈ goBuildinType, s ≠ c!"interface" → Ident s ∨ (s = c!"[]" ++ s.drop 2 ∧ (Ident (s.drop 2) ∨ s.drop 2 = c!"interface{}")) ∨
    s = c!"xml.Name" ∨ s = c!"time.Time") s h hi
  rcases this with h | ⟨e, h | h⟩ | rfl | rfl
  · exact ⟨_, .name h⟩
  · rw [e]; exact ⟨_, .slice (.name h)⟩
  · rw [e, h]; exact ⟨_, .slice .any⟩
  · exact ⟨_, .qual (v := c!"xml") (w := c!"Name") (by decide) (by decide)⟩
  · exact ⟨_, .qual (v := c!"time") (w := c!"Time") (by decide) (by decide)⟩

theorem word_type {s : Str} (h : Word s) (hc : ':' ∉ s) (hb : s ∉ goBuildinType) : Names.goType goBuildinType s = '*' :: Names.strict s := by
  obtain ⟨c, r, e, hl⟩ := h.1
  have hl := C13.letterly_not (C13.starts_letterly hl)
  have hn : C53.NCName s := ⟨⟨c, r, e, hl.2.2.1, hl.2.1⟩, hc⟩
  rw [Names.goType, if_neg hb, C53.word_strict hn]
  obtain ⟨c', r', e', -⟩ := C80.word h
  rw [e']

theorem proper_type {s : Str} (h : Proper s) : ∃ ts, TypeText (Names.goType goBuildinType s) ts := by
  obtain ⟨h, hi⟩ := h
  by_cases hb : s ∈ goBuildinType
  · rw [Names.goType, if_pos hb]; exact builtin_type hb hi
  · rcases h with h | rfl | ⟨h, hc⟩
    · exact absurd h hb
    · exact ⟨_, .any⟩
    · rw [word_type h hc hb]
      exact ⟨_, .ptr (.name (strict_ident h))⟩

theorem proper_item {s : Str} (h : Proper s) (hn : s ≠ []) : ∃ ts, TypeText (Names.goType goBuildinType (Names.goType goBuildinType s)) ts := by
  obtain ⟨h, hi⟩ := h
  by_cases hb : s ∈ goBuildinType
  · have e : Names.goType goBuildinType s = s := by rw [Names.goType, if_pos hb]
    rw [e, e]; exact builtin_type hb hi
  · rcases h with h | h | ⟨h, hc⟩
    · exact absurd h hb
    · exact absurd h hn
    · rw [word_type h hc hb, C71.Go.again (C71.Go.strict_absent s (.inl rfl)) (C71.Go.strict_absent s (.inr (.inl rfl)))
        (C71.Go.strict_absent s (.inr (.inr rfl)))]
      exact ⟨_, .ptr (.ptr (.name (strict_ident h)))⟩

omit [Uni] [UniLaws] in
theorem plural_type {u : Str} (b : Bool) (h : ∃ ts, TypeText u ts) : ∃ ts, TypeText ((if b then c!"[]" else []) ++ u) ts := by
  obtain ⟨ts, h⟩ := h
  cases b
  · exact ⟨ts, h⟩
  · exact ⟨_, .slice h⟩

/-! ## One declaration -/

omit [UniLaws] in
theorem xmlName_part {fn name : Str} (h : Word name) : Part (goXMLNameLine fn name)
    ((if fn ≠ name then [(⟨c!"XMLName", c!"xml.Name", some (name, [])⟩ : C17.Field)] else []).map ofField) := by
  unfold goXMLNameLine
  split
  · have e : c!"\tXMLName\txml.Name\t`xml:\"" ++ name ++ c!"\"`\n" =
        c!"\t" ++ c!"XMLName" ++ c!"\t" ++ c!"xml.Name" ++ c!"\t`" ++ tagText (name, []) ++ c!"`\n" := by simp [tagText]
    rw [e]
    refine Part.tagged (by decide) (.qual (v := c!"xml") (w := c!"Name") (by decide) (by decide)) fun c hc => ?_
    simp only [tagText, List.flatMap_nil, List.append_nil, List.mem_append] at hc
    rcases hc with (hc | hc) | hc
    · revert c; decide
    · exact word_plain h c hc
    · revert c; decide
  · exact Part.nil

/-- A line without a tag. -/
theorem plain_part {name u line : Str} (hn : Word name) (hu : ∃ ts, TypeText u ts) (hl : line = c!"\t" ++ Names.strict name ++ c!"\t" ++ u ++ c!"\n") :
    Part line [ofField ⟨Names.strict name, u, none⟩] := by
  obtain ⟨ts, hu⟩ := hu
  rw [hl]
  exact Part.plain (strict_ident hn) hu

theorem attr_part {t : Tree} {a : Attribute} (hn : Word a.name) (hu : Proper (Names.meaning t a.type)) : Part (goAttrLine t a)
    [ofField ⟨Names.strict a.name ++ c!"Attr", C17.typeOf t a.type, some (a.name, if a.optional then [c!"attr", c!"omitempty"] else [c!"attr"])⟩] := by
  obtain ⟨ts, hu⟩ := proper_type hu
  have e : goAttrLine t a = c!"\t" ++ (Names.strict a.name ++ c!"Attr") ++ c!"\t" ++ C17.typeOf t a.type ++ c!"\t`" ++
      tagText (a.name, if a.optional then [c!"attr", c!"omitempty"] else [c!"attr"]) ++ c!"`\n" := by
    unfold goAttrLine C17.typeOf
    rw [Names.go_name, Names.go_type, Names.meaning_eq]
    cases a.optional <;> simp [tagText]
  rw [e]
  refine Part.tagged (exported_ident (C80.extended (C80.word hn) (by decide))) hu fun c hc => ?_
  have : ∀ o : Bool, ∀ c ∈ (if o then [c!"attr", c!"omitempty"] else [c!"attr"]).flatMap (',' :: ·), banned c = false ∧ c ≠ '`' ∧ c ≠ '\r' := by decide
  simp only [tagText, List.mem_append] at hc
  rcases hc with ((hc | hc) | hc) | hc
  · revert c; decide
  · exact word_plain hn c hc
  · exact this _ c hc
  · revert c; decide

theorem elem_part {t : Tree} {e : Element} (hn : Word e.name) (hu : Proper (Names.meaning t e.type)) : Part (goElemLine t e)
    [ofField ⟨Names.strict e.name, (if e.plural then c!"[]" else []) ++ C17.typeOf t e.type, some (e.name, [])⟩] := by
  obtain ⟨ts, hu⟩ := plural_type e.plural (proper_type hu)
  have eq : goElemLine t e = c!"\t" ++ Names.strict e.name ++ c!"\t" ++ ((if e.plural then c!"[]" else []) ++ C17.typeOf t e.type) ++ c!"\t`" ++
      tagText (e.name, []) ++ c!"`\n" := by
    unfold goElemLine C17.typeOf goPlural
    rw [Names.go_name, Names.go_type, Names.meaning_eq]
    simp [tagText]
  rw [eq]
  refine Part.tagged (strict_ident hn) hu fun c hc => ?_
  simp only [tagText, List.flatMap_nil, List.append_nil, List.mem_append] at hc
  rcases hc with (hc | hc) | hc
  · revert c; decide
  · exact word_plain hn c hc
  · revert c; decide

theorem group_part {t : Tree} {g : GroupRef} (hn : Word g.name) (hu : Proper (Names.meaning t g.ref)) : Part (goGroupLine t g)
    [ofField ⟨Names.strict g.name, (if g.plural then c!"[]" else []) ++ C17.typeOf t g.ref, none⟩] :=
  plain_part hn (plural_type g.plural (proper_type hu)) (by
    unfold goGroupLine C17.typeOf goPlural
    rw [Names.go_name, Names.go_type, Names.meaning_eq]
    simp)

theorem groupElem_part {t : Tree} {e : Element} (hn : Word e.name) (hu : Proper (Names.meaning t e.type)) : Part (goGroupElemLine t e)
    [ofField ⟨Names.strict e.name, (if e.plural then c!"[]" else []) ++ C17.typeOf t e.type, none⟩] :=
  plain_part hn (plural_type e.plural (proper_type hu)) (by
    unfold goGroupElemLine C17.typeOf goPlural
    rw [Names.go_name, Names.go_type, Names.meaning_eq]
    simp)

theorem attrGroup_part {t : Tree} {a : AttributeGroup} (hn : Word a.name) (hu : Proper (Names.meaning t a.ref)) : Part (goAttrGroupLine t a)
    [ofField ⟨Names.strict a.name, C17.typeOf t a.ref, none⟩] :=
  plain_part hn (proper_type hu) (by
    unfold goAttrGroupLine C17.typeOf
    rw [Names.go_name, Names.go_type, Names.meaning_eq])

theorem member_part {t : Tree} {m : Str × Str} (hn : Word m.1) (hu : Proper (C55.memberMeaning t m)) : Part (goMemberLine t m)
    [ofField ⟨Names.strict m.1, Names.goType goBuildinType (C55.memberMeaning t m), none⟩] :=
  plain_part hn (proper_type hu) (by
    unfold goMemberLine
    rw [Names.go_name, Names.go_type, C55.memberMeaning_eq])

theorem base_part {base : Str} (h : base ≠ [] → Proper base) : Part (goBaseLine base)
    ((if base = [] then [] else if base ∈ goBuildinType then [(⟨c!"Value", Names.goType goBuildinType base, some ([], [c!"chardata"])⟩ : C17.Field)]
      else [⟨[], Names.goType goBuildinType base, none⟩]).map ofField) := by
  unfold goBaseLine
  by_cases h0 : base = []
  · rw [if_neg (by simp [h0]), if_pos h0]; exact Part.nil
  · rw [if_pos h0, if_neg h0]
    have hp := h h0
    by_cases hb : base ∈ goBuildinType
    · rw [if_pos (by simpa [isGoBuiltInType] using hb), if_pos hb, Names.go_type]
      obtain ⟨ts, hu⟩ := proper_type hp
      have e : ∀ u : Str, c!"\tValue\t" ++ u ++ c!"\t`xml:\",chardata\"`\n" = c!"\t" ++ c!"Value" ++ c!"\t" ++ u ++ c!"\t`" ++
        tagText ([], [c!"chardata"]) ++ c!"`\n" := by intro u; simp [tagText]
      rw [e]
      exact Part.tagged (by decide) hu (by decide)
    · rw [if_neg (by simpa [isGoBuiltInType] using hb), if_neg hb, Names.go_type]
      rcases hp.1 with h | h | ⟨h, hc⟩
      · exact absurd h hb
      · exact absurd h h0
      · rw [word_type h hc hb]
        exact Part.embedded (strict_ident h)

theorem complex_part {t : Tree} {fn : Str} {v : ComplexType} (h0 : Word v.name) (h1 : ∀ m ∈ membersOf (.complex v), Word m.1)
    (h2 : ∀ s ∈ references t (.complex v), Proper s) : Part (goXMLNameLine fn v.name ++ v.attributeGroup.flatMap (goAttrGroupLine t) ++
      v.attributes.flatMap (goAttrLine t) ++ v.groups.flatMap (goGroupLine t) ++ v.elements.flatMap (goElemLine t) ++ goBaseLine v.base)
      ((C17.expected t fn v).map ofField) := by
  simp only [membersOf, references, List.mem_append, List.mem_map] at h1 h2
  simp only [C17.expected, List.map_append, List.map_map]
  refine (((((xmlName_part h0).append ?_).append ?_).append ?_).append ?_).append (base_part fun hb => h2 _ (.inr (by simp [hb])))
  · exact Part.flatMap fun a ha => attrGroup_part (h1 _ (.inl (.inl (.inl ⟨a, ha, rfl⟩)))) (h2 _ (.inl (.inl (.inl (.inl ⟨a, ha, rfl⟩)))))
  · exact Part.flatMap fun a ha => attr_part (h1 _ (.inl (.inl (.inr ⟨a, ha, rfl⟩)))) (h2 _ (.inl (.inl (.inl (.inr ⟨a, ha, rfl⟩)))))
  · exact Part.flatMap fun a ha => group_part (h1 _ (.inl (.inr ⟨a, ha, rfl⟩))) (h2 _ (.inl (.inl (.inr ⟨a, ha, rfl⟩))))
  · exact Part.flatMap fun a ha => elem_part (h1 _ (.inr ⟨a, ha, rfl⟩)) (h2 _ (.inl (.inr ⟨a, ha, rfl⟩)))

/-- One declaration. -/
theorem one {t : Tree} (h : Fair t) {n : Node Element} (hn : n ∈ nodes t) {fn : Str} (hf : Ident fn) :
    Part' ((C15.goLang t).text n fn) ⟨fn, bodyOf toSortedPairs t fn n⟩ := by
  have hd := h.docs n hn
  have h0 := h.names n hn
  have h1 := h.members n hn
  have h2 := h.types n hn
  cases n with
  | simple v =>
    refine Part'.documented hf hd ?_
    by_cases hl : v.list = true
    · have hu : isUnion v = false := by simp [isUnion, hl]
      obtain ⟨ts, hp⟩ := proper_item (h2 (Names.meaning t v.base) (by simp [references, hu])) (h.items v hn hl)
      rw [if_pos hl]
      simp only [bodyOf, C80.aliased, hl, if_true]
      have := Part'.type hf (.slice hp) (c := ' ') (.inl rfl)
      rw [Names.go_type, Names.go_type, Names.meaning_eq]
      exact this
    · rw [if_neg hl]
      by_cases hu : isUnion v = true
      · have hu' : (v.union && decide (v.memberTypes.length > 0)) = true := by simpa [isUnion, hl] using hu
        rw [if_pos hu']
        simp only [bodyOf, C80.aliased, hl, hu, if_true, if_false, C58.Go.fields, List.map_append, List.map_map, Bool.false_eq_true]
        have e : ∀ a b : Str, c!" struct {\n" ++ a ++ b ++ c!"}\n" = c!" struct {\n" ++ (a ++ b) ++ c!"}\n" := by intro a b; simp
        rw [e]
        refine Part'.struct hf ((xmlName_part h0).append (Part.flatMap fun m hm => ?_))
        have hm := (C08.toSortedPairs_perm v.memberTypes).mem_iff.1 hm
        exact member_part (h1 (m.1, false) (by simp only [membersOf, hu, if_true]; exact List.mem_map_of_mem hm))
          (h2 _ (by simp only [references, hu, if_true]; exact List.mem_map_of_mem hm))
      · have hu' : ¬ (v.union && decide (v.memberTypes.length > 0)) = true := by simpa [isUnion, hl] using hu
        rw [if_neg hu']
        simp only [bodyOf, C80.aliased, hl, hu, if_false, Bool.false_eq_true]
        obtain ⟨ts, hp⟩ := proper_type (h2 (Names.meaning t v.base) (by simp [references, hu]))
        rw [Names.go_type, Names.meaning_eq]
        exact Part'.type hf hp (c := ' ') (.inl rfl)
  | attr v =>
    refine Part'.documented hf hd ?_
    obtain ⟨ts, hp⟩ := plural_type v.plural (proper_type (h2 (Names.meaning t v.type) (by simp [references])))
    rw [Names.go_type, Names.meaning_eq]
    exact Part'.type hf hp (c := '\t') (.inr rfl)
  | elem v =>
    refine Part'.documented hf hd ?_
    obtain ⟨ts, hp⟩ := plural_type v.plural (proper_type (h2 (Names.meaning t v.type) (by simp [references])))
    rw [Names.go_type, Names.meaning_eq]
    exact Part'.type hf hp (c := '\t') (.inr rfl)
  | complex v =>
    refine Part'.documented hf hd ?_
    have := Part'.struct hf (complex_part (fn := fn) h0 h1 h2)
    simp only [goComplexContent, List.append_assoc] at this ⊢
    exact this
  | group v =>
    refine Part'.documented hf hd ?_
    simp only [membersOf, references, List.mem_append, List.mem_map] at h1 h2
    have := Part'.struct hf (((xmlName_part (fn := fn) h0).append
      (Part.flatMap fun e he => groupElem_part (t := t) (h1 _ (.inl ⟨e, he, rfl⟩)) (h2 _ (.inl ⟨e, he, rfl⟩)))).append
      (Part.flatMap fun g hg => group_part (t := t) (h1 _ (.inr ⟨g, hg, rfl⟩)) (h2 _ (.inr ⟨g, hg, rfl⟩))))
    simp only [bodyOf, C80.aliased, C58.Go.fields, C54.Go.group, List.map_append, List.map_map]
    simp only [List.append_assoc] at this ⊢
    exact this
  | attrGroup v =>
    refine Part'.documented hf hd ?_
    simp only [membersOf, references, List.mem_map] at h1 h2
    have := Part'.struct hf ((xmlName_part (fn := fn) h0).append
      (Part.flatMap fun a ha => attr_part (t := t) (h1 _ ⟨a, ha, rfl⟩) (h2 _ ⟨a, ha, rfl⟩)))
    simp only [bodyOf, C80.aliased, C58.Go.fields, C17.expected, C54.withAttrs, List.map_append, List.map_map, List.map_nil, List.append_nil, if_true]
    simp only [List.append_assoc] at this ⊢
    exact this

/-! ## The file -/

omit [Uni] [UniLaws] in
theorem finals_ident {base : Node Element → Str} {numbered : Node Element → Bool} : ∀ {ns : List (Node Element)} (used : List Str),
    (∀ n ∈ ns, Exported (base n)) → ∀ w ∈ C56.finals base numbered used ns, Exported w := by
  intro ns
  induction ns with
  | nil => intro used _ w hw; cases hw
  | cons n ns ih =>
    intro used h w hw
    have hb := h n (by simp)
    have hnum : ∀ k, Exported (C14.numbered (base n) k) := by
      intro k
      unfold C14.numbered
      split
      · exact hb
      · refine C80.extended hb fun d hd => ?_
        have := C14.decimal_digits _ d hd
        simp only [Char.isDigit, Bool.and_eq_true, decide_eq_true_eq] at this
        have h1 : 48 ≤ d.toNat := this.1
        have h2 : d.toNat ≤ 57 := this.2
        simp [isAsciiDigit, h1, h2]
    rw [C56.finals] at hw
    split at hw
    · rcases List.mem_cons.1 hw with rfl | hw
      · exact hnum _
      · exact ih _ (fun m hm => h m (by simp [hm])) w hw
    · rcases List.mem_cons.1 hw with rfl | hw
      · exact hb
      · exact ih _ (fun m hm => h m (by simp [hm])) w hw

omit [Uni] [UniLaws] in
theorem header {pkg : Str} (hp : Ident pkg) : Toks (copyright ++ c!"\n\npackage " ++ pkg ++ c!"\n") [.keyword c!"package", .ident pkg, .op ';'] := by
  have e : copyright ++ c!"\n\npackage " ++ pkg ++ c!"\n" = (c!"//" ++ c!" Code generated by xgen. DO NOT EDIT." ++ c!"\n") ++ (c!"\n" ++ (c!"package " ++ pkg ++ c!"\n")) := by
    simp [copyright]
  rw [e]
  have h2 : Toks c!"\n" [] := fun rest => by
    have : c!"\n" ++ rest = '\n' :: rest := rfl
    rw [this, lex_newline]; rfl
  refine (note (by decide)).append (ts := []) (h2.append (ts := []) (line_end (ts := [.keyword c!"package", .ident pkg]) fun rest => ?_))
  have : c!"package " ++ pkg ++ '\n' :: rest = c!"package" ++ ' ' :: (pkg ++ '\n' :: rest) := by simp
  rw [this, lex_keyword ⟨'p', c!"ackage", rfl, by decide⟩ (by decide) (by decide) (by decide) false ' ' _ (by decide), lex_blank false (by decide),
    hp.emits _ _ _ (by decide)]
  cases lex (.gap true) ('\n' :: rest) <;> rfl

omit [Uni] [UniLaws] in
/-- The imports, and what comes behind them. -/
theorem imports_lex (b1 b2 : Bool) (hb : b1 = true ∨ b2 = true) (s : Str) :
    lex (.gap false) (c!"import (\n" ++ ((if b1 then c!"\t\"time\"\n" else []) ++ (if b2 then c!"\t\"encoding/xml\"\n" else [])) ++ c!")" ++ (c!"\r\n" ++ s)) =
      (lex (.gap false) s).map ((.keyword c!"import" :: .op '(' :: (((if b1 then [c!"time"] else []) ++ if b2 then [c!"encoding/xml"] else []).flatMap
        fun p => [Tok.str p, .op ';'])) ++ [.op ')', .op ';'] ++ ·) := by
  have key : ∀ (b1 b2 : Bool), b1 = true ∨ b2 = true →
      lexTo (.gap false) (c!"import (\n" ++ ((if b1 then c!"\t\"time\"\n" else []) ++ (if b2 then c!"\t\"encoding/xml\"\n" else [])) ++ c!")" ++ c!"\r\n") =
        some ((.keyword c!"import" :: .op '(' :: (((if b1 then [c!"time"] else []) ++ if b2 then [c!"encoding/xml"] else []).flatMap
        fun p => [Tok.str p, .op ';'])) ++ [.op ')', .op ';'], .gap false) := by decide
  rw [← List.append_assoc, lex_append, key b1 b2 hb]

omit [Uni] [UniLaws] in
theorem paths_eq (ps : List Str) (r : List Tok) : paths (ps.flatMap (fun p => [Tok.str p, .op ';']) ++ .op ')' :: r) = some (ps, r) := by
  induction ps with
  | nil => rfl
  | cons p ps ih =>
    rw [List.flatMap_cons, List.append_assoc]
    simp only [List.cons_append, List.nil_append]
    rw [paths, ih]
    rfl

omit [Uni] [UniLaws] in
/-- Declarations do not start like imports. -/
theorem no_imports {k : Nat} {ts : List Tok} {ds : List GoSyntax.Decl} (h : decls k ts = some ds) : imports ts = some ([], ts) := by
  unfold imports
  split
  · rename_i x r
    exfalso
    cases k with
    | zero => cases h
    | succ k =>
      have : decl (Tok.keyword x :: Tok.op '(' :: r) = none := rfl
      rw [decls, this] at h
      · cases h
      · simp
  · rfl

/-- C96: a generated Go file is a Go source file, with the declarations it should have. -/
theorem file {pkg : Str} {t : Tree} (hp : pkg = [] ∨ (Ident pkg ∧ pkg ≠ c!"_")) (h : Fair t) :
    ∃ order, C58.Order order ∧ GoSyntax.parse (goSource pkg t) = some (fileOf order pkg t) := by
  refine ⟨_, C58.order, ?_⟩
  have hpk : Ident (packageName pkg) ∧ packageName pkg ≠ c!"_" := by
    unfold packageName
    split
    · exact ⟨by decide, by decide⟩
    · rename_i h'; exact hp.resolve_left h'
  have hx : ∀ x ∈ C58.declarations C58.Go.base C58.Go.numbered (fun _ => false) t, x.1 ∈ nodes t ∧ Ident x.2 := by
    intro x hx
    have h1 := (List.of_mem_zip hx).1
    have h2 := (List.of_mem_zip hx).2
    have hm : ∀ n ∈ C56.firsts (fun _ => false) (nodes t), n ∈ nodes t := C71.firsts_mem _ _
    refine ⟨hm _ h1, exported_ident (finals_ident [] (fun n hn => ?_) _ h2)⟩
    exact C80.word (h.names n (hm n hn))
  have hfield : (goGen t).field = (C58.declarations C58.Go.base C58.Go.numbered (fun _ => false) t).flatMap fun x => (C15.goLang t).text x.1 x.2 := by
    rw [C15.go, render_named]
    have := C80.decls_eq t
    unfold C16.decls at this
    rw [this]
  obtain ⟨ts, h1, h2, h3⟩ := all (f := fun x => (C15.goLang t).text x.1 x.2) (g := fun x => (⟨x.2, bodyOf toSortedPairs t x.2 x.1⟩ : GoSyntax.Decl))
    fun x hx' => one h (hx x hx').1 (hx x hx').2
  rw [← hfield] at h1
  have hts : lex (.gap false) (goGen t).field = some ts := by
    have := h1 []
    rw [List.append_nil] at this
    rw [this]
    simp [lex, GoSyntax.finish, newline]
  have hd := h3 (ts.length + 1) (by omega)
  have htime : (goGen t).importTime = (C80.summary t).any fun x => c!"time.Time" ∈ x.2.1 := by
    rw [Bool.eq_iff_iff, C80.time_imported, List.any_eq_true]; simp
  have hxml : (goGen t).importEncodingXML = (C80.summary t).any fun x => x.2.2 := by
    rw [Bool.eq_iff_iff, C80.xml_imported, List.any_eq_true]
  unfold GoSyntax.parse goSource goImports fileOf
  rw [List.append_assoc, header hpk.1, ← htime, ← hxml]
  dsimp only
  generalize (goGen t).importTime = b1 at htime ⊢
  generalize (goGen t).importEncodingXML = b2 at hxml ⊢
  by_cases hb : b1 = true ∨ b2 = true
  · have hcr : ∃ s, (goGen t).field = c!"\r\n" ++ s := by
      rw [hfield]
      cases hl : C58.declarations C58.Go.base C58.Go.numbered (fun _ => false) t with
      | nil =>
        exfalso
        have : C80.summary t = [] := by unfold C80.summary; rw [hl]; rfl
        rw [this] at htime hxml
        rcases hb with hb | hb
        · rw [htime] at hb; cases hb
        · rw [hxml] at hb; cases hb
      | cons x l =>
        have hg : ∀ fn doc s, ∃ r, goDecl fn doc s = c!"\r\n" ++ r := by
          intro fn doc s
          unfold goDecl genFieldComment
          split <;> simp only [List.append_assoc] <;> exact ⟨_, rfl⟩
        have : ∃ r, (C15.goLang t).text x.1 x.2 = c!"\r\n" ++ r := by
          cases x.1 <;> exact hg _ _ _
        obtain ⟨r, e⟩ := this
        rw [List.flatMap_cons, e, List.append_assoc]
        exact ⟨_, rfl⟩
    obtain ⟨s, es⟩ := hcr
    have hs : lex (.gap false) s = some ts := by
      rw [es, blank_line] at hts
      simpa using hts
    have hne : (if b1 then c!"\t\"time\"\n" else []) ++ (if b2 then c!"\t\"encoding/xml\"\n" else []) ≠ [] := by
      rcases hb with rfl | rfl
      · simp
      · simp
    rw [if_pos hne, es, imports_lex b1 b2 hb, hs]
    dsimp only [Option.map, Option.bind]
    simp only [List.cons_append, List.nil_append, List.append_assoc]
    rw [GoSyntax.file, if_pos ⟨rfl, hpk.2⟩, imports, if_pos rfl, paths_eq]
    change Option.map (fun ds => (⟨packageName pkg, (if b1 then [c!"time"] else []) ++ (if b2 then [c!"encoding/xml"] else []), ds⟩ : File)) (decls (ts.length + 1) ts) = _
    rw [hd]
    rfl
  · simp only [not_or, Bool.not_eq_true] at hb
    obtain ⟨rfl, rfl⟩ := hb
    rw [if_neg (by simp), List.nil_append, hts]
    dsimp only [Option.map, Option.bind]
    simp only [List.cons_append, List.nil_append]
    rw [GoSyntax.file, if_pos ⟨rfl, hpk.2⟩, no_imports hd]
    dsimp only
    rw [hd]
    rfl

/-! ## Documents -/

theorem Ok.proper {t : Tree} (hn : ∀ n ∈ nodes t, Word (nodeName n)) {s : Str} (h : C71.Ok c!"Go" (C71.typeNames t) s) : Proper s := by
  rcases h with rfl | ⟨k, hk⟩ | ⟨h1, h2, h3⟩
  · exact ⟨.inr (.inl rfl), by decide⟩
  · have := C71.Go.table hk
    exact ⟨.inl this.1, this.2⟩
  · obtain ⟨n, h4, rfl⟩ := List.mem_map.1 h1
    exact ⟨.inr (.inr ⟨hn n (List.mem_filter.1 h4).1, h2.colon⟩), (h3.1 rfl).1⟩

/-- Trees without dangling references. -/
theorem fair {t : Tree} (hl : C71.Linked c!"Go" t) (hn : ∀ n ∈ nodes t, Word (nodeName n)) (hm : ∀ n ∈ nodes t, ∀ m ∈ membersOf n, Word m.1)
    (hd : ∀ n ∈ nodes t, ∀ c ∈ docOf n, banned c = false) : Fair t := by
  have hM := C71.means hl
  refine ⟨hn, hm, fun n h s hs => Ok.proper hn ?_, fun v h hv => ?_, hd⟩
  · have h0 := hl n h
    cases n with
    | simple v =>
      simp only [references] at hs
      split at hs
      · obtain ⟨m, h1, rfl⟩ := List.mem_map.1 hs
        exact C71.member_ok (h0.2.2 m h1)
      · rw [List.mem_singleton.1 hs]
        exact (hM _ (.inl h0.2.1)).1
    | attr v => rw [List.mem_singleton.1 hs]; exact (hM _ (.inl h0.2)).1
    | elem v => rw [List.mem_singleton.1 hs]; exact (hM _ (.inl h0.2)).1
    | complex v =>
      simp only [references, List.mem_append, List.mem_map] at hs
      rcases hs with (((⟨x, h1, rfl⟩ | ⟨x, h1, rfl⟩) | ⟨x, h1, rfl⟩) | ⟨x, h1, rfl⟩) | hs
      · exact (hM _ (.inl (h0.2.2.2.2 x h1))).1
      · exact (hM _ (h0.2.2.1 x h1)).1
      · exact (hM _ (.inl (h0.2.2.2.1 x h1))).1
      · exact (hM _ (h0.2.1 x h1)).1
      · split at hs
        · cases hs
        · rw [List.mem_singleton.1 hs]; exact h0.1
    | group v =>
      simp only [references, List.mem_append, List.mem_map] at hs
      rcases hs with ⟨x, h1, rfl⟩ | ⟨x, h1, rfl⟩
      · exact (hM _ (h0.1 x h1)).1
      · exact (hM _ (.inl (h0.2 x h1))).1
    | attrGroup v =>
      obtain ⟨x, h1, rfl⟩ := List.mem_map.1 hs
      exact (hM _ (h0 x h1)).1
  · have h0 := hl _ h
    exact (hM _ (.inl h0.2.1)).2 (h0.1 (.inr hv))

/-- Schemas without dangling references the names in which start with a letter that has a capital and go on with letters, ASCII
digits, `.`, `-` and `_`. -/
structure Plain (ds : List Core.Decl) : Prop where
  bound : C71.Bound c!"Go" ds
  names : ∀ d ∈ ds, ∀ s ∈ C73.namesOf d, Word s
  members : ∀ d ∈ ds, ∀ x ∈ C74.parts d, ∀ m ∈ x.2, Word m.1

variable {W : World} {cfg : Cfg} {sh : Shared} {ds : List Core.Decl} {toks : List Token}

/-- The tree of a document; its documentation is text of the document. -/
theorem document_tree (h : C59.Document W cfg sh ds toks) : ∃ t sh', sh'.outputs = sh.outputs ∧
    C57.bare t = C57.bare (treeOf (typeRef cfg.lang false) [] ds) ∧
    (∀ D : Str → Prop, D [] → (∀ x, Token.text x ∈ toks → D (trimSpace x)) → Docs.Tr D t) ∧ Parse W cfg sh = finish W cfg t sh' := by
  obtain ⟨as, ht⟩ := h.tags
  obtain ⟨u, s, h1, h2, h3⟩ := documented_run W cfg toks h.names as ds ht sh h.alone (by rw [h.writes]; exact h.regular)
  rw [h.writes] at h3
  refine ⟨s.p.freeze, s.sh, ?_, h3, fun D hD hx => ?_, ?_⟩
  · obtain ⟨ns, k, e⟩ := h2
    rw [e]
    unfold beginParse
    rw [if_neg (by rw [h.writes]; decide)]
    rfl
  · exact ((Docs.hold_run (Docs.hold_gvt W _ cfg) hD W toks hx _ Docs.made_init u s h1).2).tree hD
  · rw [C22.Parse_eq]
    unfold parseWith
    rw [h.file]
    dsimp only
    unfold parseOpen
    rw [h1]

omit [Uni] [UniLaws] in
theorem doc_of {D : Str → Prop} {t : Tree} (h : Docs.Tr D t) {n : Node Element} (hn : n ∈ nodes t) : D (docOf n) := by
  have := h n (by simpa [Decl.nodes] using hn)
  cases n with
  | simple v => exact this
  | attr v => exact this
  | elem v => exact this
  | complex v => exact this.1
  | group v => exact this.1
  | attrGroup v => exact this.1

omit [Uni] [UniLaws] in
theorem trim_sub (x : Str) : ∀ c ∈ trimSpace x, c ∈ x := by
  intro c hc
  simp only [trimSpace, List.mem_reverse] at hc
  have h1 := (List.dropWhile_sublist _).subset hc
  rw [List.mem_reverse] at h1
  exact (List.dropWhile_sublist _).subset h1

/-- C96: the source of a document, before it is formatted, is a Go file.  (Missing: names with other letters than those of `Alphabet`; schemas with dangling
references and documentation with a byte order mark, for which the text need not be Go, see below.) -/
theorem document_partial (h : C59.Document W cfg sh ds toks) (hl : cfg.lang = c!"Go") (hp : cfg.package = [] ∨ (Ident cfg.package ∧ cfg.package ≠ c!"_"))
    (hs : Plain ds) (hd : ∀ x, Token.text x ∈ toks → ∀ c ∈ x, banned c = false) :
    ∃ t order, C57.bare t = C57.bare (treeOf (typeRef c!"Go" false) [] ds) ∧ C58.Order order ∧
    GoSyntax.parse (goSource cfg.package t) = some (fileOf order cfg.package t) ∧
    (∀ text, W.gofmt (goSource cfg.package t) = some text → ∃ sh', Parse W cfg sh = .ok t sh' ∧
      sh'.outputs = sh.outputs ++ [(C24.documentedPath cfg c!".go", text)]) ∧
    (W.gofmt (goSource cfg.package t) = none → ∃ sh', Parse W cfg sh = .err .gofmt sh') := by
  obtain ⟨t, sh', h0, h1, h2, h3⟩ := document_tree h
  have hdoc : ∀ n ∈ nodes t, ∀ c ∈ docOf n, banned c = false := fun n hn =>
    doc_of (D := fun s => ∀ c ∈ s, banned c = false) (h2 _ (by simp) fun x hx c hc => hd x hx c (trim_sub x c hc)) hn
  have hlink := C71.Document.linked h hl hs.bound h1
  rw [hl] at h1
  have hf : Fair t := by
    refine fair hlink (fun n hn => ?_) (fun n hn m hm => ?_) hdoc
    · obtain ⟨d, hd, h1⟩ := C73.names_alike h1 n hn
      exact hs.names d hd _ h1
    · obtain ⟨n', hn', e, -⟩ := C74.alike h1 hn
      rw [e] at hm
      rcases C74.tree_said _ ds [] n' hn' with h' | h'
      · cases h'
      · obtain ⟨d, hd, x, hx, hm'⟩ := h' m hm
        obtain ⟨u, hu, e⟩ := List.mem_map.1 hm'
        rw [← e]; exact hs.members d hd x hx u hu
  obtain ⟨order, ho, hparse⟩ := file hp hf
  have hg : generate W cfg.lang cfg.package (outputPath cfg) t = writeGo W (outputPath cfg) cfg.package t := by
    rw [generate, hl, C24.title_lang (by decide)]; rfl
  refine ⟨t, order, h1, ho, hparse, fun text ht => ?_, fun ht => ?_⟩
  · obtain ⟨sh'', h5, h6⟩ := h.write (t := t) (sh' := sh') (ext := c!".go") (text := text) (by
      rw [hg]; unfold writeGo; rw [ht])
    exact ⟨sh'', h3.trans h5, by rw [h6, h0]⟩
  · rw [h3]
    unfold finish
    dsimp only
    rw [if_neg (by rw [h.writes]; decide), if_pos (show W.mkdirOk (pathDir (outputPath cfg)) = true from h.dir), hg]
    unfold writeGo writeFile
    rw [ht]
    dsimp only
    rw [show fileWithExtension (outputPath cfg) c!".go" = C24.documentedPath cfg c!".go" from rfl, if_pos (h.create _)]
    exact ⟨_, rfl⟩

/-- A formatter that takes all Go files gives no errors. -/
theorem formatted_partial (h : C59.Document W cfg sh ds toks) (hl : cfg.lang = c!"Go")
    (hp : cfg.package = [] ∨ (Ident cfg.package ∧ cfg.package ≠ c!"_")) (hs : Plain ds)
    (hd : ∀ x, Token.text x ∈ toks → ∀ c ∈ x, banned c = false) (hg : ∀ s, (GoSyntax.parse s).isSome = true → (W.gofmt s).isSome = true) :
    ∃ t sh' text, Parse W cfg sh = .ok t sh' ∧ sh'.outputs = sh.outputs ++ [(C24.documentedPath cfg c!".go", text)] := by
  obtain ⟨t, order, -, -, h1, h2, -⟩ := document_partial h hl hp hs hd
  obtain ⟨text, ht⟩ := Option.isSome_iff_exists.1 (hg (goSource cfg.package t) (by rw [h1]; rfl))
  obtain ⟨sh', h3, h4⟩ := h2 text ht
  exact ⟨t, sh', text, h3, h4⟩
end

/-! ## Examples -/

open C70 (a)

theorem plain : @Plain asciiUni C80.schema :=
  have h := C80.suitable
  @Plain.mk asciiUni _ (@C80.Suitable.bound asciiUni _ h) (@C80.Suitable.names asciiUni _ h)
    (@C80.Suitable.members asciiUni _ h)

/-- A document that satisfies all that is demanded. -/
example : ∃ t order, C57.bare t = C57.bare (treeOf (typeRef c!"Go" false) [] C80.schema) ∧ C58.Order order ∧
    GoSyntax.parse (@goSource asciiUni [] t) = some (@fileOf asciiUni order [] t) := by
  obtain ⟨t, order, h1, h2, h3, -⟩ := @document_partial asciiUni asciiUniLaws _ _ _ _ _ C80.document rfl (.inl rfl) plain (by
    have : ∀ tok ∈ schemaTokens C40.root C80.schema, (match tok with | .text x => x.all fun c => !banned c | _ => true) = true := by decide +kernel
    intro x hx c hc
    simpa using List.all_eq_true.1 (this _ hx) c hc)
  exact ⟨t, order, h1, h2, h3⟩

/-- The names and types in a declaration. -/
def shape (d : GoSyntax.Decl) : Str × List (Str × Str) :=
  (d.name, match d.body with
    | .type t => [([], t)]
    | .struct fs => fs.map fun f => (f.name, f.type))

set_option synthInstance.maxSize 1000 in
/-- What Go reads in that file. -/
example : (GoSyntax.parse (C71.file c!"Go" C80.schema)).map (fun f => (f.package, f.imports, f.decls.length, (f.decls.take 3).map shape)) =
    some (c!"schema", [c!"time", c!"encoding/xml"], 21,
      [(c!"Day", [([], c!"time.Time")]),
       (c!"Visit", [(c!"XMLName", c!"xml.Name"), (c!"From", c!"time.Time"), (c!"What", c!"xml.Name")]),
       (c!"Item", [(c!"XMLName", c!"xml.Name"), (c!"X", c!"int")])]) := by decide +kernel

/-! ## Files that are not Go -/

/-- The file of a schema with one simple type. -/
def single (name : String) (b : SimpleBody) : Str := C71.file c!"Go" [.simple (a [("name", name)]) b]

/-- Names whose letters are all dropped, or that start with a digit then; both are names in XML.  A name with a space is none. -/
theorem bad_names : (GoSyntax.parse (single "a1" (C80.limited "xs:int"))).isSome = true ∧
    GoSyntax.parse (single "_" (C80.limited "xs:int")) = none ∧ GoSyntax.parse (single "_1" (C80.limited "xs:int")) = none ∧
    GoSyntax.parse (single "a b" (C80.limited "xs:int")) = none := by decide +kernel

/-- A reference to something called `interface`, which is taken for a Go type. -/
theorem keyword : GoSyntax.parse (single "a" (C80.limited "interface")) = none := by decide +kernel

/-- A list whose items have no type. -/
theorem no_items : GoSyntax.parse (single "a" (.list [])) = none ∧
    (single "a" (.list [])).drop 68 = c!"type A []*Interface{}\n" := by decide +kernel

/-- Documentation with a byte order mark in it: comments hide everything else. -/
theorem byte_order_mark : let t := fun d => [some (Node.simple (ε := Element) { name := c!"a", base := c!"int", doc := d })]
    (GoSyntax.parse (@goSource asciiUni [] (t c!"}\nfunc {`\"")) ).isSome = true ∧
    GoSyntax.parse (@goSource asciiUni [] (t ['x', Char.ofNat 0xFEFF])) = none := by decide +kernel

end Xgen.C96
