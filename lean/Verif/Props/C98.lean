import Verif.Props.C89
import Verif.Props.C81
import Verif.Props.C97
import Verif.Lemmas.Docs
import Verif.Spec.Comments

/-! # C98: documentation stays in comments by the lexical rules of the target languages

C89 takes the lines of a file that begin with `//` for comments.  The languages have rules of their own: a backslash at the end
of a line joins it with the next in C, Java replaces `\u` escapes first, and other characters than the line feed end lines.
Documentation that avoids what is special in this sense is not seen by a compiler; other documentation can be. -/

namespace Xgen.C98
open Decl C15
open C57 (bare)
open C67 (langOf nodeDoc)
open C88 (source)
open C89 (Alike Fits)
open Comments (Ahead Reading seen tidy settled)

/-- The name of a language for the command. -/
def name : Comments.Lang → Str
  | .c => c!"C"
  | .java => c!"Java"
  | .rust => c!"Rust"
  | .ts => c!"TypeScript"

/-- There is a backslash before a `u`. -/
def escaped : Str → Bool
  | [] => false
  | c :: s => (c = '\\' && s.head? = some 'u') || escaped s

/-- Documentation without anything special: in C it does not end with a backslash (tabs do not count, for they are dropped) and has no carriage
return; in Java it has no carriage return and no `\u`; in TypeScript it has none of the characters that end lines.  In Rust nothing is special. -/
def Safe : Comments.Lang → Str → Prop
  | .c, d => '\r' ∉ d ∧ (d.filter (· ≠ '\t')).getLast? ≠ some '\\'
  | .java, d => '\r' ∉ d ∧ escaped (d.filter (· ≠ '\t')) = false
  | .rust, _ => True
  | .ts, d => '\r' ∉ d ∧ '\u2028' ∉ d ∧ '\u2029' ∉ d

instance (L : Comments.Lang) (d : Str) : Decidable (Safe L d) := by
  cases L <;> unfold Safe <;> infer_instance

/-! ## Reading comments -/

theorem run_append (L : Comments.Lang) (s : Ahead × Reading) (a b : Str) : Comments.run L s (a ++ b) = Comments.run L (Comments.run L s a) b :=
  List.foldl_append ..

theorem tidy_append (L : Comments.Lang) (a b : Str) : ∀ s, tidy L s (a ++ b) = (tidy L s a && tidy L (Comments.run L s a) b) := by
  induction a with
  | nil => intro s; simp [tidy, Comments.run]
  | cons c a ih =>
    intro s
    rw [List.cons_append, tidy, tidy, ih, Bool.and_assoc]
    rfl

/-- In a comment, with nothing before it in the line. -/
def inNote (ls : List Str) : Reading := { lines := ls, mode := .note }

theorem newline_note (ls : List Str) : Comments.newline (inNote ls) = { lines := ls } := by
  simp [Comments.newline, inNote, Comments.blank]

theorem newline_code (ls : List Str) : Comments.newline { lines := ls } = { lines := ls } := by
  simp [Comments.newline, Comments.blank]

theorem before_plain (L : Comments.Lang) {c : Char} (h : c ≠ '\\') : Comments.before L .none c = (.none, [c]) := by
  cases L <;> simp [Comments.before, Comments.joining, Comments.escapes, Comments.fresh, h]

theorem read_plain (L : Comments.Lang) {c : Char} (h : c ≠ '\\') (r : Reading) : Comments.read L (.none, r) c = (.none, Comments.step L r c) := by
  rw [Comments.read, before_plain L h]
  rfl

theorem step_note (L : Comments.Lang) {c : Char} (h : c ∉ Comments.ends L) (ls : List Str) : Comments.step L (inNote ls) c = inNote ls := by
  simp [Comments.step, inNote, h]

/-- Characters that are nothing special. -/
theorem run_plain (L : Comments.Lang) (ls : List Str) {s : Str} (h : ∀ c ∈ s, c ∉ Comments.ends L ∧ c ≠ '\\') :
    Comments.run L (.none, inNote ls) s = (.none, inNote ls) := by
  induction s with
  | nil => rfl
  | cons c s ih =>
    obtain ⟨h1, h2⟩ := h c (by simp)
    show Comments.run L (Comments.read L _ c) s = _
    rw [read_plain L h2, step_note L h1]
    exact ih fun d hd => h d (by simp [hd])

/-- The start of a comment. -/
theorem run_open (L : Comments.Lang) (ls : List Str) : Comments.run L (.none, { lines := ls }) c!"// " = (.none, inNote ls) := by
  cases L <;> rfl

/-- The end of a line of a comment, and the start of the next. -/
theorem run_break (L : Comments.Lang) (ls : List Str) : Comments.run L (.none, inNote ls) c!"\r\n" = (.none, { lines := ls }) := by
  cases L <;> (show (_, Comments.newline _) = _) <;> simp [Comments.run, Comments.read, Comments.before, Comments.joining, Comments.escapes, Comments.fresh, Comments.step, inNote,
    Comments.ends, Comments.newline, Comments.blank, Comments.plain]

theorem run_next (L : Comments.Lang) (ls : List Str) : Comments.run L (.none, inNote ls) c!"\r\n// " = (.none, inNote ls) := by
  rw [show c!"\r\n// " = c!"\r\n" ++ c!"// " from rfl, run_append, run_break, run_open]

/-! ## Documentation -/

theorem docReplace_cons (c : Char) (s : Str) : docReplace c!"//" (c :: s) =
    (if c = '\n' then c!"\r\n// " else if c = '\t' then [] else [c]) ++ docReplace c!"//" s := by
  rw [docReplace]
  split
  · rfl
  · split <;> rfl

/-- Rust and TypeScript. -/
theorem doc_direct {L : Comments.Lang} (hL : L = .rust ∨ L = .ts) (ls : List Str) (d : Str) (h : ∀ c ∈ d, c ∈ Comments.ends L → c = '\n') :
    Comments.run L (.none, inNote ls) (docReplace c!"//" d) = (.none, inNote ls) := by
  induction d with
  | nil => rfl
  | cons c d ih =>
    have hd := ih fun x hx => h x (by simp [hx])
    rw [docReplace_cons, run_append]
    split
    · rw [run_next, hd]
    · rename_i hn
      split
      · exact hd
      · have : Comments.run L (.none, inNote ls) [c] = (.none, inNote ls) := by
          have hc : c ∉ Comments.ends L := fun hc => hn (h c (by simp) hc)
          show Comments.read L (.none, inNote ls) c = _
          have : Comments.before L .none c = (.none, [c]) := by rcases hL with rfl | rfl <;> rfl
          rw [Comments.read, this]
          show (Ahead.none, Comments.step L (inNote ls) c) = _
          rw [step_note L hc]
        rw [this, hd]

/-- Whether a line joint has begun. -/
def joint (a : Ahead) : Str → Ahead
  | [] => a
  | c :: s => joint (if c = '\t' then a else if c = '\\' then .back else .none) s

theorem joint_none (d : Str) (h : (d.filter (· ≠ '\t')).getLast? ≠ some '\\') : ∀ a, (d.filter (· ≠ '\t') = [] → a = .none) → joint a d = .none := by
  induction d with
  | nil => exact fun a ha => ha rfl
  | cons c d ih =>
    intro a ha
    rw [joint]
    by_cases hc : c = '\t'
    · rw [if_pos hc]
      rw [List.filter_cons_of_neg (by simp [hc])] at h ha
      exact ih h a ha
    · rw [if_neg hc]
      rw [List.filter_cons_of_pos (by simp [hc])] at h
      by_cases he : d.filter (· ≠ '\t') = []
      · rw [he] at h
        have : c ≠ '\\' := fun e => h (by rw [e]; rfl)
        rw [if_neg this]
        exact ih (by rw [he]; simp) _ fun _ => rfl
      · refine ih (fun e => h ?_) _ fun e => absurd e he
        rw [List.getLast?_cons, e]
        rfl

/-- C. -/
theorem doc_c (ls : List Str) (d : Str) (h : '\r' ∉ d) : ∀ a, a = .none ∨ a = .back →
    Comments.run .c (a, inNote ls) (docReplace c!"//" d) = (joint a d, inNote ls) := by
  induction d with
  | nil => exact fun a _ => rfl
  | cons c d ih =>
    intro a ha
    have hd := ih (fun hm => h (by simp [hm]))
    rw [docReplace_cons, run_append, joint]
    by_cases h1 : c = '\n'
    · subst h1
      rw [if_pos rfl, if_neg (by decide), if_neg (by decide)]
      have : Comments.run .c (a, inNote ls) c!"\r\n// " = (.none, inNote ls) := by
        rcases ha with rfl | rfl
        · exact run_next _ _
        · rfl
      rw [this, hd _ (.inl rfl)]
    · rw [if_neg h1]
      by_cases h2 : c = '\t'
      · rw [if_pos h2, if_pos h2]
        exact hd a ha
      · rw [if_neg h2, if_neg h2]
        have h3 : c ≠ '\r' := fun e => h (by simp [e])
        have hc : c ∉ Comments.ends .c := by simp [Comments.ends, h1, h3]
        have : Comments.run .c (a, inNote ls) [c] = (if c = '\\' then .back else .none, inNote ls) := by
          show Comments.read .c (a, inNote ls) c = _
          have hs := step_note .c hc ls
          have hb := step_note .c (c := '\\') (by decide) ls
          rcases ha with rfl | rfl <;> by_cases h4 : c = '\\' <;>
            simp [Comments.read, Comments.before, Comments.joining, Comments.fresh, h1, h3, h4, hs, hb]
        rw [this]
        split
        · exact hd _ (.inr rfl)
        · exact hd _ (.inl rfl)

/-- Java. -/
theorem doc_java (ls : List Str) (d : Str) (h : '\r' ∉ d) (hu : escaped (d.filter (· ≠ '\t')) = false) : ∀ a, a = .none ∨ a = .back →
    (a = .back → (d.filter (· ≠ '\t')).head? ≠ some 'u') →
    ∃ a', (a' = .none ∨ a' = .back) ∧ Comments.run .java (a, inNote ls) (docReplace c!"//" d) = (a', inNote ls) := by
  induction d with
  | nil => exact fun a ha _ => ⟨a, ha, rfl⟩
  | cons c d ih =>
    intro a ha hh
    have hr : '\r' ∉ d := fun hm => h (by simp [hm])
    rw [docReplace_cons, run_append]
    by_cases h2 : c = '\t'
    · subst h2
      rw [List.filter_cons_of_neg (by decide)] at hu hh
      exact ih hr hu a ha hh
    rw [List.filter_cons_of_pos (by simp [h2]), escaped, Bool.or_eq_false_iff] at hu
    rw [List.filter_cons_of_pos (by simp [h2])] at hh
    by_cases h1 : c = '\n'
    · subst h1
      rw [if_pos rfl]
      have : Comments.run .java (a, inNote ls) c!"\r\n// " = (.none, inNote ls) := by
        rcases ha with rfl | rfl
        · exact run_next _ _
        · show Comments.run .java (Comments.read .java (.back, inNote ls) '\r') c!"\n// " = _
          have : Comments.read .java (.back, inNote ls) '\r' = (.none, { lines := ls }) := by
            show (Ahead.none, Comments.newline (inNote ls)) = _
            rw [newline_note]
          rw [this]
          have : Comments.read .java (.none, { lines := ls }) '\n' = (.none, { lines := ls }) := by
            show (Ahead.none, Comments.newline _) = _
            rw [newline_code]
          show Comments.run .java (Comments.read .java (.none, { lines := ls }) '\n') c!"// " = _
          rw [this, run_open]
      rw [this]
      exact ih hr hu.2 _ (.inl rfl) (by simp)
    · rw [if_neg h1, if_neg h2]
      have h3 : c ≠ '\r' := fun e => h (by simp [e])
      have hc : c ∉ Comments.ends .java := by simp [Comments.ends, h1, h3]
      have hs := step_note .java hc ls
      have hb := step_note .java (c := '\\') (by decide) ls
      rcases ha with rfl | rfl
      · by_cases h4 : c = '\\'
        · have : Comments.run .java (.none, inNote ls) [c] = (.back, inNote ls) := by
            show Comments.read .java (.none, inNote ls) c = _
            simp [Comments.read, Comments.before, Comments.escapes, Comments.fresh, h4]
          rw [this]
          refine ih hr hu.2 _ (.inr rfl) fun _ e => ?_
          rw [h4, e] at hu
          simp at hu
        · have : Comments.run .java (.none, inNote ls) [c] = (.none, inNote ls) := by
            show Comments.read .java (.none, inNote ls) c = _
            rw [read_plain _ h4, hs]
          rw [this]
          exact ih hr hu.2 _ (.inl rfl) (by simp)
      · have h5 : c ≠ 'u' := fun e => hh rfl (by rw [e]; rfl)
        have : Comments.run .java (.back, inNote ls) [c] = (.none, inNote ls) := by
          show Comments.read .java (.back, inNote ls) c = _
          simp [Comments.read, Comments.before, Comments.escapes, h5, hs, hb]
        rw [this]
        exact ih hr hu.2 _ (.inl rfl) (by simp)

/-- Documentation and the end of its last line. -/
theorem doc_end (L : Comments.Lang) (ls : List Str) (d : Str) (h : Safe L d) :
    Comments.run L (.none, inNote ls) (docReplace c!"//" d ++ c!"\r\n") = (.none, { lines := ls }) := by
  rw [run_append]
  cases L with
  | c => rw [doc_c ls d h.1 _ (.inl rfl), joint_none d h.2 _ fun _ => rfl, run_break]
  | java =>
    obtain ⟨a, ha, e⟩ := doc_java ls d h.1 h.2 .none (.inl rfl) (by simp)
    rw [e]
    rcases ha with rfl | rfl
    · exact run_break _ _
    · show Comments.run .java (Comments.read .java (.back, inNote ls) '\r') c!"\n" = _
      have : Comments.read .java (.back, inNote ls) '\r' = (.none, { lines := ls }) := by
        show (Ahead.none, Comments.newline (inNote ls)) = _
        rw [newline_note]
      rw [this]
      show (Ahead.none, Comments.newline _) = _
      rw [newline_code]
  | rust => rw [doc_direct (.inl rfl) ls d (by simp [Comments.ends]), run_break]
  | ts =>
    rw [doc_direct (.inr rfl) ls d, run_break]
    intro c hc he
    simp only [Comments.ends, List.mem_cons, List.not_mem_nil, or_false] at he
    rcases he with rfl | rfl | rfl | rfl
    · rfl
    · exact absurd hc h.1
    · exact absurd hc h.2.1
    · exact absurd hc h.2.2

/-- Names without anything special. -/
def Named (L : Comments.Lang) (n : Str) : Prop := ∀ c ∈ n, c ∉ Comments.ends L ∧ c ≠ '\\'

/-- A comment is not seen. -/
theorem comment_unseen (L : Comments.Lang) (ls : List Str) {n d : Str} (hn : Named L n) (hd : Safe L d) :
    ∃ c, genFieldComment n d c!"//" = '\r' :: '\n' :: c ∧ Comments.run L (.none, { lines := ls }) c = (.none, { lines := ls }) := by
  unfold genFieldComment
  split
  · refine ⟨c!"// " ++ n ++ c!" ..." ++ c!"\r\n", by simp, ?_⟩
    rw [run_append, run_append, run_append, run_open, run_plain L ls hn, run_plain L ls (s := c!" ...") (by cases L <;> decide), run_break]
  · refine ⟨c!"// " ++ n ++ c!" is " ++ (docReplace c!"//" d ++ c!"\r\n"), by simp, ?_⟩
    rw [run_append, run_append, run_append, run_append, run_open, run_plain L ls hn, run_plain L ls (s := c!" is ") (by cases L <;> decide),
      ← run_append, doc_end L ls d hd]

theorem settled_line (L : Comments.Lang) {s : Ahead × Reading} (h : settled s = true) : ∃ ls, Comments.read L s '\n' = (.none, { lines := ls }) := by
  obtain ⟨a, r⟩ := s
  simp only [settled, Bool.and_eq_true, Bool.or_eq_true, decide_eq_true_eq] at h
  obtain ⟨rfl, h⟩ := h
  have hn : '\n' ∈ Comments.ends L := by cases L <;> decide
  rw [read_plain L (by decide)]
  obtain ⟨ls, l, m⟩ := r
  dsimp only at h
  rcases h with (rfl | rfl) | rfl
  · refine ⟨(Comments.newline ⟨ls, l, .code⟩).lines, ?_⟩
    simp only [Comments.step, Comments.plain, if_pos hn]
    rfl
  · refine ⟨(Comments.newline (Comments.put ⟨ls, l, .slash⟩ '/' .code)).lines, ?_⟩
    simp only [Comments.step, Comments.plain, if_pos hn]
    rw [if_neg (by decide), if_neg (by decide)]
    rfl
  · refine ⟨(Comments.newline ⟨ls, l, .note⟩).lines, ?_⟩
    simp only [Comments.step, if_pos hn]
    rfl

/-- Texts that differ in documentation are read in the same way. -/
theorem run_alike (L : Comments.Lang) {a b : Str} (h : Alike (fun n d => Named L n ∧ Safe L d) a b) : ∀ s, tidy L s b = true →
    Comments.run L s a = Comments.run L s b := by
  induction h with
  | refl a => exact fun _ _ => rfl
  | append _ _ h1 h2 =>
    intro s hs
    rw [tidy_append, Bool.and_eq_true] at hs
    rw [run_append, run_append, h1 s hs.1, h2 _ hs.2]
  | @comment n d h =>
    intro s hs
    have hE : Safe L [] := by cases L <;> decide
    have hs' : settled (Comments.read L s '\r') = true := by
      obtain ⟨c, e, -⟩ := comment_unseen L [] h.1 hE
      rw [e, tidy, tidy, Bool.and_eq_true, Bool.and_eq_true] at hs
      simpa using hs.2.1
    obtain ⟨ls, hl⟩ := settled_line L hs'
    obtain ⟨c, e, hc⟩ := comment_unseen L ls h.1 h.2
    obtain ⟨c', e', hc'⟩ := comment_unseen L ls h.1 hE
    rw [e, e']
    show Comments.run L (Comments.read L (Comments.read L s '\r') '\n') c = Comments.run L (Comments.read L (Comments.read L s '\r') '\n') c'
    rw [hl, hc, hc']

/-! ## Trees -/

section
variable [Uni]

/-- The case tables map nothing else to the separators of lines and paragraphs, U+2028 and U+2029.  (Unicode has no case for them.) -/
def Apart : Prop := ∀ x ∈ ['\u2028', '\u2029'], ∀ c, Uni.upper c = x → c = x

theorem title_apart {x : Char} (hx : ∀ c, Uni.upper c = x → c = x) {s : Str} {sep : Char} (h : x ∉ s) : x ∉ titleParts sep s := by
  intro hc
  obtain ⟨d, hd, _, e | e⟩ := mem_titleParts hc
  · exact h (e ▸ hd)
  · exact h (hx d e.symm ▸ hd)

theorem base_absent [UniLaws] (lang : Str) (t : Tree) (n : Node Element) {x : Char} (hx : Sym x) (h_ : x ≠ '_') (h : x ∉ nodeName n) :
    x ∉ (langOf lang t).base n := by
  unfold langOf
  split
  · exact goName_absent hx h
  split
  · exact cName_absent hx h
  split
  · exact cName_absent hx h
  split
  · cases n with
    | elem v => exact rustFieldName_absent hx h_ h
    | attr v => exact rustFieldName_absent hx h_ h
    | _ => exact rustStructName_absent hx h
  · exact cName_absent hx h

omit [Uni] in
theorem named_numbered (L : Comments.Lang) : C89.Numbered (Named L) := by
  intro x k hx c hc
  rcases List.mem_append.1 hc with hc | hc
  · exact hx c hc
  · have := C14.decimal_digits _ _ hc
    refine ⟨fun he => ?_, fun he => by subst he; revert this; decide⟩
    revert this
    have : ∀ c ∈ Comments.ends L, ¬ c.isDigit = true := by cases L <;> decide
    exact this c he

theorem named_base [UniLaws] (L : Comments.Lang) (hU : L = .ts → Apart) (t : Tree) (n : Node Element) (h : Named L (nodeName n)) :
    Named L ((langOf (name L) t).base n) := by
  have key : ∀ x, Sym x → x ≠ '_' → (x ∈ Comments.ends L ∨ x = '\\') → x ∉ (langOf (name L) t).base n := fun x h1 h2 h3 =>
    base_absent _ t n h1 h2 fun hm => by
      rcases h3 with h3 | h3
      · exact (h x hm).1 h3
      · exact (h x hm).2 h3
  refine fun c hc => ⟨fun he => ?_, fun he => ?_⟩
  · by_cases hs : Sym c ∧ c ≠ '_'
    · exact key c hs.1 hs.2 (.inl he) hc
    · cases L with
      | c => exact hs ((by decide : ∀ x ∈ Comments.ends .c, Sym x ∧ x ≠ '_') c he)
      | java => exact hs ((by decide : ∀ x ∈ Comments.ends .java, Sym x ∧ x ≠ '_') c he)
      | rust => exact hs ((by decide : ∀ x ∈ Comments.ends .rust, Sym x ∧ x ≠ '_') c he)
      | ts =>
        have hc' : c ∈ ['\u2028', '\u2029'] := by
          refine (by decide : ∀ x ∈ Comments.ends .ts, ¬ (Sym x ∧ x ≠ '_') → x ∈ ['\u2028', '\u2029']) c he hs
        have hn : c ∉ nodeName n := fun hm => (h c hm).1 he
        exact dropChar_absent (y := '-') (title_apart (sep := '.') (hU rfl c hc') (title_apart (sep := ':') (hU rfl c hc') hn)) hc
  · exact key c (by subst he; decide) (by subst he; decide) (.inr he) hc

omit [Uni] in
theorem name_langs (L : Comments.Lang) : name L ∈ C41.langs := by cases L <;> decide

/-- C98 for trees: if neither names nor documentation have anything special, and no line feed of the code is in a string or in a block comment or
after a backslash, then a compiler sees the same with the documentation as without. -/
theorem tree_partial [UniLaws] (L : Comments.Lang) (hU : L = .ts → Apart) (pkg : Str) (t : Tree) (hn : ∀ n ∈ nodes t, Named L (nodeName n))
    (hd : ∀ n ∈ nodes t, Safe L (nodeDoc n)) (ht : tidy L (.none, {}) (source (name L) pkg (bare t)) = true) :
    seen L (source (name L) pkg t) = seen L (source (name L) pkg (bare t)) := by
  have hf : Fits (fun n d => Named L n ∧ Safe L d) (Named L) (name L) t :=
    ⟨named_numbered L, fun n h => named_base L hU t n (hn n h), fun n h fn hfn => ⟨hfn, hd n h⟩⟩
  unfold seen
  rw [run_alike L (C89.source_alike (name L) pkg (name_langs L) t hf) _ ht]

/-! ## The code is tidy -/

omit [Uni] in
/-- Where the reader is after a character. -/
def next (L : Comments.Lang) (m : Comments.Mode) (c : Char) : Comments.Mode := match m with
  | .code => if c ∈ Comments.ends L then .code else if c = '/' then .slash else if c ∈ Comments.quotes L then .str c else .code
  | .slash => if c = '/' then .note else if c = '*' then .block else if c ∈ Comments.ends L then .code else if c ∈ Comments.quotes L then .str c else .code
  | .note => if c ∈ Comments.ends L then .code else .note
  | .block => if c = '*' then .star else .block
  | .star => if c = '/' then .code else if c = '*' then .star else .block
  | .str q => if c = q then .code else if c = '\\' then .esc q else if c ∈ Comments.ends L ∧ q ∉ Comments.wide L then .code else .str q
  | .esc q => .str q

omit [Uni] in
theorem step_mode (L : Comments.Lang) (r : Reading) (c : Char) : (Comments.step L r c).mode = next L r.mode c := by
  obtain ⟨ls, l, m⟩ := r
  cases m <;> simp only [Comments.step, next, Comments.plain, Comments.newline, Comments.put]
  all_goals (repeat' split) <;> first | rfl | simp_all

/-- A text without backslashes, with no line feed in a string or block comment, that leads from one place of the reader to another. -/
def walk (L : Comments.Lang) (m : Comments.Mode) : Str → Option Comments.Mode
  | [] => some m
  | c :: s => if c = '\\' ∨ (c = '\n' ∧ ¬ (m = .code ∨ m = .slash ∨ m = .note)) then none else walk L (next L m c) s

/-- The same as a proposition. -/
def Goes (L : Comments.Lang) (m : Comments.Mode) (s : Str) (m' : Comments.Mode) : Prop := walk L m s = some m'

omit [Uni] in
theorem Goes.append {L : Comments.Lang} {m m' m'' : Comments.Mode} {a b : Str} (h : Goes L m a m') (h' : Goes L m' b m'') : Goes L m (a ++ b) m'' := by
  unfold Goes at h h' ⊢
  induction a generalizing m with
  | nil => injection h with h; subst h; exact h'
  | cons c a ih =>
    rw [walk] at h
    rw [List.cons_append, walk]
    split at h
    · cases h
    · rename_i hc
      rw [if_neg hc]
      exact ih h

omit [Uni] in
theorem Goes.nil {L : Comments.Lang} {m : Comments.Mode} : Goes L m [] m := rfl

omit [Uni] in
theorem Goes.flatMap {L : Comments.Lang} {m : Comments.Mode} {α : Type} {l : List α} {f : α → Str} (h : ∀ x ∈ l, Goes L m (f x) m) :
    Goes L m (l.flatMap f) m := by
  induction l with
  | nil => exact .nil
  | cons a l ih =>
    rw [List.flatMap_cons]
    exact (h a (by simp)).append (ih fun x hx => h x (by simp [hx]))

omit [Uni] in
theorem Goes.tidy {L : Comments.Lang} {m m' : Comments.Mode} {s : Str} (h : Goes L m s m') : ∀ r : Reading, r.mode = m → tidy L (.none, r) s = true := by
  unfold Goes at h
  induction s generalizing m with
  | nil => exact fun _ _ => rfl
  | cons c s ih =>
    intro r hr
    rw [walk] at h
    split at h
    · cases h
    · rename_i hc
      simp only [not_or, not_and, Classical.not_not] at hc
      rw [Comments.tidy, read_plain L hc.1, Bool.and_eq_true]
      refine ⟨?_, ih h _ (by rw [step_mode, hr])⟩
      by_cases hn : c = '\n'
      · have hm : m = .code ∨ m = .slash ∨ m = .note := Classical.byContradiction fun hx => by
          simp only [not_or] at hx
          exact hx.2.2 (hc.2 hn hx.1 hx.2.1)
        rcases hm with h | h | h <;> simp [settled, hr, h]
      · simp [hn]

/-- What is special in some language. -/
def special : List Char := ['\n', '\r', '"', '\'', '`', '\\', '/']

omit [Uni] in
/-- Names in the code. -/
theorem Goes.clean {L : Comments.Lang} {s : Str} (h : Clean special s) : Goes L .code s .code := by
  unfold Goes
  induction s with
  | nil => rfl
  | cons c s ih =>
    have hc : ∀ x ∈ special, c ≠ x := fun x hx e => h x hx (by simp [e])
    have h1 : c ≠ '\\' := hc _ (by decide)
    have h2 : c ≠ '\n' := hc _ (by decide)
    have h3 : c ≠ '/' := hc _ (by decide)
    have h4 : c ∉ Comments.quotes L := fun hm => hc c ((by cases L <;> decide : ∀ x ∈ Comments.quotes L, x ∈ special) c hm) rfl
    have : next L .code c = .code := by simp [next, h3, h4]
    rw [walk, if_neg (by simp [h1, h2]), this]
    exact ih fun x hx hm => h x hx (by simp [hm])

omit [Uni] in
/-- Names in a string. -/
theorem Goes.string {L : Comments.Lang} {q : Char} (hq : q ∈ special) {s : Str} (h : Clean special s) (hs : L = .ts → '\u2028' ∉ s ∧ '\u2029' ∉ s) :
    Goes L (.str q) s (.str q) := by
  unfold Goes
  induction s with
  | nil => rfl
  | cons c s ih =>
    have hc : ∀ x ∈ special, c ≠ x := fun x hx e => h x hx (by simp [e])
    have h1 : c ≠ '\\' := hc _ (by decide)
    have h2 : c ≠ '\n' := hc _ (by decide)
    have h3 : c ∉ Comments.ends L := by
      intro hm
      cases L with
      | ts =>
        have := hs rfl
        simp only [Comments.ends, List.mem_cons, List.not_mem_nil, or_false] at hm
        rcases hm with rfl | rfl | rfl | rfl
        · exact h2 rfl
        · exact hc '\r' (by decide) rfl
        · exact this.1 (by simp)
        · exact this.2 (by simp)
      | c => exact hc c ((by decide : ∀ x ∈ Comments.ends .c, x ∈ special) c hm) rfl
      | java => exact hc c ((by decide : ∀ x ∈ Comments.ends .java, x ∈ special) c hm) rfl
      | rust => exact hc c ((by decide : ∀ x ∈ Comments.ends .rust, x ∈ special) c hm) rfl
    have : next L (.str q) c = .str q := by
      simp only [next]
      rw [if_neg (hc q hq), if_neg h1, if_neg (by simp [h3])]
    rw [walk, if_neg (by simp [h1, h2]), this]
    exact ih (fun x hx hm => h x hx (by simp [hm])) fun e => ⟨fun hm => (hs e).1 (by simp [hm]), fun hm => (hs e).2 (by simp [hm])⟩

omit [Uni] in
/-- Names in a comment. -/
theorem Goes.noted {L : Comments.Lang} {s : Str} (h : Named L s) : Goes L .note s .note := by
  unfold Goes
  induction s with
  | nil => rfl
  | cons c s ih =>
    obtain ⟨h1, h2⟩ := h c (by simp)
    have h3 : c ≠ '\n' := fun e => h1 (by rw [e]; cases L <;> decide)
    have : next L .note c = .note := by simp only [next]; rw [if_neg h1]
    rw [walk, if_neg (by simp [h2, h3]), this]
    exact ih fun x hx => h x (by simp [hx])

omit [Uni] in
theorem Goes.comment {L : Comments.Lang} {s : Str} (h : Named L s) : Goes L .code (genFieldComment s [] c!"//") .code := by
  unfold genFieldComment
  rw [if_pos rfl]
  refine Goes.append (m' := .note) (Goes.append (m' := .note) ?_ (Goes.noted h)) ?_ <;> cases L <;> rfl

section
variable [UniLaws] {s : Str} (h : Clean special s)
include h

theorem clean_cName : Clean special (cName s) := fun x hx => cName_absent ((by decide : ∀ x ∈ special, Sym x) x hx) (h x hx)
theorem clean_struct : Clean special (rustStructName s) := fun x hx => rustStructName_absent ((by decide : ∀ x ∈ special, Sym x) x hx) (h x hx)
theorem clean_field : Clean special (rustFieldName s) := fun x hx =>
  rustFieldName_absent ((by decide : ∀ x ∈ special, Sym x) x hx) ((by decide : ∀ x ∈ special, x ≠ '_') x hx) (h x hx)
theorem clean_cType : Clean special (genCFieldType s) := fun x hx => cType_absent ((by decide : ∀ x ∈ special, Sym x) x hx) (h x hx)
theorem clean_javaType : Clean special (genJavaFieldType s) := fun x hx => javaType_absent ((by decide : ∀ x ∈ special, Sym x) x hx) (h x hx)
theorem clean_rustType : Clean special (genRustFieldType s) := fun x hx => rustType_absent ((by decide : ∀ x ∈ special, Sym x) x hx) (h x hx)
theorem clean_tsType (p : Bool) : Clean special (genTypeScriptFieldType s p) := fun x hx =>
  tsType_absent ((by decide : ∀ x ∈ special, Sym x) x hx) ((by decide : ∀ x ∈ special, x ∉ c!"<>") x hx) (h x hx)

end

/-- Names and types without anything special. -/
def Quiet (t : Tree) : Prop := ∀ n ∈ nodes t, (∀ s ∈ C58.namesIn n, Clean special s) ∧ ∀ s ∈ C58.typesIn n, Clean special s

instance (t : Tree) : Decidable (Quiet t) := by unfold Quiet Clean; infer_instance

omit [Uni] in
theorem Quiet.types {t : Tree} (h : Quiet t) : ∀ s ∈ treeTypes t, Clean special s := by
  intro s hs
  unfold treeTypes at hs
  obtain ⟨n, hn, hs⟩ := List.mem_filterMap.1 hs
  cases n with
  | none => cases hs
  | some n =>
    have := (h n (List.mem_filterMap.2 ⟨some n, hn, rfl⟩)).2
    cases n with
    | simple v => injection hs with e; subst e; exact this _ (by simp [C58.typesIn])
    | attr v => injection hs with e; subst e; exact this _ (by simp [C58.typesIn])
    | elem v => injection hs with e; subst e; exact this _ (by simp [C58.typesIn])
    | complex v => cases hs
    | group v => cases hs
    | attrGroup v => cases hs

omit [Uni] in
theorem Quiet.resolve {t : Tree} (h : Quiet t) {s : Str} (hs : Clean special s) : Clean special (resolveIn t s) := fun x hx =>
  resolveIn_absent (hs x hx) fun r hr => h.types r hr x hx

omit [Uni] in
theorem Quiet.member {t : Tree} (h : Quiet t) {m : Str × Str} (h1 : Clean special m.1) (h2 : Clean special m.2) : Clean special (memberType t m) := by
  unfold memberType
  split
  · exact fun x hx hm => by
      rcases resolve_cases t m.1 with e | e
      · rw [e] at hm; exact h1 x hx hm
      · exact h.types _ e x hx hm
  · exact h2

omit [Uni] in
theorem Goes.lit {L : Comments.Lang} {m m' : Comments.Mode} {s : Str} (h : walk L m s = some m') : Goes L m s m' := h

/-- Texts put together. -/
macro "goes" : tactic => `(tactic| repeat' first
  | with_reducible assumption
  | with_reducible apply Goes.append
  | with_reducible exact Goes.comment (by assumption)
  | with_reducible exact Goes.clean (by assumption)
  | with_reducible exact Goes.string (by decide) (by assumption) (by simp)
  | exact Goes.lit (m' := .code) (by decide +kernel)
  | exact Goes.lit (m' := .str '"') (by decide +kernel)
  | exact Goes.lit (m' := .str '\'') (by decide +kernel)
  | exact Goes.lit (m' := .note) (by decide +kernel)
  | exact Goes.nil)

omit [Uni] in
theorem mem_sorted {l : List (Str × Str)} {m : Str × Str} (h : m ∈ toSortedPairs l) : m ∈ l := (C08.toSortedPairs_perm l).mem_iff.1 h

section
variable [UniLaws] {t : Tree} (hq : Quiet t)
include hq

omit [UniLaws] hq in
theorem clean_inner {s : Str} (h : Clean special s) : Clean special (innerArray s).1 := by
  unfold innerArray
  split
  · unfold trimSuffix
    split <;> exact fun x hx hm => h x hx (List.mem_of_mem_take hm)
  · exact h

omit [UniLaws] hq [Uni] in
theorem goes_plural (L : Comments.Lang) (b : Bool) : Goes L .code (cPlural b) .code := by
  cases b <;> cases L <;> rfl

omit hq in
theorem c_line {ty nm suffix : Str} (h1 : Clean special ty) (h2 : Clean special nm) (h3 : Goes .c .code suffix .code) :
    Goes .c .code (c!"\t" ++ ty ++ c!" " ++ cName nm ++ suffix ++ c!";\n") .code := by
  have := clean_cName h2
  goes

theorem c_attr {a : Attribute} (h1 : Clean special a.name) (h2 : Clean special a.type) : Goes .c .code (cAttrLine t a) .code := by
  have := clean_cName h1
  have := clean_inner (clean_cType (hq.resolve h2))
  have := goes_plural .c (innerArray (genCFieldType (resolveIn t a.type))).2
  unfold cAttrLine
  dsimp only
  cases a.optional <;> simp only [Bool.false_eq_true, ↓reduceIte] <;> goes

theorem c_goes {n : Node Element} (hn : n ∈ nodes t) (hd : nodeDoc n = []) {fn : Str} (h1 : Clean special fn) (h2 : Named .c fn) :
    Goes .c .code ((cLang t).text n fn) .code := by
  obtain ⟨hN, hT⟩ := hq n hn
  have hg : ∀ r : GroupRef, Clean special r.name → Clean special r.ref → Goes .c .code (cGroupLine t r) .code := fun r h1 h2 =>
    c_line (clean_cType (hq.resolve h2)) h1 (goes_plural _ _)
  have ha : ∀ a : AttributeGroup, Clean special a.name → Clean special a.ref → Goes .c .code (cAttrGroupLine t a) .code := fun a h1 h2 => by
    have := c_line (clean_cType (hq.resolve h2)) h1 (suffix := []) .nil
    rwa [List.append_nil] at this
  cases n with
  | simple v =>
    have hd' : v.doc = [] := hd
    have hb := hq.resolve (hT v.base (by simp [C58.typesIn]))
    have hv := clean_cName (hN v.name (by simp [C58.namesIn]))
    simp only [cLang, cDecl, hd']
    split
    · have := clean_cType (clean_cType hb)
      goes
    split
    · have : Goes .c .code ((toSortedPairs v.memberTypes).flatMap (cMemberLine t)) .code := .flatMap fun m hm => by
        have hm' := mem_sorted hm
        have h1 := hN m.1 (by simp only [C58.namesIn, List.mem_cons, List.mem_map]; exact .inr ⟨m, hm', rfl⟩)
        have h2 := hT m.2 (by simp only [C58.typesIn, List.mem_cons, List.mem_map]; exact .inr ⟨m, hm', rfl⟩)
        exact c_line (clean_inner (clean_cType (hq.member h1 h2))) h1 (goes_plural _ _)
      goes
    · have := clean_inner (clean_cType hb)
      have := goes_plural .c (innerArray (genCFieldType (resolveIn t v.base))).2
      goes
  | attr v =>
    have hd' : v.doc = [] := hd
    have hb := hq.resolve (hT v.type (by simp [C58.typesIn]))
    have hv := clean_cName (hN v.name (by simp [C58.namesIn]))
    simp only [cLang, hd']
    have := clean_inner (clean_cType hb)
    have := goes_plural .c ((innerArray (genCFieldType (resolveIn t v.type))).2 || v.plural)
    goes
  | elem v =>
    have hb := hq.resolve (hT v.type (by simp [C58.typesIn]))
    have hv := clean_cName (hN v.name (by simp [C58.namesIn]))
    simp only [cLang]
    have := clean_inner (clean_cType hb)
    have := goes_plural .c ((innerArray (genCFieldType (resolveIn t v.type))).2 || v.plural)
    goes
  | complex v =>
    have hd' : v.doc = [] := hd
    simp only [C58.namesIn, C58.typesIn, List.mem_cons, List.mem_append, List.mem_map] at hN hT
    have g1 : Goes .c .code (v.attributeGroup.flatMap (cAttrGroupLine t)) .code := .flatMap fun a h =>
      ha a (hN _ (.inr (.inr ⟨a, h, rfl⟩))) (hT _ (.inr (.inr ⟨a, h, rfl⟩)))
    have g2 : Goes .c .code (v.attributes.flatMap (cAttrLine t)) .code := .flatMap fun a h =>
      c_attr hq (hN _ (.inr (.inl (.inl (.inl ⟨a, h, rfl⟩))))) (hT _ (.inr (.inl (.inl (.inl ⟨a, h, rfl⟩)))))
    have g3 : Goes .c .code (v.groups.flatMap (cGroupLine t)) .code := .flatMap fun a h =>
      hg a (hN _ (.inr (.inl (.inr ⟨a, h, rfl⟩)))) (hT _ (.inr (.inl (.inr ⟨a, h, rfl⟩))))
    have g4 : Goes .c .code (v.elements.flatMap (cElemLine t)) .code := .flatMap fun a h =>
      c_line (clean_inner (clean_cType (hq.resolve (hT _ (.inr (.inl (.inl (.inr ⟨a, h, rfl⟩)))))))) (hN _ (.inr (.inl (.inl (.inr ⟨a, h, rfl⟩)))))
        (goes_plural _ _)
    simp only [cLang, cDecl, cComplexContent, hd']
    goes
  | group v =>
    have hd' : v.doc = [] := hd
    simp only [C58.namesIn, C58.typesIn, List.mem_cons, List.mem_append, List.mem_map] at hN hT
    have g3 : Goes .c .code (v.groups.flatMap (cGroupLine t)) .code := .flatMap fun a h =>
      hg a (hN _ (.inr (.inr ⟨a, h, rfl⟩))) (hT _ (.inr ⟨a, h, rfl⟩))
    have g4 : Goes .c .code (v.elements.flatMap (cGroupElemLine t)) .code := .flatMap fun a h =>
      c_line (clean_cType (hq.resolve (hT _ (.inl ⟨a, h, rfl⟩)))) (hN _ (.inr (.inl ⟨a, h, rfl⟩))) (goes_plural _ _)
    simp only [cLang, cDecl, hd']
    goes
  | attrGroup v =>
    have hd' : v.doc = [] := hd
    simp only [C58.namesIn, C58.typesIn, List.mem_cons, List.mem_map] at hN hT
    have g2 : Goes .c .code (v.attributes.flatMap (cAttrLine t)) .code := .flatMap fun a h =>
      c_attr hq (hN _ (.inr ⟨a, h, rfl⟩)) (hT _ ⟨a, h, rfl⟩)
    simp only [cLang, cDecl, hd']
    goes

/-! ### Java -/

omit hq [UniLaws] [Uni] in
theorem goes_list (b : Bool) {s : Str} (h : Clean special s) : Goes .java .code (javaPlural b s) .code := by
  unfold javaPlural
  cases b
  · exact .clean h
  · show Goes _ _ (c!"List<" ++ s ++ c!">") _
    goes

omit hq in
theorem java_line {ty : Str} {nm : Str} (h1 : Goes .java .code ty .code) (h2 : Clean special nm) :
    Goes .java .code (c!"\tprotected " ++ ty ++ c!" " ++ javaName nm ++ c!";\n") .code := by
  have : Clean special (javaName nm) := clean_cName h2
  goes

theorem java_attr {a : Attribute} (h1 : Clean special a.name) (h2 : Clean special a.type) : Goes .java .code (javaAttrLine t a) .code ∧
    Goes .java .code (javaAttrGroupAttrLine t a) .code := by
  have : Clean special (javaName a.name) := clean_cName h1
  have := clean_javaType (hq.resolve h2)
  unfold javaAttrLine javaAttrGroupAttrLine
  cases a.optional <;> simp only [Bool.false_eq_true, ↓reduceIte] <;> constructor <;> goes

theorem java_elem {a : Element} (h1 : Clean special a.name) (h2 : Clean special a.type) : Goes .java .code (javaElemLine t a) .code := by
  have : Clean special (javaName a.name) := clean_cName h1
  have := goes_list a.plural (clean_javaType (hq.resolve h2))
  unfold javaElemLine
  goes

theorem java_goes {n : Node Element} (hn : n ∈ nodes t) (hd : nodeDoc n = []) {fn : Str} (h1 : Clean special fn) (h2 : Named .java fn) :
    Goes .java .code ((javaLang t).text n fn) .code := by
  obtain ⟨hN, hT⟩ := hq n hn
  have hg : ∀ r : GroupRef, Clean special r.name → Clean special r.ref → Goes .java .code (javaGroupLine t r) .code := fun r h1 h2 =>
    java_line (goes_list _ (clean_javaType (hq.resolve h2))) h1
  cases n with
  | simple v =>
    have hd' : v.doc = [] := hd
    have hb := clean_javaType (hq.resolve (hT v.base (by simp [C58.typesIn])))
    have hv' := hN v.name (by simp [C58.namesIn])
    have hv : Clean special (javaName v.name) := clean_cName hv'
    simp only [javaLang, javaDecl, javaWrapper, hd']
    split
    · goes
    split
    · have : Goes .java .code ((toSortedPairs v.memberTypes).flatMap (javaMemberLine t)) .code := .flatMap fun m hm => by
        have hm' := mem_sorted hm
        have h1 := hN m.1 (by simp only [C58.namesIn, List.mem_cons, List.mem_map]; exact .inr ⟨m, hm', rfl⟩)
        have h2 := clean_javaType (hq.member h1 (hT m.2 (by simp only [C58.typesIn, List.mem_cons, List.mem_map]; exact .inr ⟨m, hm', rfl⟩)))
        have h3 : Clean special (javaName m.1) := clean_cName h1
        unfold javaMemberLine
        goes
      goes
    · goes
  | attr v =>
    have hb := goes_list v.plural (clean_javaType (hq.resolve (hT v.type (by simp [C58.typesIn]))))
    have hv' := hN v.name (by simp [C58.namesIn])
    have hv : Clean special (javaName v.name) := clean_cName hv'
    simp only [javaLang, javaWrapper]
    goes
  | elem v =>
    have hb := goes_list v.plural (clean_javaType (hq.resolve (hT v.type (by simp [C58.typesIn]))))
    have hv' := hN v.name (by simp [C58.namesIn])
    have hv : Clean special (javaName v.name) := clean_cName hv'
    simp only [javaLang, javaWrapper]
    goes
  | complex v =>
    have hd' : v.doc = [] := hd
    simp only [C58.namesIn, C58.typesIn, List.mem_cons, List.mem_append, List.mem_map] at hN hT
    have hb := clean_javaType (hq.resolve (hT v.base (.inl rfl)))
    have g0 : Goes .java .code (javaExtends t v.base) .code := by
      unfold javaExtends
      split <;> goes
    have g1 : Goes .java .code (v.attributeGroup.flatMap (javaAttrGroupLine t)) .code := .flatMap fun a h => by
      have h1 := clean_javaType (hq.resolve (hT _ (.inr (.inr ⟨a, h, rfl⟩))))
      have h2 : Clean special (javaName a.name) := clean_cName (hN _ (.inr (.inr ⟨a, h, rfl⟩)))
      unfold javaAttrGroupLine
      goes
    have g2 : Goes .java .code (v.attributes.flatMap (javaAttrLine t)) .code := .flatMap fun a h =>
      (java_attr hq (hN _ (.inr (.inl (.inl (.inl ⟨a, h, rfl⟩))))) (hT _ (.inr (.inl (.inl (.inl ⟨a, h, rfl⟩)))))).1
    have g3 : Goes .java .code (v.groups.flatMap (javaGroupLine t)) .code := .flatMap fun a h =>
      hg a (hN _ (.inr (.inl (.inr ⟨a, h, rfl⟩)))) (hT _ (.inr (.inl (.inr ⟨a, h, rfl⟩))))
    have g4 : Goes .java .code (v.elements.flatMap (javaElemLine t)) .code := .flatMap fun a h =>
      java_elem hq (hN _ (.inr (.inl (.inl (.inr ⟨a, h, rfl⟩))))) (hT _ (.inr (.inl (.inl (.inr ⟨a, h, rfl⟩)))))
    have g5 : Goes .java .code (javaValueLine t v.base) .code := by
      unfold javaValueLine
      split <;> goes
    simp only [javaLang, javaComplexContent, hd']
    goes
  | group v =>
    have hd' : v.doc = [] := hd
    simp only [C58.namesIn, C58.typesIn, List.mem_cons, List.mem_append, List.mem_map] at hN hT
    have g3 : Goes .java .code (v.groups.flatMap (javaGroupLine t)) .code := .flatMap fun a h =>
      hg a (hN _ (.inr (.inr ⟨a, h, rfl⟩))) (hT _ (.inr ⟨a, h, rfl⟩))
    have g4 : Goes .java .code (v.elements.flatMap (javaElemLine t)) .code := .flatMap fun a h =>
      java_elem hq (hN _ (.inr (.inl ⟨a, h, rfl⟩))) (hT _ (.inl ⟨a, h, rfl⟩))
    simp only [javaLang, javaDecl, hd']
    goes
  | attrGroup v =>
    have hd' : v.doc = [] := hd
    simp only [C58.namesIn, C58.typesIn, List.mem_cons, List.mem_map] at hN hT
    have g2 : Goes .java .code (v.attributes.flatMap (javaAttrGroupAttrLine t)) .code := .flatMap fun a h =>
      (java_attr hq (hN _ (.inr ⟨a, h, rfl⟩)) (hT _ ⟨a, h, rfl⟩)).2
    simp only [javaLang, javaDecl, hd']
    goes

/-! ### Rust -/

omit hq [UniLaws] [Uni] in
theorem goes_vec {s : Str} (h : Clean special s) : Goes .rust .code (rustVec s) .code ∧ Goes .rust .code (rustOption s) .code := by
  unfold rustVec rustOption
  constructor <;> goes

omit hq in
theorem rust_field {x nm ty : Str} (h1 : Clean special x) (h2 : Clean special nm) (h3 : Goes .rust .code ty .code) :
    Goes .rust .code (rustField x (rustFieldName nm) ty) .code := by
  have := clean_field h2
  unfold rustField
  goes

theorem rust_member {x ty : Str} (p : Bool) (h1 : Clean special x) (h2 : Clean special ty) : Goes .rust .code (rustGroupMember t p x ty) .code := by
  have := clean_rustType (hq.resolve h2)
  refine rust_field h1 h1 ?_
  split
  · exact (goes_vec this).1
  · exact .clean this

theorem rust_goes {n : Node Element} (hn : n ∈ nodes t) (hd : nodeDoc n = []) {fn : Str} (h1 : Clean special fn) (h2 : Named .rust fn) :
    Goes .rust .code ((rustLang t).text n fn) .code := by
  obtain ⟨hN, hT⟩ := hq n hn
  have key : ∀ content, Goes .rust .code content .code → Goes .rust .code (rustDecl fn [] content) .code ∧ Goes .rust .code (c!"\n" ++ rustStruct fn content) .code := by
    intro content hc
    unfold rustDecl rustStruct
    constructor <;> goes
  cases n with
  | simple v =>
    have hd' : v.doc = [] := hd
    have hb := clean_rustType (hq.resolve (hT v.base (by simp [C58.typesIn])))
    have hv := hN v.name (by simp [C58.namesIn])
    simp only [rustLang, hd']
    split
    · exact (key _ (rust_field hv hv (goes_vec hb).1)).1
    split
    · refine (key _ (.flatMap fun m hm => ?_)).2
      have hm' := mem_sorted hm
      have h1 := hN m.1 (by simp only [C58.namesIn, List.mem_cons, List.mem_map]; exact .inr ⟨m, hm', rfl⟩)
      have h2 := clean_rustType (hq.member h1 (hT m.2 (by simp only [C58.typesIn, List.mem_cons, List.mem_map]; exact .inr ⟨m, hm', rfl⟩)))
      exact rust_field hv h1 (.clean h2)
    · exact (key _ (rust_field hv hv (.clean hb))).1
  | attr v =>
    have hd' : v.doc = [] := hd
    simp only [rustLang, hd']
    exact (key _ (rust_member hq _ (hN _ (by simp [C58.namesIn])) (hT _ (by simp [C58.typesIn])))).1
  | elem v =>
    have hd' : v.doc = [] := hd
    simp only [rustLang, hd']
    exact (key _ (rust_member hq _ (hN _ (by simp [C58.namesIn])) (hT _ (by simp [C58.typesIn])))).1
  | complex v =>
    have hd' : v.doc = [] := hd
    simp only [C58.namesIn, C58.typesIn, List.mem_cons, List.mem_append, List.mem_map] at hN hT
    have hb := clean_rustType (hq.resolve (hT v.base (.inl rfl)))
    have g1 : Goes .rust .code (v.attributeGroup.flatMap (rustAttrGroupLine t)) .code := .flatMap fun a h =>
      rust_field (hN _ (.inr (.inr ⟨a, h, rfl⟩))) (hN _ (.inr (.inr ⟨a, h, rfl⟩))) (goes_vec (clean_rustType (hq.resolve (hT _ (.inr (.inr ⟨a, h, rfl⟩)))))).1
    have g2 : Goes .rust .code (v.attributes.flatMap (rustAttrLine t)) .code := .flatMap fun a h => by
      have hn := hN _ (.inr (.inl (.inl (.inl ⟨a, h, rfl⟩))))
      have ht := clean_rustType (hq.resolve (hT _ (.inr (.inl (.inl (.inl ⟨a, h, rfl⟩))))))
      refine rust_field hn hn ?_
      split
      · exact (goes_vec ht).2
      · exact .clean ht
    have g3 : Goes .rust .code (v.groups.flatMap (rustGroupLine t)) .code := .flatMap fun a h => by
      have hn := hN _ (.inr (.inl (.inr ⟨a, h, rfl⟩)))
      have ht := clean_rustType (hq.resolve (hT _ (.inr (.inl (.inr ⟨a, h, rfl⟩)))))
      refine rust_field hn hn ?_
      split
      · exact (goes_vec ht).1
      · exact .clean ht
    have g4 : Goes .rust .code (v.elements.flatMap (rustElemLine t)) .code := .flatMap fun a h => by
      have hn := hN _ (.inr (.inl (.inl (.inr ⟨a, h, rfl⟩))))
      have ht := clean_rustType (hq.resolve (hT _ (.inr (.inl (.inl (.inr ⟨a, h, rfl⟩))))))
      refine rust_field hn hn ?_
      split
      · exact (goes_vec ht).1
      · split
        · exact (goes_vec ht).2
        · exact .clean ht
    have g5 : Goes .rust .code (rustBaseLine t v.base) .code := by
      unfold rustBaseLine
      have hf := clean_field hb
      dsimp only
      split
      · split
        · unfold rustField
          goes
        · goes
      · exact .nil
    simp only [rustLang, rustComplexContent, hd']
    exact (key _ ((((g1.append g2).append g3).append g4).append g5)).1
  | group v =>
    have hd' : v.doc = [] := hd
    simp only [C58.namesIn, C58.typesIn, List.mem_cons, List.mem_append, List.mem_map] at hN hT
    simp only [rustLang, hd']
    exact (key _ ((Goes.flatMap fun a h => rust_member hq _ (hN _ (.inr (.inl ⟨a, h, rfl⟩))) (hT _ (.inl ⟨a, h, rfl⟩))).append
      (.flatMap fun a h => rust_member hq _ (hN _ (.inr (.inr ⟨a, h, rfl⟩))) (hT _ (.inr ⟨a, h, rfl⟩))))).1
  | attrGroup v =>
    have hd' : v.doc = [] := hd
    simp only [C58.namesIn, C58.typesIn, List.mem_cons, List.mem_map] at hN hT
    simp only [rustLang, hd']
    refine (key _ (.flatMap fun a h => ?_)).1
    have ht := clean_rustType (hq.resolve (hT _ ⟨a, h, rfl⟩))
    have hn := hN _ (.inr ⟨a, h, rfl⟩)
    refine rust_field hn hn ?_
    split
    · exact (goes_vec ht).2
    · exact (goes_vec ht).1

/-! ### TypeScript -/

omit hq in
theorem ts_line {ty nm suffix : Str} (h1 : Clean special ty) (h2 : Clean special nm) (h3 : Goes .ts .code suffix .code) (p : Bool) :
    Goes .ts .code (c!"\t" ++ tsName nm ++ suffix ++ c!": " ++ genTypeScriptFieldType ty p ++ c!";\n") .code := by
  have : Clean special (tsName nm) := clean_cName h2
  have := clean_tsType h1 p
  goes

theorem ts_attr {a : Attribute} (h1 : Clean special a.name) (h2 : Clean special a.type) : Goes .ts .code (tsAttrLine t a) .code := by
  have : Clean special (tsName a.name) := clean_cName h1
  have := clean_tsType (hq.resolve h2) a.plural
  unfold tsAttrLine
  cases a.optional <;> simp only [Bool.false_eq_true, ↓reduceIte] <;> goes

theorem ts_elem {a : Element} (h1 : Clean special a.name) (h2 : Clean special a.type) : Goes .ts .code (tsElemLine t a) .code := by
  have : Clean special (tsName a.name) := clean_cName h1
  have := clean_tsType (hq.resolve h2) a.plural
  unfold tsElemLine
  goes

theorem ts_group {a : GroupRef} (h1 : Clean special a.name) (h2 : Clean special a.ref) : Goes .ts .code (tsGroupLine t a) .code := by
  have : Clean special (tsName a.name) := clean_cName h1
  have := clean_tsType (hq.resolve h2) a.plural
  unfold tsGroupLine
  goes

omit hq [UniLaws] [Uni] in
theorem ts_enum {b v : Str} (hv : Clean (special ++ ['\u2028', '\u2029']) v) : Goes .ts .code (tsEnumLine b v) .code := by
  have h1 : Clean special v := fun x hx => hv x (by simp [hx])
  have h2 : Goes .ts (.str '\'') v (.str '\'') := .string (by decide) h1 fun _ => ⟨hv _ (by decide), hv _ (by decide)⟩
  unfold tsEnumLine
  split
  · goes
  split <;> goes

theorem ts_step {n : Node Element} (hn : n ∈ nodes t) (hv : ∀ s ∈ C58.valuesIn n, Clean (special ++ ['\u2028', '\u2029']) s) (hd : nodeDoc n = [])
    {g : Gen} (h1 : Clean special (uniqueName (tsName (nodeName n)) g).1) (h2 : Named .ts (uniqueName (tsName (nodeName n)) g).1)
    (hg : Goes .ts .code g.field .code) : Goes .ts .code (tsStep t n g).field .code := by
  obtain ⟨hN, hT⟩ := hq n hn
  have hf : (uniqueName (tsName (nodeName n)) g).2.field = g.field := rfl
  generalize he : uniqueName (tsName (nodeName n)) g = u at h1 h2 hf
  obtain ⟨fn, g'⟩ := u
  dsimp only at h1 h2 hf
  have put : ∀ text, Goes .ts .code text .code → Goes .ts .code (g'.field ++ text) .code := fun text ht => by
    rw [hf]; exact hg.append ht
  cases n with
  | simple v =>
    have hd' : v.doc = [] := hd
    have he' : uniqueName (tsName v.name) g = (fn, g') := he
    have hb := hT v.base (by simp [C58.typesIn])
    have b1 := clean_tsType (hq.resolve hb) true
    have b2 := clean_tsType (hq.resolve hb) false
    simp only [tsStep, tsSimpleType, he', hd', Gen.emit, tsClass, tsAlias, tsComment]
    split
    · exact put _ (by goes)
    split
    · split
      · exact hg
      · have : Goes .ts .code ((toSortedPairs v.memberTypes).flatMap (tsMemberLine t)) .code := .flatMap fun m hm => by
          have hm' := mem_sorted hm
          have h1 := hN m.1 (by simp only [C58.namesIn, List.mem_cons, List.mem_map]; exact .inr ⟨m, hm', rfl⟩)
          have h2 := clean_tsType (hq.member h1 (hT m.2 (by simp only [C58.typesIn, List.mem_cons, List.mem_map]; exact .inr ⟨m, hm', rfl⟩))) false
          have h3 : Clean special (tsName m.1) := clean_cName h1
          unfold tsMemberLine
          goes
        exact put _ (by goes)
    split
    · have : Goes .ts .code (v.enum.flatMap (tsEnumLine (genTypeScriptFieldType (resolveIn t v.base) false))) .code :=
        .flatMap fun x hx => ts_enum (hv x hx)
      exact put _ (by goes)
    split
    · exact hg
    · exact put _ (by goes)
  | attr v =>
    have hd' : v.doc = [] := hd
    have he' : uniqueName (tsName v.name) g = (fn, g') := he
    have := clean_tsType (hq.resolve (hT v.type (by simp [C58.typesIn]))) v.plural
    simp only [tsStep, tsAttribute, he', hd', Gen.emit, tsAlias, tsComment]
    split
    · exact hg
    · exact put _ (by goes)
  | elem v =>
    have hd' : v.doc = [] := hd
    have he' : uniqueName (tsName v.name) g = (fn, g') := he
    have := clean_tsType (hq.resolve (hT v.type (by simp [C58.typesIn]))) v.plural
    simp only [tsStep, tsElement, he', hd', Gen.emit, tsAlias, tsComment]
    split
    · exact hg
    · exact put _ (by goes)
  | complex v =>
    have hd' : v.doc = [] := hd
    have he' : uniqueName (tsName v.name) g = (fn, g') := he
    simp only [C58.namesIn, C58.typesIn, List.mem_cons, List.mem_append, List.mem_map] at hN hT
    have hb := clean_tsType (hq.resolve (hT v.base (.inl rfl))) false
    have g0 : Goes .ts .code (tsExtends t v.base) .code := by
      unfold tsExtends
      split <;> goes
    have g1 : Goes .ts .code (v.attributeGroup.flatMap (tsAttrGroupLine t)) .code := .flatMap fun a h => by
      have h1 := clean_tsType (hq.resolve (hT _ (.inr (.inr ⟨a, h, rfl⟩)))) false
      have h2 : Clean special (tsName a.name) := clean_cName (hN _ (.inr (.inr ⟨a, h, rfl⟩)))
      unfold tsAttrGroupLine
      goes
    have g2 : Goes .ts .code (v.attributes.flatMap (tsAttrLine t)) .code := .flatMap fun a h =>
      ts_attr hq (hN _ (.inr (.inl (.inl (.inl ⟨a, h, rfl⟩))))) (hT _ (.inr (.inl (.inl (.inl ⟨a, h, rfl⟩)))))
    have g3 : Goes .ts .code (v.groups.flatMap (tsGroupLine t)) .code := .flatMap fun a h =>
      ts_group hq (hN _ (.inr (.inl (.inr ⟨a, h, rfl⟩)))) (hT _ (.inr (.inl (.inr ⟨a, h, rfl⟩))))
    have g4 : Goes .ts .code (v.elements.flatMap (tsElemLine t)) .code := .flatMap fun a h =>
      ts_elem hq (hN _ (.inr (.inl (.inl (.inr ⟨a, h, rfl⟩))))) (hT _ (.inr (.inl (.inl (.inr ⟨a, h, rfl⟩)))))
    have g5 : Goes .ts .code (tsValueLine t v.base) .code := by
      unfold tsValueLine
      split <;> goes
    simp only [tsStep, tsComplexType, tsComplexContent, he', hd', Gen.emit, tsClass, tsComment]
    split
    · exact hg
    · exact put _ (by goes)
  | group v =>
    have hd' : v.doc = [] := hd
    have he' : uniqueName (tsName v.name) g = (fn, g') := he
    simp only [C58.namesIn, C58.typesIn, List.mem_cons, List.mem_append, List.mem_map] at hN hT
    have g3 : Goes .ts .code (v.groups.flatMap (tsGroupLine t)) .code := .flatMap fun a h =>
      ts_group hq (hN _ (.inr (.inr ⟨a, h, rfl⟩))) (hT _ (.inr ⟨a, h, rfl⟩))
    have g4 : Goes .ts .code (v.elements.flatMap (tsElemLine t)) .code := .flatMap fun a h =>
      ts_elem hq (hN _ (.inr (.inl ⟨a, h, rfl⟩))) (hT _ (.inl ⟨a, h, rfl⟩))
    simp only [tsStep, tsGroup, he', hd', Gen.emit, tsClass, tsComment]
    split
    · exact hg
    · exact put _ (by goes)
  | attrGroup v =>
    have hd' : v.doc = [] := hd
    have he' : uniqueName (tsName v.name) g = (fn, g') := he
    simp only [C58.namesIn, C58.typesIn, List.mem_cons, List.mem_map] at hN hT
    have g2 : Goes .ts .code (v.attributes.flatMap (tsAttrLine t)) .code := .flatMap fun a h =>
      ts_attr hq (hN _ (.inr ⟨a, h, rfl⟩)) (hT _ ⟨a, h, rfl⟩)
    simp only [tsStep, tsAttributeGroup, he', hd', Gen.emit, tsClass, tsComment]
    split
    · exact hg
    · exact put _ (by goes)

end

/-! ### Files -/

omit [Uni] in
theorem clean_numbered : C89.Numbered (Clean special) := by
  intro x k hx c hc hm
  exact C89.absent_numbered ((by decide : ∀ c ∈ special, c.isDigit = false) c hc) x k (hx c hc) hm

theorem clean_base [UniLaws] (lang : Str) (t : Tree) (n : Node Element) (h : Clean special (nodeName n)) : Clean special ((langOf lang t).base n) := fun x hx =>
  base_absent lang t n ((by decide : ∀ x ∈ special, Sym x) x hx) ((by decide : ∀ x ∈ special, x ≠ '_') x hx) (h x hx)

omit [Uni] in
theorem parts_bare (n : Node Element) : C58.namesIn (C57.noDocNode C31.noDocE n) = C58.namesIn n ∧
    C58.typesIn (C57.noDocNode C31.noDocE n) = C58.typesIn n ∧ C58.valuesIn (C57.noDocNode C31.noDocE n) = C58.valuesIn n ∧
    nodeDoc (C57.noDocNode C31.noDocE n) = [] := by
  cases n <;> simp [C58.namesIn, C58.typesIn, C58.valuesIn, C57.noDocNode, C31.noDocS, C31.noDocC, C31.noDocG, C31.noDocAG, C31.noDocA, C31.noDocE,
    nodeDoc, Function.comp_def]

omit [Uni] in
theorem Quiet.bare {t : Tree} (h : Quiet t) : Quiet (C57.bare t) := by
  intro n hn
  rw [C59.nodes_bare] at hn
  obtain ⟨m, hm, rfl⟩ := List.mem_map.1 hn
  rw [(parts_bare m).1, (parts_bare m).2.1]
  exact h m hm

omit [Uni] in
theorem name_in (n : Node Element) : nodeName n ∈ C58.namesIn n := by cases n <;> simp [nodeName, C58.namesIn]

/-- What else TypeScript needs: enumeration values without anything special, and no separators of lines and paragraphs in names and values. -/
def Straight (t : Tree) : Prop := ∀ n ∈ nodes t, ('\u2028' ∉ nodeName n ∧ '\u2029' ∉ nodeName n) ∧
  ∀ s ∈ C58.valuesIn n, Clean (special ++ ['\u2028', '\u2029']) s

instance (t : Tree) : Decidable (Straight t) := by unfold Straight Clean; infer_instance

omit [Uni] in
theorem named_of (L : Comments.Lang) {n : Str} (h : Clean special n) (hs : L = .ts → '\u2028' ∉ n ∧ '\u2029' ∉ n) : Named L n := by
  refine fun c hc => ⟨fun he => ?_, fun he => h '\\' (by decide) (he ▸ hc)⟩
  by_cases hm : c ∈ special
  · exact h c hm hc
  · cases L with
    | c => exact hm ((by decide : ∀ x ∈ Comments.ends .c, x ∈ special) c he)
    | java => exact hm ((by decide : ∀ x ∈ Comments.ends .java, x ∈ special) c he)
    | rust => exact hm ((by decide : ∀ x ∈ Comments.ends .rust, x ∈ special) c he)
    | ts =>
      rcases (by decide : ∀ x ∈ Comments.ends .ts, x ∉ special → x = '\u2028' ∨ x = '\u2029') c he hm with rfl | rfl
      · exact (hs rfl).1 hc
      · exact (hs rfl).2 hc

theorem body_goes [UniLaws] (L : Comments.Lang) (hU : L = .ts → Apart) (t : Tree) (hq : Quiet t) (hs : L = .ts → Straight t)
    (hd : ∀ n ∈ nodes t, nodeDoc n = []) : Goes L .code (C67.bodyOf (name L) t) .code := by
  have hnm : ∀ n ∈ nodes t, Clean special (nodeName n) := fun n hn => (hq n hn).1 _ (name_in n)
  have hn2 : ∀ n ∈ nodes t, Named L (nodeName n) := fun n hn => named_of L (hnm n hn) fun e => (hs e n hn).1
  by_cases hT : L = .ts
  · subst hT
    show Goes .ts .code (tsGen t).field .code
    unfold tsGen
    rw [genLoop_nodes]
    have key : ∀ (ns : List (Node Element)), (∀ n ∈ ns, n ∈ nodes t) → ∀ g : Gen, Goes .ts .code g.field .code →
        Goes .ts .code (ns.foldl (fun g n => tsStep t n g) g).field .code := by
      intro ns
      induction ns with
      | nil => exact fun _ g h => h
      | cons n ns ih =>
        intro hns g h
        have hn := hns n (by simp)
        exact ih (fun m hm => hns m (by simp [hm])) _ (ts_step hq hn (hs rfl n hn).2 (hd n hn)
          (C89.unique_keeps clean_numbered (clean_base c!"TypeScript" t n (hnm n hn)) g)
          (C89.unique_keeps (named_numbered .ts) (named_base .ts hU t n (hn2 n hn)) g) h)
    exact key (nodes t) (fun _ h => h) _ .nil
  · have hT' : name L ≠ c!"TypeScript" := by cases L <;> first | decide | exact absurd rfl hT
    rw [C88.body_named (name L) t (fun h => absurd h hT') (name_langs L)]
    refine .flatMap fun x hx => ?_
    have h1 : x.1 ∈ nodes t := by
      refine (declared_sublist (langOf (name L) t) (nodes t)).subset ?_
      rw [← map_fst_named (langOf (name L) t) [] (declared (langOf (name L) t) (nodes t))]
      exact List.mem_map_of_mem hx
    have h2 := C89.named_keeps clean_numbered hx (clean_base (name L) t x.1 (hnm _ h1))
    have h3 := C89.named_keeps (named_numbered L) hx (named_base L hU t x.1 (hn2 _ h1))
    cases L with
    | c => exact c_goes hq h1 (hd _ h1) h2 h3
    | java => exact java_goes hq h1 (hd _ h1) h2 h3
    | rust => exact rust_goes hq h1 (hd _ h1) h2 h3
    | ts => exact absurd rfl hT

theorem source_goes [UniLaws] (L : Comments.Lang) (hU : L = .ts → Apart) (pkg : Str) (hp : L = .java → Clean special pkg) (t : Tree) (hq : Quiet t)
    (hs : L = .ts → Straight t) (hd : ∀ n ∈ nodes t, nodeDoc n = []) : Goes L .code (source (name L) pkg t) .code := by
  have h := body_goes L hU t hq hs hd
  cases L with
  | c => exact Goes.append (m' := .code) (Goes.lit (by decide +kernel)) h
  | rust => exact Goes.append (m' := .code) (Goes.lit (by decide +kernel)) h
  | ts => exact Goes.append (m' := .code) (Goes.lit (by decide +kernel)) h
  | java =>
    have hk : Clean special (packageName pkg) := by
      unfold packageName
      split
      · decide
      · exact hp rfl
    have hi : Goes .java .code javaImports .code := Goes.lit (by decide +kernel)
    show Goes .java .code (javaSource pkg t) .code
    have h' : Goes .java .code (javaGen t).field .code := h
    unfold javaSource
    have hc : Goes .java .code (copyright ++ c!"\n\npackage ") .code := Goes.lit (by decide +kernel)
    have h1 : Goes .java .code (c!";\n\n") .code := Goes.lit (by decide +kernel)
    have h2 : Goes .java .code (c!"\n") .code := Goes.lit (by decide +kernel)
    exact ((((hc.append (.clean hk)).append h1).append hi).append h2).append h'

/-- C98 for trees: if names, types and package have no quotes, slashes, backslashes or ends of lines, and documentation is without anything special,
then what a compiler sees of a file is what it sees of the file without documentation.  In TypeScript enumeration values must be like names. -/
theorem confined_partial [UniLaws] (L : Comments.Lang) (hU : L = .ts → Apart) (pkg : Str) (hp : L = .java → Clean special pkg) (t : Tree)
    (hq : Quiet t) (hs : L = .ts → Straight t) (hd : ∀ n ∈ nodes t, Safe L (nodeDoc n)) :
    seen L (source (name L) pkg t) = seen L (source (name L) pkg (bare t)) := by
  refine tree_partial L hU pkg t (fun n hn => named_of L ((hq n hn).1 _ (name_in n)) fun e => (hs e n hn).1) hd ?_
  refine (source_goes L hU pkg hp (C57.bare t) hq.bare (fun e n hn => ?_) fun n hn => ?_).tidy _ rfl
  · rw [C59.nodes_bare] at hn
    obtain ⟨m, hm, rfl⟩ := List.mem_map.1 hn
    rw [C59.name_bare, (parts_bare m).2.2.1]
    exact hs e m hm
  · rw [C59.nodes_bare] at hn
    obtain ⟨m, hm, rfl⟩ := List.mem_map.1 hn
    exact (parts_bare m).2.2.2

/-- The same for two trees that differ in documentation only. -/
theorem trees_partial [UniLaws] (L : Comments.Lang) (hU : L = .ts → Apart) (pkg : Str) (hp : L = .java → Clean special pkg) (t t' : Tree)
    (hb : bare t = bare t') (hq : Quiet t) (hs : L = .ts → Straight t) (hd : ∀ n ∈ nodes t, Safe L (nodeDoc n)) (hd' : ∀ n ∈ nodes t', Safe L (nodeDoc n)) :
    seen L (source (name L) pkg t) = seen L (source (name L) pkg t') := by
  have key : ∀ n ∈ nodes t', ∃ m ∈ nodes t, C57.noDocNode C31.noDocE m = C57.noDocNode C31.noDocE n := by
    intro n hn
    have : C57.noDocNode C31.noDocE n ∈ nodes (bare t) := by
      rw [hb, C59.nodes_bare]
      exact List.mem_map_of_mem hn
    rw [C59.nodes_bare] at this
    exact List.mem_map.1 this
  have hq' : Quiet t' := fun n hn => by
    obtain ⟨m, hm, e⟩ := key n hn
    rw [← (parts_bare n).1, ← (parts_bare n).2.1, ← e, (parts_bare m).1, (parts_bare m).2.1]
    exact hq m hm
  have hs' : L = .ts → Straight t' := fun h n hn => by
    obtain ⟨m, hm, e⟩ := key n hn
    rw [← C59.name_bare n, ← (parts_bare n).2.2.1, ← e, C59.name_bare, (parts_bare m).2.2.1]
    exact hs h m hm
  rw [confined_partial L hU pkg hp t hq hs hd, confined_partial L hU pkg hp t' hq' hs' hd', hb]

/-! ## Projects -/

/-- The attributes of a tag have no quotes, slashes, backslashes or ends of lines where they name something; for TypeScript also no separators of
lines and paragraphs, and enumeration values are like names. -/
def Tame (L : Comments.Lang) (as : List Attr) : Prop :=
  ∀ a ∈ as, (a.local ∈ [c!"name", c!"ref", c!"base", c!"type", c!"itemType", c!"memberTypes"] → Clean special a.value) ∧
    (L = .ts → a.local ∈ [c!"name", c!"ref", c!"base", c!"memberTypes", c!"value"] → Clean (special ++ ['\u2028', '\u2029']) a.value)

instance (L : Comments.Lang) (as : List Attr) : Decidable (Tame L as) := by unfold Tame Clean; infer_instance

/-- The same for the tags with handlers in all files, and the texts are without anything special where they would be documentation. -/
structure AllTame (L : Comments.Lang) (W : World) : Prop where
  tags : ∀ path toks, W.fs.get? path = some (.file toks) → ∀ n as, Token.start n as ∈ toks → makeFirstUpperCase n ∈ Handled.startHandled → Tame L as
  texts : ∀ path toks, W.fs.get? path = some (.file toks) → ∀ x, Token.text x ∈ toks → Safe L (trimSpace x)

open C90 (MadeOf Occurs Member IsName IsType IsRef)

theorem occurs_tame {L : Comments.Lang} {W : World} (h : AllTame L W) {ls : List Str} {v : Str} (ho : Occurs W ls v)
    (hl : ∀ l ∈ ls, l ∈ [c!"name", c!"ref", c!"base", c!"type", c!"itemType", c!"memberTypes"]) : Clean special v := by
  obtain ⟨path, toks, n, as, a, h1, h2, h3, h4, h5, h6⟩ := ho
  rw [← h6]
  exact (h.tags path toks h1 n as h2 h3 a h4).1 (hl _ h5)

theorem occurs_straight {W : World} (h : AllTame .ts W) {ls : List Str} {v : Str} (ho : Occurs W ls v)
    (hl : ∀ l ∈ ls, l ∈ [c!"name", c!"ref", c!"base", c!"memberTypes", c!"value"]) : Clean (special ++ ['\u2028', '\u2029']) v := by
  obtain ⟨path, toks, n, as, a, h1, h2, h3, h4, h5, h6⟩ := ho
  rw [← h6]
  exact (h.tags path toks h1 n as h2 h3 a h4).2 rfl (hl _ h5)

omit [Uni] in
theorem clean_word {bad : List Char} {l v : Str} (h : Clean bad l) (hv : v ∈ splitOn ' ' l) : Clean bad v := fun c hc hm =>
  h c hc (C59.mem_of_mem_splitOn hv hm)

theorem made_quiet {L : Comments.Lang} {W : World} (h : AllTame L W) {lang : Str} {t : Tree} (ht : MadeOf W lang t) : Quiet t := by
  have hm : ∀ w, Member W w → Clean special w := fun w ⟨l, ho, hw⟩ => clean_word (occurs_tame h ho (by decide)) hw
  intro n hn
  obtain ⟨h1, h2, -⟩ := ht n hn
  refine ⟨fun s hs => ?_, fun s hs => ?_⟩
  · rcases h1 s hs with rfl | ho | ⟨w, hw, hl⟩
    · exact C59.nil_clean _
    · exact occurs_tame h ho (by decide)
    · exact hl.clean (hm w hw)
  · rcases h2 s hs with rfl | ⟨e, he, hv⟩ | ⟨w, hw | hw, hl⟩
    · exact C59.nil_clean _
    · exact (by decide +kernel : ∀ x ∈ buildInTypes, ∀ s ∈ x.2, Clean special s) e he s (List.mem_of_getElem? hv)
    · exact hl.clean (occurs_tame h hw (by decide))
    · exact hl.clean (hm w hw)

theorem made_straight {W : World} (h : AllTame .ts W) {lang : Str} {t : Tree} (ht : MadeOf W lang t) : Straight t := by
  have hw : ∀ s, IsName W s → Clean (special ++ ['\u2028', '\u2029']) s := by
    rintro s (rfl | ho | ⟨w, ⟨l, ho, hw⟩, hl⟩)
    · exact C59.nil_clean _
    · exact occurs_straight h ho (by decide)
    · exact hl.clean (clean_word (occurs_straight h ho (by decide)) hw)
  intro n hn
  obtain ⟨h1, -, h3⟩ := ht n hn
  have := hw _ (h1 _ (name_in n))
  exact ⟨⟨this _ (by decide), this _ (by decide)⟩, fun s hs => occurs_straight h (h3 s hs) (by decide)⟩

/-- Documentation, in the tree of every file. -/
theorem docs_end {W : World} {D : Str → Prop} (hD : D []) (ht : ∀ path toks, W.fs.get? path = some (.file toks) → ∀ x, Token.text x ∈ toks → D (trimSpace x)) :
    Origin.Ends W (Docs.Tr D) := fun path toks hp rec cfg _ r s e =>
  ((Docs.hold_run (Docs.hold_gvt W rec cfg) hD W toks (ht path toks hp) _ Docs.made_init r s e).2).tree hD

omit [Uni] in
theorem safe_nil (L : Comments.Lang) : Safe L [] := by cases L <;> decide

omit [Uni] in
theorem doc_in (n : Node Element) : nodeDoc n ∈ C97.docsOf n := by cases n <;> simp [nodeDoc, C97.docsOf]

theorem contents_source (F : Str → Option Str) (L : Comments.Lang) [UniLaws] (pkg : Str) (t : Tree) :
    C64.contents F (name L) pkg t = source (name L) pkg t := by
  unfold C64.contents
  cases L
  all_goals
    rw [C24.title_lang (by decide)]
    rfl

/-- C98 for the command, in C, Java, Rust and TypeScript: if the attributes of all files are tame and the texts are without anything special, then
what a compiler sees of a file written is what it would see if there were no documentation in the tree the file is written from, which is made of the
names, types and values of the project (C90). -/
theorem command_partial [UniLaws] (L : Comments.Lang) (hU : L = .ts → Apart) (W : World) (h : AllTame L W) (walk : Str → List Str) (f : Flags)
    (hl : f.l = name L) (hp : L = .java → Clean special f.p) :
    ∀ x ∈ (main' W walk f).2.outputs, ∃ pkg t, MadeOf W (name L) t ∧ x.2 = source (name L) pkg t ∧
      seen L x.2 = seen L (source (name L) pkg (bare t)) := by
  intro x hx
  obtain ⟨pkg, hk, t, ⟨ht, hd⟩, e⟩ := C90.command_on W (docs_end (safe_nil L) h.texts) walk f x hx
  rw [hl] at ht e
  rw [contents_source] at e
  refine ⟨pkg, t, ht, e, ?_⟩
  rw [e]
  refine confined_partial L hU pkg (fun hj => ?_) t (made_quiet h ht) (fun hj => made_straight (hj ▸ h) ht) fun n hn => C97.tree_docs hd hn _ (doc_in n)
  rcases List.mem_cons.1 hk with rfl | hk
  · exact C59.nil_clean _
  · rw [List.mem_singleton.1 hk]
    split
    · exact hp hj
    · decide

end

/-! ## Examples -/

open Ex
open C89 (sly)
attribute [local instance] asciiUni

/-- With these case tables nothing else becomes a separator. -/
theorem ascii_apart : Apart := by
  intro x hx c h
  change asciiUpper c = x at h
  unfold asciiUpper at h
  split at h
  · rename_i hc
    exfalso
    have : ∀ k, k < 123 → ∀ x ∈ ['\u2028', '\u2029'], Char.ofNat (k - 32) ≠ x := by decide +kernel
    exact this c.toNat (by simp [isAsciiLower] at hc; have : c.toNat ≤ 122 := hc.2; omega) x hx h
  · exact h

/-- The hypotheses hold of a documentation full of quotes, slashes, asterisks and backslashes, and its text is in the file. -/
example : ∀ L, Quiet (sly c!"\"a\\b*/ /* '\n\t`//\n\\x.") ∧ Straight (sly c!"\"a\\b*/ /* '\n\t`//\n\\x.") ∧ Safe L c!"\"a\\b*/ /* '\n\t`//\n\\x." ∧
    source (name L) [] (sly c!"\"a\\b*/ /* '\n\t`//\n\\x.") ≠ source (name L) [] (sly []) := by
  intro L
  cases L <;> decide +kernel

/-- What is seen then, in C. -/
example : seen .c (source c!"C" [] (sly c!"\"a\\b*/ /* '\n\t`//\n\\x.")) = [c!"typedef struct {", c!"\tint A;", c!"} T;"] := by decide +kernel

/-- In C a documentation that ends with a backslash takes the first line of the declaration away. -/
theorem swallowed : seen .c (source c!"C" [] (sly c!"path C:\\")) = [c!"\tint A;", c!"} T;"] ∧
    seen .c (source c!"C" [] (sly [])) = [c!"typedef struct {", c!"\tint A;", c!"} T;"] := by decide +kernel

/-- In Java what stands behind an escaped line feed is code, and so is, in C, Java and TypeScript, what stands behind a carriage return, and in TypeScript
what stands behind a separator of lines. -/
theorem escaped_code : c!" class X {}" ∈ seen .java (source c!"Java" [] (sly c!"a\\u000a class X {}")) ∧
    c!" int x;" ∈ seen .java (source c!"Java" [] (sly c!"a\r int x;")) ∧
    c!" int x;" ∈ seen .c (source c!"C" [] (sly c!"a\r int x;")) ∧
    c!" let x;" ∈ seen .ts (source c!"TypeScript" [] (sly c!"a\r let x;")) ∧
    c!" let x;" ∈ seen .ts (source c!"TypeScript" [] (sly c!"a\u2028 let x;")) := by decide +kernel

/-- In Rust none of these has an effect. -/
example : ∀ d ∈ [c!"path C:\\", c!"a\\u000a class X {}", c!"a\r int x;", c!"a\u2028 let x;"],
    seen .rust (source c!"Rust" [] (sly d)) = seen .rust (source c!"Rust" [] (sly [])) := by decide +kernel

/-- Names with quotes or slashes are why names must be tame: a member of this name begins a comment. -/
theorem untame : ∃ t t' : Tree, bare t = bare t' ∧ (∀ n ∈ nodes t, Safe .c (nodeDoc n)) ∧ (∀ n ∈ nodes t', Safe .c (nodeDoc n)) ∧
    seen .c (source c!"C" [] t) ≠ seen .c (source c!"C" [] t') :=
  ⟨[some (.simple { name := c!"/*", base := c!"int" }), some (.simple { name := c!"S", base := c!"int" , doc := c!"a */ int x; "})],
    [some (.simple { name := c!"/*", base := c!"int" }), some (.simple { name := c!"S", base := c!"int", doc := c!"a" })], by decide +kernel⟩

/-- Decides whether a text token is safe. -/
def decTexts (P : Str → Prop) [DecidablePred P] (toks : List Token) : Decidable (∀ x, Token.text x ∈ toks → P x) :=
  decidable_of_iff ((toks.all fun t => match t with | .text x => decide (P x) | _ => true) = true) (by
    rw [List.all_eq_true]
    constructor
    · intro h x hx
      exact of_decide_eq_true (h _ hx)
    · intro h t ht
      cases t with
      | text x => exact decide_eq_true (h x ht)
      | _ => rfl)

instance (L : Comments.Lang) (toks : List Token) : Decidable (∀ n as, Token.start n as ∈ toks → makeFirstUpperCase n ∈ Handled.startHandled → Tame L as) :=
  C59.decStarts _ toks

instance (L : Comments.Lang) (toks : List Token) : Decidable (∀ x, Token.text x ∈ toks → Safe L (trimSpace x)) := decTexts _ toks

/-- A project of two files obeys the hypotheses. -/
theorem wordy_tame (L : Comments.Lang) : AllTame L C64.wordy := by
  constructor
  · intro path toks h
    have h := GoMap.mem_of_get? h
    simp [C64.wordy, world] at h
    rcases h with ⟨-, h⟩ | ⟨-, h⟩ <;> (subst h; cases L <;> decide +kernel)
  · intro path toks h
    have h := GoMap.mem_of_get? h
    simp [C64.wordy, world] at h
    rcases h with ⟨-, h⟩ | ⟨-, h⟩ <;> (subst h; cases L <;> decide +kernel)

set_option synthInstance.maxSize 1000 in
/-- What is seen of the files written for it. -/
example : (main' C64.wordy (fun _ => []) (C90.flags c!"Java")).2.outputs.map (fun x => (x.1, (seen .java x.2).filter fun l => c!"\tprotected".isPrefixOf l)) =
    [(c!"out/o.xsd.java", [c!"\tprotected Integer S;"]), (c!"out.java", [c!"\tprotected Integer A;"])] := by decide +kernel

/-- A schema with documentation that ends with a backslash, as a file. -/
def windows : Str := c!"<schema><simpleType name=\"T\"><documentation>Like C:\\</documentation><restriction base=\"int\"/></simpleType></schema>"

/-- The type is lost. -/
theorem lost : (match Ex.parse (world [("a.xsd", @Xml.decode C81.asciiNames windows)]) "a.xsd" "C" with
    | .ok t _ => seen .c (source c!"C" [] t)
    | _ => [[]]) = [] := by decide +kernel

end Xgen.C98
