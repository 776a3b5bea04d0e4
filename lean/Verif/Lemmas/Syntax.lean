import Verif.Spec.Syntax
import Verif.Props.C98

/-! # Reading lines and tokens of C, Java, Rust and TypeScript -/

namespace Xgen.Syntax
open Comments (Lang Ahead Reading)

/-! ## Lines -/

/-- The tokens of the start of a line, and where the reader is behind it. -/
def lexTo (L : Lang) (m : Mode) : Str → Option (List Tok × Mode)
  | [] => some ([], m)
  | c :: s => match step L m c with
    | none => none
    | some (ts, m') => (lexTo L m' s).map fun x => (ts ++ x.1, x.2)

theorem lex_append (L : Lang) (s s' : Str) : ∀ m, lex L m (s ++ s') = match lexTo L m s with
    | none => none
    | some (ts, m') => (lex L m' s').map (ts ++ ·) := by
  induction s with
  | nil =>
    intro m
    rw [List.nil_append, lexTo]
    dsimp only
    cases lex L m s' <;> rfl
  | cons c s ih =>
    intro m
    rw [List.cons_append, lex, lexTo]
    cases step L m c with
    | none => rfl
    | some x =>
      dsimp only
      rw [ih]
      cases lexTo L x.2 s with
      | none => rfl
      | some y =>
        dsimp only [Option.map]
        cases lex L y.2 s' <;> simp

/-- What the reader of comments makes of where the reader of tokens is. -/
def view : Mode → Comments.Mode
  | .gap => .code
  | .word _ => .code
  | .colon => .code
  | .str q _ => .str q

/-- Where quotes are those of the language. -/
def Sane (L : Lang) : Mode → Prop
  | .str q _ => q ∈ Comments.quotes L
  | _ => True

theorem start_put {L : Lang} {c : Char} {x : List Tok × Mode} (h : start L c = some x) (ls : List Str) (l : Str) :
    c ≠ '\\' ∧ Comments.plain L ⟨ls, l, .code⟩ c = ⟨ls, l ++ [c], view x.2⟩ ∧ Sane L x.2 := by
  have key : ∀ {m : Mode}, c ∉ ['\\', '\n', '\r', '\u2028', '\u2029', '/'] → (c ∈ Comments.quotes L → m = .str c []) →
      (c ∉ Comments.quotes L → view m = .code ∧ Sane L m) → c ≠ '\\' ∧ Comments.plain L ⟨ls, l, .code⟩ c = ⟨ls, l ++ [c], view m⟩ ∧ Sane L m := by
    intro m h1 h2 h3
    have hb : c ≠ '\\' := fun e => h1 (by simp [e])
    have hs : c ≠ '/' := fun e => h1 (by simp [e])
    have he : c ∉ Comments.ends L := fun hc => h1 (by
      have := (by cases L <;> decide : ∀ c ∈ Comments.ends L, c ∈ ['\\', '\n', '\r', '\u2028', '\u2029', '/']) c hc
      exact this)
    refine ⟨hb, ?_⟩
    unfold Comments.plain
    rw [if_neg he, if_neg hs]
    by_cases hq : c ∈ Comments.quotes L
    · rw [if_pos hq, h2 hq]
      exact ⟨rfl, hq⟩
    · rw [if_neg hq, (h3 hq).1]
      exact ⟨rfl, (h3 hq).2⟩
  have away : ∀ P : Char → Prop, [DecidablePred P] → (∀ c ∈ ['\\', '\n', '\r', '\u2028', '\u2029', '/', '"', '\'', '`'], ¬ P c) → P c →
      c ∉ ['\\', '\n', '\r', '\u2028', '\u2029', '/'] ∧ c ∉ Comments.quotes L := by
    intro P _ hP hc
    refine ⟨fun hm => hP c ?_ hc, fun hm => hP c ?_ hc⟩
    · simp only [List.mem_cons, List.not_mem_nil, or_false] at hm ⊢
      rcases hm with h | h | h | h | h | h <;> simp [h]
    · exact (by cases L <;> decide : ∀ c ∈ Comments.quotes L, c ∈ ['\\', '\n', '\r', '\u2028', '\u2029', '/', '"', '\'', '`']) c hm
  unfold start at h
  split at h
  · rename_i hc
    injection h with h; subst h
    obtain ⟨h1, h2⟩ := away (fun c => c = ' ' ∨ c = '\t') (by decide) hc
    exact key h1 (fun hq => absurd hq h2) fun _ => ⟨rfl, trivial⟩
  split at h
  · rename_i hc
    injection h with h; subst h
    obtain ⟨h1, h2⟩ := away (fun c => wordChar c = true) (by decide) hc
    exact key h1 (fun hq => absurd hq h2) fun _ => ⟨rfl, trivial⟩
  split at h
  · rename_i hc
    injection h with h; subst h
    obtain ⟨h1, h2⟩ := away (fun c => c = ':') (by decide) hc
    exact key h1 (fun hq => absurd hq h2) fun _ => ⟨rfl, trivial⟩
  split at h
  · rename_i hc
    injection h with h; subst h
    have hq : c ∈ Comments.quotes L := by
      rcases hc with rfl | ⟨rfl, rfl⟩
      · cases L <;> decide
      · decide
    have hn : c ∉ ['\\', '\n', '\r', '\u2028', '\u2029', '/'] := by
      rcases hc with rfl | ⟨rfl, rfl⟩ <;> decide
    exact key hn (fun _ => rfl) fun h' => absurd hq h'
  split at h
  · rename_i hc
    injection h with h; subst h
    obtain ⟨h1, h2⟩ := away (fun c => c ∈ ['(', ')', '[', ']', '{', '}', '<', '>', '.', ',', ';', '=', '|', '@', '#']) (by decide) hc
    exact key h1 (fun hq => absurd hq h2) fun _ => ⟨rfl, trivial⟩
  · cases h

/-- The reader of comments takes what the reader of tokens takes. -/
theorem step_put {L : Lang} {m : Mode} {c : Char} {x : List Tok × Mode} (hm : Sane L m) (h : step L m c = some x) (ls : List Str) (l : Str) :
    Comments.read L (.none, ⟨ls, l, view m⟩) c = (.none, ⟨ls, l ++ [c], view x.2⟩) ∧ Sane L x.2 := by
  have code : ∀ {y : List Tok × Mode}, start L c = some y → Comments.read L (.none, ⟨ls, l, .code⟩) c = (.none, ⟨ls, l ++ [c], view y.2⟩) ∧ Sane L y.2 := by
    intro y hy
    obtain ⟨h1, h2, h3⟩ := start_put hy ls l
    rw [C98.read_plain L h1]
    exact ⟨by rw [← h2]; rfl, h3⟩
  cases m with
  | gap => exact code h
  | word w =>
    simp only [step] at h
    split at h
    · rename_i hw
      injection h with h; subst h
      have hs : start L c = some ([], .word [c]) := by
        have hb : ¬ (c = ' ' ∨ c = '\t') := by rintro (rfl | rfl) <;> revert hw <;> decide
        rw [start, if_neg hb, if_pos hw]
      obtain ⟨g1, g2⟩ := code hs
      exact ⟨g1, g2⟩
    · cases hy : start L c with
      | none => rw [hy] at h; cases hw : word L w <;> rw [hw] at h <;> cases h
      | some y =>
        rw [hy] at h
        cases hw : word L w with
        | none => rw [hw] at h; cases h
        | some t =>
          rw [hw] at h
          injection h with h; subst h
          obtain ⟨g1, g2⟩ := code hy
          exact ⟨g1, g2⟩
  | colon =>
    simp only [step] at h
    split at h
    · rename_i hc
      injection h with h; subst h
      have hs : start L c = some ([], .colon) := by subst hc; cases L <;> decide
      obtain ⟨g1, g2⟩ := code hs
      exact ⟨g1, g2⟩
    · cases hy : start L c with
      | none => rw [hy] at h; cases h
      | some y =>
        rw [hy] at h
        injection h with h; subst h
        obtain ⟨g1, g2⟩ := code hy
        exact ⟨g1, g2⟩
  | str q s =>
    simp only [step] at h
    split at h
    · rename_i hc
      injection h with h; subst h
      have hb : c ≠ '\\' := by
        subst hc
        rintro rfl
        revert hm
        show ¬ '\\' ∈ Comments.quotes L
        cases L <;> decide
      rw [C98.read_plain L hb]
      refine ⟨?_, trivial⟩
      simp only [Comments.step, view, if_pos hc]
      rfl
    · rename_i hc
      split at h
      · cases h
      · rename_i hx
        injection h with h; subst h
        have hb : c ≠ '\\' := fun e => hx (by simp [e])
        rw [C98.read_plain L hb]
        refine ⟨?_, hm⟩
        have he : c ∉ Comments.ends L := fun hm => hx (by
          have := (by cases L <;> decide : ∀ c ∈ Comments.ends L, c ∈ ['\\', '\n', '\r', '\u2028', '\u2029']) c hm
          exact this)
        simp only [Comments.step, view]
        rw [if_neg hc, if_neg hb, if_neg (by simp [he])]
        rfl

/-- A line with tokens is code throughout. -/
theorem lex_run {L : Lang} {s : Str} {ts : List Tok} : ∀ {m : Mode}, Sane L m → lex L m s = some ts → ∀ (ls : List Str) (l : Str),
    Comments.run L (.none, ⟨ls, l, view m⟩) s = (.none, ⟨ls, l ++ s, .code⟩) := by
  induction s generalizing ts with
  | nil =>
    intro m hm h ls l
    rw [List.append_nil]
    cases m <;> first | rfl | cases h
  | cons c s ih =>
    intro m hm h ls l
    rw [lex] at h
    cases hx : step L m c with
    | none => rw [hx] at h; cases h
    | some x =>
      rw [hx] at h
      dsimp only at h
      obtain ⟨h1, h2⟩ := step_put hm hx ls l
      cases hy : lex L x.2 s with
      | none => rw [hy] at h; cases h
      | some ts' =>
        show Comments.run L (Comments.read L _ c) s = _
        rw [h1, ih h2 hy]
        simp

/-- Blank lines have no tokens. -/
theorem blank_lex {L : Lang} {s : Str} (hr : '\r' ∉ s) (h : Comments.blank s = true) : lex L .gap s = some [] := by
  induction s with
  | nil => rfl
  | cons c s ih =>
    simp only [Comments.blank, List.all_cons, Bool.and_eq_true, Bool.or_eq_true, decide_eq_true_eq] at h
    have hc : c = ' ' ∨ c = '\t' := by
      rcases h.1 with h' | h'
      · exact h'
      · exact absurd (by simp [h']) hr
    have : step L .gap c = some ([], .gap) := by rcases hc with rfl | rfl <;> cases L <;> decide
    rw [lex, this]
    dsimp only
    rw [ih (fun hm => hr (by simp [hm])) (by simpa [Comments.blank] using h.2)]
    rfl

theorem lex_cr {L : Lang} {s : Str} {ts : List Tok} : ∀ {m : Mode}, Sane L m → lex L m s = some ts → '\r' ∉ s := by
  induction s generalizing ts with
  | nil => intro m _ _ h; cases h
  | cons c s ih =>
    intro m hm h
    rw [lex] at h
    cases hx : step L m c with
    | none => rw [hx] at h; cases h
    | some x =>
      rw [hx] at h
      dsimp only at h
      obtain ⟨-, h2⟩ := step_put hm hx [] []
      cases hy : lex L x.2 s with
      | none => rw [hy] at h; cases h
      | some ts' =>
        have hc : c ≠ '\r' := by
          rintro rfl
          have hs : start L '\r' = none := by cases L <;> decide
          have hq : ∀ q, q ∈ Comments.quotes L → '\r' ≠ q := by cases L <;> decide
          cases m with
          | gap => simp only [step, hs] at hx; cases hx
          | word w =>
            simp only [step, hs] at hx
            rw [if_neg (by decide)] at hx
            cases hw : word L w <;> rw [hw] at hx <;> cases hx
          | colon => simp only [step, hs] at hx; rw [if_neg (by decide)] at hx; cases hx
          | str q s => simp only [step] at hx; rw [if_neg (hq q hm), if_pos (by decide)] at hx; cases hx
        intro hm'
        rcases List.mem_cons.1 hm' with e | e
        · exact hc e.symm
        · exact ih h2 hy e

theorem lexAll_append (L : Lang) (ls ls' : List Str) : lexAll L (ls ++ ls') = match lexAll L ls, lexAll L ls' with
    | some ts, some ts' => some (ts ++ ts')
    | _, _ => none := by
  induction ls with
  | nil => cases h : lexAll L ls' <;> simp [lexAll, h]
  | cons l ls ih =>
    rw [List.cons_append, lexAll, lexAll, ih]
    cases lex L .gap l <;> cases lexAll L ls <;> cases lexAll L ls' <;> simp

/-! ## Texts of whole lines -/

/-- The tokens of a text that consists of whole lines. -/
def Toks (L : Lang) (s : Str) (ts : List Tok) : Prop := ∃ ls', (∀ ls, Comments.run L (.none, { lines := ls }) s = (.none, { lines := ls ++ ls' })) ∧
  lexAll L ls' = some ts

theorem Toks.nil {L : Lang} : Toks L [] [] := ⟨[], fun ls => by simp [Comments.run], rfl⟩

theorem Toks.append {L : Lang} {s s' : Str} {ts ts' : List Tok} (h : Toks L s ts) (h' : Toks L s' ts') : Toks L (s ++ s') (ts ++ ts') := by
  obtain ⟨ls, h1, h2⟩ := h
  obtain ⟨ls', h1', h2'⟩ := h'
  refine ⟨ls ++ ls', fun l => ?_, by rw [lexAll_append, h2, h2']⟩
  rw [C98.run_append, h1, h1', List.append_assoc]

theorem Toks.flatMap {L : Lang} {α : Type} {l : List α} {f : α → Str} {g : α → List Tok} (h : ∀ a ∈ l, Toks L (f a) (g a)) :
    Toks L (l.flatMap f) (l.flatMap g) := by
  induction l with
  | nil => exact Toks.nil
  | cons a l ih =>
    rw [List.flatMap_cons, List.flatMap_cons]
    exact (h a (by simp)).append (ih fun b hb => h b (by simp [hb]))

theorem newline_toks {L : Lang} {s : Str} {ts : List Tok} (h : lex L .gap s = some ts) : ∃ ls', (∀ ls, Comments.newline ⟨ls, s, .code⟩ =
    { lines := ls ++ ls' }) ∧ (∀ ls, Comments.newline ⟨ls, s, .note⟩ = { lines := ls ++ ls' }) ∧ lexAll L ls' = some ts := by
  by_cases hb : Comments.blank s = true
  · refine ⟨[], fun ls => by simp [Comments.newline, hb], fun ls => by simp [Comments.newline, hb], ?_⟩
    rw [blank_lex (lex_cr (m := .gap) trivial h) hb] at h
    exact h
  · refine ⟨[s], fun ls => by simp [Comments.newline, hb], fun ls => by simp [Comments.newline, hb], ?_⟩
    rw [lexAll, h]
    simp [lexAll]

/-- A line. -/
theorem Toks.line {L : Lang} {s : Str} {ts : List Tok} (h : lex L .gap s = some ts) : Toks L (s ++ c!"\n") ts := by
  obtain ⟨ls', h1, -, h2⟩ := newline_toks h
  refine ⟨ls', fun ls => ?_, h2⟩
  rw [C98.run_append, show ({ lines := ls } : Reading) = ⟨ls, [], view .gap⟩ from rfl, lex_run (m := .gap) trivial h]
  show Comments.read L _ '\n' = _
  rw [C98.read_plain L (by decide)]
  have : Comments.step L ⟨ls, [] ++ s, .code⟩ '\n' = Comments.newline ⟨ls, s, .code⟩ := by
    simp only [Comments.step, Comments.plain, List.nil_append]
    rw [if_pos (by cases L <;> decide)]
  rw [this, h1]

/-- A line with a comment behind the code. -/
theorem Toks.noted {L : Lang} {s c : Str} {ts : List Tok} (h : lex L .gap s = some ts) (hc : C98.Named L c) : Toks L (s ++ c!"//" ++ c ++ c!"\n") ts := by
  obtain ⟨ls', -, h1, h2⟩ := newline_toks h
  refine ⟨ls', fun ls => ?_, h2⟩
  rw [C98.run_append, C98.run_append, C98.run_append, show ({ lines := ls } : Reading) = ⟨ls, [], view .gap⟩ from rfl, lex_run (m := .gap) trivial h]
  have e1 : Comments.run L (.none, ⟨ls, [] ++ s, .code⟩) c!"//" = (.none, ⟨ls, s, .note⟩) := by
    show Comments.read L (Comments.read L _ '/') '/' = _
    rw [C98.read_plain L (by decide), C98.read_plain L (by decide)]
    have : Comments.step L ⟨ls, [] ++ s, .code⟩ '/' = ⟨ls, s, .slash⟩ := by
      simp only [Comments.step, Comments.plain, List.nil_append]
      rw [if_neg (by cases L <;> decide)]
      rfl
    rw [this]
    rfl
  have e2 : ∀ c : Str, C98.Named L c → Comments.run L (.none, ⟨ls, s, .note⟩) c = (.none, ⟨ls, s, .note⟩) := by
    intro c hc
    induction c with
    | nil => rfl
    | cons d c ih =>
      obtain ⟨hd, hb⟩ := hc d (by simp)
      show Comments.run L (Comments.read L _ d) c = _
      rw [C98.read_plain L hb]
      have : Comments.step L ⟨ls, s, .note⟩ d = ⟨ls, s, .note⟩ := by simp [Comments.step, hd]
      rw [this, ih fun x hx => hc x (by simp [hx])]
  rw [e1, e2 c hc]
  show Comments.read L _ '\n' = _
  rw [C98.read_plain L (by decide)]
  have : Comments.step L ⟨ls, s, .note⟩ '\n' = Comments.newline ⟨ls, s, .note⟩ := by
    simp only [Comments.step]
    rw [if_pos (by cases L <;> decide)]
  rw [this, h1]

/-- The comment before a declaration. -/
theorem Toks.comment {L : Lang} {n d : Str} (hn : C98.Named L n) (hd : C98.Safe L d) : Toks L (genFieldComment n d c!"//") [] := by
  refine ⟨[], fun ls => ?_, rfl⟩
  obtain ⟨c, e, h⟩ := C98.comment_unseen L ls hn hd
  rw [e, List.append_nil]
  show Comments.run L (Comments.read L (Comments.read L _ '\r') '\n') c = _
  have : Comments.read L (Comments.read L (.none, { lines := ls }) '\r') '\n' = (.none, { lines := ls }) := by
    cases L <;> simp [Comments.read, Comments.before, Comments.joining, Comments.escapes, Comments.fresh, Comments.step, Comments.plain, Comments.ends, Comments.newline,
      Comments.blank, Comments.put, Comments.quotes]
  rw [this, h]

/-- A text without variables in it. -/
theorem Toks.lit {L : Lang} {s : Str} {ls' : List Str} {ts : List Tok} (h : Comments.run L (.none, {}) s = (.none, { lines := ls' }))
    (h' : lexAll L ls' = some ts) : Toks L s ts := by
  refine ⟨ls', fun ls => ?_, h'⟩
  have key : ∀ (s : Str) (a : Ahead) (r : Reading), Comments.run L (a, { r with lines := ls ++ r.lines }) s =
      ((Comments.run L (a, r) s).1, { (Comments.run L (a, r) s).2 with lines := ls ++ (Comments.run L (a, r) s).2.lines }) := by
    have hnl : ∀ r : Reading, Comments.newline { r with lines := ls ++ r.lines } = { Comments.newline r with lines := ls ++ (Comments.newline r).lines } := by
      intro r; simp [Comments.newline]
    have hp : ∀ (r : Reading) (c : Char), Comments.plain L { r with lines := ls ++ r.lines } c =
        { Comments.plain L r c with lines := ls ++ (Comments.plain L r c).lines } := by
      intro r c
      simp only [Comments.plain]
      repeat' split
      · exact hnl r
      · rfl
      · rfl
      · rfl
    have hst : ∀ (r : Reading) (c : Char), Comments.step L { r with lines := ls ++ r.lines } c =
        { Comments.step L r c with lines := ls ++ (Comments.step L r c).lines } := by
      intro r c
      obtain ⟨x, l, m⟩ := r
      cases m <;> simp only [Comments.step]
      · exact hp ⟨x, l, .code⟩ c
      · repeat' split
        · rfl
        · rfl
        · exact hp (Comments.put ⟨x, l, .slash⟩ '/' .code) c
      · split
        · exact hnl ⟨x, l, .note⟩
        · rfl
      · split <;> rfl
      · repeat' split
        all_goals rfl
      · rename_i q
        repeat' split
        · rfl
        · rfl
        · exact hnl ⟨x, l, .str q⟩
        · rfl
      · rfl
    have hf : ∀ (cs : Str) (r : Reading), cs.foldl (Comments.step L) { r with lines := ls ++ r.lines } =
        { cs.foldl (Comments.step L) r with lines := ls ++ (cs.foldl (Comments.step L) r).lines } := by
      intro cs
      induction cs with
      | nil => intro r; rfl
      | cons c cs ih =>
        intro r
        rw [List.foldl_cons, List.foldl_cons, hst, ih]
    intro s
    induction s with
    | nil => intro a r; rfl
    | cons c s ih =>
      intro a r
      show Comments.run L (Comments.read L _ c) s = _
      rw [show Comments.run L (a, r) (c :: s) = Comments.run L (Comments.read L (a, r) c) s from rfl]
      simp only [Comments.read]
      rw [hf, ih]
  have := key s .none {}
  rw [h] at this
  simpa using this

/-- The tokens of a whole text. -/
theorem Toks.tokens {L : Lang} {s : Str} {ts : List Tok} (h : Toks L s ts) : tokens L s = some ts := by
  obtain ⟨ls, h1, h2⟩ := h
  have := h1 []
  unfold Syntax.tokens Comments.seen
  rw [show ((Ahead.none, {}) : Ahead × Reading) = (.none, { lines := [] }) from rfl, this, C98.newline_code]
  exact h2

/-! ## Parts of lines -/

/-- The start of a text is no part of a word. -/
def Apart : Str → Prop
  | [] => True
  | c :: _ => wordChar c = false

theorem apart {c : Char} {r : Str} (h : wordChar c = false) : Apart (c :: r) := h

/-- A text in a line, before something that does not go on with a word. -/
def Emits (L : Lang) (s : Str) (ts : List Tok) : Prop := ∀ rest, Apart rest → lex L .gap (s ++ rest) = (lex L .gap rest).map (ts ++ ·)

/-- A name. -/
def Ident (L : Lang) (w : Str) : Prop := (∃ c r, w = c :: r ∧ letter c = true) ∧ (∀ c ∈ w, wordChar c = true) ∧ w ∉ keywords L

instance (L : Lang) (w : Str) : Decidable (Ident L w) := by
  cases w with
  | nil => exact .isFalse fun h => by obtain ⟨⟨c, r, h, -⟩, -⟩ := h; cases h
  | cons c r =>
    refine decidable_of_iff (letter c = true ∧ (∀ d ∈ c :: r, wordChar d = true) ∧ (c :: r) ∉ keywords L) ?_
    exact ⟨fun h => ⟨⟨c, r, rfl, h.1⟩, h.2⟩, fun h => ⟨by obtain ⟨⟨c', r', e, h'⟩, -⟩ := h; cases e; exact h', h.2⟩⟩

theorem start_word (L : Lang) {c : Char} (h : wordChar c = true) : start L c = some ([], .word [c]) := by
  have n1 : ¬ (c = ' ' ∨ c = '\t') := by rintro (rfl | rfl) <;> revert h <;> decide
  rw [start, if_neg n1, if_pos h]

theorem lex_word (L : Lang) {w rest : Str} (hr : Apart rest) : ∀ v, (∀ d ∈ w, wordChar d = true) →
    lex L (.word v) (w ++ rest) = match word L (v ++ w) with
      | some t => (lex L .gap rest).map (t :: ·)
      | none => none := by
  induction w with
  | nil =>
    intro v _
    rw [List.nil_append, List.append_nil]
    cases rest with
    | nil => rw [lex, lex, Syntax.finish, Syntax.finish]; cases word L v <;> rfl
    | cons c rest =>
      rw [lex, lex]
      simp only [Syntax.step]
      rw [if_neg (by simp [show wordChar c = false from hr])]
      cases word L v with
      | none => rfl
      | some t =>
        cases start L c with
        | none => rfl
        | some x =>
          dsimp only [Option.map]
          cases lex L x.2 rest <;> rfl
  | cons d w ih =>
    intro v hw
    have hd := hw d (by simp)
    rw [List.cons_append, lex]
    simp only [Syntax.step]
    rw [if_pos hd]
    dsimp only
    rw [ih (v ++ [d]) fun e he => hw e (by simp [he]), List.append_assoc]
    simp only [List.singleton_append, List.nil_append]
    cases word L (v ++ d :: w) with
    | none => rfl
    | some t => dsimp only; cases lex L .gap rest <;> rfl

theorem any_word {L : Lang} {w : Str} {t : Tok} (h2 : ∀ c ∈ w, wordChar c = true) (ht : word L w = some t) : Emits L w [t] := fun rest hr => by
  cases w with
  | nil => cases ht
  | cons d r =>
    have hd := h2 d (by simp)
    rw [List.cons_append, lex]
    simp only [Syntax.step]
    rw [start_word L hd]
    dsimp only
    rw [lex_word L hr [d] fun e he => h2 e (by simp [he])]
    simp only [List.singleton_append, ht]
    cases lex L .gap rest <;> rfl

theorem Ident.emits {L : Lang} {w : Str} (h : Ident L w) : Emits L w [.ident w] := by
  refine any_word h.2.1 ?_
  obtain ⟨⟨c, r, rfl, hc⟩, -, hk⟩ := h
  rw [word, if_pos hc, if_neg hk]

theorem Ident.named {L : Lang} {w : Str} (h : Ident L w) : C98.Named L w := fun c hc => by
  have := h.2.1 c hc
  refine ⟨fun he => ?_, fun he => by subst he; revert this; decide⟩
  have : ∀ c ∈ Comments.ends L, wordChar c = false := by cases L <;> decide
  rw [this c he] at *
  contradiction

/-- A literal part of a line. -/
theorem lex_lit {L : Lang} {l rest : Str} {ts ts' : List Tok} (h : lexTo L .gap l = some (ts, .gap)) (h' : lex L .gap rest = some ts') :
    lex L .gap (l ++ rest) = some (ts ++ ts') := by
  rw [lex_append, h]
  dsimp only
  rw [h']
  rfl

/-- A part of a line. -/
theorem lex_emit {L : Lang} {w rest : Str} {ts ts' : List Tok} (h : Emits L w ts) (hr : Apart rest) (h' : lex L .gap rest = some ts') :
    lex L .gap (w ++ rest) = some (ts ++ ts') := by
  rw [h rest hr, h']
  rfl

/-- What is in a string. -/
def Inside (q : Char) (s : Str) : Prop := ∀ c ∈ s, c ≠ q ∧ c ∉ ['\\', '\n', '\r', '\u2028', '\u2029']

instance (q : Char) (s : Str) : Decidable (Inside q s) := inferInstanceAs (Decidable (∀ c ∈ s, _))

theorem lex_inside (L : Lang) {q : Char} {s rest : Str} (h : Inside q s) : ∀ v, lex L (.str q v) (s ++ q :: rest) = (lex L .gap rest).map (.str q (v ++ s) :: ·) := by
  induction s with
  | nil =>
    intro v
    rw [List.nil_append, lex]
    simp only [Syntax.step, if_true]
    rw [List.append_nil]
    cases lex L .gap rest <;> rfl
  | cons c s ih =>
    intro v
    obtain ⟨h1, h2⟩ := h c (by simp)
    rw [List.cons_append, lex]
    simp only [Syntax.step]
    rw [if_neg h1, if_neg h2]
    dsimp only
    rw [ih (fun d hd => h d (by simp [hd])), List.append_assoc]
    cases lex L .gap rest <;> rfl

/-- A string in a line. -/
theorem lex_str {L : Lang} {q : Char} {s rest : Str} {ts : List Tok} (hq : q = '"' ∨ (q = '\'' ∧ L = .ts)) (h : Inside q s)
    (h' : lex L .gap rest = some ts) : lex L .gap (q :: (s ++ q :: rest)) = some (.str q s :: ts) := by
  have hs : step L .gap q = some ([], .str q []) := by
    show start L q = _
    rcases hq with rfl | ⟨rfl, rfl⟩
    · cases L <;> decide
    · decide
  rw [lex, hs]
  dsimp only
  rw [lex_inside L h, h']
  rfl

/-! ## Sequences -/

/-- Lines of things of a kind. -/
def Part {α : Type} (L : Lang) (close : Tok) (item : List Tok → Option (α × List Tok)) (s : Str) (as : List α) : Prop :=
  ∃ ts, Toks L s ts ∧ as.length ≤ ts.length ∧ ∀ k r, upTo close item (k + as.length) (ts ++ r) = (upTo close item k r).map fun x => (as ++ x.1, x.2)

section
variable {α : Type} {L : Lang} {close : Tok} {item : List Tok → Option (α × List Tok)}

theorem Part.nil : Part L close item [] [] := ⟨[], Toks.nil, by simp, fun k r => by
  rw [List.nil_append, List.length_nil, Nat.add_zero]
  cases upTo close item k r <;> rfl⟩

theorem Part.append {s s' : Str} {as as' : List α} (h : Part L close item s as) (h' : Part L close item s' as') : Part L close item (s ++ s') (as ++ as') := by
  obtain ⟨ts, h1, h2, h3⟩ := h
  obtain ⟨ts', h1', h2', h3'⟩ := h'
  refine ⟨ts ++ ts', h1.append h1', by simp; omega, fun k r => ?_⟩
  rw [List.append_assoc, List.length_append, Nat.add_comm as.length, ← Nat.add_assoc, h3, h3', Option.map_map]
  congr 1
  funext x
  simp

theorem Part.flatMap {β : Type} {l : List β} {f : β → Str} {g : β → α} (h : ∀ a ∈ l, Part L close item (f a) [g a]) :
    Part L close item (l.flatMap f) (l.map g) := by
  induction l with
  | nil => exact Part.nil
  | cons a l ih =>
    rw [List.flatMap_cons, List.map_cons]
    exact (h a (by simp)).append (as := [g a]) (ih fun b hb => h b (by simp [hb]))

theorem Part.one {s : Str} {t : Tok} {ts : List Tok} {a : α} (h : Toks L s (t :: ts)) (h1 : ∀ r, item (t :: ts ++ r) = some (a, r)) (h2 : t ≠ close) :
    Part L close item s [a] := by
  refine ⟨_, h, by simp, fun k r => ?_⟩
  have hf := h1 r
  rw [List.cons_append] at hf ⊢
  rw [List.length_singleton, upTo, if_neg h2, hf]
  rfl

/-- A sequence that is closed. -/
theorem Part.closed {s : Str} {as : List α} (h : Part L close item s as) : ∃ ts, Toks L s ts ∧
    ∀ r, upTo close item ((ts ++ close :: r).length + 1) (ts ++ close :: r) = some (as, r) := by
  obtain ⟨ts, h1, h2, h3⟩ := h
  refine ⟨ts, h1, fun r => ?_⟩
  have hl : (ts ++ close :: r).length + 1 = (ts.length - as.length + r.length + 1 + 1) + as.length := by
    simp only [List.length_append, List.length_cons]; omega
  rw [hl, h3, upTo, if_pos rfl]
  simp

/-- Things of a kind one after the other. -/
theorem alls {β : Type} {l : List β} {f : β → Str} {g : β → α} (h : ∀ a ∈ l, ∃ t ts, Toks L (f a) (t :: ts) ∧ ∀ r, item (t :: ts ++ r) = some (g a, r)) :
    ∃ ts, Toks L (l.flatMap f) ts ∧ l.length ≤ ts.length ∧ ∀ k, l.length < k → all item k ts = some (l.map g) := by
  induction l with
  | nil =>
    refine ⟨[], Toks.nil, by simp, fun k hk => ?_⟩
    cases k with
    | zero => cases hk
    | succ k => rfl
  | cons a l ih =>
    obtain ⟨ts, h1, h2, h3⟩ := ih fun b hb => h b (by simp [hb])
    obtain ⟨t, ts', h1', h3'⟩ := h a (by simp)
    refine ⟨t :: ts' ++ ts, h1'.append h1, by simp; omega, fun k hk => ?_⟩
    cases k with
    | zero => cases hk
    | succ k =>
      have hd := h3' ts
      rw [List.cons_append] at hd ⊢
      rw [all, hd]
      dsimp only
      rw [h3 k (by simpa using hk)]
      rfl
end

end Xgen.Syntax
