import Verif.Lemmas.Calm

/-! # Texts that consist of declarations: a head line between other lines

Used to read complete generated files declaration by declaration. -/

namespace Xgen

/-- What lines before the head line of a declaration start with. -/
def outer (c : Char) : Bool := c ∈ ['\r', '/', '@', '#']

/-- A line that is empty or starts in a given way. -/
def Begins (q : Char → Bool) (l : Str) : Prop := ∀ c, l.head? = some c → q c = true

/-- Complete lines before the head line of a declaration. -/
def Outer (s : Str) : Prop := ∃ ls, Lines s ls ∧ ∀ l ∈ ls, Begins outer l

theorem Outer.append {a b : Str} (ha : Outer a) (hb : Outer b) : Outer (a ++ b) := by
  obtain ⟨as, h1, h2⟩ := ha
  obtain ⟨bs, h3, h4⟩ := hb
  refine ⟨as ++ bs, h1.append h3, fun l hl => ?_⟩
  rcases List.mem_append.1 hl with h | h
  · exact h2 l h
  · exact h4 l h

theorem Outer.calm {s : Str} (h : calm outer true s = true) : Outer s := (calm_lines outer s).1 h

theorem Outer.comment (name doc : Str) (hn : '\n' ∉ name) : Outer (genFieldComment name doc c!"//") := by
  obtain ⟨ls, h1, h2⟩ := C55.comment_heads name doc hn
  refine ⟨ls, h1, fun l hl c hc => ?_⟩
  rcases h2 l hl with e | e | e <;> rw [e] at hc <;> cases hc <;> rfl

/-- A declaration: lines before, the head line `h`, and lines that start as in `q`. -/
structure Starts (q : Char → Bool) (s h body : Str) : Prop where
  text : ∃ pre, Outer pre ∧ s = pre ++ (h ++ c!"\n") ++ body
  line : '\n' ∉ h
  rest : calm q true body = true

theorem Starts.lines {q : Char → Bool} {s h body : Str} (hs : Starts q s h body) :
    ∃ c b, Lines s (c ++ h :: b) ∧ (∀ l ∈ c, Begins outer l) ∧ Lines body b ∧ ∀ l ∈ b, Begins q l := by
  obtain ⟨⟨pre, ⟨c, h1, h2⟩, rfl⟩, h3, h4⟩ := hs
  obtain ⟨b, h5, h6⟩ := (calm_lines q body).1 h4
  refine ⟨c, b, ?_, h2, h5, h6⟩
  have e : c ++ h :: b = c ++ [h] ++ b := by simp
  rw [e]
  exact (h1.append (Lines.one h3)).append h5

/-- A declaration contains one thing that a reader of lines starting otherwise reads: that in its head line. -/
theorem Starts.part {β : Type} {q : Char → Bool} {s h body : Str} {r : Str → Option β} {x : β} (hs : Starts q s h body)
    (hr : ∀ l, Begins q l → r l = none) (ho : ∀ c, outer c = true → q c = true) (hx : r h = some x) :
    C54.Part (List.filterMap r) s [x] := by
  obtain ⟨c, b, h1, h2, -, h4⟩ := hs.lines
  refine C54.Part.lines h1 ?_
  have hc : c.filterMap r = [] := List.filterMap_eq_nil_iff.2 fun l hl => hr l fun d hd => ho d (h2 l hl d hd)
  have hb : b.filterMap r = [] := List.filterMap_eq_nil_iff.2 fun l hl => hr l (h4 l hl)
  rw [List.filterMap_append, List.filterMap_cons, hx, hc, hb]
  rfl

/-! ## Reading a file declaration by declaration -/

/-- The lines before the first head line, and for each head line the lines up to the next one. -/
def chunks (hd : Str → Bool) : List Str → List Str × List (Str × List Str)
  | [] => ([], [])
  | l :: ls => if hd l then ([], (l, (chunks hd ls).1) :: (chunks hd ls).2) else (l :: (chunks hd ls).1, (chunks hd ls).2)

theorem chunks_skip {hd : Str → Bool} {as : List Str} (h : ∀ l ∈ as, hd l = false) (ls : List Str) :
    chunks hd (as ++ ls) = (as ++ (chunks hd ls).1, (chunks hd ls).2) := by
  induction as with
  | nil => rfl
  | cons a as ih => rw [List.cons_append, chunks, h a (by simp), ih fun l hl => h l (by simp [hl])]; rfl

/-- Members of a declaration do not depend on the lines before head lines. -/
structure Reads {β : Type} (R : List Str → β) : Prop where
  before : ∀ c ls, (∀ l ∈ c, Begins outer l) → R (c ++ ls) = R ls
  after : ∀ c ls, (∀ l ∈ c, Begins outer l) → R (ls ++ c) = R ls

theorem untabbed_outer {l : Str} (h : Begins outer l) : ∀ r, l ≠ '\t' :: r := by
  rintro r rfl
  exact absurd (h '\t' rfl) (by decide)

theorem Reads.filterMap {β : Type} {r : Str → Option β} (h : ∀ l, Begins outer l → r l = none) : Reads (List.filterMap r) := by
  have hn : ∀ c : List Str, (∀ l ∈ c, Begins outer l) → c.filterMap r = [] :=
    fun c hc => List.filterMap_eq_nil_iff.2 fun l hl => h l (hc l hl)
  constructor
  · intro c ls hc
    rw [List.filterMap_append, hn c hc, List.nil_append]
  · intro c ls hc
    rw [List.filterMap_append, hn c hc, List.append_nil]

theorem Reads.scan {β : Type} (field : Option Str → Str → Option β) : Reads (scan field none) := by
  have hn : ∀ (c : List Str) (p), (∀ l ∈ c, Begins outer l) → Xgen.scan field p c = [] := by
    intro c
    induction c with
    | nil => intro _ _; rfl
    | cons l c ih =>
      intro p hc
      rw [Xgen.scan]
      · exact ih _ fun m hm => hc m (by simp [hm])
      · exact fun r => untabbed_outer (hc l (by simp)) r
  constructor
  · intro c ls hc
    exact Block.untabbed (fun l hl => untabbed_outer (hc l hl)) ls
  · intro c ls hc
    generalize (none : Option Str) = p
    induction ls generalizing p with
    | nil => rw [List.nil_append, hn c p hc]; rfl
    | cons l ls ih =>
      rw [List.cons_append]
      by_cases hl : ∃ r, l = '\t' :: r
      · obtain ⟨r, rfl⟩ := hl
        rw [Xgen.scan, Xgen.scan]
        cases field p r <;> simp only [ih]
      · have hl : ∀ r, l ≠ '\t' :: r := fun r e => hl ⟨r, e⟩
        rw [Xgen.scan, Xgen.scan]
        · exact ih _
        · exact fun r => hl r
        · exact fun r => hl r

theorem Reads.pair {α β : Type} {R : List Str → α} {S : List Str → β} (h : Reads R) (k : Reads S) : Reads fun ls => (R ls, S ls) :=
  ⟨fun c ls hc => by rw [h.before c ls hc, k.before c ls hc], fun c ls hc => by rw [h.after c ls hc, k.after c ls hc]⟩

/-- Reading a file: for each head line what its declaration says. -/
def readFile {β : Type} (hd : Str → Bool) (R : List Str → β) (text : Str) : List (Str × β) :=
  (chunks hd (splitOn '\n' text)).2.map fun x => (x.1, R (x.1 :: x.2))

theorem begins_nil (q : Char → Bool) : Begins q [] := fun _ h => by cases h

/-- A file that consists of declarations reads declaration by declaration. -/
theorem readFile_eq {α β : Type} {q : Char → Bool} {hd : Str → Bool} {R : List Str → β} (hR : Reads R)
    (hq : ∀ l, Begins q l → hd l = false) (ho : ∀ l, Begins outer l → hd l = false) {xs : List α} {text head : α → Str}
    (h : ∀ x ∈ xs, hd (head x) = true ∧ ∃ body, Starts q (text x) (head x) body) {pre : Str} {ps : List Str} (hp : Lines pre ps)
    (hps : ∀ l ∈ ps, hd l = false) :
    readFile hd R (pre ++ xs.flatMap text) = xs.map fun x => (head x, R (splitOn '\n' (text x))) := by
  have key : ∀ xs : List α, (∀ x ∈ xs, hd (head x) = true ∧ ∃ body, Starts q (text x) (head x) body) →
      (∀ l ∈ (chunks hd (splitOn '\n' (xs.flatMap text))).1, Begins outer l) ∧
      (chunks hd (splitOn '\n' (xs.flatMap text))).2.map (fun x => (x.1, R (x.1 :: x.2))) =
        xs.map fun x => (head x, R (splitOn '\n' (text x))) := by
    intro xs
    induction xs with
    | nil =>
      intro _
      have e : splitOn '\n' [] = [[]] := rfl
      rw [List.flatMap_nil, e, chunks, ho [] (begins_nil _)]
      refine ⟨?_, rfl⟩
      intro l hl
      simp only [chunks, Bool.false_eq_true, if_false, List.mem_singleton] at hl
      rw [hl]; exact begins_nil _
    | cons x xs ih =>
      intro hx
      obtain ⟨i1, i2⟩ := ih fun y hy => hx y (by simp [hy])
      obtain ⟨hh, body, hs⟩ := hx x (by simp)
      obtain ⟨c, b, h1, h2, -, h4⟩ := hs.lines
      have e1 : splitOn '\n' ((x :: xs).flatMap text) = c ++ (head x :: (b ++ splitOn '\n' (xs.flatMap text))) := by
        rw [List.flatMap_cons, h1, List.append_assoc, List.cons_append]
      have e2 : splitOn '\n' (text x) = c ++ head x :: (b ++ [[]]) := by
        have := h1 []
        rw [List.append_nil] at this
        rw [this, List.append_assoc]; rfl
      rw [e1, chunks_skip fun l hl => ho l (h2 l hl), chunks, if_pos hh, chunks_skip fun l hl => hq l (h4 l hl)]
      simp only [List.append_nil, List.map_cons, i2]
      refine ⟨h2, ?_⟩
      congr 2
      rw [e2, hR.before c _ h2, ← List.cons_append, hR.after _ _ i1, ← List.cons_append, hR.after [[]] _ ?_]
      intro l hl
      rw [List.mem_singleton.1 hl]; exact begins_nil _
  rw [readFile, hp, chunks_skip hps]
  exact (key xs h).2

/-- Gluing something to the first line of a file whose first line is not a head line. -/
theorem readFile_glue {β : Type} {hd : Str → Bool} {R : List Str → β} {c d : Char} {s : Str} (hc : c ≠ '\n') (hd' : d ≠ '\n')
    (h1 : ∀ t, hd (d :: t) = false) (h2 : ∀ t, hd (c :: d :: t) = false) : readFile hd R (c :: d :: s) = readFile hd R (d :: s) := by
  obtain ⟨p, ps, e1, e2⟩ := splitOn_cons_ne (sep := '\n') hd' s
  obtain ⟨q, qs, e3, e4⟩ := splitOn_cons_ne (sep := '\n') hc (d :: s)
  rw [e2] at e3
  injection e3 with e5 e6
  unfold readFile
  rw [e4, e2, ← e5, ← e6, chunks, chunks, h1, h2]
  rfl

end Xgen
