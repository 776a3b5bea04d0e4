import Verif.Props.C55

/-! # Texts whose lines all start in a given way

Used to show that the bodies of declarations contain no line that looks like the start of a declaration. -/

namespace Xgen

/-- Every line is complete, and is empty or starts with a rune in `q`; `start` says whether a line starts here. -/
def calm (q : Char → Bool) : Bool → Str → Bool
  | start, [] => start
  | true, c :: s => if c = '\n' then calm q true s else q c && calm q false s
  | false, c :: s => calm q (c = '\n') s

theorem calm_inside {q : Char → Bool} {a : Str} (h : '\n' ∉ a) (s : Str) : calm q false (a ++ s) = calm q false s := by
  induction a with
  | nil => rfl
  | cons c a ih =>
    have hc : c ≠ '\n' := fun e => h (by simp [e])
    rw [List.cons_append, calm, decide_eq_false hc]
    exact ih fun e => h (by simp [e])

/-- The form in which inner parts of lines occur. -/
theorem calm_tab {q : Char → Bool} {a : Str} (s : Str) (h : '\n' ∉ a) (hq : q '\t' = true) :
    calm q true ('\t' :: (a ++ '\n' :: s)) = calm q true s := by
  simp [calm, hq, calm_inside h]

theorem calm_append {q : Char → Bool} {a : Str} (b : Bool) (h : calm q b a = true) (s : Str) : calm q b (a ++ s) = calm q true s := by
  induction a generalizing b with
  | nil => rw [calm] at h; rw [h]; rfl
  | cons c a ih =>
    rw [List.cons_append]
    cases b with
    | true =>
      rw [calm] at h ⊢
      split
      · rename_i e
        rw [if_pos e] at h
        exact ih true h
      · rename_i e
        rw [if_neg e, Bool.and_eq_true] at h
        rw [h.1, Bool.true_and]
        exact ih false h.2
    | false =>
      rw [calm] at h ⊢
      exact ih _ h

theorem calm_flatMap {α : Type} {q : Char → Bool} {f : α → Str} {l : List α} (h : ∀ a ∈ l, calm q true (f a) = true) :
    calm q true (l.flatMap f) = true := by
  induction l with
  | nil => rfl
  | cons a l ih =>
    rw [List.flatMap_cons, calm_append true (h a (by simp))]
    exact ih fun b hb => h b (by simp [hb])

theorem calm_lines (q : Char → Bool) (s : Str) :
    (calm q true s = true → ∃ ls, Lines s ls ∧ ∀ l ∈ ls, ∀ c, l.head? = some c → q c = true) ∧
    (calm q false s = true → ∃ l ls, (∀ b, splitOn '\n' (s ++ b) = l :: (ls ++ splitOn '\n' b)) ∧
      ∀ l ∈ ls, ∀ c, l.head? = some c → q c = true) := by
  induction s with
  | nil => exact ⟨fun _ => ⟨[], Lines.nil, by simp⟩, fun h => by cases h⟩
  | cons c s ih =>
    constructor
    · intro h
      rw [calm] at h
      split at h
      · rename_i e
        subst e
        obtain ⟨ls, h1, h2⟩ := ih.1 h
        refine ⟨[] :: ls, fun b => ?_, ?_⟩
        · rw [List.cons_append, splitOn_cons_sep, h1]; rfl
        · intro l hl d hd
          rcases List.mem_cons.1 hl with rfl | hl
          · cases hd
          · exact h2 l hl d hd
      · rename_i e
        rw [Bool.and_eq_true] at h
        obtain ⟨l, ls, h1, h2⟩ := ih.2 h.2
        refine ⟨(c :: l) :: ls, fun b => ?_, ?_⟩
        · rw [List.cons_append, splitOn, if_neg e, h1]; rfl
        · intro m hm d hd
          rcases List.mem_cons.1 hm with rfl | hm
          · cases hd; exact h.1
          · exact h2 m hm d hd
    · intro h
      rw [calm] at h
      by_cases e : c = '\n'
      · subst e
        obtain ⟨ls, h1, h2⟩ := ih.1 h
        exact ⟨[], ls, fun b => by rw [List.cons_append, splitOn_cons_sep, h1], h2⟩
      · rw [decide_eq_false e] at h
        obtain ⟨l, ls, h1, h2⟩ := ih.2 h
        exact ⟨c :: l, ls, fun b => by rw [List.cons_append, splitOn, if_neg e, h1], h2⟩

/-- A calm text contains nothing that a reader of lines starting otherwise reads. -/
theorem calm_part {β : Type} {q : Char → Bool} {r : Str → Option β} (hr : ∀ l, (∀ c, l.head? = some c → q c = true) → r l = none)
    {s : Str} (h : calm q true s = true) : C54.Part (List.filterMap r) s [] := by
  obtain ⟨ls, h1, h2⟩ := (calm_lines q s).1 h
  exact C54.Part.lines h1 (List.filterMap_eq_nil_iff.2 fun l hl => hr l (h2 l hl))

/-- Comments are calm. -/
theorem comment_part {β : Type} {q : Char → Bool} {r : Str → Option β} (hr : ∀ l, (∀ c, l.head? = some c → q c = true) → r l = none)
    (hq : q '\r' = true) (hq2 : q '/' = true) (name doc : Str) (hn : '\n' ∉ name) :
    C54.Part (List.filterMap r) (genFieldComment name doc c!"//") [] := by
  obtain ⟨ls, h1, h2⟩ := C55.comment_heads name doc hn
  refine C54.Part.lines h1 (List.filterMap_eq_nil_iff.2 fun l hl => hr l fun c hc => ?_)
  rcases h2 l hl with e | e | e <;> rw [e] at hc <;> cases hc <;> assumption

end Xgen
