import Verif.Lemmas.Str

/-! # C09: documentation text cannot escape its comment -/

namespace Xgen

theorem splitOn_append_left {sep : Char} {a : Str} (h : sep ∉ a) (b : Str) :
    ∃ p ps, splitOn sep b = p :: ps ∧ splitOn sep (a ++ b) = (a ++ p) :: ps := by
  induction a with
  | nil =>
    cases hb : splitOn sep b with
    | nil => exact absurd hb (splitOn_ne_nil sep b)
    | cons p ps => exact ⟨p, ps, rfl, by simpa using hb⟩
  | cons c cs ih =>
    have hc : c ≠ sep := fun e => h (by simp [e])
    obtain ⟨p, ps, h1, h2⟩ := ih (fun m => h (by simp [m]))
    exact ⟨p, ps, h1, by simp [splitOn, hc, h2]⟩

namespace C09

/-- A line of source text is harmless if it is blank (at most a carriage return) or a comment line. -/
def Harmless (pre line : Str) : Prop := (line = [] ∨ line = c!"\r") ∨ pre <+: line

/-- Every line of the replaced text but the first starts with the comment prefix. -/
theorem docReplace_lines (pre doc : Str) (hp : '\n' ∉ pre) :
    ∃ l ls, splitOn '\n' (docReplace pre doc) = l :: ls ∧ ∀ x ∈ ls, pre <+: x := by
  induction doc with
  | nil => exact ⟨[], [], rfl, by simp⟩
  | cons c cs ih =>
    obtain ⟨l, ls, h1, h2⟩ := ih
    simp only [docReplace]
    split
    · obtain ⟨p, ps, h3, h4⟩ := splitOn_append_left (sep := '\n') (a := pre ++ c!" ") (by simp [hp])
        (docReplace pre cs)
      rw [h1] at h3
      cases h3
      refine ⟨c!"\r", (pre ++ c!" " ++ l) :: ls, ?_, ?_⟩
      · have : c!"\r\n" ++ pre ++ c!" " ++ docReplace pre cs =
            c!"\r" ++ '\n' :: ((pre ++ c!" ") ++ docReplace pre cs) := by simp
        rw [this, splitOn_append_sep (by decide), h4]
      · intro x hx
        rcases List.mem_cons.1 hx with rfl | hx
        · exact ⟨c!" " ++ l, by simp⟩
        · exact h2 x hx
    · split
      · exact ⟨l, ls, h1, h2⟩
      · rename_i hc _
        obtain ⟨p, ps, h3, h4⟩ := splitOn_cons_ne hc (docReplace pre cs)
        rw [h1] at h3
        cases h3
        exact ⟨c :: l, ls, h4, h2⟩

/-- C09: every line of an emitted comment is blank or starts with the comment prefix, whatever the documentation -/
theorem comment_lines (name doc pre : Str) (hn : '\n' ∉ name) (hp : '\n' ∉ pre) :
    ∀ line ∈ splitOn '\n' (genFieldComment name doc pre), Harmless pre line := by
  have key : ∀ mid : Str, (∃ l ls, splitOn '\n' mid = l :: ls ∧ ∀ x ∈ ls, Harmless pre x) →
      ∀ line ∈ splitOn '\n' (c!"\r\n" ++ pre ++ c!" " ++ name ++ mid), Harmless pre line := by
    rintro mid ⟨l, ls, h1, h2⟩
    have e : c!"\r\n" ++ pre ++ c!" " ++ name ++ mid = c!"\r" ++ '\n' :: ((pre ++ c!" " ++ name) ++ mid) := by simp
    obtain ⟨p, ps, h3, h4⟩ := splitOn_append_left (sep := '\n') (a := pre ++ c!" " ++ name) (by simp [hn, hp]) mid
    rw [h1] at h3
    cases h3
    rw [e, splitOn_append_sep (by decide), h4]
    intro line hl
    rcases List.mem_cons.1 hl with rfl | hl
    · exact .inl (by decide)
    · rcases List.mem_cons.1 hl with rfl | hl
      · exact .inr ⟨c!" " ++ name ++ l, by simp⟩
      · exact h2 line hl
  unfold genFieldComment
  split
  · apply key
    exact ⟨c!" ...\r", [[]], by decide, by simp [Harmless]⟩
  · obtain ⟨l, ls, h1, h2⟩ := docReplace_lines pre doc hp
    have : c!"\r\n" ++ pre ++ c!" " ++ name ++ c!" is " ++ docReplace pre doc ++ c!"\r\n" =
      c!"\r\n" ++ pre ++ c!" " ++ name ++ (c!" is " ++ (docReplace pre doc ++ c!"\r\n")) := by simp
    rw [this]
    apply key
    obtain ⟨p, ps, h3, h4⟩ := splitOn_append_left (sep := '\n') (a := c!" is ") (by decide)
      (docReplace pre doc ++ c!"\r\n")
    refine ⟨_, ps, h4, ?_⟩
    -- appending "\r\n" prolongs the last line by "\r" and adds an empty line
    have app : ∀ (s : Str) (q : Str) (qs : List Str), splitOn '\n' (s ++ c!"\r\n") = q :: qs →
        ∀ l ls, splitOn '\n' s = l :: ls → (∀ x ∈ ls, pre <+: x) → ∀ x ∈ qs, Harmless pre x := by
      intro s
      induction s with
      | nil =>
        intro q qs h l ls _ _ x hx
        have : splitOn '\n' (([] : Str) ++ c!"\r\n") = [c!"\r", []] := by decide
        rw [this] at h; cases h; simp at hx; subst hx; exact .inl (.inl rfl)
      | cons c cs ih =>
        intro q qs h l ls h' hls x hx
        by_cases hc : c = '\n'
        · subst hc
          rw [List.cons_append, splitOn_cons_sep] at h
          rw [splitOn_cons_sep] at h'
          cases h; cases h'
          -- the first line of the rest is a later line here
          cases hs : splitOn '\n' cs with
          | nil => exact absurd hs (splitOn_ne_nil _ _)
          | cons l' ls' =>
            rw [hs] at hls
            cases hq : splitOn '\n' (cs ++ c!"\r\n") with
            | nil => exact absurd hq (splitOn_ne_nil _ _)
            | cons q' qs' =>
              rw [hq] at hx
              rcases List.mem_cons.1 hx with rfl | hx
              · right
                have hpre : pre <+: l' := hls l' (by simp)
                -- the first line of cs is a prefix of the first line of cs ++ "\r\n"
                have : ∀ (s : Str) (a b : Str) (as bs : List Str), splitOn '\n' s = a :: as →
                    splitOn '\n' (s ++ c!"\r\n") = b :: bs → a <+: b := by
                  intro s
                  induction s with
                  | nil => intro a b as bs ha _; simp [splitOn] at ha; simp [ha.1]
                  | cons d ds ihd =>
                    intro a b as bs ha hb
                    by_cases hd : d = '\n'
                    · subst hd
                      rw [splitOn_cons_sep] at ha
                      cases ha; simp
                    · obtain ⟨p1, ps1, e1, e2⟩ := splitOn_cons_ne hd ds
                      obtain ⟨p2, ps2, e3, e4⟩ := splitOn_cons_ne hd (ds ++ c!"\r\n")
                      rw [e2] at ha; rw [List.cons_append, e4] at hb
                      cases ha; cases hb
                      exact List.cons_prefix_cons.2 ⟨rfl, ihd _ _ _ _ e1 e3⟩
                exact hpre.trans (this _ _ _ _ _ hs hq)
              · exact ih q' qs' hq l' ls' hs (fun y hy => hls y (by simp [hy])) x hx
        · obtain ⟨p1, ps1, e1, e2⟩ := splitOn_cons_ne hc cs
          obtain ⟨p2, ps2, e3, e4⟩ := splitOn_cons_ne hc (cs ++ c!"\r\n")
          rw [e2] at h'; rw [List.cons_append, e4] at h
          cases h'; cases h
          exact ih _ _ e3 _ _ e1 hls x hx
    exact app _ _ _ h3 _ _ h1 h2

/-- a hostile documentation text -/
example : genFieldComment c!"A" c!"x\nfunc evil() {}\n\tboom" c!"//" =
    c!"\r\n// A is x\r\n// func evil() {}\r\n// boom\r\n" := by decide

end C09
end Xgen
