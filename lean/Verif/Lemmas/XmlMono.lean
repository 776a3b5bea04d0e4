import Verif.Lemmas.Xml

/-! # The decoder reads a text from the front

Every token consumes characters, and does not depend on what stands behind them. -/

namespace Xgen.Xml

theorem dropWhile_inv {p : α → Bool} {s t : List α} {c : α} (h : s.dropWhile p = c :: t) :
    s = s.takeWhile p ++ c :: t ∧ p c = false ∧ ∀ u, (s ++ u).takeWhile p = s.takeWhile p ∧ (s ++ u).dropWhile p = c :: (t ++ u) := by
  induction s with
  | nil => cases h
  | cons a s ih =>
    cases ha : p a with
    | true =>
      rw [List.dropWhile_cons, if_pos ha] at h
      obtain ⟨h1, h2, h3⟩ := ih h
      refine ⟨?_, h2, fun u => ?_⟩
      · rw [List.takeWhile_cons, if_pos ha, List.cons_append, ← h1]
      · rw [List.cons_append, List.takeWhile_cons, if_pos ha, List.takeWhile_cons, if_pos ha, List.dropWhile_cons, if_pos ha,
          (h3 u).1, (h3 u).2]
        exact ⟨rfl, rfl⟩
    | false =>
      rw [List.dropWhile_cons, if_neg (by simp [ha])] at h
      cases h
      refine ⟨?_, ha, fun u => ?_⟩
      · rw [List.takeWhile_cons, if_neg (by simp [ha])]; rfl
      · rw [List.cons_append, List.takeWhile_cons, if_neg (by simp [ha]), List.takeWhile_cons, if_neg (by simp [ha]),
          List.dropWhile_cons, if_neg (by simp [ha])]
        exact ⟨rfl, rfl⟩

theorem skip_inv {s r : Str} {c : Char} (h : skip s = c :: r) :
    r.length < s.length ∧ ∀ u, skip (s ++ u) = c :: (r ++ u) := by
  obtain ⟨h1, _, h3⟩ := dropWhile_inv h
  refine ⟨?_, fun u => (h3 u).2⟩
  have := congrArg List.length h1
  simp only [List.length_append, List.length_cons] at this
  omega

theorem skip_len (s : Str) : (skip s).length ≤ s.length := by
  unfold skip
  induction s with
  | nil => simp
  | cons a s ih =>
    rw [List.dropWhile_cons]
    split
    · simp only [List.length_cons]; omega
    · simp

theorem readName_inv {s n r : Str} (h : readName s = some (n, r)) :
    s = n ++ r ∧ n ≠ [] ∧ r ≠ [] ∧ ∀ u, readName (s ++ u) = some (n, r ++ u) := by
  unfold readName at h
  cases hd : s.dropWhile inName with
  | nil => rw [hd] at h; cases ht : s.takeWhile inName <;> rw [ht] at h <;> cases h
  | cons c t =>
    obtain ⟨h1, h2, h3⟩ := dropWhile_inv hd
    rw [hd] at h
    cases ht : s.takeWhile inName with
    | nil => rw [ht] at h; cases h
    | cons a n' =>
      rw [ht] at h
      cases h
      rw [ht] at h1
      refine ⟨h1, by simp, by simp, fun u => ?_⟩
      unfold readName
      rw [(h3 u).1, (h3 u).2, ht]
      rfl

section
variable [NameChars]

theorem name_inv {s n r : Str} (h : name s = some (n, r)) :
    r.length < s.length ∧ r ≠ [] ∧ ∀ u, name (s ++ u) = some (n, r ++ u) := by
  unfold name at h
  cases hn : readName s with
  | none => rw [hn] at h; cases h
  | some x =>
    obtain ⟨m, t⟩ := x
    rw [hn] at h
    obtain ⟨h1, h2, h3, h4⟩ := readName_inv hn
    simp only at h
    split at h
    · next hi =>
      cases h
      refine ⟨?_, h3, fun u => ?_⟩
      · rw [h1, List.length_append]
        have := List.length_pos_iff.mpr h2
        omega
      · unfold name
        rw [h4 u]
        simp [hi]
    · cases h

theorem nsname_inv {s r : Str} {n : Name} (h : nsname s = some (n, r)) :
    r.length < s.length ∧ r ≠ [] ∧ ∀ u, nsname (s ++ u) = some (n, r ++ u) := by
  unfold nsname at h
  cases hn : name s with
  | none => rw [hn] at h; cases h
  | some x =>
    obtain ⟨m, t⟩ := x
    rw [hn] at h
    obtain ⟨h1, h2, h3⟩ := name_inv hn
    simp only at h
    split at h
    · cases h
    · next hc =>
      have key : t = r ∧ ∀ u, nsname (s ++ u) = some (n, t ++ u) := by
        split at h
        · next hs =>
          cases h
          refine ⟨rfl, fun u => ?_⟩
          unfold nsname
          rw [h3 u]
          simp only
          rw [if_neg hc, if_pos hs]
        · next hs =>
          cases h
          refine ⟨rfl, fun u => ?_⟩
          unfold nsname
          rw [h3 u]
          simp only
          rw [if_neg hc, if_neg hs]
      obtain ⟨rfl, key⟩ := key
      exact ⟨h1, h2, key⟩

end

theorem number_mono {base k : Nat} {ok : Char → Bool} {s : Str} {x : Char × Nat} (h : number base ok k s = some x) (u : Str) :
    number base ok k (s ++ u) = some x := by
  unfold number at h ⊢
  cases hd : s.dropWhile ok with
  | nil =>
    simp only [hd] at h
    cases ht : s.takeWhile ok <;> simp only [ht] at h <;> cases h
  | cons c t =>
    obtain ⟨_, _, h3⟩ := dropWhile_inv hd
    simp only [hd] at h
    simp only [(h3 u).1, (h3 u).2]
    cases ht : s.takeWhile ok with
    | nil => simp only [ht] at h; cases h
    | cons => simp only [ht] at h; exact h

section
variable [NameChars]

theorem reference_mono {s : Str} {x : Char × Nat} (h : reference s = some x) (u : Str) : reference (s ++ u) = some x := by
  cases s with
  | nil => cases h
  | cons c r =>
    rw [List.cons_append]
    unfold reference at h ⊢
    by_cases hc : c = '#'
    · simp only [if_pos hc] at h ⊢
      cases r with
      | nil => cases h
      | cons d r' =>
        simp only [List.cons_append] at h ⊢
        by_cases hx : d = 'x'
        · simp only [if_pos hx] at h ⊢
          exact number_mono h u
        · simp only [if_neg hx] at h ⊢
          exact number_mono h u
    · simp only [if_neg hc] at h ⊢
      cases hn : readName (c :: r) with
      | none => rw [hn] at h; cases h
      | some y =>
        obtain ⟨m, t⟩ := y
        obtain ⟨_, _, h3, h4⟩ := readName_inv hn
        have h5 := h4 u
        rw [List.cons_append] at h5
        rw [h5]
        rw [hn] at h
        cases t with
        | nil => exact absurd rfl h3
        | cons => exact h

theorem chars_inv {q : Option Char} {cd : Bool} {s : Str} : ∀ {k : Nat} {b0 b1 : Char} {x : Str × Str},
    chars q cd k b0 b1 s = some x →
    x.2.length ≤ s.length ∧ (x.2 ≠ [] ∨ cd = true → ∀ u, chars q cd k b0 b1 (s ++ u) = some (x.1, x.2 ++ u)) := by
  induction s with
  | nil =>
    intro k b0 b1 x h
    cases cd with
    | true => simp [chars] at h
    | false =>
      simp only [chars, Bool.false_eq_true, if_false, Option.some.injEq] at h
      subst h
      exact ⟨by simp, fun h => by simp at h⟩
  | cons c cs ih =>
    intro k b0 b1 x h
    cases k with
    | succ k =>
      simp only [chars] at h
      obtain ⟨h1, h2⟩ := ih h
      refine ⟨by simp only [List.length_cons]; omega, fun hne u => ?_⟩
      simp only [List.cons_append, chars]
      exact h2 hne u
    | zero =>
      have key : ∀ (f : Str × Str → Str) {k : Nat} {b0 b1 : Char},
          (chars q cd k b0 b1 cs).map (fun x => (f x, x.2)) = some x → (∀ y z, f (y, z) = f (y, [])) →
          x.2.length ≤ (c :: cs).length ∧ (x.2 ≠ [] ∨ cd = true → ∀ u,
            (chars q cd k b0 b1 (cs ++ u)).map (fun x => (f x, x.2)) = some (x.1, x.2 ++ u)) := by
        intro f k b0 b1 h hf
        cases hc : chars q cd k b0 b1 cs with
        | none => rw [hc] at h; cases h
        | some y =>
          rw [hc] at h
          simp only [Option.map_some, Option.some.injEq] at h
          subst h
          obtain ⟨h1, h2⟩ := ih hc
          refine ⟨by simp only [List.length_cons]; omega, fun hne u => ?_⟩
          rw [h2 hne u]
          simp only [Option.map_some]
          rw [hf y.1 (y.2 ++ u), ← hf y.1 y.2]
      rw [chars] at h
      simp only [List.cons_append]
      simp only [chars.eq_3]
      by_cases h1 : q = none ∧ b0 = ']' ∧ b1 = ']' ∧ c = '>'
      · rw [if_pos h1] at h
        cases cd with
        | true =>
          simp only [if_true, Option.some.injEq] at h
          subst h
          exact ⟨by simp, fun _ u => by rw [if_pos h1]; rfl⟩
        | false => simp at h
      · rw [if_neg h1] at h
        by_cases h2 : c = '<' ∧ cd = false
        · rw [if_pos h2] at h
          by_cases h3 : q = none
          · rw [if_pos h3] at h
            simp only [Option.some.injEq] at h
            subst h
            refine ⟨by simp, fun _ u => ?_⟩
            rw [if_neg h1, if_pos h2, if_pos h3]
            rfl
          · rw [if_neg h3] at h; cases h
        · rw [if_neg h2] at h
          by_cases h3 : q = some c
          · rw [if_pos h3] at h
            simp only [Option.some.injEq] at h
            subst h
            refine ⟨by simp, fun _ u => ?_⟩
            rw [if_neg h1, if_neg h2, if_pos h3]
          · rw [if_neg h3] at h
            by_cases h4 : c = '&' ∧ cd = false
            · rw [if_pos h4] at h
              cases hr : reference cs with
              | none => rw [hr] at h; cases h
              | some y =>
                obtain ⟨y, n⟩ := y
                rw [hr] at h
                obtain ⟨h5, h6⟩ := key (fun x => y :: x.1) h (fun _ _ => rfl)
                refine ⟨h5, fun hne u => ?_⟩
                rw [if_neg h1, if_neg h2, if_neg h3, if_pos h4, reference_mono hr u]
                exact h6 hne u
            · rw [if_neg h4] at h
              obtain ⟨h5, h6⟩ := key
                (fun x => if c = '\r' then '\n' :: x.1 else if b1 = '\r' ∧ c = '\n' then x.1 else c :: x.1) h (fun _ _ => rfl)
              refine ⟨h5, fun hne u => ?_⟩
              rw [if_neg h1, if_neg h2, if_neg h3, if_neg h4]
              exact h6 hne u

theorem text_inv {q : Option Char} {s : Str} {x : Str × Str} (h : text q s = some x) :
    x.2.length ≤ s.length ∧ (x.2 ≠ [] → ∀ u, text q (s ++ u) = some (x.1, x.2 ++ u)) := by
  unfold text at h ⊢
  cases hc : chars q false 0 nul nul s with
  | none => rw [hc] at h; cases h
  | some y =>
    obtain ⟨y1, y2⟩ := y
    obtain ⟨h1, h2⟩ := chars_inv hc
    rw [hc] at h
    simp only at h
    split at h
    · next hi =>
      cases h
      refine ⟨h1, fun hne u => ?_⟩
      rw [h2 (.inl hne) u]
      simp only [if_pos hi]
    · cases h

theorem cdata_inv {s : Str} {x : Str × Str} (h : cdata s = some x) :
    x.2.length ≤ s.length ∧ ∀ u, cdata (s ++ u) = some (x.1, x.2 ++ u) := by
  unfold cdata at h ⊢
  cases hc : chars none true 0 nul nul s with
  | none => rw [hc] at h; cases h
  | some y =>
    obtain ⟨y1, y2⟩ := y
    obtain ⟨h1, h2⟩ := chars_inv hc
    rw [hc] at h
    simp only at h
    split at h
    · next hi =>
      cases h
      refine ⟨h1, fun u => ?_⟩
      rw [h2 (.inr rfl) u]
      simp only [if_pos hi]
    · cases h

theorem attrval_inv {s : Str} {x : Str × Str} (h : attrval s = some x) :
    x.2.length < s.length ∧ (x.2 ≠ [] → ∀ u, attrval (s ++ u) = some (x.1, x.2 ++ u)) := by
  cases s with
  | nil => cases h
  | cons c r =>
    unfold attrval at h
    simp only at h
    split at h
    · next hq =>
      obtain ⟨h1, h2⟩ := text_inv h
      refine ⟨by simp only [List.length_cons]; omega, fun hne u => ?_⟩
      rw [List.cons_append]
      unfold attrval
      simp only [if_pos hq]
      exact h2 hne u
    · cases h

theorem attrs_inv {n : Nat} : ∀ {s : Str} {x : List (Name × Str) × Bool × Str}, attrs n s = some x →
    x.2.2.length < s.length ∧ ∀ u m, n ≤ m → attrs m (s ++ u) = some (x.1, x.2.1, x.2.2 ++ u) := by
  induction n with
  | zero => intro s x h; cases h
  | succ n ih =>
    intro s x h
    have he : attrs (n + 1) s ≠ none := by rw [h]; simp
    have hm : ∀ m, n + 1 ≤ m → ∃ m', m = m' + 1 ∧ n ≤ m' := fun m hm => ⟨m - 1, by omega, by omega⟩
    unfold attrs at h
    cases hs : skip s with
    | nil => rw [hs] at h; cases h
    | cons b r =>
      obtain ⟨h1, h2⟩ := skip_inv hs
      rw [hs] at h
      simp only at h
      by_cases hb : b = '/'
      · rw [if_pos hb] at h
        cases r with
        | nil => cases h
        | cons c r =>
          simp only at h
          split at h
          · next hc =>
            cases h
            refine ⟨by simp only [List.length_cons] at h1 ⊢; omega, fun u m hle => ?_⟩
            obtain ⟨m', rfl, _⟩ := hm m hle
            unfold attrs
            rw [h2 u]
            simp only [if_pos hb, List.cons_append, if_pos hc]
          · cases h
      · rw [if_neg hb] at h
        by_cases hg : b = '>'
        · rw [if_pos hg] at h
          cases h
          refine ⟨h1, fun u m hle => ?_⟩
          obtain ⟨m', rfl, _⟩ := hm m hle
          unfold attrs
          rw [h2 u]
          simp only [if_neg hb, if_pos hg]
        · rw [if_neg hg] at h
          cases hn : nsname (b :: r) with
          | none => rw [hn] at h; cases h
          | some y =>
            obtain ⟨a, t⟩ := y
            obtain ⟨h3, _, h4⟩ := nsname_inv hn
            rw [hn] at h
            simp only at h
            cases ht : skip t with
            | nil => rw [ht] at h; cases h
            | cons e t' =>
              obtain ⟨h5, h6⟩ := skip_inv ht
              rw [ht] at h
              simp only at h
              by_cases hq : e = '='
              · rw [if_neg (by simpa using hq)] at h
                cases hv : attrval (skip t') with
                | none => rw [hv] at h; cases h
                | some y =>
                  obtain ⟨v, w⟩ := y
                  obtain ⟨h7, h8⟩ := attrval_inv hv
                  rw [hv] at h
                  simp only at h
                  cases ha : attrs n w with
                  | none => rw [ha] at h; cases h
                  | some z =>
                    obtain ⟨h9, h10⟩ := ih ha
                    rw [ha] at h
                    simp only [Option.map_some, Option.some.injEq] at h
                    subst h
                    have hw : w ≠ [] := by rintro rfl; simp at h9
                    have h11 := skip_len t'
                    simp only [List.length_cons] at h3
                    simp only at h7
                    refine ⟨by simp only; omega, fun u m hle => ?_⟩
                    obtain ⟨m', rfl, hle'⟩ := hm m hle
                    unfold attrs
                    rw [h2 u]
                    have h12 := h4 u
                    rw [List.cons_append] at h12
                    simp only [if_neg hb, if_neg hg, h12]
                    rw [h6 u]
                    simp only
                    rw [if_neg (by simpa using hq)]
                    have h13 : skip (t' ++ u) = skip t' ++ u := by
                      cases hk : skip t' with
                      | nil => rw [hk] at hv; cases hv
                      | cons c k => rw [(skip_inv hk).2 u]; rfl
                    rw [h13, h8 hw u]
                    simp only
                    rw [h10 u m' hle']
                    rfl
              · rw [if_pos (by simpa using hq)] at h; cases h

end

theorem comment_inv {s r : Str} : ∀ {b0 b1 : Char}, comment b0 b1 s = some r →
    r.length < s.length ∧ ∀ u, comment b0 b1 (s ++ u) = some (r ++ u) := by
  induction s with
  | nil => intro b0 b1 h; cases h
  | cons c s ih =>
    intro b0 b1 h
    unfold comment at h
    simp only [List.cons_append, comment.eq_2]
    split at h
    · next hb =>
      split at h
      · next hc => cases h; exact ⟨by simp, fun u => by rw [if_pos hb, if_pos hc]⟩
      · cases h
    · next hb =>
      obtain ⟨h1, h2⟩ := ih h
      exact ⟨by simp only [List.length_cons]; omega, fun u => by rw [if_neg hb, h2 u]⟩

theorem instruction_inv {s : Str} : ∀ {b0 : Char} {x : Str × Str}, instruction b0 s = some x →
    x.2.length < s.length ∧ ∀ u, instruction b0 (s ++ u) = some (x.1, x.2 ++ u) := by
  induction s with
  | nil => intro b0 x h; cases h
  | cons c s ih =>
    intro b0 x h
    unfold instruction at h
    simp only [List.cons_append, instruction.eq_2]
    split at h
    · next hb => cases h; exact ⟨by simp, fun u => by rw [if_pos hb]⟩
    · next hb =>
      cases hi : instruction c s with
      | none => rw [hi] at h; cases h
      | some y =>
        rw [hi] at h
        simp only [Option.map_some, Option.some.injEq] at h
        subst h
        obtain ⟨h1, h2⟩ := ih hi
        exact ⟨by simp only [List.length_cons]; omega, fun u => by rw [if_neg hb, h2 u]; rfl⟩

theorem directive_inv {s r : Str} : ∀ {i : In} {depth : Nat}, directive i depth s = some r →
    r.length < s.length ∧ ∀ u, directive i depth (s ++ u) = some (r ++ u) := by
  induction s with
  | nil => intro i depth h; cases i <;> cases h
  | cons c s ih =>
    intro i depth h
    simp only [List.cons_append]
    have key : ∀ {i : In} {depth : Nat}, directive i depth s = some r →
        r.length < (c :: s).length ∧ ∀ u, directive i depth (s ++ u) = some (r ++ u) := by
      intro i depth h
      obtain ⟨h1, h2⟩ := ih h
      exact ⟨by simp only [List.length_cons]; omega, h2⟩
    cases i with
    | plain =>
      simp only [directive.eq_2] at h ⊢
      split at h
      · next hb => cases h; exact ⟨by simp, fun u => by rw [if_pos hb]⟩
      · next hb =>
        obtain ⟨h1, h2⟩ := key h
        exact ⟨h1, fun u => by rw [if_neg hb]; exact h2 u⟩
    | quote q => simp only [directive.eq_3] at h ⊢; exact key h
    | angle k =>
      simp only [directive.eq_4] at h ⊢
      split at h
      · next hb =>
        obtain ⟨h1, h2⟩ := key h
        exact ⟨h1, fun u => by rw [if_pos hb]; exact h2 u⟩
      · next hb =>
        obtain ⟨h1, h2⟩ := key h
        exact ⟨h1, fun u => by rw [if_neg hb]; exact h2 u⟩
    | comment b0 b1 => simp only [directive.eq_5] at h ⊢; exact key h

/-- The number of characters and end tags that a decoder still has to deliver, counted so that every token lessens it. -/
def Dec.size (d : Dec) : Nat := 2 * d.rest.length + if d.close = none then 0 else 1

/-- More text behind what remains. -/
def Dec.more (d : Dec) (u : Str) : Dec := { d with rest := d.rest ++ u }

theorem pop_inv {n : Name} {d d' : Dec} {t : Token} (h : popElement n d = some (t, d')) :
    d'.rest = d.rest ∧ d'.close = d.close ∧ (∀ s, t ≠ .text s) ∧ ∀ u, popElement n (d.more u) = some (t, d'.more u) := by
  unfold popElement at h
  cases hs : d.stack with
  | nil => rw [hs] at h; cases h
  | cons x st =>
    obtain ⟨m, ns⟩ := x
    rw [hs] at h
    simp only at h
    split at h
    · next hm =>
      cases h
      refine ⟨rfl, rfl, by simp, fun u => ?_⟩
      unfold popElement
      have : (d.more u).stack = (m, ns) :: st := hs
      rw [this]
      simp only [if_pos hm]
      rfl
    · cases h

section
variable [NameChars]

omit [NameChars] in
theorem hasPrefix_inv {s : Str} : ∀ {p : Str}, hasPrefix s p = true →
    p.length ≤ s.length ∧ ∀ u, hasPrefix (s ++ u) p = true := by
  induction s with
  | nil =>
    intro p h
    cases p with
    | nil => exact ⟨by simp, fun u => by cases u <;> rfl⟩
    | cons => cases h
  | cons c s ih =>
    intro p h
    cases p with
    | nil => exact ⟨by simp, fun u => rfl⟩
    | cons d p =>
      simp only [hasPrefix, Bool.and_eq_true] at h
      obtain ⟨h1, h2⟩ := ih h.2
      refine ⟨by simpa using h1, fun u => ?_⟩
      simp only [List.cons_append, hasPrefix, Bool.and_eq_true]
      exact ⟨h.1, h2 u⟩

theorem markup_inv {d d' : Dec} {s : Str} {t : Token} (h : markup d s = some (t, d')) (hc : d.close = none) :
    2 * d'.rest.length + 1 < 2 * (s.length + 1) ∧ ∀ u, markup (d.more u) (s ++ u) = some (t, d'.more u) := by
  unfold markup at h
  cases s with
  | nil => cases h
  | cons b r =>
    simp only at h
    simp only [List.cons_append]
    unfold markup
    simp only [List.length_cons]
    by_cases h1 : b = '/'
    · rw [if_pos h1] at h
      simp only [if_pos h1]
      cases hn : nsname r with
      | none => rw [hn] at h; cases h
      | some y =>
        obtain ⟨n, r'⟩ := y
        obtain ⟨h2, _, h3⟩ := nsname_inv hn
        rw [hn] at h
        simp only at h
        cases hs : skip r' with
        | nil => rw [hs] at h; cases h
        | cons c r'' =>
          obtain ⟨h4, h5⟩ := skip_inv hs
          rw [hs] at h
          simp only at h
          split at h
          · next hg =>
            obtain ⟨h6, _, _, h7⟩ := pop_inv h
            simp only at h6
            refine ⟨by rw [h6]; omega, fun u => ?_⟩
            rw [h3 u]
            simp only
            rw [h5 u]
            simp only [if_pos hg]
            exact h7 u
          · cases h
    · rw [if_neg h1] at h
      simp only [if_neg h1]
      by_cases h2 : b = '?'
      · rw [if_pos h2] at h
        simp only [if_pos h2]
        cases hn : name r with
        | none => rw [hn] at h; cases h
        | some y =>
          obtain ⟨n, r'⟩ := y
          obtain ⟨h3, _, h4⟩ := name_inv hn
          rw [hn] at h
          simp only at h
          cases hi : instruction nul (skip r') with
          | none => rw [hi] at h; cases h
          | some y =>
            obtain ⟨data, r''⟩ := y
            obtain ⟨h5, h6⟩ := instruction_inv hi
            rw [hi] at h
            simp only at h h5
            have h8 := skip_len r'
            have h7 : ∀ u, skip (r' ++ u) = skip r' ++ u := by
              intro u
              cases hk : skip r' with
              | nil => rw [hk] at hi; cases hi
              | cons c k => rw [(skip_inv hk).2 u]; rfl
            split at h
            · cases h
            · next hv =>
              cases h
              refine ⟨by simp only; omega, fun u => ?_⟩
              rw [h4 u]
              simp only
              rw [h7 u, h6 u]
              simp only
              rw [if_neg hv]
              rfl
      · rw [if_neg h2] at h
        simp only [if_neg h2]
        by_cases h3 : b = '!'
        · rw [if_pos h3] at h
          simp only [if_pos h3]
          cases r with
          | nil => cases h
          | cons c r' =>
            simp only [List.cons_append] at h ⊢
            by_cases h4 : c = '-'
            · rw [if_pos h4] at h
              simp only [if_pos h4]
              cases r' with
              | nil => cases h
              | cons e r'' =>
                simp only [List.cons_append] at h ⊢
                by_cases h5 : e = '-'
                · rw [if_pos h5] at h
                  simp only [if_pos h5]
                  cases hk : comment nul nul r'' with
                  | none => rw [hk] at h; cases h
                  | some y =>
                    obtain ⟨h6, h7⟩ := comment_inv hk
                    rw [hk] at h
                    cases h
                    refine ⟨by simp only [List.length_cons]; omega, fun u => ?_⟩
                    rw [h7 u]
                    rfl
                · rw [if_neg h5] at h; cases h
            · rw [if_neg h4] at h
              simp only [if_neg h4]
              by_cases h5 : c = '['
              · rw [if_pos h5] at h
                simp only [if_pos h5]
                split at h
                · next hp =>
                  have hl : 6 ≤ r'.length := (hasPrefix_inv hp).1
                  cases hk : cdata (r'.drop 6) with
                  | none => rw [hk] at h; cases h
                  | some y =>
                    obtain ⟨h6, h7⟩ := cdata_inv hk
                    rw [hk] at h
                    cases h
                    rw [List.length_drop] at h6
                    refine ⟨by simp only [List.length_cons]; omega, fun u => ?_⟩
                    rw [if_pos ((hasPrefix_inv hp).2 u), List.drop_append_of_le_length hl, h7 u]
                    rfl
                · cases h
              · rw [if_neg h5] at h
                simp only [if_neg h5]
                cases hk : directive .plain 0 r' with
                | none => rw [hk] at h; cases h
                | some y =>
                  obtain ⟨h6, h7⟩ := directive_inv hk
                  rw [hk] at h
                  cases h
                  refine ⟨by simp only [List.length_cons]; omega, fun u => ?_⟩
                  rw [h7 u]
                  rfl
        · rw [if_neg h3] at h
          simp only [if_neg h3]
          cases hn : nsname (b :: r) with
          | none => rw [hn] at h; cases h
          | some y =>
            obtain ⟨n, r'⟩ := y
            obtain ⟨h4, _, h5⟩ := nsname_inv hn
            rw [hn] at h
            simp only at h
            cases ha : attrs (r'.length + 1) r' with
            | none => rw [ha] at h; cases h
            | some y =>
              obtain ⟨as, e, r''⟩ := y
              obtain ⟨h6, h7⟩ := attrs_inv ha
              rw [ha] at h
              cases h
              simp only [List.length_cons] at h4 h6
              refine ⟨by simp only; omega, fun u => ?_⟩
              have h8 := h5 u
              rw [List.cons_append] at h8
              rw [h8]
              simp only
              rw [h7 u _ (by simp)]
              rfl

/-- A token lessens what is left, and does not depend on the text behind it; but character data at the end of the text may go
on. -/
theorem token_inv {d d' : Dec} {t : Token} (h : token d = some (t, d')) :
    d'.size < d.size ∧ ((∀ s, t ≠ .text s) ∨ d'.rest ≠ [] → ∀ u, token (d.more u) = some (t, d'.more u)) := by
  unfold token at h
  cases hc : d.close with
  | some n =>
    rw [hc] at h
    simp only at h
    obtain ⟨h1, h2, h3, h4⟩ := pop_inv h
    refine ⟨?_, fun _ u => ?_⟩
    · simp only at h1 h2
      simp [Dec.size, h1, h2, hc]
    · unfold token
      have : (d.more u).close = some n := hc
      rw [this]
      exact h4 u
  | none =>
    rw [hc] at h
    simp only at h
    cases hr : d.rest with
    | nil => rw [hr] at h; cases h
    | cons c r =>
      rw [hr] at h
      simp only at h
      have hcu : ∀ u, (d.more u).close = none := fun _ => hc
      have hru : ∀ u, (d.more u).rest = c :: (r ++ u) := fun u => by simp [Dec.more, hr]
      by_cases hl : c = '<'
      · rw [if_pos hl] at h
        obtain ⟨h1, h2⟩ := markup_inv h hc
        refine ⟨?_, fun _ u => ?_⟩
        · unfold Dec.size
          rw [hr, hc]
          simp only [List.length_cons, if_true]
          split <;> omega
        · unfold token
          rw [hcu u, hru u]
          simp only [if_pos hl]
          exact h2 u
      · rw [if_neg hl] at h
        cases ht : text none (c :: r) with
        | none => rw [ht] at h; cases h
        | some y =>
          obtain ⟨h1, h2⟩ := text_inv ht
          have hlen : y.2.length ≤ r.length := by
            have ht' := ht
            unfold text at ht'
            cases hk : chars none false 0 nul nul (c :: r) with
            | none => rw [hk] at ht'; cases ht'
            | some z =>
              have hyz : y.2 = z.2 := by
                rw [hk] at ht'
                simp only at ht'
                split at ht'
                · cases ht'; rfl
                · cases ht'
              rw [hyz]
              rw [chars, if_neg (by simp [nul]), if_neg (by simp [hl]), if_neg (by simp)] at hk
              split at hk
              · cases hq : reference r with
                | none => rw [hq] at hk; cases hk
                | some w =>
                  rw [hq] at hk
                  simp only at hk
                  cases hw : chars none false w.2 nul nul r with
                  | none => rw [hw] at hk; cases hk
                  | some v => rw [hw] at hk; cases hk; exact (chars_inv hw).1
              · cases hw : chars none false 0 nul c r with
                | none => rw [hw] at hk; cases hk
                | some v => rw [hw] at hk; cases hk; exact (chars_inv hw).1
          rw [ht] at h
          cases h
          refine ⟨?_, fun hne u => ?_⟩
          · simp only [Dec.size, hr, hc, List.length_cons, if_true]; omega
          · have hne : y.2 ≠ [] := hne.resolve_left (by simp)
            unfold token
            rw [hcu u, hru u]
            have h3 := h2 hne u
            rw [List.cons_append] at h3
            simp only [if_neg hl, h3]
            rfl

end

end Xgen.Xml
