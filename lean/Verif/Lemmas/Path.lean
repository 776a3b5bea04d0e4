import Verif.Props.C11

/-! # `filepath.Clean` is idempotent -/

namespace Xgen
open C11

/-- Cleaned component lists, last component first. -/
inductive Norm (r : Bool) : List Str → Prop
  | nil : Norm r []
  | comp {c acc} : c ≠ [] → c ≠ c!"." → c ≠ c!".." → '/' ∉ c → Norm r acc → Norm r (c :: acc)
  | up {acc} : r = false → (∀ x ∈ acc, x = c!"..") → Norm r acc → Norm r (c!".." :: acc)

theorem Norm.tail {r : Bool} {c : Str} {acc : List Str} (h : Norm r (c :: acc)) : Norm r acc := by
  cases h <;> assumption

theorem norm_cleanComps (r : Bool) (l acc : List Str) (hl : ∀ x ∈ l, '/' ∉ x) (h : Norm r acc) :
    Norm r (cleanComps r l acc) := by
  induction l generalizing acc with
  | nil => exact h
  | cons c cs ih =>
    have ih := fun acc h => ih acc (fun x hx => hl x (by simp [hx])) h
    unfold cleanComps
    by_cases h1 : c = [] ∨ c = c!"."
    · rw [if_pos (by simpa using h1)]; exact ih _ h
    · rw [if_neg (by simpa using h1)]
      by_cases h2 : c = c!".."
      · rw [if_pos h2]
        cases acc with
        | nil =>
          cases r with
          | true => exact ih _ .nil
          | false => exact ih _ (.up rfl (by simp) .nil)
        | cons top rest =>
          by_cases h3 : top = c!".."
          · subst h3
            simp only [if_pos]
            cases h with
            | comp _ _ h _ _ => exact absurd rfl h
            | up hr ha hn =>
              refine ih _ (.up hr ?_ (.up hr ha hn))
              intro x hx
              rcases List.mem_cons.mp hx with rfl | hx
              · rfl
              · exact ha x hx
          · simp only [if_neg h3]; exact ih _ h.tail
      · rw [if_neg h2]
        simp only [not_or] at h1
        exact ih _ (.comp h1.1 h1.2 h2 (hl c (by simp)) h)

theorem cleanComps_norm {r : Bool} {acc : List Str} (h : Norm r acc) : cleanComps r acc.reverse [] = acc := by
  induction h with
  | nil => rfl
  | comp h1 h2 h3 _ _ ih =>
    rw [List.reverse_cons, cleanComps_append, ih]
    simp [cleanComps, h1, h2, h3]
  | @up acc hr ha hn ih =>
    rw [List.reverse_cons, cleanComps_append, ih]
    subst hr
    cases acc with
    | nil => simp [cleanComps]
    | cons x xs =>
      have := ha x (by simp)
      simp [cleanComps, this]

theorem Norm.no_slash {r : Bool} {acc : List Str} (h : Norm r acc) : ∀ x ∈ acc, x ≠ [] ∧ x ≠ c!"." ∧ '/' ∉ x := by
  induction h with
  | nil => simp
  | comp h1 h2 h3 h4 _ ih =>
    intro x hx
    rcases List.mem_cons.mp hx with rfl | hx
    · exact ⟨h1, h2, h4⟩
    · exact ih x hx
  | up _ _ _ ih =>
    intro x hx
    rcases List.mem_cons.mp hx with rfl | hx
    · decide
    · exact ih x hx

theorem splitOn_joinSlash (l : List Str) (hl : l ≠ []) (h : ∀ x ∈ l, '/' ∉ x) : splitOn '/' (joinSlash l) = l := by
  induction l with
  | nil => exact absurd rfl hl
  | cons a l ih =>
    cases l with
    | nil => exact splitOn_of_not_mem (h a (by simp))
    | cons b l =>
      rw [joinSlash, splitOn_append_sep (h a (by simp)), ih (by simp) (fun x hx => h x (by simp [hx]))]

theorem clean_render {r : Bool} {acc : List Str} (h : Norm r acc) : clean (render r acc.reverse) = render r acc.reverse := by
  have hs := h.no_slash
  by_cases ha : acc = []
  · subst ha; cases r <;> decide
  have hr : acc.reverse ≠ [] := by simpa using ha
  have hsl : splitOn '/' (joinSlash acc.reverse) = acc.reverse :=
    splitOn_joinSlash _ hr (fun x hx => (hs x (by simpa using hx)).2.2)
  cases r with
  | true =>
    have e : render true acc.reverse = '/' :: joinSlash acc.reverse := by simp [render]
    rw [e, clean_eq _ (by simp)]
    simp only [List.head?_cons, decide_true, splitOn_cons_sep, hsl]
    have : cleanComps true ([] :: acc.reverse) [] = acc := by
      rw [cleanComps]; simpa using cleanComps_norm h
    rw [this, e]
  | false =>
    have e : render false acc.reverse = joinSlash acc.reverse := by simp [render, ha]
    have hne : joinSlash acc.reverse ≠ [] := joinSlash_ne_nil hr (fun x hx => (hs x (by simpa using hx)).1)
    have hh : ((joinSlash acc.reverse).head? = some '/') = False := by
      have : ∀ l : List Str, (∀ x ∈ l, x ≠ [] ∧ '/' ∉ x) → (joinSlash l).head? ≠ some '/' := by
        intro l hl
        cases l with
        | nil => simp [joinSlash]
        | cons a l =>
          obtain ⟨h1, h2⟩ := hl a (by simp)
          obtain ⟨c, cs, rfl⟩ := List.exists_cons_of_ne_nil h1
          have : c ≠ '/' := by rintro rfl; simp at h2
          cases l <;> simpa [joinSlash] using this
      simpa using this acc.reverse (fun x hx => ⟨(hs x (by simpa using hx)).1, (hs x (by simpa using hx)).2.2⟩)
    rw [e, clean_eq _ hne]
    simp only [hh, decide_false, hsl, cleanComps_norm h]
    exact e

theorem clean_idem (p : Str) : clean (clean p) = clean p := by
  by_cases hp : p = []
  · subst hp; decide
  · rw [clean_eq p hp]
    exact clean_render (norm_cleanComps _ _ _ (fun x hx => not_mem_of_mem_splitOn hx) .nil)

theorem clean_ne_nil (p : Str) : clean p ≠ [] := by
  by_cases hp : p = []
  · subst hp; decide
  · rw [clean_eq p hp]
    have hn := norm_cleanComps (p.head? = some '/') (splitOn '/' p) [] (fun x hx => not_mem_of_mem_splitOn hx) .nil
    unfold render
    split
    · simp
    · split
      · simp
      · rename_i h
        exact joinSlash_ne_nil h (fun x hx => (hn.no_slash x (by simpa using hx)).1)

/-- A trailing slash disappears. -/
theorem clean_slash (p : Str) (hp : p ≠ []) : clean (p ++ ['/']) = clean p := by
  have hh : (p ++ ['/']).head? = p.head? := by cases p <;> simp_all
  rw [clean_eq _ (by simp), clean_eq p hp, hh]
  have : splitOn '/' (p ++ ['/']) = splitOn '/' p ++ [[]] := splitOn_append p []
  rw [this, cleanComps_append]
  simp [cleanComps]

/-- Joining a directory name with nothing gives that directory name. -/
theorem pathJoin_dir_nil (f : Str) : pathJoin (pathDir f) [] = pathDir f := by
  have hne : pathDir f ≠ [] := clean_ne_nil _
  rw [pathJoin, if_pos hne, clean_slash _ hne]
  exact clean_idem _

end Xgen
