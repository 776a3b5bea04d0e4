import Verif.Model.Utils

/-! # Lemmas about the string functions -/

namespace Xgen

theorem splitOn_ne_nil (sep : Char) (s : Str) : splitOn sep s ≠ [] := by
  cases s with
  | nil => simp [splitOn]
  | cons c cs =>
    simp only [splitOn]
    split
    · simp
    · split <;> simp

theorem splitOn_cons_sep (sep : Char) (s : Str) : splitOn sep (sep :: s) = [] :: splitOn sep s := by
  simp [splitOn]

theorem splitOn_cons_ne {sep c : Char} (h : c ≠ sep) (s : Str) :
    ∃ p ps, splitOn sep s = p :: ps ∧ splitOn sep (c :: s) = (c :: p) :: ps := by
  cases hs : splitOn sep s with
  | nil => exact absurd hs (splitOn_ne_nil sep s)
  | cons p ps => exact ⟨p, ps, rfl, by simp [splitOn, h, hs]⟩

/-- A string without separator is its own only part. -/
theorem splitOn_of_not_mem {sep : Char} {s : Str} (h : sep ∉ s) : splitOn sep s = [s] := by
  induction s with
  | nil => rfl
  | cons c cs ih =>
    have hc : c ≠ sep := fun e => h (by simp [e])
    have hcs : sep ∉ cs := fun m => h (by simp [m])
    simp [splitOn, hc, ih hcs]

/-- Splitting after the first separator. -/
theorem splitOn_append_sep {sep : Char} {a : Str} (h : sep ∉ a) (b : Str) :
    splitOn sep (a ++ sep :: b) = a :: splitOn sep b := by
  induction a with
  | nil => simp [splitOn]
  | cons c cs ih =>
    have hc : c ≠ sep := fun e => h (by simp [e])
    have hcs : sep ∉ cs := fun m => h (by simp [m])
    simp [splitOn, hc, ih hcs]

theorem splitOn_length (sep : Char) (s : Str) : (splitOn sep s).length = s.count sep + 1 := by
  induction s with
  | nil => rfl
  | cons c cs ih =>
    by_cases h : c = sep
    · subst h; simp [splitOn_cons_sep, ih]
    · obtain ⟨p, ps, h1, h2⟩ := splitOn_cons_ne h cs
      rw [h2, List.count_cons_of_ne h, ← ih, h1]; simp

/-- The parts contain no separator. -/
theorem not_mem_of_mem_splitOn {sep : Char} {s p : Str} (h : p ∈ splitOn sep s) : sep ∉ p := by
  induction s generalizing p with
  | nil => simp [splitOn] at h; simp [h]
  | cons c cs ih =>
    by_cases hc : c = sep
    · subst hc
      rw [splitOn_cons_sep] at h
      rcases List.mem_cons.1 h with h | h
      · simp [h]
      · exact ih h
    · obtain ⟨q, qs, h1, h2⟩ := splitOn_cons_ne hc cs
      rw [h2] at h
      rcases List.mem_cons.1 h with h | h
      · subst h
        have := ih (p := q) (by simp [h1])
        simp [this, Ne.symm hc]
      · exact ih (by simp [h1, h])

/-- The characters of the parts are the characters of the string except the separators, in order. -/
theorem flatten_splitOn (sep : Char) (s : Str) : (splitOn sep s).flatten = s.filter (· ≠ sep) := by
  induction s with
  | nil => rfl
  | cons c cs ih =>
    by_cases h : c = sep
    · subst h; simp [splitOn_cons_sep, ih]
    · obtain ⟨p, ps, h1, h2⟩ := splitOn_cons_ne h cs
      rw [h2]; rw [h1] at ih
      simpa [h] using ih

theorem hasPrefix_iff (s p : Str) : hasPrefix s p = true ↔ p <+: s := by
  induction p generalizing s with
  | nil => simp [hasPrefix]
  | cons a p ih =>
    cases s with
    | nil => simp [hasPrefix]
    | cons c s =>
      rw [List.cons_prefix_cons, ← ih, eq_comm (a := a)]; simp [hasPrefix]

theorem hasSuffix_iff (s p : Str) : hasSuffix s p = true ↔ p <:+ s := by
  rw [hasSuffix, hasPrefix_iff, List.reverse_prefix]

end Xgen
