import Verif.Lemmas.Char
import Verif.Lemmas.Str
import Verif.Model.GenGo
import Verif.Spec.Alphabet

/-! # C13: Go type names are exported identifiers -/

namespace Xgen

/-- Characters of `titleParts` come from the input, possibly upper-cased, and are not the separator. -/
theorem mem_titleParts [Uni] {sep c : Char} {s : Str} (h : c ∈ titleParts sep s) :
    ∃ d ∈ s, d ≠ sep ∧ (c = d ∨ c = Uni.upper d) := by
  simp only [titleParts, List.mem_flatMap] at h
  obtain ⟨p, hp, hc⟩ := h
  have hin : ∀ d ∈ p, d ∈ s ∧ d ≠ sep := by
    intro d hd
    have : d ∈ (splitOn sep s).flatten := List.mem_flatten.2 ⟨p, hp, hd⟩
    rw [flatten_splitOn] at this
    simpa using this
  cases p with
  | nil => simp [makeFirstUpperCase, toTitle] at hc
  | cons a as =>
    simp only [makeFirstUpperCase, toTitle, List.mem_cons] at hc
    rcases hc with rfl | hc
    · exact ⟨a, (hin a (by simp)).1, (hin a (by simp)).2, .inr rfl⟩
    · exact ⟨c, (hin c (by simp [hc])).1, (hin c (by simp [hc])).2, .inl rfl⟩

/-- The first character of a string that does not start with the separator is upper-cased. -/
theorem titleParts_cons [Uni] {sep a : Char} (ha : a ≠ sep) (s : Str) :
    ∃ t, titleParts sep (a :: s) = Uni.upper a :: t := by
  obtain ⟨p, ps, h1, h2⟩ := splitOn_cons_ne ha s
  exact ⟨p ++ ps.flatMap makeFirstUpperCase, by simp [titleParts, h2, makeFirstUpperCase, toTitle]⟩

namespace C13
open Alphabet (national capital)

/-- ASCII names with the usual separators. -/
def nameChar (c : Char) : Bool := isAsciiLetter c || isAsciiDigit c || c = ':' || c = '.' || c = '-' || c = '_'

/-- A letter. -/
def letterly (c : Char) : Bool := isAsciiLetter c || national c

/-- Specification: an exported Go identifier made of letters and ASCII digits. -/
def Exported (s : Str) : Prop :=
  ∃ c cs, s = c :: cs ∧ (isAsciiUpper c || capital c) = true ∧ ∀ d ∈ s, (letterly d || isAsciiDigit d) = true

/-- A letter outside of ASCII that stays a letter in capitals and in small letters. -/
def cased [Uni] (c : Char) : Bool := national c && letterly (Uni.upper c) && letterly (Uni.lower c) && letterly (Uni.lower (Uni.upper c))

/-- Names with the usual separators. -/
def nameRune [Uni] (c : Char) : Bool := nameChar c || cased c

/-- A letter that has a capital. -/
def starts [Uni] (c : Char) : Bool := isAsciiLetter c || (cased c && (isAsciiUpper (Uni.upper c) || capital (Uni.upper c)))

theorem nameChar_ascii {c : Char} (h : nameChar c = true) : c.toNat < 128 := by
  simp only [nameChar, isAsciiLetter, isAsciiUpper, isAsciiLower, isAsciiDigit, Bool.or_eq_true, Bool.and_eq_true,
    decide_eq_true_eq] at h
  rcases h with (((((⟨_, h⟩ | ⟨_, h⟩) | ⟨_, h⟩) | rfl) | rfl) | rfl) | rfl
  · omega
  · omega
  · omega
  all_goals decide

theorem upper_letter {c : Char} (h : isAsciiLetter c = true) : isAsciiUpper (asciiUpper c) = true := by
  simp only [isAsciiLetter, Bool.or_eq_true] at h
  have hn := asciiUpper_toNat c
  by_cases hl : isAsciiLower c = true
  · rw [if_pos hl] at hn
    simp only [isAsciiLower, Bool.and_eq_true, decide_eq_true_eq] at hl
    simp [isAsciiUpper, hn]; omega
  · have : asciiUpper c = c := by simp [asciiUpper, hl]
    rw [this]; rcases h with h | h
    · exact h
    · exact absurd h hl

theorem upper_nonletter {c : Char} (h : isAsciiLetter c = false) : asciiUpper c = c := by
  simp only [isAsciiLetter, Bool.or_eq_false_iff] at h
  simp [asciiUpper, h.2]

theorem nameChar_upper {c : Char} (h : nameChar c = true) : nameChar (asciiUpper c) = true := by
  by_cases hl : isAsciiLetter c = true
  · simp [nameChar, isAsciiLetter, upper_letter hl]
  · rw [upper_nonletter (by simpa using hl)]; exact h

theorem letterly_not {c : Char} (h : letterly c = true) : c ≠ ':' ∧ c ≠ '.' ∧ c ≠ '-' ∧ c ≠ '_' := by
  refine ⟨?_, ?_, ?_, ?_⟩ <;> rintro rfl <;> exact absurd h (by decide)

theorem letterly_wide {c : Char} (h : letterly c = true) : isAsciiLetter c = true ∨ 128 ≤ c.toNat := by
  rcases Bool.or_eq_true_iff.1 h with h | h
  · exact .inl h
  · have := (Alphabet.national_range h).1
    exact .inr (by omega)

variable [Uni] [UniLaws]

omit [UniLaws] in
theorem starts_letterly {c : Char} (h : starts c = true) : letterly c = true := by
  simp only [starts, cased, letterly, Bool.or_eq_true, Bool.and_eq_true] at *
  rcases h with h | h
  · exact .inl h
  · exact .inr h.1.1.1.1

theorem starts_capital {c : Char} (h : starts c = true) : (isAsciiUpper (Uni.upper c) || capital (Uni.upper c)) = true := by
  simp only [starts, Bool.or_eq_true, Bool.and_eq_true] at h
  rcases h with h | h
  · rw [UniLaws.upper_ascii c (nameChar_ascii (by simp [nameChar, h])), upper_letter h]; rfl
  · simpa using h.2

theorem cased_upper {c : Char} (h : cased c = true) : nameRune (Uni.upper c) = true := by
  simp only [cased, Bool.and_eq_true] at h
  obtain ⟨⟨⟨h1, h2⟩, h3⟩, h4⟩ := h
  have h2' := h2
  rw [letterly, Bool.or_eq_true] at h2'
  rcases h2' with h | h
  · simp [nameRune, nameChar, h]
  · simp [nameRune, cased, h, UniLaws.upper_idem, h2, h4]

theorem nameRune_upper {c : Char} (h : nameRune c = true) : nameRune (Uni.upper c) = true := by
  rcases Bool.or_eq_true_iff.1 h with h | h
  · rw [UniLaws.upper_ascii c (nameChar_ascii h), nameRune, nameChar_upper h]; rfl
  · exact cased_upper h

omit [UniLaws] in
/-- What is left without separators. -/
theorem nameRune_letter {c : Char} (h : nameRune c = true) (h1 : c ≠ ':') (h2 : c ≠ '.') (h3 : c ≠ '-') (h4 : c ≠ '_') :
    (letterly c || isAsciiDigit c) = true := by
  simp only [nameRune, nameChar, cased, h1, h2, h3, h4, decide_false, Bool.or_false, Bool.or_eq_true, Bool.and_eq_true] at h
  simp only [letterly, Bool.or_eq_true]
  rcases h with (h | h) | h
  · exact .inl (.inl h)
  · exact .inr h
  · exact .inl (.inr h.1.1.1)

theorem titleParts_nameRune {sep : Char} {s : Str} (h : ∀ c ∈ s, nameRune c = true) :
    ∀ c ∈ titleParts sep s, nameRune c = true := by
  intro c hc
  obtain ⟨d, hd, _, rfl | rfl⟩ := mem_titleParts hc
  · exact h _ hd
  · exact nameRune_upper (h d hd)

theorem titleParts_no_sep {sep : Char} (hs : sep.toNat < 128) (hl : isAsciiLetter sep = false) (s : Str) :
    sep ∉ titleParts sep s := by
  intro hc
  obtain ⟨d, _, hne, h | h⟩ := mem_titleParts hc
  · exact hne h.symm
  · exact hne ((upper_eq_iff hs hl d).1 h.symm)

theorem titleParts_keeps_absent {sep x : Char} (hs : x.toNat < 128) (hl : isAsciiLetter x = false) {s : Str}
    (h : x ∉ s) : x ∉ titleParts sep s := by
  intro hc
  obtain ⟨d, hd, _, e | e⟩ := mem_titleParts hc
  · exact h (e ▸ hd)
  · have := (upper_eq_iff hs hl d).1 e.symm; exact h (this ▸ hd)

/-- C13: names of letters, ASCII digits and separators that start with a letter that has a capital become exported Go identifiers -/
theorem exported (name : Str) (h : ∀ c ∈ name, nameRune c = true) (c : Char) (cs : Str) (hn : name = c :: cs)
    (hc : starts c = true) : Exported (goName name) := by
  have hU := starts_capital hc
  have hne := letterly_not (c := Uni.upper c) (by
    rw [letterly]
    simp only [isAsciiLetter, Bool.or_eq_true] at hU ⊢
    rcases hU with h | h
    · exact .inl (.inl h)
    · exact .inr (Alphabet.capital_national h))
  obtain ⟨t1, ht1⟩ := titleParts_cons (sep := ':') (letterly_not (starts_letterly hc)).1 cs
  obtain ⟨t2, ht2⟩ := titleParts_cons (sep := '.') hne.2.1 t1
  rw [UniLaws.upper_idem] at ht2
  have hbase : baseName name = Uni.upper c :: t2 := by rw [baseName, hn, ht1, ht2]
  have hmem : ∀ d ∈ goName name, (letterly d || isAsciiDigit d) = true := by
    intro d hd
    simp only [goName, dropChar, List.mem_filter, decide_eq_true_eq] at hd
    obtain ⟨⟨hd, h1⟩, h2⟩ := hd
    refine nameRune_letter (titleParts_nameRune (titleParts_nameRune h) d hd) ?_ (fun e => titleParts_no_sep (sep := '.') (by decide) (by decide) _ (e ▸ hd)) h1 h2
    rintro rfl
    exact titleParts_keeps_absent (sep := '.') (x := ':') (by decide) (by decide)
      (titleParts_no_sep (sep := ':') (by decide) (by decide) name) hd
  refine ⟨Uni.upper c, dropChar '_' (dropChar '-' t2), ?_, hU, hmem⟩
  simp [goName, hbase, dropChar, hne.2.2.1, hne.2.2.2]

example : @goName asciiUni c!"my-type.sub_name2" = c!"MytypeSubname2" := by decide
example : Exported (@goName asciiUni c!"my-type.sub_name2") :=
  @exported asciiUni asciiUniLaws _ (by decide) _ _ rfl (by decide)
example : Exported (@goName asciiUni c!"Élément.naïf") :=
  @exported asciiUni asciiUniLaws _ (by decide) _ _ rfl (by decide)

/-- Letters that have no capital do not begin an exported name: `unicode.ToUpper` leaves them as they are, and so do the tables of the examples. -/
theorem no_capital : @goName asciiUni c!"東京" = c!"東京" ∧ ¬ Exported c!"東京" := by
  refine ⟨by decide, ?_⟩
  rintro ⟨c, cs, e, h, -⟩
  cases e
  revert h; decide

/-- XML names may also start with an underscore; then the Go name can be empty, start with a digit, or be unexported. -/
theorem underscore_names : @goName asciiUni c!"_" = [] ∧ @goName asciiUni c!"_1" = c!"1" ∧
    @goName asciiUni c!"_abc" = c!"abc" := by decide

end C13
end Xgen
