import Verif.Model.Base

/-! # ASCII case conversion -/

namespace Xgen

theorem char_ext {c d : Char} (h : c.toNat = d.toNat) : c = d := Char.toNat_inj.1 h

theorem toNat_ofNat_lt {n : Nat} (h : n < 128) : (Char.ofNat n).toNat = n := by
  have hv : n.isValidChar := Or.inl (by omega)
  rw [Char.ofNat, dif_pos hv]; rfl

theorem asciiUpper_toNat (c : Char) : (asciiUpper c).toNat = if isAsciiLower c then c.toNat - 32 else c.toNat := by
  unfold asciiUpper
  split
  · rename_i h; simp [isAsciiLower] at h; rw [toNat_ofNat_lt (by omega)]
  · rfl

theorem asciiLower_toNat (c : Char) : (asciiLower c).toNat = if isAsciiUpper c then c.toNat + 32 else c.toNat := by
  unfold asciiLower
  split
  · rename_i h; simp [isAsciiUpper] at h; rw [toNat_ofNat_lt (by omega)]
  · rfl

theorem asciiUpper_idem (c : Char) : asciiUpper (asciiUpper c) = asciiUpper c := by
  apply char_ext
  rw [asciiUpper_toNat (asciiUpper c)]
  split
  · rename_i h
    simp only [isAsciiLower, asciiUpper_toNat, Bool.and_eq_true, decide_eq_true_eq] at h
    by_cases h' : 97 ≤ c.toNat ∧ c.toNat ≤ 122
    · rw [if_pos h'] at h; omega
    · rw [if_neg h'] at h; exact absurd h h'
  · rfl

theorem asciiLower_idem (c : Char) : asciiLower (asciiLower c) = asciiLower c := by
  apply char_ext
  rw [asciiLower_toNat (asciiLower c)]
  split
  · rename_i h
    simp only [isAsciiUpper, asciiLower_toNat, Bool.and_eq_true, decide_eq_true_eq] at h
    by_cases h' : 65 ≤ c.toNat ∧ c.toNat ≤ 90
    · rw [if_pos h'] at h; omega
    · rw [if_neg h'] at h; exact absurd h h'
  · rfl

/-- The ASCII tables satisfy the assumed laws, so the laws are consistent. -/
instance asciiUniLaws : @UniLaws asciiUni :=
  @UniLaws.mk asciiUni (fun _ _ => rfl) (fun _ _ => rfl)
    (fun c h => .inl (by
      show 128 ≤ (asciiUpper c).toNat
      rw [asciiUpper_toNat]; split
      · rename_i h'; simp [isAsciiLower] at h'; omega
      · exact h))
    (fun c h => .inl (by
      show 128 ≤ (asciiLower c).toNat
      rw [asciiLower_toNat]; split
      · rename_i h'; simp [isAsciiUpper] at h'; omega
      · exact h))
    asciiUpper_idem asciiLower_idem

variable [Uni] [UniLaws]

/-- Lower-casing never yields an ASCII upper-case letter. -/
theorem lower_not_upper (c : Char) : isAsciiUpper (Uni.lower c) = false := by
  by_cases h : c.toNat < 128
  · rw [UniLaws.lower_ascii c h]
    by_cases h' : isAsciiUpper c = true
    · have h2 := asciiLower_toNat c
      rw [if_pos h'] at h2
      simp only [isAsciiUpper, Bool.and_eq_true, decide_eq_true_eq] at h'
      simp [isAsciiUpper, h2]; omega
    · have h2 : asciiLower c = c := by unfold asciiLower; rw [if_neg h']
      rw [h2]; simpa using h'
  · rcases UniLaws.lower_nonascii c (by omega) with h' | h'
    · simp [isAsciiUpper]; omega
    · simp [isAsciiLower] at h'; simp [isAsciiUpper]; omega

/-- Lower-casing yields an ASCII non-letter only from itself. -/
theorem lower_eq_iff {x : Char} (hx : x.toNat < 128) (hl : isAsciiLetter x = false) (c : Char) :
    Uni.lower c = x ↔ c = x := by
  constructor
  · intro h
    by_cases hc : c.toNat < 128
    · rw [UniLaws.lower_ascii c hc] at h
      have := congrArg Char.toNat h
      rw [asciiLower_toNat] at this
      split at this
      · rename_i h'; simp [isAsciiUpper] at h'; simp [isAsciiLetter, isAsciiUpper, isAsciiLower] at hl; omega
      · exact char_ext this
    · rcases UniLaws.lower_nonascii c (by omega) with h' | h'
      · rw [h] at h'; omega
      · rw [h] at h'; simp [isAsciiLetter, h'] at hl
  · rintro rfl
    rw [UniLaws.lower_ascii c hx]
    apply char_ext
    rw [asciiLower_toNat]
    simp [isAsciiLetter] at hl
    simp [hl.1]

/-- Upper-casing yields an ASCII non-letter only from itself. -/
theorem upper_eq_iff {x : Char} (hx : x.toNat < 128) (hl : isAsciiLetter x = false) (c : Char) :
    Uni.upper c = x ↔ c = x := by
  constructor
  · intro h
    by_cases hc : c.toNat < 128
    · rw [UniLaws.upper_ascii c hc] at h
      have := congrArg Char.toNat h
      rw [asciiUpper_toNat] at this
      split at this
      · rename_i h'; simp [isAsciiLower] at h'; simp [isAsciiLetter, isAsciiUpper, isAsciiLower] at hl; omega
      · exact char_ext this
    · rcases UniLaws.upper_nonascii c (by omega) with h' | h'
      · rw [h] at h'; omega
      · rw [h] at h'; simp [isAsciiLetter, h'] at hl
  · rintro rfl
    rw [UniLaws.upper_ascii c hx]
    apply char_ext
    rw [asciiUpper_toNat]
    simp [isAsciiLetter] at hl
    simp [hl.2]

end Xgen
