import Verif.Lemmas.Char

/-! # Case conversion for the letters of ISO-8859-1

Tables for examples with names outside of ASCII. -/

namespace Xgen

/-- A small letter of ISO-8859-1, outside of ASCII, whose capital is there as well. -/
def isLatinLower (c : Char) : Bool := 0xE0 ≤ c.toNat && c.toNat ≤ 0xFE && c.toNat ≠ 0xF7
/-- A capital of ISO-8859-1 outside of ASCII. -/
def isLatinUpper (c : Char) : Bool := 0xC0 ≤ c.toNat && c.toNat ≤ 0xDE && c.toNat ≠ 0xD7

/-- Capitals. -/
def latinUpper (c : Char) : Char := if isLatinLower c then Char.ofNat (c.toNat - 32) else asciiUpper c
/-- Small letters. -/
def latinLower (c : Char) : Char := if isLatinUpper c then Char.ofNat (c.toNat + 32) else asciiLower c

/-- The tables of `unicode.ToUpper` and `unicode.ToLower` (utils.go:38 and 197) for ASCII and the letters of ISO-8859-1, but for `µ` and
`ÿ`, whose capitals are elsewhere. -/
@[reducible] def latinUni : Uni := ⟨latinUpper, latinLower⟩

theorem toNat_ofNat_small {n : Nat} (h : n < 256) : (Char.ofNat n).toNat = n := by
  have hv : n.isValidChar := Or.inl (by omega)
  rw [Char.ofNat, dif_pos hv]; rfl

theorem latinUpper_toNat (c : Char) : (latinUpper c).toNat = if isLatinLower c || isAsciiLower c then c.toNat - 32 else c.toNat := by
  unfold latinUpper
  cases h : isLatinLower c
  · simp only [Bool.false_eq_true, if_false, Bool.false_or]; exact asciiUpper_toNat c
  · simp only [isLatinLower, Bool.and_eq_true, decide_eq_true_eq] at h
    simp only [if_true, Bool.true_or]
    rw [toNat_ofNat_small (by omega)]

theorem latinLower_toNat (c : Char) : (latinLower c).toNat = if isLatinUpper c || isAsciiUpper c then c.toNat + 32 else c.toNat := by
  unfold latinLower
  cases h : isLatinUpper c
  · simp only [Bool.false_eq_true, if_false, Bool.false_or]; exact asciiLower_toNat c
  · simp only [isLatinUpper, Bool.and_eq_true, decide_eq_true_eq] at h
    simp only [if_true, Bool.true_or]
    rw [toNat_ofNat_small (by omega)]

/-- These tables satisfy the assumed laws. -/
instance latinUniLaws : @UniLaws latinUni :=
  @UniLaws.mk latinUni
    (fun c h => by
      show latinUpper c = _
      rw [latinUpper, if_neg]
      simp only [isLatinLower, Bool.and_eq_true, decide_eq_true_eq]; omega)
    (fun c h => by
      show latinLower c = _
      rw [latinLower, if_neg]
      simp only [isLatinUpper, Bool.and_eq_true, decide_eq_true_eq]; omega)
    (fun c h => .inl (by
      show 128 ≤ (latinUpper c).toNat
      rw [latinUpper_toNat]
      simp only [isLatinLower, isAsciiLower, Bool.or_eq_true, Bool.and_eq_true, decide_eq_true_eq]
      split <;> omega))
    (fun c h => .inl (by
      show 128 ≤ (latinLower c).toNat
      rw [latinLower_toNat]
      split <;> omega))
    (fun c => char_ext (by
      show (latinUpper (latinUpper c)).toNat = (latinUpper c).toNat
      rw [latinUpper_toNat (latinUpper c)]
      simp only [isLatinLower, isAsciiLower, Bool.or_eq_true, Bool.and_eq_true, decide_eq_true_eq, latinUpper_toNat c]
      by_cases h : ((224 ≤ c.toNat ∧ c.toNat ≤ 254) ∧ c.toNat ≠ 247) ∨ 97 ≤ c.toNat ∧ c.toNat ≤ 122
      · simp only [h, if_true]; split <;> omega
      · simp only [h, if_false]))
    (fun c => char_ext (by
      show (latinLower (latinLower c)).toNat = (latinLower c).toNat
      rw [latinLower_toNat (latinLower c)]
      simp only [isLatinUpper, isAsciiUpper, Bool.or_eq_true, Bool.and_eq_true, decide_eq_true_eq, latinLower_toNat c]
      by_cases h : ((192 ≤ c.toNat ∧ c.toNat ≤ 222) ∧ c.toNat ≠ 215) ∨ 65 ≤ c.toNat ∧ c.toNat ≤ 90
      · simp only [h, if_true]; split <;> omega
      · simp only [h, if_false]))

/-- `école` in capitals and back. -/
example : (c!"École ß").map latinUpper = c!"ÉCOLE ß" ∧ (c!"ÉCOLE×").map latinLower = c!"école×" := by decide

end Xgen
