import Verif.Model.Base

/-! # Letters outside of ASCII

Go, C (C11, annex D), Java, Rust and TypeScript all take the letters of Unicode for letters of names.  Here are those of the Latin,
Greek, Cyrillic, Armenian, Hebrew, Arabic, Georgian, Japanese, Chinese and Korean scripts that stand together in the tables. -/

namespace Xgen.Alphabet

/-- Letters of Unicode (categories Lu, Ll, Lt, Lm and Lo), from the first to the last number. -/
def letters : List (Nat × Nat) :=
  [(0xC0, 0xD6), (0xD8, 0xF6), (0xF8, 0x24F), (0x386, 0x386), (0x388, 0x38A), (0x38C, 0x38C), (0x38E, 0x3A1), (0x3A3, 0x3CE),
   (0x400, 0x481), (0x48A, 0x52F), (0x531, 0x556), (0x561, 0x586), (0x5D0, 0x5EA), (0x620, 0x64A), (0x10D0, 0x10FA),
   (0x3041, 0x3096), (0x30A1, 0x30FA), (0x4E00, 0x9FA5), (0xAC00, 0xD7A3)]

/-- Capitals among them (category Lu), from the first to the last number, in steps of 1 or 2. -/
def capitals : List (Nat × Nat × Nat) :=
  [(0xC0, 0xD6, 1), (0xD8, 0xDE, 1), (0x100, 0x136, 2), (0x139, 0x147, 2), (0x14A, 0x176, 2), (0x178, 0x179, 1), (0x17B, 0x17D, 2),
   (0x386, 0x386, 1), (0x388, 0x38A, 1), (0x38C, 0x38C, 1), (0x38E, 0x38F, 1), (0x391, 0x3A1, 1), (0x3A3, 0x3AB, 1),
   (0x400, 0x42F, 1), (0x460, 0x480, 2), (0x48A, 0x4BE, 2), (0x4C0, 0x4C1, 1), (0x4C3, 0x4CD, 2), (0x4D0, 0x52E, 2), (0x531, 0x556, 1)]

/-- A letter of these scripts outside of ASCII. -/
def national (c : Char) : Bool := 0xC0 ≤ c.toNat && letters.any fun r => r.1 ≤ c.toNat && c.toNat ≤ r.2

/-- A capital of these scripts outside of ASCII. -/
def capital (c : Char) : Bool := national c && capitals.any fun r => r.1 ≤ c.toNat && c.toNat ≤ r.2.1 && (c.toNat - r.1) % r.2.2 = 0

theorem national_range {c : Char} (h : national c = true) : 0xC0 ≤ c.toNat ∧ c.toNat ≤ 0xD7A3 ∧ c.toNat ≠ 0x2028 ∧ c.toNat ≠ 0x2029 := by
  simp only [national, letters, List.any_cons, List.any_nil, Bool.and_eq_true, Bool.or_eq_true, decide_eq_true_eq, Bool.or_false] at h
  omega

theorem capital_national {c : Char} (h : capital c = true) : national c = true := (Bool.and_eq_true_iff.1 h).1

theorem national_ne {c d : Char} (h : national c = true) (hd : d.toNat < 0xC0) : c ≠ d := by
  rintro rfl
  have := (national_range h).1
  omega

/-- Capitals are there: `ÄÉŸŻΩЖҐԱ`; other letters: `äéß東あ한`; signs are none: `×÷·`. -/
example : (c!"ÄÉŸŻΩЖҐԱ").all capital = true ∧ (c!"äéß東あ한").all (fun c => national c && !capital c) = true ∧ (c!"×÷·").any national = false := by decide

end Xgen.Alphabet
