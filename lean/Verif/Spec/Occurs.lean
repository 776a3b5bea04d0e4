import Verif.Model.Parser
import Verif.Lemmas.Char

/-! # Specification of maxOccurs: decimal 64-bit integers, and what an element or choice tag says about multiplicity -/

namespace Xgen.Occurs

/-- `ds` is a non-empty decimal numeral with value `n`. -/
inductive Numeral : Str → Nat → Prop
  | one (d : Nat) : d < 10 → Numeral [Char.ofNat (48 + d)] d
  | more (ds : Str) (n d : Nat) : Numeral ds n → d < 10 → Numeral (ds ++ [Char.ofNat (48 + d)]) (10 * n + d)

/-- A signed decimal integer that fits in 64 bits. -/
inductive Int64 : Str → Int → Prop
  | plain (ds n) : Numeral ds n → n < 2 ^ 63 → Int64 ds n
  | plus (ds n) : Numeral ds n → n < 2 ^ 63 → Int64 ('+' :: ds) n
  | minus (ds n) : Numeral ds n → n ≤ 2 ^ 63 → Int64 ('-' :: ds) (-n)

/-- A legal value of maxOccurs. -/
def Legal (v : Str) : Prop := v = c!"unbounded" ∨ ∃ n, Int64 v n

/-- A value that allows more than one occurrence. -/
def Many (v : Str) : Prop := v = c!"unbounded" ∨ ∃ n, Int64 v n ∧ 1 < n

/-! ## The model agrees -/

theorem digit_toNat (d : Nat) (h : d < 10) : (Char.ofNat (48 + d)).toNat = 48 + d := toNat_ofNat_lt (by omega)

theorem isDigit_iff (c : Char) : isAsciiDigit c = true ↔ ∃ d, d < 10 ∧ c = Char.ofNat (48 + d) := by
  unfold isAsciiDigit
  simp only [Bool.and_eq_true, decide_eq_true_eq]
  constructor
  · intro h
    refine ⟨c.toNat - 48, by omega, char_ext ?_⟩
    rw [digit_toNat _ (by omega)]
    omega
  · rintro ⟨d, hd, rfl⟩
    rw [digit_toNat d hd]
    omega

theorem numeral_iff (ds : Str) (n : Nat) : Numeral ds n ↔ ds ≠ [] ∧ ds.all isAsciiDigit = true ∧ digitsVal ds = n := by
  constructor
  · intro h
    induction h with
    | one d hd =>
      refine ⟨by simp, ?_, ?_⟩
      · simp only [List.all_cons, List.all_nil, Bool.and_true]
        exact (isDigit_iff _).2 ⟨d, hd, rfl⟩
      · simp [digitsVal, digitVal, digit_toNat d hd]
    | more ds n d _ hd ih =>
      obtain ⟨h1, h2, h3⟩ := ih
      refine ⟨by simp, ?_, ?_⟩
      · rw [List.all_append, h2]
        simp only [List.all_cons, List.all_nil, Bool.and_true, Bool.true_and]
        exact (isDigit_iff _).2 ⟨d, hd, rfl⟩
      · unfold digitsVal at h3 ⊢
        rw [List.foldl_append, h3]
        simp only [List.foldl_cons, List.foldl_nil, digitVal, digit_toNat d hd]
        omega
  · rintro ⟨h1, h2, h3⟩
    subst h3
    have : ∀ (r : Str), r ≠ [] → r.reverse.all isAsciiDigit = true → Numeral r.reverse (digitsVal r.reverse) := by
      intro r
      induction r with
      | nil => intro h; exact absurd rfl h
      | cons c cs ih =>
        intro _ h
        rw [List.reverse_cons, List.all_append, Bool.and_eq_true] at h
        obtain ⟨d, hd, rfl⟩ := (isDigit_iff c).1 (by simpa using h.2)
        rw [List.reverse_cons]
        cases cs with
        | nil =>
          have := Numeral.one d hd
          simpa [digitsVal, digitVal, digit_toNat d hd] using this
        | cons x xs =>
          have := Numeral.more _ _ d (ih (by simp) h.1) hd
          have hv : digitsVal ((x :: xs).reverse ++ [Char.ofNat (48 + d)]) =
              10 * digitsVal (x :: xs).reverse + d := by
            unfold digitsVal
            rw [List.foldl_append]
            simp only [List.foldl_cons, List.foldl_nil, digitVal, digit_toNat d hd]
            omega
          rw [hv]
          exact this
    have h := this ds.reverse (by simpa using h1) (by rw [List.reverse_reverse]; exact h2)
    rwa [List.reverse_reverse] at h

/-- `strconv.Atoi` as modelled accepts exactly the 64-bit decimals, with their value. -/
theorem atoi_iff (v : Str) (n : Int) : atoi v = some n ↔ Int64 v n := by
  have nosign : ∀ ds n, Numeral ds n → ∀ x xs, ds = x :: xs → x ≠ '+' ∧ x ≠ '-' := by
    intro ds n h x xs e
    have h2 := ((numeral_iff ds n).1 h).2.1
    rw [e, List.all_cons, Bool.and_eq_true] at h2
    constructor <;> (rintro rfl; exact absurd h2.1 (by decide))
  constructor
  · intro h
    unfold atoi at h
    dsimp only at h
    split at h
    · simp only [Bool.false_eq_true, if_false] at h
      split at h
      · cases h
      · rename_i ds hc
        split at h
        · cases h
          rename_i hlt
          simp only [Bool.or_eq_true, decide_eq_true_eq, Bool.not_eq_true', not_or, Bool.not_eq_false] at hc
          exact Int64.plus _ _ ((numeral_iff _ _).2 ⟨hc.1, hc.2, rfl⟩) hlt
        · cases h
    · simp only [if_true] at h
      split at h
      · cases h
      · rename_i ds hc
        split at h
        · cases h
          rename_i hlt
          simp only [Bool.or_eq_true, decide_eq_true_eq, Bool.not_eq_true', not_or, Bool.not_eq_false] at hc
          exact Int64.minus _ _ ((numeral_iff _ _).2 ⟨hc.1, hc.2, rfl⟩) hlt
        · cases h
    · simp only [Bool.false_eq_true, if_false] at h
      split at h
      · cases h
      · rename_i hc
        split at h
        · cases h
          rename_i hlt
          simp only [Bool.or_eq_true, decide_eq_true_eq, Bool.not_eq_true', not_or, Bool.not_eq_false] at hc
          exact Int64.plain _ _ ((numeral_iff _ _).2 ⟨hc.1, hc.2, rfl⟩) hlt
        · cases h
  · intro h
    cases h with
    | plain _ n hn hlt =>
      obtain ⟨h1, h2, h3⟩ := (numeral_iff _ _).1 hn
      have hs := nosign v n hn
      unfold atoi
      dsimp only
      split
      · exact absurd rfl (hs _ _ rfl).1
      · exact absurd rfl (hs _ _ rfl).2
      · simp only [Bool.false_eq_true, if_false]
        rw [if_neg (by simp [h1, h2]), h3, if_pos hlt]
    | plus ds n hn hlt =>
      obtain ⟨h1, h2, h3⟩ := (numeral_iff _ _).1 hn
      unfold atoi
      simp only [Bool.false_eq_true, if_false]
      rw [if_neg (by simp [h1, h2]), h3, if_pos hlt]
    | minus ds n hn hlt =>
      obtain ⟨h1, h2, h3⟩ := (numeral_iff _ _).1 hn
      unfold atoi
      simp only [if_true]
      rw [if_neg (by simp [h1, h2]), h3, if_pos hlt]

theorem legal_iff (v : Str) : maxOccursPlural v ≠ none ↔ Legal v := by
  unfold maxOccursPlural Legal
  by_cases h : v = c!"unbounded"
  · rw [if_pos h]; simp [h]
  · rw [if_neg h]
    cases e : atoi v with
    | none =>
      simp only [ne_eq, not_true_eq_false, h, false_or, false_iff, not_exists]
      intro n hn
      rw [(atoi_iff v n).2 hn] at e
      cases e
    | some n => simp only [ne_eq, reduceCtorEq, not_false_iff, h, false_or, true_iff]; exact ⟨n, (atoi_iff v n).1 e⟩

theorem many_iff (v : Str) : maxOccursPlural v = some true ↔ Many v := by
  unfold maxOccursPlural Many
  by_cases h : v = c!"unbounded"
  · rw [if_pos h]; simp [h]
  · rw [if_neg h]
    cases e : atoi v with
    | none =>
      simp only [reduceCtorEq, h, false_or, false_iff, not_exists]
      rintro n ⟨hn, -⟩
      rw [(atoi_iff v n).2 hn] at e
      cases e
    | some n =>
      simp only [Option.some.injEq, decide_eq_true_eq, h, false_or]
      constructor
      · intro h1; exact ⟨n, (atoi_iff v n).1 e, h1⟩
      · rintro ⟨m, hm, h1⟩
        rw [(atoi_iff v m).2 hm] at e
        cases e
        exact h1

/-- What the attributes of an element tag say: a maxOccurs above one, or an attribute "unbounded" other than "0" (which
is not part of XSD, but read at xmlElement.go:46-50). -/
def OwnPlural (attrs : List Attr) : Prop :=
  ∃ a ∈ attrs, (a.local = c!"maxOccurs" ∧ Many a.value) ∨ (a.local = c!"unbounded" ∧ a.value ≠ c!"0")

/-- All maxOccurs attributes are legal. -/
def AllLegal (attrs : List Attr) : Prop := ∀ a ∈ attrs, a.local = c!"maxOccurs" → Legal a.value

/-- What the attributes of a choice tag say: the last maxOccurs counts. -/
def ChoicePlural (attrs : List Attr) : Prop :=
  ∃ l a r, attrs = l ++ a :: r ∧ a.local = c!"maxOccurs" ∧ Many a.value ∧ ∀ b ∈ r, b.local ≠ c!"maxOccurs"

end Xgen.Occurs
