import Verif.Lemmas.Str

/-! # C03: title-casing changes only the first rune -/

namespace Xgen.C03
variable [Uni]

/-- C03, shape: the first rune is upper-cased, the rest is untouched -/
theorem title_cons (c : Char) (cs : Str) : makeFirstUpperCase (c :: cs) = Uni.upper c :: cs := rfl

theorem title_nil : makeFirstUpperCase [] = [] := rfl

/-- C03, position by position -/
theorem title_get (s : Str) (i : Nat) :
    (makeFirstUpperCase s)[i]? = (s[i]?).map (if i = 0 then Uni.upper else id) := by
  cases s with
  | nil => simp [makeFirstUpperCase, toTitle]
  | cons c cs => cases i <;> simp [makeFirstUpperCase, toTitle]

theorem title_length (s : Str) : (makeFirstUpperCase s).length = s.length := by
  cases s <;> rfl

/-- C03, idempotence, for every table that is itself idempotent (as Unicode's is) -/
theorem title_idem (h : ∀ c : Char, Uni.upper (Uni.upper c) = Uni.upper c) (s : Str) :
    makeFirstUpperCase (makeFirstUpperCase s) = makeFirstUpperCase s := by
  cases s with
  | nil => rfl
  | cons c cs => simp [makeFirstUpperCase, toTitle, h]

example : @makeFirstUpperCase asciiUni c!"ab cd" = c!"Ab cd" := by decide

end Xgen.C03
