import Verif.Lemmas.Map
import Verif.Model.Gen

/-! # C14: generated declaration names do not collide -/

namespace Xgen

theorem getNat_set (m : GoMap Nat) (k k' : Str) (v : Nat) :
    (m.set k v).getNat k' = if k' = k then v else m.getNat k' := by
  simp only [GoMap.getNat, GoMap.get?_set]; split <;> simp

namespace C14

/-- The names given to a sequence of declarations by successive calls of the unique-name generator. -/
def names : List Str → Gen → List Str
  | [], _ => []
  | b :: bs, g => (uniqueName b g).1 :: names bs (uniqueName b g).2

/-- Specification: the `k`-th use (k ≥ 1) of a name. -/
def numbered (b : Str) (k : Nat) : Str := if k = 1 then b else b ++ decimal k

/-- The `i`-th name carries the number of uses of its base so far. -/
theorem names_eq (bs : List Str) (g : Gen) (i : Nat) (h : i < bs.length) :
    (names bs g)[i]? = some (numbered bs[i] (g.count.getNat bs[i] + (bs.take (i + 1)).count bs[i])) := by
  induction bs generalizing g i with
  | nil => simp at h
  | cons b bs ih =>
    cases i with
    | zero => simp [names, uniqueName, numbered]
    | succ i =>
      have hi : i < bs.length := by simpa using h
      simp only [names, List.getElem?_cons_succ, List.getElem_cons_succ]
      rw [ih (uniqueName b g).2 i hi]
      simp only [uniqueName, getNat_set, List.take_succ_cons, List.count_cons]
      congr 2
      by_cases hb : bs[i] = b
      · simp [hb]; omega
      · have hb' : ¬ b = bs[i] := fun e => hb e.symm
        simp [hb, hb']

theorem decimal_digits (n : Nat) : ∀ c ∈ decimal n, c.isDigit = true :=
  fun _ hc => Nat.isDigit_of_mem_toDigits (by decide) (by decide) hc

theorem decimal_inj {m n : Nat} (h : decimal m = decimal n) : m = n := by
  have := congrArg (Nat.ofDigitChars 10 · 0) h
  simpa [decimal, Nat.ofDigitChars_ten_toDigits] using this

/-- A base without final digit and a number can be read off their concatenation. -/
theorem append_digits_inj {a b x y : Str} (ha : ∀ c, a.getLast? = some c → c.isDigit = false)
    (hb : ∀ c, b.getLast? = some c → c.isDigit = false) (hx : ∀ c ∈ x, c.isDigit = true)
    (hy : ∀ c ∈ y, c.isDigit = true) (h : a ++ x = b ++ y) : a = b ∧ x = y := by
  rcases List.append_eq_append_iff.1 h with ⟨w, rfl, rfl⟩ | ⟨w, rfl, rfl⟩
  · rcases List.eq_nil_or_concat w with rfl | ⟨w', c, rfl⟩
    · simp
    · have h1 := hb c (by simp)
      have h2 := hx c (by simp)
      simp [h1] at h2
  · rcases List.eq_nil_or_concat w with rfl | ⟨w', c, rfl⟩
    · simp
    · have h1 := ha c (by simp)
      have h2 := hy c (by simp)
      simp [h1] at h2

theorem numbered_inj {a b : Str} {j k : Nat} (ha : ∀ c, a.getLast? = some c → c.isDigit = false)
    (hb : ∀ c, b.getLast? = some c → c.isDigit = false) (h : numbered a j = numbered b k) : a = b ∧ j = k := by
  unfold numbered at h
  have nn : ∀ n, decimal n ≠ [] := by
    intro n e
    have := @Nat.length_toDigits_pos 10 n
    simp only [decimal] at e; simp [e] at this
  split at h <;> split at h
  · exact ⟨h, by omega⟩
  · have := append_digits_inj (x := []) ha hb (by simp) (decimal_digits k) (by simpa using h)
    exact absurd this.2.symm (nn k)
  · have := append_digits_inj (y := []) ha hb (decimal_digits j) (by simp) (by simpa using h)
    exact absurd this.2 (nn j)
  · have := append_digits_inj ha hb (decimal_digits j) (decimal_digits k) h
    exact ⟨this.1, decimal_inj this.2⟩

theorem names_length (bs : List Str) (g : Gen) : (names bs g).length = bs.length := by
  induction bs generalizing g with
  | nil => rfl
  | cons b bs ih => simp [names, ih]

/-- C14, true part: in one run (counter freshly reset) no two generated names are equal, provided no base name ends in a
digit.  Missing: base names that end in a digit, for which the claim is false (`collision`). -/
theorem no_collision_partial (bs : List Str) (g : Gen)
    (hd : ∀ b ∈ bs, ∀ c, b.getLast? = some c → c.isDigit = false) : (names bs g).Nodup := by
  rw [List.Nodup, List.pairwise_iff_getElem]
  intro i j hi' hj' hij heq
  have hj : j < bs.length := by rwa [names_length] at hj'
  replace heq : (names bs g)[i]? = (names bs g)[j]? := by
    rw [List.getElem?_eq_getElem hi', List.getElem?_eq_getElem hj', heq]
  have hi : i < bs.length := by omega
  rw [names_eq bs g i hi, names_eq bs g j hj] at heq
  have := numbered_inj (hd _ (List.getElem_mem hi)) (hd _ (List.getElem_mem hj)) (Option.some.inj heq)
  have hlt : (bs.take (i + 1)).count bs[j] < (bs.take (j + 1)).count bs[j] := by
    rw [List.take_succ_eq_append_getElem hj, List.count_append]
    have h1 : (bs.take (i + 1)).count bs[j] ≤ (bs.take j).count bs[j] := by
      apply List.Sublist.count_le
      have : bs.take (i + 1) = (bs.take j).take (i + 1) := by rw [List.take_take]; congr 1; omega
      rw [this]
      exact List.take_sublist _ _
    simp; omega
  rw [this.1] at this
  omega

/-- The first use of a name keeps it. -/
theorem first_use (b : Str) (bs : List Str) (g : Gen) (h : g.count.getNat b = 0) : (names (b :: bs) g).head? = some b := by
  simp [names, uniqueName, h]

/-- C14 is false in general: components `A`, `a` (both named `A` in the target) and `A2` yield `A`, `A2`, `A2`. -/
theorem collision : ¬ (names [c!"A", c!"A", c!"A2"] {}).Nodup := by decide

example : names [c!"A", c!"B", c!"A", c!"A"] {} = [c!"A", c!"B", c!"A2", c!"A3"] := by decide

end C14
end Xgen
