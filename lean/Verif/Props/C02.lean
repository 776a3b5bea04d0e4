import Verif.Lemmas.Str

/-! # C02: namespace prefix splitting is exact -/

namespace Xgen.C02

/-- C02, exactly one colon -/
theorem one_colon (a b : Str) (ha : ':' ∉ a) (hb : ':' ∉ b) :
    getNSPrefix (a ++ ':' :: b) = a ∧ trimNSPrefix (a ++ ':' :: b) = b := by
  simp [getNSPrefix, trimNSPrefix, splitOn_append_sep ha, splitOn_of_not_mem hb]

example : getNSPrefix c!"xs:string" = c!"xs" ∧ trimNSPrefix c!"xs:string" = c!"string" :=
  one_colon c!"xs" c!"string" (by decide) (by decide)

/-- C02, no colon or several -/
theorem other_colons (s : Str) (h : s.count ':' ≠ 1) : getNSPrefix s = [] ∧ trimNSPrefix s = s := by
  have hl : (splitOn ':' s).length ≠ 2 := by rw [splitOn_length]; omega
  constructor
  · unfold getNSPrefix; split
    · rename_i hs; simp [hs] at hl
    · rfl
  · unfold trimNSPrefix; split
    · rename_i hs; simp [hs] at hl
    · rfl

example : getNSPrefix c!"a:b:c" = [] ∧ trimNSPrefix c!"a:b:c" = c!"a:b:c" := other_colons _ (by decide)

/-- Every string is of one of the two forms. -/
theorem forms (s : Str) : s.count ':' ≠ 1 ∨ ∃ a b, ':' ∉ a ∧ ':' ∉ b ∧ s = a ++ ':' :: b := by
  by_cases h : s.count ':' = 1
  · right
    have hm : ':' ∈ s := List.count_pos_iff.1 (by omega)
    obtain ⟨a, b, rfl⟩ := List.append_of_mem hm
    simp only [List.count_append, List.count_cons_self] at h
    exact ⟨a, b, List.count_eq_zero.1 (by omega), List.count_eq_zero.1 (by omega), rfl⟩
  · exact .inl h

/-- C02, splitting the local part again changes nothing -/
theorem trim_idem (s : Str) : trimNSPrefix (trimNSPrefix s) = trimNSPrefix s := by
  rcases forms s with h | ⟨a, b, ha, hb, rfl⟩
  · rw [(other_colons s h).2, (other_colons s h).2]
  · rw [(one_colon a b ha hb).2]
    exact (other_colons b (by rw [List.count_eq_zero_of_not_mem hb]; decide)).2

end Xgen.C02
