import Verif.Props.C13
import Verif.Props.C09
import Verif.Props.C04
import Verif.Props.C07
import Verif.Model.GenC
import Verif.Model.GenJava
import Verif.Model.GenRust
import Verif.Model.GenTS

/-! # Characters that names and types keep free of, and texts made of complete lines -/

namespace Xgen

/-- An ASCII character that is no letter: case mapping neither creates nor destroys it. -/
def Sym (x : Char) : Prop := x.toNat < 128 ∧ isAsciiLetter x = false

instance (x : Char) : Decidable (Sym x) := inferInstanceAs (Decidable (_ ∧ _))

/-- `s` contains none of the characters `bad`. -/
def Clean (bad : List Char) (s : Str) : Prop := ∀ x ∈ bad, x ∉ s

instance (bad : List Char) (s : Str) : Decidable (Clean bad s) := inferInstanceAs (Decidable (∀ x ∈ bad, x ∉ s))

theorem dropChar_absent {x y : Char} {s : Str} (h : x ∉ s) : x ∉ dropChar y s :=
  fun hm => h (List.mem_filter.1 hm).1

theorem splitOn_append_cons (sep : Char) (a b : Str) :
    splitOn sep (a ++ sep :: b) = splitOn sep a ++ splitOn sep b := by
  induction a with
  | nil => rw [List.nil_append, splitOn_cons_sep]; rfl
  | cons c cs ih =>
    by_cases hc : c = sep
    · subst hc; rw [List.cons_append, splitOn_cons_sep, splitOn_cons_sep, ih]; rfl
    · obtain ⟨p, ps, h1, h2⟩ := splitOn_cons_ne hc cs
      obtain ⟨q, qs, h3, h4⟩ := splitOn_cons_ne hc (cs ++ sep :: b)
      rw [ih, h1] at h3
      rw [List.cons_append, h4, h2]
      injection h3 with e1 e2
      rw [← e1, ← e2]; rfl

theorem trimNSPrefix_absent {x : Char} {s : Str} (h : x ∉ s) : x ∉ trimNSPrefix s := by
  unfold trimNSPrefix
  split
  · rename_i a b hs
    intro hm
    have : x ∈ (splitOn ':' s).flatten := by rw [hs]; simp [hm]
    rw [flatten_splitOn] at this
    exact h (List.mem_filter.1 this).1
  · exact h

/-- The types and bases of the declarations of a tree. -/
def treeTypes (t : Tree) : List Str := t.filterMap fun
  | some (.simple v) => some v.base
  | some (.attr v) => some v.type
  | some (.elem v) => some v.type
  | _ => none

theorem resolve_cases (t : Tree) (s : Str) : getBasefromSimpleType s t = s ∨ getBasefromSimpleType s t ∈ treeTypes t := by
  induction t with
  | nil => exact Or.inl rfl
  | cons n t ih =>
    have up : ∀ r, r ∈ treeTypes t → r ∈ treeTypes (n :: t) := by
      intro r hr
      unfold treeTypes at hr ⊢
      rw [List.mem_filterMap] at hr ⊢
      obtain ⟨a, ha, hb⟩ := hr
      exact ⟨a, List.mem_cons_of_mem _ ha, hb⟩
    have rest : getBasefromSimpleType s t = s ∨ getBasefromSimpleType s t ∈ treeTypes (n :: t) := ih.imp id (up _)
    unfold getBasefromSimpleType
    split
    · exact Or.inl rfl
    · rename_i v r e
      injection e with e1 e2
      subst e1 e2
      split
      · exact Or.inr (by simp [treeTypes])
      · exact rest
    · rename_i v r e
      injection e with e1 e2
      subst e1 e2
      split
      · exact Or.inr (by simp [treeTypes])
      · exact rest
    · rename_i v r e
      injection e with e1 e2
      subst e1 e2
      split
      · exact Or.inr (by simp [treeTypes])
      · exact rest
    · rename_i e
      injection e with e1 e2
      subst e2
      exact rest

theorem resolveIn_absent {x : Char} {t : Tree} {s : Str} (h : x ∉ s) (ht : ∀ r ∈ treeTypes t, x ∉ r) :
    x ∉ resolveIn t s := by
  unfold resolveIn
  rcases resolve_cases t (trimNSPrefix s) with e | e
  · rw [e]; exact trimNSPrefix_absent h
  · exact ht _ e

theorem snakeFirst_absent {x : Char} {s : Str} (hx : x ≠ '_') (h : x ∉ s) : x ∉ snakeFirst s := by
  intro hm
  have : x ∈ (snakeFirst s).filter (· ≠ '_') := List.mem_filter.2 ⟨hm, by simpa using hx⟩
  rw [C04.filter_snakeFirst] at this
  exact h (List.mem_filter.1 this).1

theorem snakeAll_absent {x : Char} {s : Str} (hx : x ≠ '_') (h : x ∉ s) : x ∉ snakeAll s := by
  intro hm
  have : x ∈ (snakeAll s).filter (· ≠ '_') := List.mem_filter.2 ⟨hm, by simpa using hx⟩
  rw [C04.filter_snakeAll] at this
  exact h (List.mem_filter.1 this).1

section
variable [Uni] [UniLaws] {x : Char} {s : Str} (hx : Sym x)
include hx

theorem titleParts_absent {sep : Char} (h : x ∉ s) : x ∉ titleParts sep s := C13.titleParts_keeps_absent hx.1 hx.2 h

theorem firstUpper_absent (h : x ∉ s) : x ∉ makeFirstUpperCase s := by
  cases s with
  | nil => simp [makeFirstUpperCase, toTitle]
  | cons c cs =>
    simp only [makeFirstUpperCase, toTitle, List.mem_cons, not_or] at h ⊢
    exact ⟨fun e => h.1 ((upper_eq_iff hx.1 hx.2 c).1 e.symm).symm, h.2⟩

theorem baseName_absent (h : x ∉ s) : x ∉ baseName s := titleParts_absent hx (titleParts_absent hx h)

theorem goName_absent (h : x ∉ s) : x ∉ goName s := dropChar_absent (dropChar_absent (baseName_absent hx h))

theorem cName_absent (h : x ∉ s) : x ∉ cName s := dropChar_absent (baseName_absent hx h)

theorem toSnakeCase_absent (h_ : x ≠ '_') (h : x ∉ s) : x ∉ toSnakeCase s := by
  simp only [toSnakeCase, List.mem_map, not_exists, not_and]
  intro c hc e
  have e1 := (lower_eq_iff hx.1 hx.2 c).1 e
  subst e1
  obtain ⟨d, hd, e2⟩ := hc
  split at e2
  · exact h_ e2.symm
  · subst e2; exact snakeAll_absent h_ (snakeFirst_absent h_ h) hd

theorem rustFieldName_absent (h_ : x ≠ '_') (h : x ∉ s) : x ∉ rustFieldName s := by
  have h1 := toSnakeCase_absent hx h_ (dropChar_absent (y := '-') (baseName_absent hx h))
  unfold rustFieldName
  simp only
  split
  · intro hm
    rcases List.mem_append.1 hm with hm | hm
    · exact h1 hm
    · simp only [List.mem_cons, List.not_mem_nil, or_false] at hm
      rcases hm with rfl | rfl | rfl | rfl | rfl
      · exact h_ rfl
      all_goals exact absurd hx (by decide)
  · exact h1

theorem rustStructName_absent (h : x ∉ s) : x ∉ rustStructName s :=
  fun hm => baseName_absent hx h (List.mem_filter.1 hm).1

theorem goType_absent (hb : x ∉ c!"*interface{}") (h : x ∉ s) : x ∉ genGoFieldType s := by
  unfold genGoFieldType
  split
  · exact h
  · simp only
    split
    · simp only [List.mem_cons, not_or] at hb ⊢
      exact ⟨hb.1, dropChar_absent (firstUpper_absent hx (dropChar_absent (titleParts_absent hx h)))⟩
    · simp only [List.mem_cons, not_or] at hb ⊢
      exact hb.2

theorem cType_absent (h : x ∉ s) : x ∉ genCFieldType s := by
  unfold genCFieldType
  split
  · exact h
  · simp only
    split
    · exact firstUpper_absent hx (dropChar_absent (titleParts_absent hx h))
    · intro hm
      simp only [List.mem_cons, List.not_mem_nil, or_false] at hm
      rcases hm with rfl | rfl | rfl | rfl <;> exact absurd hx (by decide)

theorem javaType_absent (h : x ∉ s) : x ∉ genJavaFieldType s := by
  unfold genJavaFieldType
  split
  · exact h
  · simp only
    split
    · exact firstUpper_absent hx (dropChar_absent (titleParts_absent hx h))
    · intro hm
      simp only [List.mem_cons, List.not_mem_nil, or_false] at hm
      rcases hm with rfl | rfl | rfl | rfl <;> exact absurd hx (by decide)

theorem rustType_absent (h : x ∉ s) : x ∉ genRustFieldType s := by
  unfold genRustFieldType
  split
  · exact h
  · split
    · exact rustStructName_absent hx h
    · intro hm
      simp only [List.mem_cons, List.not_mem_nil, or_false] at hm
      rcases hm with rfl | rfl | rfl | rfl <;> exact absurd hx (by decide)

theorem tsType_absent {p : Bool} (hb : x ∉ c!"<>") (h : x ∉ s) : x ∉ genTypeScriptFieldType s p := by
  unfold genTypeScriptFieldType
  split
  · exact h
  · simp only
    have h1 : x ∉ makeFirstUpperCase (dropChar '-' (titleParts '.' s)) :=
      firstUpper_absent hx (dropChar_absent (titleParts_absent hx h))
    generalize makeFirstUpperCase (dropChar '-' (titleParts '.' s)) = u at h1 ⊢
    have h2 : x ∉ (if (decide (u = []) || decide (u = c!"Any")) = true then c!"any" else u) := by
      split
      · intro hm
        simp only [List.mem_cons, List.not_mem_nil, or_false] at hm
        rcases hm with rfl | rfl | rfl <;> exact absurd hx (by decide)
      · exact h1
    split
    · intro hm
      simp only [List.mem_append, List.mem_cons, List.not_mem_nil, or_false] at hm hb
      rcases hm with (hm | hm) | hm
      · rcases hm with rfl | rfl | rfl | rfl | rfl | rfl
        all_goals first | exact absurd hx (by decide) | exact hb (Or.inl rfl)
      · exact h2 hm
      · exact hb (Or.inr hm)
    · exact h2

end

/-! ## Texts made of complete lines -/

/-- `s` consists of the complete lines `ls`. -/
def Lines (s : Str) (ls : List Str) : Prop := ∀ b, splitOn '\n' (s ++ b) = ls ++ splitOn '\n' b

theorem Lines.nil : Lines [] [] := fun _ => rfl

theorem Lines.one {a : Str} (h : '\n' ∉ a) : Lines (a ++ c!"\n") [a] := by
  intro b
  rw [List.append_assoc, List.singleton_append, splitOn_append_sep h]; rfl

theorem Lines.append {a b : Str} {as bs : List Str} (ha : Lines a as) (hb : Lines b bs) : Lines (a ++ b) (as ++ bs) := by
  intro c
  rw [List.append_assoc, ha, hb, List.append_assoc]

theorem Lines.flatMap {α : Type} {f : α → Str} {g : α → List Str} {l : List α} (h : ∀ a ∈ l, Lines (f a) (g a)) :
    Lines (l.flatMap f) (l.flatMap g) := by
  induction l with
  | nil => exact Lines.nil
  | cons a l ih =>
    rw [List.flatMap_cons, List.flatMap_cons]
    exact (h a (by simp)).append (ih fun b hb => h b (by simp [hb]))

/-- The lines of a comment, none of which starts with a tab. -/
theorem comment_untabbed (name doc : Str) (hn : '\n' ∉ name) : ∃ ls, Lines (genFieldComment name doc c!"//") ls ∧
    ∀ l ∈ ls, ∀ r, l ≠ '\t' :: r := by
  have h := C09.comment_lines name doc c!"//" hn (by decide)
  obtain ⟨a, ha⟩ : ∃ a, genFieldComment name doc c!"//" = a ++ c!"\n" := by
    unfold genFieldComment
    split
    · exact ⟨c!"\r\n" ++ c!"//" ++ c!" " ++ name ++ c!" ...\r", by simp⟩
    · exact ⟨c!"\r\n" ++ c!"//" ++ c!" " ++ name ++ c!" is " ++ docReplace c!"//" doc ++ c!"\r", by simp⟩
  rw [ha] at h ⊢
  refine ⟨splitOn '\n' a, ?_, ?_⟩
  · intro b
    rw [List.append_assoc, List.singleton_append, splitOn_append_cons]
  · intro l hl r e
    have hl' : l ∈ splitOn '\n' (a ++ c!"\n") := by
      rw [splitOn_append_cons]; exact List.mem_append_left _ hl
    subst e
    rcases h _ hl' with (h | h) | h
    · cases h
    · cases h
    · obtain ⟨t, ht⟩ := h; cases ht

end Xgen
