import Verif.Lemmas.Char
import Verif.Lemmas.Str

/-! # C04: snake case is lower case and loses no letter -/

namespace Xgen.C04

theorem filter_snakeFirst (s : Str) : (snakeFirst s).filter (· ≠ '_') = s.filter (· ≠ '_') := by
  fun_induction snakeFirst s with
  | case1 a b c rest h ih => simp only [List.filter_cons, ih]; simp
  | case2 a b c rest h ih => rw [List.filter_cons, ih]; simp [List.filter_cons]
  | case3 s h => rfl

theorem filter_snakeAll (s : Str) : (snakeAll s).filter (· ≠ '_') = s.filter (· ≠ '_') := by
  fun_induction snakeAll s with
  | case1 a b rest h ih => simp only [List.filter_cons, ih]; simp
  | case2 a b rest h ih => rw [List.filter_cons, ih]; simp [List.filter_cons]
  | case3 s h => rfl

/-- On a string without ASCII upper-case letters both passes do nothing. -/
theorem snakeFirst_id (s : Str) (h : ∀ c ∈ s, isAsciiUpper c = false) : snakeFirst s = s := by
  fun_induction snakeFirst s with
  | case1 a b c rest h' ih => simp [h a (by simp)] at h'
  | case2 a b c rest h' ih => rw [ih (fun c hc => h c (List.mem_cons_of_mem _ hc))]
  | case3 s h => rfl

theorem snakeAll_id (s : Str) (h : ∀ c ∈ s, isAsciiUpper c = false) : snakeAll s = s := by
  fun_induction snakeAll s with
  | case1 a b rest h' ih => simp [h b (by simp)] at h'
  | case2 a b rest h' ih => rw [ih (fun c hc => h c (List.mem_cons_of_mem _ hc))]
  | case3 s h => rfl

variable [Uni] [UniLaws]

/-- C04, no hyphen -/
theorem no_hyphen (s : Str) : '-' ∉ toSnakeCase s := by
  simp only [toSnakeCase, List.map_map, List.mem_map, Function.comp_apply, not_exists, not_and]
  intro c _ h
  rw [lower_eq_iff (by decide) (by decide)] at h
  split at h
  · exact absurd h (by decide)
  · contradiction

/-- C04, no ASCII upper-case letter -/
theorem no_upper (s : Str) : ∀ c ∈ toSnakeCase s, isAsciiUpper c = false := by
  intro c hc
  simp only [toSnakeCase, List.mem_map] at hc
  obtain ⟨d, _, rfl⟩ := hc
  exact lower_not_upper d

/-- C04, no letter is lost, added or moved: without underscores the output is the lower-cased input without hyphens and
underscores -/
theorem letters_kept (s : Str) :
    (toSnakeCase s).filter (· ≠ '_') = (s.filter (fun c => c ≠ '-' ∧ c ≠ '_')).map Uni.lower := by
  have key : ∀ t : Str, ((t.map (fun c => if c = '-' then '_' else c)).map Uni.lower).filter (· ≠ '_') =
      ((t.filter (· ≠ '_')).filter (· ≠ '-')).map Uni.lower := by
    intro t
    induction t with
    | nil => rfl
    | cons c t ih =>
      simp only [List.map_cons, List.filter_cons]
      by_cases h1 : c = '-'
      · have : Uni.lower '_' = '_' := (lower_eq_iff (by decide) (by decide) _).2 rfl
        subst h1; simpa [this] using ih
      · by_cases h2 : c = '_'
        · have : Uni.lower '_' = '_' := (lower_eq_iff (by decide) (by decide) _).2 rfl
          subst h2; simpa [this] using ih
        · have : Uni.lower c ≠ '_' := fun e => h2 ((lower_eq_iff (by decide) (by decide) _).1 e)
          simpa [h1, h2, this] using ih
  rw [toSnakeCase, key, filter_snakeAll, filter_snakeFirst, List.filter_filter]
  congr 1
  apply List.filter_congr
  intro c _
  simp

/-- C04, idempotence -/
theorem snake_idem (s : Str) : toSnakeCase (toSnakeCase s) = toSnakeCase s := by
  have hu := no_upper s
  have hh := no_hyphen s
  have hl : (toSnakeCase s).map Uni.lower = toSnakeCase s := by
    simp only [toSnakeCase, List.map_map]
    apply List.map_congr_left
    intro c _
    exact UniLaws.lower_idem _
  generalize toSnakeCase s = t at *
  rw [toSnakeCase, snakeFirst_id _ hu, snakeAll_id _ hu]
  have hm : t.map (fun c => if c = '-' then '_' else c) = t := by
    rw [List.map_congr_left (g := id)]
    · simp
    · intro c hc
      have : c ≠ '-' := fun e => hh (e ▸ hc)
      simp [this]
  simp only [hm, hl]

example : @toSnakeCase asciiUni c!"HTTPServer-idOf2Things" = c!"http_server_id_of2_things" := by decide

end Xgen.C04
