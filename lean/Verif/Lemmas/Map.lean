import Verif.Model.Base

/-! # Go maps -/

namespace Xgen
namespace GoMap
variable {α : Type}

theorem get?_eq_none {m : GoMap α} {k : Str} : m.get? k = none ↔ k ∉ m.keys := by
  induction m with
  | nil => simp [get?, keys]
  | cons e m ih =>
    obtain ⟨k', v⟩ := e
    simp only [get?, keys, List.map_cons, List.mem_cons, not_or]
    by_cases h : k' = k
    · simp [h]
    · simp only [h, if_false, ih, keys]
      constructor
      · intro h'; exact ⟨fun e => h e.symm, h'⟩
      · exact fun h' => h'.2

theorem has_iff {m : GoMap α} {k : Str} : m.has k = true ↔ k ∈ m.keys := by
  rw [has, Option.isSome_iff_ne_none, ne_eq, get?_eq_none, Decidable.not_not]

theorem has_eq_false {m : GoMap α} {k : Str} : m.has k = false ↔ k ∉ m.keys := by
  rw [← has_iff]; simp

theorem mem_of_get? {m : GoMap α} {k : Str} {v : α} (h : m.get? k = some v) : (k, v) ∈ m := by
  induction m with
  | nil => simp [get?] at h
  | cons e m ih =>
    obtain ⟨k', v'⟩ := e
    simp only [get?] at h
    split at h
    · rename_i hk; subst hk; simp_all
    · exact List.mem_cons_of_mem _ (ih h)

theorem get?_of_mem {m : GoMap α} (hn : m.keys.Nodup) {k : Str} {v : α} (h : (k, v) ∈ m) : m.get? k = some v := by
  induction m with
  | nil => simp at h
  | cons e m ih =>
    obtain ⟨k', v'⟩ := e
    simp only [keys, List.map_cons, List.nodup_cons] at hn
    simp only [get?]
    rcases List.mem_cons.1 h with h' | h'
    · cases h'; simp
    · have hne : k' ≠ k := by
        rintro rfl
        exact hn.1 (List.mem_map.2 ⟨_, h', rfl⟩)
      simp only [hne, if_false]
      exact ih hn.2 h'

@[simp] theorem get?_set_self (m : GoMap α) (k : Str) (v : α) : (m.set k v).get? k = some v := by
  induction m with
  | nil => simp [set, get?]
  | cons e m ih =>
    obtain ⟨k', v'⟩ := e
    simp only [set]
    split
    · rename_i h; simp [get?, h]
    · rename_i h; simp [get?, h, ih]

theorem get?_set_ne (m : GoMap α) {k k' : Str} (h : k' ≠ k) (v : α) : (m.set k v).get? k' = m.get? k' := by
  induction m with
  | nil => simp [set, get?, h.symm]
  | cons e m ih =>
    obtain ⟨a, b⟩ := e
    simp only [set]
    split
    · rename_i h'; subst h'; simp [get?, h.symm]
    · simp [get?, ih]

theorem get?_set (m : GoMap α) (k k' : Str) (v : α) :
    (m.set k v).get? k' = if k' = k then some v else m.get? k' := by
  split
  · rename_i h; subst h; simp
  · rename_i h; exact get?_set_ne m h v

theorem keys_set_of_mem (m : GoMap α) {k : Str} (h : k ∈ m.keys) (v : α) : (m.set k v).keys = m.keys := by
  induction m with
  | nil => simp [keys] at h
  | cons e m ih =>
    obtain ⟨a, b⟩ := e
    simp only [set]
    split
    · simp [keys]
    · rename_i hne
      have : k ∈ keys m := by
        simp only [keys, List.map_cons, List.mem_cons] at h
        rcases h with h | h
        · exact absurd h.symm hne
        · exact h
      have := ih this
      simp only [keys] at this
      simp [keys, this]

theorem keys_set_of_not_mem (m : GoMap α) {k : Str} (h : k ∉ m.keys) (v : α) : m.set k v = m ++ [(k, v)] := by
  induction m with
  | nil => rfl
  | cons e m ih =>
    obtain ⟨a, b⟩ := e
    simp only [keys, List.map_cons, List.mem_cons, not_or] at h
    have hne : ¬ a = k := fun e => h.1 e.symm
    simp only [set, hne, if_false, List.cons_append, List.cons.injEq, true_and]
    exact ih h.2

theorem mem_keys_set (m : GoMap α) (k k' : Str) (v : α) : k' ∈ (m.set k v).keys ↔ k' = k ∨ k' ∈ m.keys := by
  by_cases h : k ∈ m.keys
  · rw [keys_set_of_mem m h]
    constructor
    · exact Or.inr
    · rintro (rfl | h')
      · exact h
      · exact h'
  · rw [keys_set_of_not_mem m h]
    simp [keys, or_comm]

theorem nodup_keys_set (m : GoMap α) (hn : m.keys.Nodup) (k : Str) (v : α) : (m.set k v).keys.Nodup := by
  by_cases h : k ∈ m.keys
  · rwa [keys_set_of_mem m h]
  · rw [keys_set_of_not_mem m h]
    simp only [keys, List.map_append, List.map_cons, List.map_nil]
    rw [List.nodup_append]
    refine ⟨hn, by simp, ?_⟩
    intro a ha b hb
    simp at hb; subst hb
    rintro rfl
    exact h ha

theorem length_set_le (m : GoMap α) (k : Str) (v : α) : (m.set k v).length ≤ m.length + 1 := by
  induction m with
  | nil => simp [set]
  | cons e m ih => obtain ⟨a, b⟩ := e; simp only [set]; split <;> simp; omega

theorem has_set (m : GoMap α) (k k' : Str) (v : α) : (m.set k v).has k' = (decide (k' = k) || m.has k') := by
  simp only [has, get?_set]
  split <;> simp_all

end GoMap
end Xgen
