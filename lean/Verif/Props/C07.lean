import Verif.Model.Utils

/-! # C07: name resolution returns the first matching declaration -/

namespace Xgen.C07

/-- Specification: what a component declares, as (name, type); lists, unions, complex types, groups and attribute
groups declare no resolvable name. -/
def declares : Option (Node Element) → Option (Str × Str)
  | some (.simple v) => if v.list || v.union then none else some (v.name, v.base)
  | some (.attr v) => some (v.name, v.type)
  | some (.elem v) => some (v.name, v.type)
  | _ => none

/-- C07, as a first-match search -/
theorem resolves_to_first (name : Str) (tree : Tree) :
    getBasefromSimpleType name tree =
      match (tree.filterMap declares).find? (fun d => d.1 = name) with
      | some d => d.2
      | none => name := by
  induction tree with
  | nil => rfl
  | cons n rest ih =>
    cases n with
    | none => simpa [getBasefromSimpleType, declares] using ih
    | some n =>
      cases n with
      | simple v =>
        by_cases hl : v.list <;> by_cases hu : v.union <;>
          by_cases hn : v.name = name <;> simp [getBasefromSimpleType, declares, hl, hu, hn, ih]
      | attr v => by_cases hn : v.name = name <;> simp [getBasefromSimpleType, declares, hn, ih]
      | elem v => by_cases hn : v.name = name <;> simp [getBasefromSimpleType, declares, hn, ih]
      | complex v => simpa [getBasefromSimpleType, declares] using ih
      | group v => simpa [getBasefromSimpleType, declares] using ih
      | attrGroup v => simpa [getBasefromSimpleType, declares] using ih

/-- C07, positive: a declaration preceded by none of the same name decides the result -/
theorem resolves_first (name type : Str) (pre post : Tree) (n : Option (Node Element))
    (hn : declares n = some (name, type)) (hp : ∀ x ∈ pre, ∀ t, declares x ≠ some (name, t)) :
    getBasefromSimpleType name (pre ++ n :: post) = type := by
  rw [resolves_to_first]
  have : (pre.filterMap declares).find? (fun d => d.1 = name) = none := by
    rw [List.find?_eq_none]
    rintro ⟨a, b⟩ h hab
    simp only [decide_eq_true_eq] at hab
    obtain ⟨x, hx, hxd⟩ := List.mem_filterMap.1 h
    exact hp x hx b (by rw [hxd, hab])
  simp [List.filterMap_append, List.find?_append, this, hn]

/-- C07, negative: without a declaration the name is returned -/
theorem resolves_none (name : Str) (tree : Tree) (h : ∀ x ∈ tree, ∀ t, declares x ≠ some (name, t)) :
    getBasefromSimpleType name tree = name := by
  rw [resolves_to_first]
  have : (tree.filterMap declares).find? (fun d => d.1 = name) = none := by
    rw [List.find?_eq_none]
    rintro ⟨a, b⟩ hm hab
    simp only [decide_eq_true_eq] at hab
    obtain ⟨x, hx, hxd⟩ := List.mem_filterMap.1 hm
    exact h x hx b (by rw [hxd, hab])
  simp [this]

/-- C07: components of other kinds never matter -/
theorem irrelevant (name : Str) (pre post : Tree) (n : Option (Node Element)) (h : declares n = none) :
    getBasefromSimpleType name (pre ++ n :: post) = getBasefromSimpleType name (pre ++ post) := by
  simp [resolves_to_first, List.filterMap_append, h]

/-- two declarations of "a" after a list of that name: the first proper one wins -/
example : getBasefromSimpleType c!"a"
    [some (.simple { name := c!"a", base := c!"x", list := true }), some (.complex { name := c!"a" }),
     some (.elem { name := c!"a", type := c!"string" }), some (.simple { name := c!"a", base := c!"int" })] =
    c!"string" := by decide

end Xgen.C07
