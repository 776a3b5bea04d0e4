import Verif.Props.C06
import Verif.Lemmas.Str

/-! # C41: resolving a base type twice; C42: the xml: rows of the table -/

namespace Xgen.C41

/-- The five languages. -/
def langs : List Str := [c!"Go", c!"TypeScript", c!"C", c!"Java", c!"Rust"]

/-- C41, true part: except for `anyURI` in Java, a second table lookup of an already resolved type changes nothing (it
finds the same type or nothing).  Missing: Java's `anyURI` (`java_anyURI`), and the lookup in the schema that follows
when the table has no such entry (see C51). -/
theorem twice_partial {value lang t : Str} (hl : lang ∈ langs) (h : getBuildInTypeByLang value lang = some t)
    (hx : ¬ (lang = c!"Java" ∧ value = c!"anyURI")) :
    getBuildInTypeByLang t lang = none ∨ getBuildInTypeByLang t lang = some t := by
  have key : ∀ l ∈ langs, ∀ e ∈ buildInTypes,
      (l = c!"Java" ∧ e.1 = c!"anyURI") ∨
      (e.2[langIndex l]?).all (fun t => (getBuildInTypeByLang t l).all (fun u => u = t)) = true := by decide
  unfold getBuildInTypeByLang getBuildInTypeByLang? at h
  split at h
  · simp at h
  · rename_i row hr
    have hm := GoMap.mem_of_get? hr
    have ht : row[langIndex lang]? = some t := by
      split at h
      · simp at h
      · rename_i t' ht'; rw [ht']; simpa using h
    rcases key lang hl _ hm with h1 | h1
    · exact absurd h1 hx
    · rw [ht] at h1
      simp only [Option.all_some] at h1
      cases h2 : getBuildInTypeByLang t lang with
      | none => exact .inl rfl
      | some u => rw [h2] at h1; simp at h1; right; rw [h1]

/-- C41 is false for Java's anyURI: the first resolution gives QName, the second String. -/
theorem java_anyURI : getBuildInTypeByLang c!"anyURI" c!"Java" = some c!"QName" ∧
    getBuildInTypeByLang c!"QName" c!"Java" = some c!"String" := by decide

example : getBuildInTypeByLang c!"double" c!"C" = some c!"float" ∧
    getBuildInTypeByLang c!"float" c!"C" = some c!"float" := by decide

end Xgen.C41

namespace Xgen.C42

/-- C42 is false: the prefix is removed before the lookup, and the local names are not in the table. -/
theorem unreachable : ∀ r ∈ [c!"xml:lang", c!"xml:space", c!"xml:base", c!"xml:id"],
    ∀ lang ∈ C41.langs, getBuildInTypeByLang (trimNSPrefix r) lang = none := by decide

/-- Their rows are unreachable for every reference: a reference is looked up by its local part, and only strings with
two or more colons keep a colon. -/
theorem no_reference_reaches (r : Str) : trimNSPrefix r ∉ [c!"xml:lang", c!"xml:space", c!"xml:base", c!"xml:id"] := by
  have hcount : ∀ x ∈ [c!"xml:lang", c!"xml:space", c!"xml:base", c!"xml:id"], (splitOn ':' x).length = 2 := by decide
  intro h
  have h2 := hcount _ h
  unfold trimNSPrefix at h2
  split at h2
  · rename_i a b hs
    have hb : ':' ∉ b := not_mem_of_mem_splitOn (sep := ':') (s := r) (by rw [hs]; simp)
    rw [splitOn_of_not_mem hb] at h2
    simp at h2
  · rename_i hs
    cases hr : splitOn ':' r with
    | nil => simp [hr] at h2
    | cons a l =>
      cases l with
      | nil => simp [hr] at h2
      | cons b l =>
        cases l with
        | nil => exact hs a b hr
        | cons c l => simp [hr] at h2

end Xgen.C42
