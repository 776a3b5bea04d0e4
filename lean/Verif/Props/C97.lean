import Verif.Lemmas.Docs
import Verif.Spec.Decl
import Verif.Spec.Example

/-! # C97: documentation is text of the file itself

Whatever other files are read while a file is parsed, each documentation in the result is one piece of text of the file itself, without the
white space around it; texts are not joined, and nothing comes from other files. -/

namespace Xgen.C97
open Decl

/-- The documentation of a component and of its members. -/
def docsOf : Node Element → List Str
  | .simple v => [v.doc]
  | .attr v => [v.doc]
  | .elem v => [v.doc]
  | .complex v => v.doc :: v.elements.map (·.doc) ++ v.attributes.map (·.doc) ++
      v.attributeGroup.flatMap fun g => g.doc :: g.attributes.map (·.doc)
  | .group v => v.doc :: v.elements.map (·.doc)
  | .attrGroup v => v.doc :: v.attributes.map (·.doc)

theorem tree_docs {D : Str → Prop} {t : Tree} (h : Docs.Tr D t) {n : Node Element} (hn : n ∈ nodes t) : ∀ d ∈ docsOf n, D d := by
  have := h n (by simpa [nodes] using hn)
  intro d hd
  cases n with
  | simple v => rw [List.mem_singleton.1 hd]; exact this
  | attr v => rw [List.mem_singleton.1 hd]; exact this
  | elem v => rw [List.mem_singleton.1 hd]; exact this
  | complex v =>
    simp only [docsOf, List.mem_append, List.mem_cons, List.mem_map, List.mem_flatMap] at hd
    rcases hd with ((rfl | ⟨e, he, rfl⟩) | ⟨e, he, rfl⟩) | ⟨g, hg, rfl | ⟨e, he, rfl⟩⟩
    · exact this.1
    · exact this.2.1 e he
    · exact this.2.2.1 e he
    · exact (this.2.2.2 g hg).1
    · exact (this.2.2.2 g hg).2 e he
  | group v =>
    rcases List.mem_cons.1 hd with rfl | hd
    · exact this.1
    · obtain ⟨e, he, rfl⟩ := List.mem_map.1 hd
      exact this.2 e he
  | attrGroup v =>
    rcases List.mem_cons.1 hd with rfl | hd
    · exact this.1
    · obtain ⟨e, he, rfl⟩ := List.mem_map.1 hd
      exact this.2 e he

section
variable [Uni]

/-- C97: in every world and state, and whatever is included or imported. -/
theorem own_text {W : World} {cfg : Cfg} {sh sh' : Shared} {t : Tree} {toks : List Token} (hf : W.fs.get? cfg.filePath = some (.file toks))
    (h : Parse W cfg sh = .ok t sh') : ∀ n ∈ nodes t, ∀ d ∈ docsOf n, d = [] ∨ ∃ x, Token.text x ∈ toks ∧ d = trimSpace x := by
  intro n hn d hd
  rcases Docs.parsed (D := fun d => d = [] ∨ ∃ x, Token.text x ∈ toks ∧ d = trimSpace x) W (W.fs.length + 1) cfg sh hf (.inl rfl)
    fun x hx => .inr ⟨x, hx, rfl⟩ with ⟨t', s, h1, h2⟩ | ⟨e, s, h2⟩ | ⟨e, s, h2⟩
  · rw [show Parse W cfg sh = finish W cfg t' s from h2] at h
    have : t = t' := by
      unfold finish at h
      split at h
      · cases h; rfl
      · dsimp only at h
        split at h
        · split at h <;> cases h
          rfl
        · cases h
    subst this
    exact tree_docs h1 hn d hd
  · rw [show Parse W cfg sh = .err e s from h2] at h; cases h
  · rw [show Parse W cfg sh = .halt e s from h2] at h; cases h

/-- A parser without text makes no documentation. -/
theorem none_made {W : World} {cfg : Cfg} {sh sh' : Shared} {t : Tree} {toks : List Token} (hf : W.fs.get? cfg.filePath = some (.file toks))
    (hx : ∀ x, Token.text x ∈ toks → trimSpace x = []) (h : Parse W cfg sh = .ok t sh') : ∀ n ∈ nodes t, ∀ d ∈ docsOf n, d = [] := by
  intro n hn d hd
  rcases own_text hf h n hn d hd with h | ⟨x, h1, h2⟩
  · exact h
  · rw [h2, hx x h1]

end

/-! ## Example -/

open Ex

/-- Two files with documentation; the first uses a type of the second, and one of its types has two pieces of documentation. -/
def two : World := world [
  ("a.xsd", [on "schema", on "include" [("schemaLocation", "b.xsd")], off "include",
    on "simpleType" [("name", "t")], on "documentation", txt " first ", off "documentation", on "documentation", txt "second\n", off "documentation",
    on "restriction" [("base", "u")], off "restriction", off "simpleType", off "schema"]),
  ("b.xsd", [on "schema", on "simpleType" [("name", "u")], on "documentation", txt "other", off "documentation",
    on "restriction" [("base", "int")], off "restriction", off "simpleType", off "schema"])]

/-- The documentation is the last piece, and that of the other file is not there, though the file has been read. -/
example : (match Ex.parse two "a.xsd" "C" with
    | .ok t sh => (t.map fun n => n.map fun n => (nodeName n, docsOf n), sh.log.map (·.1))
    | _ => ([], [])) = ([some (c!"t", [c!"second"])], [c!"a.xsd", c!"b.xsd"]) := by decide +kernel

end Xgen.C97
