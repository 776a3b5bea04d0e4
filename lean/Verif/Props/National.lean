import Verif.Lemmas.Latin
import Verif.Props.C99
import Verif.Props.C100
import Verif.Props.C101
import Verif.Props.C102

/-! # C74, C80, C96 and C99 to C102 for a schema with names outside of ASCII -/

namespace Xgen.National
open Core C40
open C70 (a)
open Syntax (Plain)

/-- A schema in French. -/
def école : List Core.Decl :=
  [.simple (a [("name", "catégorie")]) (C80.limited "xs:string"),
   .complex (a [("name", "élève")]) (.«attribute» (a [("name", "âge"), ("type", "xs:int")]) (.elem (a [("name", "prénom"), ("type", "xs:string"), ("maxOccurs", "unbounded")])
     (.elem (a [("name", "à-côté"), ("type", "catégorie")]) .nil))),
   .element (a [("name", "École"), ("type", "élève")])]

/-- The document with this schema. -/
def world : World := Ex.world [("a.xsd", schemaTokens C40.root école)]

theorem document {lang : Str} (h : lang ∈ [c!"Go", c!"C", c!"Java", c!"Rust", c!"TypeScript"]) :
    @C59.Document latinUni world (C59.doc lang) {} école (schemaTokens C40.root école) := by
  simp only [List.mem_cons, List.not_mem_nil, or_false] at h
  rcases h with rfl | rfl | rfl | rfl | rfl <;>
    exact @C59.Document.mk latinUni _ _ _ _ _ rfl (by decide +kernel) ⟨C40.root, by decide +kernel⟩ (by decide +kernel)
      (.inr ⟨rfl, rfl, by decide, rfl⟩) (by decide +kernel) rfl rfl fun _ => rfl

theorem plain {lang : Str} (h : lang ∈ [c!"Go", c!"C", c!"Java", c!"Rust", c!"TypeScript"]) : @Plain latinUni lang école := by
  simp only [List.mem_cons, List.not_mem_nil, or_false] at h
  rcases h with rfl | rfl | rfl | rfl | rfl <;> exact @Plain.mk latinUni _ _ (by decide +kernel) (by decide +kernel) (by decide +kernel)

/-- Go. -/
example : ∃ t order, C57.bare t = C57.bare (treeOf (typeRef c!"Go" false) [] école) ∧ C58.Order order ∧
    GoSyntax.parse (@goSource latinUni [] t) = some (@C96.fileOf latinUni order [] t) := by
  obtain ⟨t, order, h1, h2, h3, -⟩ := @C96.document_partial latinUni latinUniLaws _ _ _ _ _ (document (by decide)) rfl (.inl rfl)
    (@C96.Plain.mk latinUni _ (@Plain.bound latinUni _ _ (plain (by decide))) (@Plain.names latinUni _ _ (plain (by decide : c!"Go" ∈ _)))
      (@Plain.members latinUni _ _ (plain (by decide : c!"Go" ∈ _)))) (by
    have : ∀ tok ∈ schemaTokens C40.root école, (match tok with | .text x => x.all fun c => !GoSyntax.banned c | _ => true) = true := by decide +kernel
    intro x hx c hc
    simpa using List.all_eq_true.1 (this _ hx) c hc)
  exact ⟨t, order, h1, h2, h3⟩

/-- C. -/
example : ∃ t order, C57.bare t = C57.bare (treeOf (typeRef c!"C" false) [] école) ∧ C58.Order order ∧
    Syntax.C.parse (@cSource latinUni t) = some (@C102.fileOf latinUni order t) := by
  obtain ⟨t, order, -, h1, h2, h3, -⟩ := @C102.document_partial latinUni latinUniLaws _ _ _ _ _ (document (by decide)) rfl
    (@C102.Suitable.mk latinUni _ (plain (by decide)) (by decide +kernel) (by decide +kernel) (by decide +kernel)) (by decide +kernel)
  exact ⟨t, order, h1, h2, h3⟩

/-- Java. -/
example : ∃ t order, C57.bare t = C57.bare (treeOf (typeRef c!"Java" false) [] école) ∧ C58.Order order ∧
    Syntax.Java.parse (@javaSource latinUni [] t) = some (@C100.fileOf latinUni order [] t) := by
  obtain ⟨t, order, -, h1, h2, h3, -⟩ := @C100.document_partial latinUni latinUniLaws _ _ _ _ _ (document (by decide)) rfl (.one (by decide))
    (@C100.Suitable.mk latinUni _ (plain (by decide)) (by decide +kernel)) (by decide +kernel)
  exact ⟨t, order, h1, h2, h3⟩

/-- Rust. -/
example : ∃ t order, C57.bare t = C57.bare (treeOf (typeRef c!"Rust" false) [] école) ∧ C58.Order order ∧
    Syntax.Rust.parse (@rustSource latinUni t) = some (@C99.fileOf latinUni order t) := by
  obtain ⟨t, order, -, h1, h2, h3, -⟩ := @C99.document_partial latinUni latinUniLaws _ _ _ _ _ (document (by decide)) rfl
    (@C99.Suitable.mk latinUni _ (plain (by decide)) (by decide +kernel) (by decide +kernel))
  exact ⟨t, order, h1, h2, h3⟩

/-- TypeScript. -/
example : ∃ t order, C57.bare t = C57.bare (treeOf (typeRef c!"TypeScript" false) [] école) ∧ C58.Order order ∧
    Syntax.TS.parse (@tsSource latinUni t) = some (@C101.fileOf latinUni order t) := by
  obtain ⟨t, order, -, h1, h2, h3, -⟩ := @C101.document_partial latinUni latinUniLaws _ _ _ _ _ (document (by decide)) rfl
    (@C101.Suitable.mk latinUni _ (plain (by decide)) (by decide +kernel) (by decide +kernel)) (by decide +kernel)
  exact ⟨t, order, h1, h2, h3⟩

/-- Go: the members of a struct have different names, and the file is accepted. -/
theorem go_free : @C74.Go.Free latinUni école := @C74.Go.Free.mk latinUni _ (by decide +kernel) (by decide +kernel) (by decide +kernel)

theorem suitable : @C80.Suitable latinUni école :=
  @C80.Suitable.mk latinUni _ (by decide +kernel) go_free (by decide +kernel) (by decide +kernel) (by decide +kernel) (by decide +kernel) (by decide +kernel)

example : ∃ source, C80.Accepted source ∧ C74.Go.Distinct source ∧ ∃ t sh', @Parse latinUni world (C59.doc c!"Go") {} = .ok t sh' ∧
    sh'.outputs = [(c!"out/a.xsd.go", source)] := by
  obtain ⟨source, h1, h2, -⟩ := @C80.go_partial latinUni latinUniLaws _ _ _ _ _ (document (by decide)) rfl (by decide) suitable
  obtain ⟨t, sh', h3, h4⟩ := h2 source rfl
  exact ⟨source, h1, h1.distinct, t, sh', h3, h4⟩

/-- The members of a structure have different names in the other languages. -/
example : (∃ t sh' text, @Parse latinUni world (C59.doc c!"C") {} = .ok t sh' ∧ sh'.outputs = [(c!"out/a.xsd.h", text)] ∧ C74.C.Distinct text) ∧
    (∃ t sh' text, @Parse latinUni world (C59.doc c!"Java") {} = .ok t sh' ∧ sh'.outputs = [(c!"out/a.xsd.java", text)] ∧ C74.Java.Distinct text) ∧
    (∃ t sh' text, @Parse latinUni world (C59.doc c!"Rust") {} = .ok t sh' ∧ sh'.outputs = [(c!"out/a.xsd.rs", text)] ∧ C74.Rust.Distinct text) ∧
    (∃ t sh' text, @Parse latinUni world (C59.doc c!"TypeScript") {} = .ok t sh' ∧ sh'.outputs = [(c!"out/a.xsd.ts", text)] ∧ C74.TS.Distinct text) :=
  ⟨@C74.c_partial latinUni latinUniLaws _ _ _ _ _ (document (by decide)) rfl (@C74.Free.mk latinUni _ _ (by decide +kernel) (by decide +kernel)),
   @C74.java_partial latinUni latinUniLaws _ _ _ _ _ (document (by decide)) rfl (by decide) (@C74.Free.mk latinUni _ _ (by decide +kernel) (by decide +kernel)),
   @C74.rust_partial latinUni latinUniLaws _ _ _ _ _ (document (by decide)) rfl
    (@C74.Rust.Free.mk latinUni _ (by decide +kernel) (by decide +kernel) (by decide +kernel) (by decide +kernel)),
   @C74.ts_partial latinUni latinUniLaws _ _ _ _ _ (document (by decide)) (by decide +kernel) rfl
    (@C74.Free.mk latinUni _ _ (by decide +kernel) (by decide +kernel))⟩

/-- The names in these files. -/
example : @Names.strict latinUni c!"à-côté" = c!"Àcôté" ∧ @Names.plain latinUni c!"élève" = c!"Élève" ∧
    @Names.rustMember latinUni rustKeywords c!"à-côté" = c!"àcôté" := by decide

end Xgen.National
