import Verif.Spec.Decl
import Verif.Spec.Example

/-! # C15: one declaration per component name, first wins, in document order

Proved for Go, C, Java and Rust.  False for TypeScript: enumerations are declared regardless of earlier components of their
name, and do not hide later ones; the exact behaviour is proved. -/

namespace Xgen.C15
open Decl
variable [Uni]

/-! ## The languages -/

/-- Go: genGo.go.  Top-level elements are not numbered. -/
def goLang (tree : Tree) : Lang where
  base n := goName (nodeName n)
  unique n := match n with | .elem _ => false | _ => true
  free _ := false
  text n fn := match n with
    | .simple v => goDecl fn v.doc
        (if v.list then c!" []" ++ genGoFieldType (genGoFieldType (resolveIn tree v.base)) ++ c!"\n"
         else if v.union && v.memberTypes.length > 0 then
           c!" struct {\n" ++ goXMLNameLine fn v.name ++ (toSortedPairs v.memberTypes).flatMap (goMemberLine tree) ++ c!"}\n"
         else c!" " ++ genGoFieldType (resolveIn tree v.base) ++ c!"\n")
    | .complex v => goDecl fn v.doc (goComplexContent tree fn v)
    | .group v => goDecl fn v.doc
        (c!" struct {\n" ++ goXMLNameLine fn v.name ++ v.elements.flatMap (goGroupElemLine tree) ++
          v.groups.flatMap (goGroupLine tree) ++ c!"}\n")
    | .attrGroup v => goDecl fn v.doc
        (c!" struct {\n" ++ goXMLNameLine fn v.name ++ v.attributes.flatMap (goAttrLine tree) ++ c!"}\n")
    | .elem v => goDecl fn v.doc (c!"\t" ++ goPlural v.plural ++ genGoFieldType (resolveIn tree v.type) ++ c!"\n")
    | .attr v => goDecl fn v.doc (c!"\t" ++ goPlural v.plural ++ genGoFieldType (resolveIn tree v.type) ++ c!"\n")

/-- C: genC.go.  The comment uses the numbered name, but the typedefs of simple types, lists, elements and attributes
repeat the name without number. -/
def cLang (tree : Tree) : Lang where
  base n := cName (nodeName n)
  unique n := match n with | .elem _ => false | _ => true
  free _ := false
  text n fn := match n with
    | .simple v =>
      if v.list then genFieldComment fn v.doc c!"//" ++ c!"typedef " ++
        (genCFieldType (genCFieldType (resolveIn tree v.base)) ++ c!" " ++ cName v.name ++ c!"[];\n")
      else if v.union && v.memberTypes.length > 0 then
        cDecl fn v.doc (c!"struct {\n" ++ (toSortedPairs v.memberTypes).flatMap (cMemberLine tree) ++ c!"}")
      else
        let r := innerArray (genCFieldType (resolveIn tree v.base))
        genFieldComment fn v.doc c!"//" ++ c!"typedef " ++ (r.1 ++ c!" " ++ cName v.name ++ cPlural r.2) ++ c!";\n"
    | .complex v => cDecl fn v.doc (cComplexContent tree v)
    | .group v => cDecl fn v.doc
        (c!"struct {\n" ++ v.elements.flatMap (cGroupElemLine tree) ++ v.groups.flatMap (cGroupLine tree) ++ c!"}")
    | .attrGroup v => cDecl fn v.doc (c!"struct {\n" ++ v.attributes.flatMap (cAttrLine tree) ++ c!"}")
    | .elem v =>
      let r := innerArray (genCFieldType (resolveIn tree v.type))
      c!"\ntypedef " ++ (r.1 ++ c!" " ++ fn ++ cPlural (r.2 || v.plural)) ++ c!";\n"
    | .attr v =>
      let r := innerArray (genCFieldType (resolveIn tree v.type))
      genFieldComment fn v.doc c!"//" ++ c!"typedef " ++ (r.1 ++ c!" " ++ cName v.name ++ cPlural (r.2 || v.plural)) ++
        c!";\n"

/-- Java: genJava.go. -/
def javaLang (tree : Tree) : Lang where
  base n := javaName (nodeName n)
  unique _ := true
  free _ := false
  text n fn := match n with
    | .simple v =>
      if v.list then c!"\n" ++ javaWrapper c!"XmlAttribute" v.name fn
        (c!"\tprotected List<" ++ genJavaFieldType (resolveIn tree v.base) ++ c!"> " ++ javaName v.name ++ c!";\n")
      else if v.union && v.memberTypes.length > 0 then
        javaDecl fn v.doc (c!" {\n" ++ (toSortedPairs v.memberTypes).flatMap (javaMemberLine tree) ++ c!"}\n")
      else genFieldComment fn v.doc c!"//" ++ javaWrapper c!"XmlAttribute" v.name fn
        (c!"\tprotected " ++ genJavaFieldType (resolveIn tree v.base) ++ c!" " ++ javaName v.name ++ c!";\n")
    | .complex v => genFieldComment fn v.doc c!"//" ++ c!"public class " ++ fn ++ javaExtends tree v.base ++
        javaComplexContent tree v
    | .group v => javaDecl fn v.doc
        (c!" {\n" ++ v.elements.flatMap (javaElemLine tree) ++ v.groups.flatMap (javaGroupLine tree) ++ c!"}\n")
    | .attrGroup v => javaDecl fn v.doc (c!" {\n" ++ v.attributes.flatMap (javaAttrGroupAttrLine tree) ++ c!"}\n")
    | .elem v => c!"\n" ++ javaWrapper c!"XmlElement" v.name fn
        (c!"\tprotected " ++ javaPlural v.plural (genJavaFieldType (resolveIn tree v.type)) ++ c!" " ++ javaName v.name ++
          c!";\n")
    | .attr v => c!"\n" ++ javaWrapper c!"XmlAttribute" v.name fn
        (c!"\tprotected " ++ javaPlural v.plural (genJavaFieldType (resolveIn tree v.type)) ++ c!" " ++ javaName v.name ++
          c!";\n")

/-- Rust: genRust.go.  Top-level elements and attributes are named like fields and not numbered. -/
def rustLang (tree : Tree) : Lang where
  base n := match n with
    | .elem v => rustFieldName v.name
    | .attr v => rustFieldName v.name
    | n => rustStructName (nodeName n)
  unique n := match n with | .elem _ => false | .attr _ => false | _ => true
  free _ := false
  text n fn := match n with
    | .simple v =>
      if v.list then rustDecl fn v.doc
        (rustField v.name (rustFieldName v.name) (rustVec (genRustFieldType (resolveIn tree v.base))))
      else if v.union && v.memberTypes.length > 0 then
        c!"\n" ++ rustStruct fn ((toSortedPairs v.memberTypes).flatMap (rustMemberLine tree v.name))
      else rustDecl fn v.doc (rustField v.name (rustFieldName v.name) (genRustFieldType (resolveIn tree v.base)))
    | .complex v => rustDecl fn v.doc (rustComplexContent tree v)
    | .group v => rustDecl fn v.doc
        (v.elements.flatMap (fun e => rustGroupMember tree v.plural e.name e.type) ++
          v.groups.flatMap (fun r => rustGroupMember tree v.plural r.name r.ref))
    | .attrGroup v => rustDecl fn v.doc (v.attributes.flatMap (rustAttrGroupAttrLine tree))
    | .elem v => rustDecl fn v.doc (rustGroupMember tree v.plural v.name v.type)
    | .attr v => rustDecl fn v.doc (rustGroupMember tree v.plural v.name v.type)

/-- An enumeration: no list, no union with named members, and at least one value. -/
def isEnum : Node Element → Bool
  | .simple v => !v.list && !(v.union && v.memberTypes.length > 0) && v.enum.length > 0
  | _ => false

/-- TypeScript: genTypeScript.go. -/
def tsLang (tree : Tree) : Lang where
  base n := tsName (nodeName n)
  unique _ := true
  free := isEnum
  text n fn := match n with
    | .simple v =>
      if v.list then tsComment fn v.doc ++ c!"export type " ++ fn ++
        (c!" = " ++ genTypeScriptFieldType (resolveIn tree v.base) true ++ c!";\n")
      else if v.union && v.memberTypes.length > 0 then
        tsClass fn v.doc (c!" {\n" ++ (toSortedPairs v.memberTypes).flatMap (tsMemberLine tree) ++ c!"}\n")
      else if v.enum.length > 0 then tsComment fn v.doc ++ c!"export enum " ++ fn ++ c!" {\n" ++
        v.enum.flatMap (tsEnumLine (genTypeScriptFieldType (resolveIn tree v.base) false)) ++ c!"}\n"
      else tsAlias fn v.doc (c!" " ++ genTypeScriptFieldType (resolveIn tree v.base) false ++ c!";\n")
    | .complex v => tsComment fn v.doc ++ c!"export class " ++ fn ++ tsExtends tree v.base ++ tsComplexContent tree v
    | .group v => tsClass fn v.doc
        (c!" {\n" ++ v.elements.flatMap (tsElemLine tree) ++ v.groups.flatMap (tsGroupLine tree) ++ c!"}\n")
    | .attrGroup v => tsClass fn v.doc (c!" {\n" ++ v.attributes.flatMap (tsAttrLine tree) ++ c!"}\n")
    | .elem v => tsAlias fn v.doc (c!" " ++ genTypeScriptFieldType (resolveIn tree v.type) v.plural ++ c!";\n")
    | .attr v => tsAlias fn v.doc (c!" " ++ genTypeScriptFieldType (resolveIn tree v.type) v.plural ++ c!";\n")

/-! ## The generators follow the descriptions -/

omit [Uni] in
theorem follows_unique {L : Lang} {step : Node Element → Gen → Gen} {n : Node Element} (hu : L.unique n = true)
    (hf : L.free n = false) (hs : ∀ g, g.ast.has (nodeName n) = true → step n g = g)
    (he : ∀ g, g.ast.has (nodeName n) = false →
      (step n g).field = g.field ++ L.text n (uniqueName (L.base n) g).1 ∧
      (step n g).count = (uniqueName (L.base n) g).2.count ∧ ∃ c, (step n g).ast = g.ast.set (nodeName n) c) :
    Follows L step n where
  skip g _ h := hs g h
  field g h := by
    rw [(he g (h.resolve_left (by simp [hf]))).1, hu]
    simp only [if_true, uniqueName, C14.numbered]
    congr 2
    by_cases e : g.count.getNat (L.base n) + 1 = 1
    · rw [if_pos e, if_neg (by simpa using e)]
    · rw [if_neg e, if_pos e]
  count g h k := by
    rw [(he g (h.resolve_left (by simp [hf]))).2.1]
    simp only [uniqueName, getNat_set, hu, true_and]
    split
    · rename_i e; rw [e]
    · rfl
  ast g h k := by
    obtain ⟨c, hc⟩ := (he g (h.resolve_left (by simp [hf]))).2.2
    rw [hc, GoMap.has_set, hf, Bool.or_comm]
    rfl

omit [Uni] in
theorem follows_plain {L : Lang} {step : Node Element → Gen → Gen} {n : Node Element} (hu : L.unique n = false)
    (hf : L.free n = false) (hs : ∀ g, g.ast.has (nodeName n) = true → step n g = g)
    (he : ∀ g, g.ast.has (nodeName n) = false →
      (step n g).field = g.field ++ L.text n (L.base n) ∧
      (step n g).count = g.count ∧ ∃ c, (step n g).ast = g.ast.set (nodeName n) c) :
    Follows L step n where
  skip g _ h := hs g h
  field g h := by
    rw [(he g (h.resolve_left (by simp [hf]))).1, hu]
    rfl
  count g h k := by
    rw [(he g (h.resolve_left (by simp [hf]))).2.1, hu]
    simp
  ast g h k := by
    obtain ⟨c, hc⟩ := (he g (h.resolve_left (by simp [hf]))).2.2
    rw [hc, GoMap.has_set, hf, Bool.or_comm]
    rfl

theorem go_follows (tree : Tree) (n : Node Element) : Follows (goLang tree) (goStep tree) n := by
  cases n with
  | elem v =>
    refine follows_plain rfl rfl ?_ ?_
    · intro g h; simp only [nodeName] at h; simp only [goStep, goElement]; rw [if_pos h]
    · intro g h
      simp only [nodeName] at h
      simp only [goStep, goElement]
      rw [if_neg (by simpa using h)]
      exact ⟨rfl, rfl, _, rfl⟩
  | simple v =>
    refine follows_unique rfl rfl ?_ ?_
    · intro g h; simp only [nodeName] at h; simp only [goStep, goSimpleType]; rw [if_pos h]
    · intro g h
      simp only [nodeName] at h
      simp only [goStep, goSimpleType]
      rw [if_neg (by simpa using h)]
      simp only [goLang, nodeName]
      by_cases h1 : v.list = true
      · simp only [h1, if_true]
        split <;> exact ⟨rfl, rfl, _, rfl⟩
      · simp only [h1, Bool.false_eq_true, if_false]
        split
        · split <;> exact ⟨rfl, rfl, _, rfl⟩
        · exact ⟨rfl, rfl, _, rfl⟩
  | attr v =>
    refine follows_unique rfl rfl ?_ ?_
    · intro g h; simp only [nodeName] at h; simp only [goStep, goAttribute]; rw [if_pos h]
    · intro g h
      simp only [nodeName] at h
      simp only [goStep, goAttribute]
      rw [if_neg (by simpa using h)]
      exact ⟨rfl, rfl, _, rfl⟩
  | complex v =>
    refine follows_unique rfl rfl ?_ ?_
    · intro g h; simp only [nodeName] at h; simp only [goStep, goComplexType]; rw [if_pos h]
    · intro g h
      simp only [nodeName] at h
      simp only [goStep, goComplexType]
      rw [if_neg (by simpa using h)]
      split <;> split <;> exact ⟨rfl, rfl, _, rfl⟩
  | group v =>
    refine follows_unique rfl rfl ?_ ?_
    · intro g h; simp only [nodeName] at h; simp only [goStep, goGroup]; rw [if_pos h]
    · intro g h
      simp only [nodeName] at h
      simp only [goStep, goGroup]
      rw [if_neg (by simpa using h)]
      split <;> exact ⟨rfl, rfl, _, rfl⟩
  | attrGroup v =>
    refine follows_unique rfl rfl ?_ ?_
    · intro g h; simp only [nodeName] at h; simp only [goStep, goAttributeGroup]; rw [if_pos h]
    · intro g h
      simp only [nodeName] at h
      simp only [goStep, goAttributeGroup]
      rw [if_neg (by simpa using h)]
      split <;> exact ⟨rfl, rfl, _, rfl⟩

theorem c_follows (tree : Tree) (n : Node Element) : Follows (cLang tree) (cStep tree) n := by
  cases n with
  | elem v =>
    refine follows_plain rfl rfl ?_ ?_
    · intro g h; simp only [nodeName] at h; simp only [cStep, cElement]; rw [if_pos h]
    · intro g h
      simp only [nodeName] at h
      simp only [cStep, cElement]
      rw [if_neg (by simpa using h)]
      exact ⟨rfl, rfl, _, rfl⟩
  | simple v =>
    refine follows_unique rfl rfl ?_ ?_
    · intro g h; simp only [nodeName] at h; simp only [cStep, cSimpleType]; rw [if_pos h]
    · intro g h
      simp only [nodeName] at h
      simp only [cStep, cSimpleType]
      rw [if_neg (by simpa using h)]
      simp only [cLang, nodeName]
      split
      · exact ⟨rfl, rfl, _, rfl⟩
      · split <;> exact ⟨rfl, rfl, _, rfl⟩
  | attr v =>
    refine follows_unique rfl rfl ?_ ?_
    · intro g h; simp only [nodeName] at h; simp only [cStep, cAttribute]; rw [if_pos h]
    · intro g h
      simp only [nodeName] at h
      simp only [cStep, cAttribute]
      rw [if_neg (by simpa using h)]
      exact ⟨rfl, rfl, _, rfl⟩
  | complex v =>
    refine follows_unique rfl rfl ?_ ?_
    · intro g h; simp only [nodeName] at h; simp only [cStep, cComplexType]; rw [if_pos h]
    · intro g h
      simp only [nodeName] at h
      simp only [cStep, cComplexType]
      rw [if_neg (by simpa using h)]
      exact ⟨rfl, rfl, _, rfl⟩
  | group v =>
    refine follows_unique rfl rfl ?_ ?_
    · intro g h; simp only [nodeName] at h; simp only [cStep, cGroup]; rw [if_pos h]
    · intro g h
      simp only [nodeName] at h
      simp only [cStep, cGroup]
      rw [if_neg (by simpa using h)]
      exact ⟨rfl, rfl, _, rfl⟩
  | attrGroup v =>
    refine follows_unique rfl rfl ?_ ?_
    · intro g h; simp only [nodeName] at h; simp only [cStep, cAttributeGroup]; rw [if_pos h]
    · intro g h
      simp only [nodeName] at h
      simp only [cStep, cAttributeGroup]
      rw [if_neg (by simpa using h)]
      exact ⟨rfl, rfl, _, rfl⟩

theorem java_follows (tree : Tree) (n : Node Element) : Follows (javaLang tree) (javaStep tree) n := by
  refine follows_unique rfl rfl ?_ ?_
  · intro g h
    cases n <;> simp only [nodeName] at h <;>
      simp only [javaStep, javaElement, javaSimpleType, javaAttribute, javaComplexType, javaGroup, javaAttributeGroup] <;>
      rw [if_pos h]
  · intro g h
    cases n with
    | simple v =>
      simp only [nodeName] at h
      simp only [javaStep, javaSimpleType]
      rw [if_neg (by simpa using h)]
      simp only [javaLang, nodeName]
      split
      · exact ⟨rfl, rfl, _, rfl⟩
      · split <;> exact ⟨rfl, rfl, _, rfl⟩
    | _ =>
      simp only [nodeName] at h
      simp only [javaStep, javaElement, javaAttribute, javaComplexType, javaGroup, javaAttributeGroup]
      rw [if_neg (by simpa using h)]
      exact ⟨rfl, rfl, _, rfl⟩

theorem rust_follows (tree : Tree) (n : Node Element) : Follows (rustLang tree) (rustStep tree) n := by
  cases n with
  | elem v =>
    refine follows_plain rfl rfl ?_ ?_
    · intro g h; simp only [nodeName] at h; simp only [rustStep, rustElement]; rw [if_pos h]
    · intro g h
      simp only [nodeName] at h
      simp only [rustStep, rustElement]
      rw [if_neg (by simpa using h)]
      exact ⟨rfl, rfl, _, rfl⟩
  | attr v =>
    refine follows_plain rfl rfl ?_ ?_
    · intro g h; simp only [nodeName] at h; simp only [rustStep, rustAttribute]; rw [if_pos h]
    · intro g h
      simp only [nodeName] at h
      simp only [rustStep, rustAttribute]
      rw [if_neg (by simpa using h)]
      exact ⟨rfl, rfl, _, rfl⟩
  | simple v =>
    refine follows_unique rfl rfl ?_ ?_
    · intro g h; simp only [nodeName] at h; simp only [rustStep, rustSimpleType]; rw [if_pos h]
    · intro g h
      simp only [nodeName] at h
      simp only [rustStep, rustSimpleType]
      rw [if_neg (by simpa using h)]
      simp only [rustLang, nodeName]
      split
      · exact ⟨rfl, rfl, _, rfl⟩
      · split <;> exact ⟨rfl, rfl, _, rfl⟩
  | complex v =>
    refine follows_unique rfl rfl ?_ ?_
    · intro g h; simp only [nodeName] at h; simp only [rustStep, rustComplexType]; rw [if_pos h]
    · intro g h
      simp only [nodeName] at h
      simp only [rustStep, rustComplexType]
      rw [if_neg (by simpa using h)]
      exact ⟨rfl, rfl, _, rfl⟩
  | group v =>
    refine follows_unique rfl rfl ?_ ?_
    · intro g h; simp only [nodeName] at h; simp only [rustStep, rustGroup]; rw [if_pos h]
    · intro g h
      simp only [nodeName] at h
      simp only [rustStep, rustGroup]
      rw [if_neg (by simpa using h)]
      exact ⟨rfl, rfl, _, rfl⟩
  | attrGroup v =>
    refine follows_unique rfl rfl ?_ ?_
    · intro g h; simp only [nodeName] at h; simp only [rustStep, rustAttributeGroup]; rw [if_pos h]
    · intro g h
      simp only [nodeName] at h
      simp only [rustStep, rustAttributeGroup]
      rw [if_neg (by simpa using h)]
      exact ⟨rfl, rfl, _, rfl⟩

/-- A list that also has enumeration values (a restriction of an inline list type). -/
def isEnumList : Node Element → Bool
  | .simple v => v.list && v.enum.length > 0
  | _ => false

theorem ts_follows (tree : Tree) (n : Node Element) (hn : isEnumList n = false) :
    Follows (tsLang tree) (tsStep tree) n := by
  cases n with
  | simple v =>
    simp only [isEnumList, Bool.and_eq_false_iff, decide_eq_false_iff_not] at hn
    by_cases he : isEnum (.simple v) = true
    · have he' := he
      simp only [isEnum, Bool.and_eq_true, Bool.not_eq_true', decide_eq_true_eq] at he'
      obtain ⟨⟨h1, h2⟩, h3⟩ := he'
      have hs : ∀ g, tsStep tree (.simple v) g = { (uniqueName (tsName v.name) g).2 with
          field := g.field ++ (tsLang tree).text (.simple v) (uniqueName (tsName v.name) g).1 } := by
        intro g
        simp only [tsStep, tsSimpleType, tsLang, h1, h2, Bool.false_and, Bool.false_eq_true, if_false]
        rw [if_pos h3, if_pos h3]
        rfl
      refine ⟨fun g hf => ?_, fun g _ => ?_, fun g _ k => ?_, fun g _ k => ?_⟩
      · exact absurd (hf.symm.trans he) (by decide)
      · rw [hs]
        simp only [uniqueName, C14.numbered, nodeName]
        congr 2
        by_cases e : g.count.getNat (tsName v.name) + 1 = 1
        · rw [if_neg (by simpa using e)]
          simp [tsLang, nodeName, e]
        · rw [if_pos e]
          have e' : g.count.getNat (tsName v.name) ≠ 0 := fun e0 => e (by rw [e0])
          simp [tsLang, nodeName, e']
      · rw [hs]
        simp only [tsLang, uniqueName, getNat_set, true_and, nodeName]
        split
        · rename_i e; rw [e]
        · rfl
      · rw [hs]
        have : (tsLang tree).free (.simple v) = true := he
        rw [this]
        simp [uniqueName]
    · have he' : isEnum (.simple v) = false := by simpa using he
      have h4 : v.list = true ∨ (v.union && decide (v.memberTypes.length > 0)) = true ∨ ¬ v.enum.length > 0 := by
        simp only [isEnum, Bool.and_eq_false_iff, Bool.not_eq_false', decide_eq_false_iff_not] at he'
        rcases he' with (h | h) | h
        · exact Or.inl h
        · exact Or.inr (Or.inl h)
        · exact Or.inr (Or.inr h)
      refine follows_unique rfl he' ?_ ?_
      · intro g h
        simp only [nodeName] at h
        simp only [tsStep, tsSimpleType, h, Bool.not_true, Bool.and_false, Bool.false_eq_true, if_false, if_true]
        split
        · rfl
        · rename_i h5
          split
          · rename_i h6
            rcases h4 with h4 | h4 | h4
            · rcases hn with hn | hn
              · rw [h4] at hn; cases hn
              · exact absurd h6 hn
            · exact absurd h4 h5
            · exact absurd h6 h4
          · rfl
      · intro g h
        simp only [nodeName] at h
        simp only [tsStep, tsSimpleType, h, Bool.not_false, Bool.and_true, Bool.false_eq_true, if_false, tsLang, nodeName]
        by_cases h1 : v.list = true
        · rw [if_pos h1, if_pos h1]
          exact ⟨rfl, rfl, _, rfl⟩
        · rw [if_neg h1, if_neg h1]
          by_cases h2 : (v.union && decide (v.memberTypes.length > 0)) = true
          · rw [if_pos h2, if_pos h2]
            exact ⟨rfl, rfl, _, rfl⟩
          · have h3 : ¬ v.enum.length > 0 := (h4.resolve_left h1).resolve_left h2
            rw [if_neg h2, if_neg h2, if_neg h3, if_neg h3]
            exact ⟨rfl, rfl, _, rfl⟩
  | _ =>
    refine follows_unique rfl rfl ?_ ?_
    · intro g h
      simp only [nodeName] at h
      simp only [tsStep, tsElement, tsAttribute, tsComplexType, tsGroup, tsAttributeGroup]
      rw [if_pos h]
    · intro g h
      simp only [nodeName] at h
      simp only [tsStep, tsElement, tsAttribute, tsComplexType, tsGroup, tsAttributeGroup]
      rw [if_neg (by simpa using h)]
      exact ⟨rfl, rfl, _, rfl⟩

/-- Every list type with enumeration values is the first component of its name. -/
def ListsNew (ns : List (Node Element)) : Prop :=
  ∀ l n r, ns = l ++ n :: r → isEnumList n = true → ∀ m ∈ l, nodeName m ≠ nodeName n

omit [Uni] in
/-- In particular if there are no such types, ... -/
theorem ListsNew.of_none {ns : List (Node Element)} (h : ∀ n ∈ ns, isEnumList n = false) : ListsNew ns := by
  intro l n r e hn
  rw [h n (by simp [e])] at hn
  cases hn

omit [Uni] in
/-- ... or if components have different names. -/
theorem ListsNew.of_nodup {ns : List (Node Element)} (h : (ns.map nodeName).Nodup) : ListsNew ns := by
  rintro l n r rfl - m hm e
  rw [List.map_append, List.nodup_append] at h
  exact h.2.2 _ (List.mem_map_of_mem hm) _ (by simp) e

/-- The step, if such lists are passed over whenever their name has been declared. -/
def tsStepOnce (tree : Tree) (n : Node Element) (g : Gen) : Gen :=
  if isEnumList n && g.ast.has (nodeName n) then g else tsStep tree n g

theorem tsStep_ast (tree : Tree) (n : Node Element) (g : Gen) (k : Str) (h : (tsStep tree n g).ast.has k = true) :
    g.ast.has k = true ∨ k = nodeName n := by
  cases n with
  | simple v =>
    simp only [tsStep, tsSimpleType] at h
    repeat' split at h
    all_goals first
      | exact .inl h
      | (simp only [uniqueName, Gen.emit, GoMap.has_set] at h; simpa [nodeName, or_comm] using h)
  | _ =>
    simp only [tsStep, tsElement, tsAttribute, tsComplexType, tsGroup, tsAttributeGroup] at h
    split at h
    · exact .inl h
    · simp only [uniqueName, Gen.emit, GoMap.has_set] at h; simpa [nodeName, or_comm] using h

theorem ts_follows_once (tree : Tree) (n : Node Element) : Follows (tsLang tree) (tsStepOnce tree) n := by
  cases hn : isEnumList n with
  | false =>
    have h : ∀ g, tsStepOnce tree n g = tsStep tree n g := fun g => by simp [tsStepOnce, hn]
    have f := ts_follows tree n hn
    exact ⟨fun g => by rw [h]; exact f.skip g, fun g => by rw [h]; exact f.field g, fun g => by rw [h]; exact f.count g,
      fun g => by rw [h]; exact f.ast g⟩
  | true =>
    cases n with
    | simple v =>
      simp only [isEnumList, Bool.and_eq_true] at hn
      refine follows_unique rfl (by simp [tsLang, isEnum, hn.1]) ?_ ?_
      · intro g h
        simp [tsStepOnce, isEnumList, hn, h]
      · intro g h
        have h' := h
        simp only [nodeName] at h'
        simp only [tsStepOnce, h, Bool.and_false, Bool.false_eq_true, if_false, tsStep, tsSimpleType, h', hn.1, Bool.not_false,
          Bool.and_true, if_true, tsLang, nodeName]
        exact ⟨rfl, rfl, _, rfl⟩
    | _ => cases hn

theorem ts_once (tree : Tree) (h : ListsNew (nodes tree)) : tsGen tree = genLoop (tsStepOnce tree) tree := by
  unfold tsGen
  rw [genLoop_nodes, genLoop_nodes]
  have key : ∀ (ns l : List (Node Element)) (g : Gen), ListsNew (l ++ ns) →
      (∀ k, g.ast.has k = true → ∃ m ∈ l, nodeName m = k) →
      ns.foldl (fun g n => tsStep tree n g) g = ns.foldl (fun g n => tsStepOnce tree n g) g := by
    intro ns
    induction ns with
    | nil => intros; rfl
    | cons n ns ih =>
      intro l g hl hg
      have e : tsStepOnce tree n g = tsStep tree n g := by
        unfold tsStepOnce
        cases h1 : isEnumList n with
        | false => simp
        | true =>
          cases h2 : g.ast.has (nodeName n) with
          | false => simp
          | true =>
            obtain ⟨m, hm, em⟩ := hg _ h2
            exact absurd em (hl l n ns rfl h1 m hm)
      rw [List.foldl_cons, List.foldl_cons, e]
      refine ih (l ++ [n]) _ (by simpa using hl) ?_
      intro k hk
      rcases tsStep_ast tree n g k hk with hk | rfl
      · obtain ⟨m, hm, em⟩ := hg k hk
        exact ⟨m, by simp [hm], em⟩
      · exact ⟨n, by simp, rfl⟩
  exact key (nodes tree) [] {} h (by intro k hk; cases hk)

/-! ## The property -/

/-- C15, Go: the body is the declarations of the components, first of each name, in order.  What `declared` keeps:
`Decl.declared_once`, `declared_first`, `declared_complete`, `declared_sublist`. -/
theorem go (tree : Tree) : (goGen tree).field = render (goLang tree) [] (declared (goLang tree) (nodes tree)) :=
  field_eq _ _ _ fun n _ => go_follows tree n

/-- C15, C. -/
theorem c (tree : Tree) : (cGen tree).field = render (cLang tree) [] (declared (cLang tree) (nodes tree)) :=
  field_eq _ _ _ fun n _ => c_follows tree n

/-- C15, Java. -/
theorem java (tree : Tree) : (javaGen tree).field = render (javaLang tree) [] (declared (javaLang tree) (nodes tree)) :=
  field_eq _ _ _ fun n _ => java_follows tree n

/-- C15, Rust. -/
theorem rust (tree : Tree) : (rustGen tree).field = render (rustLang tree) [] (declared (rustLang tree) (nodes tree)) :=
  field_eq _ _ _ fun n _ => rust_follows tree n

/-- C15, TypeScript, exact: enumerations are declared whenever they occur, all others once (`tsLang.free`).  Missing: trees
in which a list type that has enumeration values comes after a component of its name (`list_again`). -/
theorem ts_partial (tree : Tree) (h : ListsNew (nodes tree)) :
    (tsGen tree).field = render (tsLang tree) [] (declared (tsLang tree) (nodes tree)) := by
  rw [ts_once tree h]
  exact field_eq _ _ _ fun n _ => ts_follows_once tree n

/-- The generated declarations are, in every language, the texts of the declared components under their names, one after the
other. -/
theorem files (tree : Tree) :
    (goGen tree).field = (named (goLang tree) [] (declared (goLang tree) (nodes tree))).flatMap (fun x => (goLang tree).text x.1 x.2) ∧
    (cGen tree).field = (named (cLang tree) [] (declared (cLang tree) (nodes tree))).flatMap (fun x => (cLang tree).text x.1 x.2) ∧
    (javaGen tree).field = (named (javaLang tree) [] (declared (javaLang tree) (nodes tree))).flatMap (fun x => (javaLang tree).text x.1 x.2) ∧
    (rustGen tree).field = (named (rustLang tree) [] (declared (rustLang tree) (nodes tree))).flatMap (fun x => (rustLang tree).text x.1 x.2) ∧
    (ListsNew (nodes tree) →
      (tsGen tree).field = (named (tsLang tree) [] (declared (tsLang tree) (nodes tree))).flatMap (fun x => (tsLang tree).text x.1 x.2)) := by
  refine ⟨?_, ?_, ?_, ?_, fun h => ?_⟩
  · rw [go, render_named]
  · rw [c, render_named]
  · rw [java, render_named]
  · rw [rust, render_named]
  · rw [ts_partial tree h, render_named]

/-- For every language but TypeScript the declared components are the first of each name. -/
theorem first_of_each_name (tree : Tree) (n : Node Element) :
    (n ∈ declared (goLang tree) (nodes tree) ↔
      ∃ l r, nodes tree = l ++ n :: r ∧ ∀ m ∈ l, nodeName m ≠ nodeName n) ∧
    declared (cLang tree) (nodes tree) = declared (goLang tree) (nodes tree) ∧
    declared (javaLang tree) (nodes tree) = declared (goLang tree) (nodes tree) ∧
    declared (rustLang tree) (nodes tree) = declared (goLang tree) (nodes tree) := by
  refine ⟨declared_first _ (fun _ => rfl) _ _, ?_, ?_, ?_⟩
  all_goals
    generalize nodes tree = ns
    induction ns with
    | nil => rfl
    | cons x xs ih => rw [declared, declared, ih]; rfl

/-- The TypeScript of C15: every component at most once. -/
def tsOnce (tree : Tree) : Lang := { tsLang tree with free := fun _ => false }

/-- C15 is false for TypeScript: two enumerations of one name are both declared. -/
theorem ts_twice : ¬ ∀ tree : Tree,
    (@tsGen asciiUni tree).field = render (@tsOnce asciiUni tree) [] (declared (@tsOnce asciiUni tree) (nodes tree)) := by
  intro h
  have := h [some (.simple { name := c!"E", base := c!"string", enum := [c!"a"] }),
     some (.simple { name := c!"E", base := c!"string", enum := [c!"a"] })]
  revert this
  decide +kernel

/-- A list type with enumeration values that comes after a component of its name is declared as an enumeration. -/
theorem list_again : ¬ ∀ tree : Tree,
    (@tsGen asciiUni tree).field = render (@tsLang asciiUni tree) [] (declared (@tsLang asciiUni tree) (nodes tree)) := by
  intro h
  have := h [some (.simple { name := c!"E", base := c!"string" }),
     some (.simple { name := c!"E", base := c!"string", list := true, enum := [c!"a"] })]
  revert this
  decide +kernel

/-- A list type with enumeration values and another component. -/
example : ListsNew (nodes [some (.simple { name := c!"E", base := c!"string" }),
    some (.simple { name := c!"F", base := c!"string", list := true, enum := [c!"a"] })]) := ListsNew.of_nodup (by decide)

/-- Three components, two of one name. -/
example : ((declared (@goLang asciiUni []) [.elem { name := c!"a", type := c!"int" },
    .complex { name := c!"b" }, .elem { name := c!"a", type := c!"string" }]).map nodeName) = [c!"a", c!"b"] := by decide

end Xgen.C15
