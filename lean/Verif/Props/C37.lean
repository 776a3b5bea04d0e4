import Verif.Props.C48

/-! # C37: plural elements become collections

In Go, Java and Rust the member read back for an element has the collection type over the element's type iff the element
is plural.  In TypeScript this holds for types other than the built-in ones, in C for types that are not arrays
themselves; for the others the multiplicity is lost (`ts_lost`, `c_lost`). -/

namespace Xgen.C37
variable [Uni]

omit [Uni] in
theorem middle {α : Type} {a b c : List α} {n k : Nat} (hn : n = a.length) (hk : k = b.length) :
    ((a ++ b ++ c).drop n).take k = b := by
  rw [hn, hk, List.append_assoc, List.drop_left, List.take_left]

/-- Number of members before the elements. -/
def before (v : ComplexType) : Nat := v.attributeGroup.length + v.attributes.length + v.groups.length

/-- The part of a member list that belongs to the elements. -/
def elementsOf {α : Type} (skip : Nat) (v : ComplexType) (ms : List α) : List α := (ms.drop skip).take v.elements.length

/-- Go: `[]T` iff plural. -/
theorem go [UniLaws] (tree : Tree) (fn : Str) (v : ComplexType) (hfn : '\n' ∉ fn) (h : Readable tree v) :
    (elementsOf (before v + if fn ≠ v.name then 1 else 0) v (C17.read ((C15.goLang tree).text (.complex v) fn))).map
        (fun m => (m.name, m.type)) =
      v.elements.map fun e => (Names.strict e.name,
        let T := Names.goType goBuildinType (Names.meaning tree e.type)
        if e.plural then c!"[]" ++ T else T) := by
  rw [C17.read_complex tree fn v hfn h]
  unfold C17.expected elementsOf before
  rw [middle (by split <;> simp <;> omega) (by simp), List.map_map]
  refine List.map_congr_left fun e _ => ?_
  simp only [Function.comp, C17.typeOf]
  split <;> simp

/-- Java: `List<T>` iff plural. -/
theorem java [UniLaws] (tree : Tree) (fn : Str) (v : ComplexType) (hfn : '\n' ∉ fn) (h : Readable tree v) :
    (elementsOf (before v) v (C48.Java.read ((C15.javaLang tree).text (.complex v) fn))).map (fun m => (m.name, m.type)) =
      v.elements.map fun e => (Names.plain e.name,
        let T := Names.plainType c!"void" javaBuildInType (Names.meaning tree e.type)
        if e.plural then c!"List<" ++ T ++ c!">" else T) := by
  rw [(C48.Java.read_complex tree fn v hfn h).1]
  unfold C48.Java.expected elementsOf before
  rw [middle (by simp; omega) (by simp), List.map_map]
  exact List.map_congr_left fun e _ => rfl

/-- Rust: `Vec<T>` iff plural. -/
theorem rust [UniLaws] (tree : Tree) (fn : Str) (v : ComplexType) (hfn : '\n' ∉ fn) (h : Readable tree v) :
    (elementsOf (before v) v (C48.Rust.read ((C15.rustLang tree).text (.complex v) fn))).map (fun m => (m.name, m.type)) =
      v.elements.map fun e => (Names.rustMember rustKeywords e.name,
        let T := Names.rustType rustBuildinType (Names.meaning tree e.type)
        if e.plural then c!"Vec<" ++ T ++ c!">" else if e.optional then c!"Option<" ++ T ++ c!">" else T) := by
  rw [C48.Rust.read_complex tree fn v hfn h]
  unfold C48.Rust.expected elementsOf before
  rw [middle (by simp; omega) (by simp), List.map_map]
  exact List.map_congr_left fun e _ => rfl

/-- TypeScript: `Array<T>` iff plural, for types that are not built in. -/
theorem ts_partial [UniLaws] (tree : Tree) (fn : Str) (v : ComplexType) (hfn : '\n' ∉ fn) (h : Readable tree v) :
    (elementsOf (before v) v (C48.TS.read ((C15.tsLang tree).text (.complex v) fn))).map (fun m => (m.name, m.type)) =
      v.elements.map fun e => (Names.plain e.name,
        let T := Names.tsType typeScriptBuildInType (Names.meaning tree e.type) false
        if e.plural ∧ Names.meaning tree e.type ∉ typeScriptBuildInType then c!"Array<" ++ T ++ c!">" else T) := by
  rw [(C48.TS.read_complex tree fn v hfn h).1]
  unfold C48.TS.expected elementsOf before
  rw [middle (by simp; omega) (by simp), List.map_map]
  refine List.map_congr_left fun e _ => ?_
  simp only [Function.comp, C48.TS.typeOf]
  by_cases hb : Names.meaning tree e.type ∈ typeScriptBuildInType <;> cases hp : e.plural <;>
    simp [Names.tsType, hb]

/-- C: an array iff plural or of an array type. -/
theorem c_partial [UniLaws] (tree : Tree) (fn : Str) (v : ComplexType) (hfn : '\n' ∉ fn) (h : Readable tree v) :
    (elementsOf (before v) v (C48.C.read ((C15.cLang tree).text (.complex v) fn))).map (fun m => (m.name, m.type, m.array)) =
      v.elements.map fun e => (Names.plain e.name,
        let T := Names.plainType c!"void" cBuildInType (Names.meaning tree e.type)
        if c!"[]" <:+ T then (T.take (T.length - 2), true) else (T, e.plural)) := by
  rw [C48.C.read_complex tree fn v hfn h]
  unfold C48.C.expected elementsOf before
  rw [← List.append_nil (_ ++ v.elements.map _), middle (by simp; omega) (by simp), List.map_map]
  refine List.map_congr_left fun e _ => ?_
  simp only [Function.comp, C48.C.item, C48.C.isArray, C48.C.typeOf]
  by_cases hs : c!"[]" <:+ Names.plainType c!"void" cBuildInType (Names.meaning tree e.type) <;> simp [hs]

/-- The elements of a complex type with one element. -/
def one (type : Str) (plural : Bool) : ComplexType :=
  { name := c!"T", elements := [{ name := c!"e", type := type, plural := plural }] }

/-- The property for TypeScript: plural and single elements of the same type are declared differently. -/
theorem ts_lost : ¬ ∀ (type : Str), type ≠ [] → @genTypeScriptFieldType asciiUni type true ≠ @genTypeScriptFieldType asciiUni type false :=
  fun h => h c!"string" (by decide) (by decide +kernel)

/-- In the text: repeated and single built-in elements have the same TypeScript declaration. -/
theorem ts_same_text : (@C15.tsLang asciiUni []).text (.complex (one c!"string" true)) c!"T" =
    (@C15.tsLang asciiUni []).text (.complex (one c!"string" false)) c!"T" := by decide +kernel

/-- In the text: repeated and single elements of an array type have the same C declaration. -/
theorem c_same_text : (@C15.cLang asciiUni []).text (.complex (one c!"char[]" true)) c!"T" =
    (@C15.cLang asciiUni []).text (.complex (one c!"char[]" false)) c!"T" := by decide +kernel

/-- The multiplicity of elements is visible in C. -/
theorem c_lost : ¬ ∀ (v w : ComplexType), v.elements.map (·.plural) ≠ w.elements.map (·.plural) →
    (@C15.cLang asciiUni []).text (.complex v) c!"T" ≠ (@C15.cLang asciiUni []).text (.complex w) c!"T" :=
  fun h => h (one c!"char[]" true) (one c!"char[]" false) (by decide) c_same_text

/-! ## Examples -/

example : Readable [] (one c!"Foo" true) := by
  constructor <;> decide +kernel

example : (@C48.Rust.expected asciiUni [] (one c!"Foo" true)).map (·.type) = [c!"Vec<Foo>"] := by decide +kernel
example : (@C48.Rust.expected asciiUni [] (one c!"Foo" false)).map (·.type) = [c!"Foo"] := by decide +kernel

end Xgen.C37
