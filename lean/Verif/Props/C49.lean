import Verif.Spec.Read
import Verif.Spec.Example
import Verif.Lemmas.Tags

/-! # C49: TypeScript enumerations keep every value in order

A reader of the generated enum gets back one member per value, in order, with the value as literal, if the values contain
no line break, `=`, quote or backslash.  With a quote the property is false (`unreadable`): values are not escaped. -/

namespace Xgen.C49
variable [Uni]

/-- A member of a TypeScript enum. -/
structure Member where
  name : Str
  literal : Str
deriving DecidableEq, Repr

/-- Reads a literal: a quoted text without quote or backslash inside, or a bare number. -/
def readLiteral : Str → Option Str
  | '\'' :: r => if r.getLast? = some '\'' ∧ '\'' ∉ r.dropLast ∧ '\\' ∉ r.dropLast then some r.dropLast else none
  | r => some r

/-- Reads a line `name = literal,`. -/
def readLine : Str → Option Member
  | '\t' :: r =>
    let d := splitFirst '=' r
    (readLiteral ((d.2.drop 1).dropLast)).map fun l => ⟨d.1.dropLast, l⟩
  | _ => none

/-- Reads a declaration. -/
def read (text : Str) : List Member := (splitOn '\n' text).filterMap readLine

/-- The members an enumerated simple type must have: its values in order; the names are the values for strings, and the
values after "Enum" for other base types. -/
def expected (base : Str) (values : List Str) : List Member :=
  values.map fun v => ⟨if base = c!"string" then v else c!"Enum" ++ v, v⟩

/-- The text generated for an enumerated simple type. -/
def enumText (fn doc base : Str) (values : List Str) : Str :=
  tsComment fn doc ++ c!"export enum " ++ fn ++ c!" {\n" ++ values.flatMap (tsEnumLine base) ++ c!"}\n"

/-- A simple type is generated as an enumeration iff it has values and is neither a list that is not yet declared nor a
union with members. -/
theorem generated (tree : Tree) (v : SimpleType) (g : Gen) (h : v.enum ≠ [])
    (hl : v.list = false) (hu : v.union = false ∨ v.memberTypes = []) :
    (tsSimpleType tree v g).field = g.field ++
      enumText (uniqueName (tsName v.name) g).1 v.doc (genTypeScriptFieldType (resolveIn tree v.base) false) v.enum := by
  have h1 : (v.union && decide (v.memberTypes.length > 0)) = false := by
    rcases hu with hu | hu <;> simp [hu]
  have h2 : v.enum.length > 0 := List.length_pos_iff.2 h
  unfold tsSimpleType
  rw [if_neg (by simp [hl]), if_neg (by simp [h1]), if_pos h2]
  have hf : (uniqueName (tsName v.name) g).2.field = g.field := rfl
  simp only [enumText, hf]

/-- Line-safe and quote-safe values. -/
def Plain (v : Str) : Prop := Clean ['\n', '=', '\'', '\\'] v

instance (v : Str) : Decidable (Plain v) := inferInstanceAs (Decidable (Clean _ _))

omit [Uni] in
theorem readLine_string {v : Str} (h : Plain v) : readLine (c!"\t" ++ v ++ c!" = '" ++ v ++ c!"',") = some ⟨v, v⟩ := by
  have e : c!"\t" ++ v ++ c!" = '" ++ v ++ c!"'," = '\t' :: ((v ++ [' ']) ++ '=' :: (' ' :: (('\'' :: (v ++ ['\''])) ++ [',']))) := by
    simp
  rw [e]
  simp only [readLine]
  rw [splitFirst_eq (by simp [h '=' (by decide)])]
  simp only [List.drop_succ_cons, List.drop_zero, List.dropLast_concat]
  simp [readLiteral, h '\'' (by decide), h '\\' (by decide)]

omit [Uni] in
theorem readLine_other {v : Str} (h : Plain v) :
    readLine (c!"\tEnum" ++ v ++ c!" = '" ++ v ++ c!"',") = some ⟨c!"Enum" ++ v, v⟩ := by
  have e : c!"\tEnum" ++ v ++ c!" = '" ++ v ++ c!"'," =
      '\t' :: ((c!"Enum" ++ v ++ [' ']) ++ '=' :: (' ' :: (('\'' :: (v ++ ['\''])) ++ [',']))) := by
    simp
  rw [e]
  simp only [readLine]
  rw [splitFirst_eq (by simp [h '=' (by decide)])]
  simp only [List.drop_succ_cons, List.drop_zero, List.dropLast_concat]
  simp [readLiteral, h '\'' (by decide), h '\\' (by decide)]

omit [Uni] in
theorem readLine_number {v : Str} (h : Plain v) :
    readLine (c!"\tEnum" ++ v ++ c!" = " ++ v ++ c!",") = some ⟨c!"Enum" ++ v, v⟩ := by
  have e : c!"\tEnum" ++ v ++ c!" = " ++ v ++ c!"," =
      '\t' :: ((c!"Enum" ++ v ++ [' ']) ++ '=' :: (' ' :: (v ++ [',']))) := by
    simp
  rw [e]
  simp only [readLine]
  rw [splitFirst_eq (by simp [h '=' (by decide)])]
  simp only [List.drop_succ_cons, List.drop_zero, List.dropLast_concat]
  have : readLiteral v = some v := by
    unfold readLiteral
    split
    · exact absurd (by simp) (h '\'' (by decide))
    · rfl
  rw [this]
  rfl

/-- The line of a value, without its line break. -/
def line (base v : Str) : Str :=
  if base = c!"string" then c!"\t" ++ v ++ c!" = '" ++ v ++ c!"',"
  else if base = c!"number" then c!"\tEnum" ++ v ++ c!" = " ++ v ++ c!","
  else c!"\tEnum" ++ v ++ c!" = '" ++ v ++ c!"',"

omit [Uni] in
theorem readLine_line (base : Str) {v : Str} (h : Plain v) :
    readLine (line base v) = some ⟨if base = c!"string" then v else c!"Enum" ++ v, v⟩ := by
  unfold line
  split
  · exact readLine_string h
  · split
    · exact readLine_number h
    · exact readLine_other h

omit [Uni] in
/-- C49, the generator: reading the enum back. -/
theorem read_enum_partial (fn doc base : Str) (values : List Str) (hfn : '\n' ∉ fn) (h : ∀ v ∈ values, Plain v) :
    read (enumText fn doc base values) = expected base values := by
  obtain ⟨cl, hcl, hcl'⟩ := comment_untabbed fn doc hfn
  have hb : Lines (values.flatMap (tsEnumLine base)) (values.flatMap fun v => [line base v]) := by
    refine Lines.flatMap fun v hv => ?_
    have hn : '\n' ∉ line base v := by
      have := h v hv '\n' (by decide)
      unfold line
      split
      · simp [this]
      · split <;> simp [this]
    have := Lines.one hn
    have e : tsEnumLine base v = line base v ++ c!"\n" := by
      unfold tsEnumLine line
      split
      · simp
      · split <;> simp
    rw [e]
    exact this
  have hh := Lines.one (a := c!"export enum " ++ fn ++ c!" {") (by simp [hfn])
  have hall := ((hcl.append hh).append hb) c!"}\n"
  have htext : enumText fn doc base values = ((genFieldComment fn doc c!"//" ++ (c!"export enum " ++ fn ++ c!" {" ++ c!"\n")) ++
      values.flatMap (tsEnumLine base)) ++ c!"}\n" := by
    simp [enumText, tsComment]
  unfold read
  rw [htext, hall]
  simp only [List.filterMap_append]
  have e0 : cl.filterMap readLine = [] := by
    rw [List.filterMap_eq_nil_iff]
    intro l hl
    unfold readLine
    split
    · rename_i r
      exact absurd rfl (hcl' _ hl r)
    · rfl
  have e1 : ([c!"export enum " ++ fn ++ c!" {"].filterMap readLine) = [] := by simp [readLine]
  have e2 : (splitOn '\n' c!"}\n").filterMap readLine = [] := by decide
  rw [e0, e1, e2, filterMap_flatMap (r := fun v => ⟨if base = c!"string" then v else c!"Enum" ++ v, v⟩)]
  · simp [expected]
  · exact fun v hv => readLine_line base (h v hv)

omit [Uni] in
/-- C49 is false for values with a quote: nothing escapes it, and the member cannot be read. -/
theorem unreadable : ¬ ∀ (fn doc base : Str) (values : List Str), '\n' ∉ fn → (∀ v ∈ values, '\n' ∉ v) →
    read (enumText fn doc base values) = expected base values := by
  intro h
  have := h c!"T" [] c!"string" [c!"it's"] (by decide) (by decide)
  revert this
  decide +kernel

/-! ## The parser -/

/-- The tokens of enumeration facets, given by their XML attributes. -/
def facets (vs : List (List Attr)) : List Token :=
  vs.flatMap fun as => [.start c!"enumeration" as, .stop c!"enumeration"]

/-- The value of a facet (XML allows one). -/
def valuesOf (as : List Attr) : List Str := (as.filter fun a => a.local = c!"value").map (·.value)

omit [Uni] in
theorem onEnumeration_eq (as : List Attr) (p : PState) (x : SimpleType) (rest : List SimpleType)
    (h : p.simpleType = x :: rest) :
    onEnumeration as p = { p with simpleType := { x with enum := x.enum ++ valuesOf as } :: rest } := by
  unfold onEnumeration
  induction as generalizing p x with
  | nil => cases p; cases h; simp [valuesOf]
  | cons a as ih =>
    rw [List.foldl_cons]
    by_cases ha : a.local = c!"value"
    · rw [if_pos ha, ih _ { x with enum := x.enum ++ [a.value] } (by simp [h, Stack.setTop])]
      have : valuesOf (a :: as) = a.value :: valuesOf as := by simp [valuesOf, ha]
      rw [this]
      simp
    · rw [if_neg ha, ih p x h]
      have : valuesOf (a :: as) = valuesOf as := by simp [valuesOf, ha]
      rw [this]

/-- C49, the parser: the facets of a named simple type are collected in document order. -/
theorem collected [UniLaws] (W : World) (gvt : Gvt) (vs : List (List Attr)) (s : St) (x : SimpleType) (rest : List SimpleType)
    (h : s.p.simpleType = x :: rest) (ha : s.p.attrSt = []) (he : s.p.element = []) :
    ∃ i, run W gvt (facets vs) s = .ok () { s with p := { s.p with
      inElement := i, simpleType := { x with enum := x.enum ++ vs.flatMap valuesOf } :: rest } } := by
  induction vs generalizing s x with
  | nil =>
    refine ⟨s.p.inElement, ?_⟩
    obtain ⟨sh, p⟩ := s
    cases p
    cases h
    simp [facets, run]
  | cons v vs ih =>
    have e : facets (v :: vs) = .start c!"enumeration" v :: .stop c!"enumeration" :: facets vs := rfl
    obtain ⟨sh, heap, proto, inE, cur, inG, inU, inAG, st, ct, el, ats, gr, ags, ch⟩ := s
    dsimp only at h ha he
    subst h ha he
    rw [e]
    simp only [run, step, onKind_enumeration, endKind_enumeration, Go.bind_apply, onP_apply, callOn, callEnd, endEnumeration]
    rw [onEnumeration_eq v _ x rest rfl]
    simp only [enumAttribute, enumElement]
    obtain ⟨i, hi⟩ := ih ⟨sh, heap, proto, c!"enumeration", cur, inG, inU, inAG,
      { x with enum := x.enum ++ valuesOf v } :: rest, ct, [], [], gr, ags, ch⟩ { x with enum := x.enum ++ valuesOf v } rfl rfl rfl
    refine ⟨i, ?_⟩
    have e2 : (v :: vs).flatMap valuesOf = valuesOf v ++ vs.flatMap valuesOf := rfl
    rw [e2, ← List.append_assoc]
    exact hi

/-! ## Examples -/

example : Plain c!"red-1" := by decide +kernel

example : read (enumText c!"Colour" c!"a colour" c!"string" [c!"red", c!"blue"]) =
    [⟨c!"red", c!"red"⟩, ⟨c!"blue", c!"blue"⟩] := by decide +kernel

example : read (enumText c!"N" [] c!"number" [c!"3", c!"1"]) = [⟨c!"Enum3", c!"3"⟩, ⟨c!"Enum1", c!"1"⟩] := by decide +kernel

open Ex in
/-- From the schema to the text. -/
example : (match Ex.parse (world [("s.xsd", [on "schema", on "simpleType" [("name", "Colour")],
      on "restriction" [("base", "string")]] ++ leaf "enumeration" [("value", "red")] ++
      leaf "enumeration" [("value", "blue")] ++ [off "restriction", off "simpleType", off "schema"])]) "s.xsd" "TypeScript" with
    | .ok t _ => read (@tsGen asciiUni t).field
    | _ => []) = [⟨c!"red", c!"red"⟩, ⟨c!"blue", c!"blue"⟩] := by decide +kernel

end Xgen.C49
