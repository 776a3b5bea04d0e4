import Verif.Props.C16
import Verif.Props.C74

/-! # C80: what a Go compiler checks in a generated file

A generated Go file consists of type declarations.  A compiler asks of them: that the names of types and fields are
identifiers, that no name is declared twice, neither in the file nor in a struct, that every type that is mentioned is there,
that no type contains itself, that what is embedded is neither a pointer nor an interface, that every package that is mentioned is imported, and that
every import is used.  Here: which schemas give files in which all of this holds.  The condition for the imports is exact. -/

namespace Xgen.C80
open Core C40 Decl
open C13 (Exported nameRune letterly)
open C17 (Field typeOf)
open C58 (Legible isUnion)
open C71 (Linked)
open C71.Go (mentions headType)
open C73 (namesOf)
open C74 (membersOf baseOf)

/-! ## What is asked of a file -/

/-- The import paths of a Go source: the lines between `import (` and `)`. -/
def imports (text : Str) : List Str :=
  ((((splitOn '\n' text).dropWhile fun l => l ≠ c!"import (").drop 1).takeWhile fun l => l.head? ≠ some ')').map fun l => (l.drop 2).dropLast

/-- The package of an import path: what follows the last slash. -/
def packageOf (path : Str) : Str := (splitLast '/' path).2

/-- The package in a type, behind pointers and slices. -/
def package (type : Str) : Option Str :=
  let name := type.dropWhile fun c => c = '*' || c = '[' || c = ']'
  if '.' ∈ name then some (name.takeWhile fun c => c ≠ '.') else none

/-- The packages that a Go source mentions. -/
def packages (text : Str) : List Str := (C58.Go.declsOf text).flatMap fun d => (mentions d).filterMap package

/-- The name that a declaration declares. -/
def declared (d : Str × List Field) : Str := (d.1.drop 5).takeWhile fun c => c ≠ ' ' && c ≠ '\t'

/-- What a Go compiler asks of the declarations of a file. -/
structure Accepted (text : Str) : Prop where
  types : ∀ n ∈ C56.Go.names text, Exported n
  fields : ∀ d ∈ C58.Go.declsOf text, ∀ f ∈ d.2, f.name ≠ [] → Exported f.name
  once : (C56.Go.names text).Nodup
  distinct : C74.Go.Distinct text
  closed : C71.Go.Closed text
  finite : C73.Go.Finite text
  embedded : ∀ d ∈ C58.Go.declsOf text, ∀ f ∈ d.2, f.name = [] → ∃ n ∈ C56.Go.names text, f.type = '*' :: n ∧
    ∀ d' ∈ C58.Go.declsOf text, declared d' = n → ∀ a, headType d'.1 = some a → a.head? ≠ some '*' ∧ a ≠ c!"interface{}"
  imported : ∀ p ∈ packages text, p ∈ (imports text).map packageOf
  used : ∀ i ∈ imports text, packageOf i ∈ packages text

example : imports c!"package p\nimport (\n\t\"time\"\n\t\"encoding/xml\"\n)\r\n// T\r\ntype T struct {\n}\n" = [c!"time", c!"encoding/xml"] ∧
    imports c!"package p\r\n// T\r\ntype T struct {\n}\n" = [] := by decide +kernel
example : packageOf c!"encoding/xml" = c!"xml" ∧ packageOf c!"time" = c!"time" := by decide
example : package c!"[]time.Time" = some c!"time" ∧ package c!"*T" = none ∧ package c!"[]byte" = none := by decide

/-! ## Which schemas are fine -/

/-- A name that starts with a letter that has a capital, and goes on with letters, ASCII digits, `:`, `.`, `-` and `_`. -/
def Word [Uni] (s : Str) : Prop := (∃ c r, s = c :: r ∧ C13.starts c = true) ∧ ∀ c ∈ s, nameRune c = true

/-- Which components become a struct. -/
def isStruct : Node Element → Bool
  | .simple v => !v.list && isUnion v
  | .attr _ => false
  | .elem _ => false
  | _ => true

section
variable [Uni]

/-- The types of the members of a component, or the type it is another name for. -/
def used (t : Tree) : Node Element → List Str
  | .simple v =>
    if v.list then [Names.goType goBuildinType (typeOf t v.base)]
    else if isUnion v then v.memberTypes.map fun m => Names.goType goBuildinType (C55.memberMeaning t m)
    else [typeOf t v.base]
  | .attr v => [typeOf t v.type]
  | .elem v => [typeOf t v.type]
  | .complex v => v.attributeGroup.map (fun a => typeOf t a.ref) ++ v.attributes.map (fun a => typeOf t a.type) ++
      v.groups.map (fun g => typeOf t g.ref) ++ v.elements.map (fun e => typeOf t e.type) ++
      if v.base = [] then [] else [Names.goType goBuildinType v.base]
  | .group v => v.elements.map (fun e => typeOf t e.type) ++ v.groups.map (fun g => typeOf t g.ref)
  | .attrGroup v => v.attributes.map fun a => typeOf t a.type

/-- Those of them for which the generator imports `time`: items of lists, and attributes, attribute groups and elements of
complex types. -/
def noticed (t : Tree) : Node Element → List Str
  | .simple v => if v.list then [typeOf t v.base] else []
  | .complex v => v.attributeGroup.map (fun a => typeOf t a.ref) ++ v.attributes.map (fun a => typeOf t a.type) ++
      v.elements.map (fun e => typeOf t e.type)
  | _ => []

/-- What matters for the imports: for every declaration the types that are used, those that are noticed, and whether it is a
struct that is not named like its component. -/
def summary (t : Tree) : List (List Str × List Str × Bool) :=
  (C58.declarations C58.Go.base C58.Go.numbered (fun _ => false) t).map fun x => (used t x.1, noticed t x.1, isStruct x.1 && x.2 ≠ nodeName x.1)

/-- If a time is used anywhere, it is also used where it is noticed; if a qualified name is used anywhere, there is a struct that
is not named like its component. -/
def Imported (s : List (List Str × List Str × Bool)) : Prop :=
  ((∃ x ∈ s, c!"time.Time" ∈ x.1) → ∃ x ∈ s, c!"time.Time" ∈ x.2.1) ∧ ((∃ x ∈ s, c!"xml.Name" ∈ x.1) → ∃ x ∈ s, x.2.2 = true)

instance (s : List (List Str × List Str × Bool)) : Decidable (Imported s) := by unfold Imported; infer_instance

/-- The type that a component is another name for. -/
def aliased (t : Tree) : Node Element → Option Str
  | .simple v => if v.list then some (c!"[]" ++ Names.goType goBuildinType (typeOf t v.base)) else if isUnion v then none else some (typeOf t v.base)
  | .attr v => some ((if v.plural then c!"[]" else []) ++ typeOf t v.type)
  | .elem v => some ((if v.plural then c!"[]" else []) ++ typeOf t v.type)
  | _ => none

/-- A type that is no pointer and no interface. -/
def solid (a : Str) : Bool := decide (a.head? ≠ some '*' ∧ a ≠ c!"interface{}")

/-- The bases that are embedded are not names of pointers or interfaces. -/
def Solid (t : Tree) : Prop := ∀ n ∈ nodes t, baseOf n ≠ [] → baseOf n ∉ goBuildinType →
  ∀ m ∈ C56.firsts (fun _ => false) (nodes t), nodeName m = baseOf n → (aliased t m).all solid = true

instance (t : Tree) : Decidable (Solid t) := by unfold Solid; infer_instance

/-- Trees whose files are accepted. -/
structure Suits (t : Tree) : Prop where
  linked : Linked c!"Go" t
  apart : ∀ n ∈ nodes t, C74.Go.Apart n
  names : ∀ n ∈ nodes t, Word (nodeName n)
  members : ∀ n ∈ nodes t, ∀ m ∈ membersOf n, Word m.1
  once : ∀ n ∈ nodes t, ∀ n' ∈ nodes t, Names.strict (nodeName n) = Names.strict (nodeName n') → nodeName n = nodeName n'
  solid : Solid t
  imported : Imported (summary t)

/-! ## Identifiers -/

variable [UniLaws]

theorem word {s : Str} (h : Word s) : Exported (Names.strict s) := by
  obtain ⟨⟨c, r, e, hc⟩, h⟩ := h
  rw [← Names.go_name]
  exact C13.exported s h c r e hc

omit [Uni] [UniLaws] in
theorem extended {s t : Str} (h : Exported s) (ht : ∀ d ∈ t, (letterly d || isAsciiDigit d) = true) : Exported (s ++ t) := by
  obtain ⟨c, cs, e, h1, h2⟩ := h
  refine ⟨c, cs ++ t, by rw [e]; rfl, h1, fun d hd => ?_⟩
  rcases List.mem_append.1 hd with hd | hd
  · exact h2 d hd
  · exact ht d hd

/-- The names of the fields. -/
theorem field_names {order : List (Str × Str) → List (Str × Str)} (ho : C58.Order order) (t : Tree) (fn : Str) (n : Node Element) :
    ∀ f ∈ C58.Go.fields order t fn n, f.name = c!"XMLName" ∨ f.name = c!"Value" ∨
      (∃ m ∈ membersOf n, f.name = Names.strict m.1 ++ if m.2 then c!"Attr" else []) ∨
      (f.name = [] ∧ f.type = Names.goType goBuildinType (baseOf n) ∧ baseOf n ≠ [] ∧ baseOf n ∉ goBuildinType) := by
  have xml : ∀ {s : Str} {f : Field}, f ∈ (if fn ≠ s then [(⟨c!"XMLName", c!"xml.Name", some (s, [])⟩ : Field)] else []) → f.name = c!"XMLName" := by
    intro s f hf
    split at hf
    · rw [List.mem_singleton.1 hf]
    · cases hf
  have hcomplex : ∀ v : ComplexType, ∀ f ∈ C17.expected t fn v, f.name = c!"XMLName" ∨ f.name = c!"Value" ∨
      (∃ m ∈ membersOf (.complex v), f.name = Names.strict m.1 ++ if m.2 then c!"Attr" else []) ∨
      (f.name = [] ∧ f.type = Names.goType goBuildinType v.base ∧ v.base ≠ [] ∧ v.base ∉ goBuildinType) := by
    intro v f hf
    simp only [C17.expected, List.mem_append] at hf
    simp only [membersOf, List.mem_append]
    rcases hf with ((((hf | hf) | hf) | hf) | hf) | hf
    · exact .inl (xml hf)
    · obtain ⟨a, ha, rfl⟩ := List.mem_map.1 hf
      exact .inr (.inr (.inl ⟨_, .inl (.inl (.inl (List.mem_map_of_mem ha))), by simp⟩))
    · obtain ⟨a, ha, rfl⟩ := List.mem_map.1 hf
      exact .inr (.inr (.inl ⟨_, .inl (.inl (.inr (List.mem_map_of_mem ha))), by simp⟩))
    · obtain ⟨a, ha, rfl⟩ := List.mem_map.1 hf
      exact .inr (.inr (.inl ⟨_, .inl (.inr (List.mem_map_of_mem ha)), by simp⟩))
    · obtain ⟨a, ha, rfl⟩ := List.mem_map.1 hf
      exact .inr (.inr (.inl ⟨_, .inr (List.mem_map_of_mem ha), by simp⟩))
    · by_cases h1 : v.base = []
      · rw [if_pos h1] at hf; cases hf
      · rw [if_neg h1] at hf
        by_cases h2 : v.base ∈ goBuildinType
        · rw [if_pos h2, List.mem_singleton] at hf
          rw [hf]; exact .inr (.inl rfl)
        · rw [if_neg h2, List.mem_singleton] at hf
          rw [hf]; exact .inr (.inr (.inr ⟨rfl, rfl, h1, h2⟩))
  intro f hf
  cases n with
  | simple v =>
    simp only [C58.Go.fields] at hf
    split at hf
    · rename_i hu
      rcases List.mem_append.1 hf with hf | hf
      · exact .inl (xml hf)
      · obtain ⟨m, hm, rfl⟩ := List.mem_map.1 hf
        refine .inr (.inr (.inl ⟨(m.1, false), ?_, by simp⟩))
        simp only [membersOf, hu, if_true]
        exact List.mem_map.2 ⟨m, (ho _).1.mem_iff.1 hm, rfl⟩
    · cases hf
  | attr v => cases hf
  | elem v => cases hf
  | complex v => exact hcomplex v f hf
  | group v =>
    simp only [C58.Go.fields, C54.Go.group, List.mem_append] at hf
    simp only [membersOf, List.mem_append]
    rcases hf with (hf | hf) | hf
    · exact .inl (xml hf)
    · obtain ⟨a, ha, rfl⟩ := List.mem_map.1 hf
      exact .inr (.inr (.inl ⟨_, .inl (List.mem_map_of_mem ha), by simp⟩))
    · obtain ⟨a, ha, rfl⟩ := List.mem_map.1 hf
      exact .inr (.inr (.inl ⟨_, .inr (List.mem_map_of_mem ha), by simp⟩))
  | attrGroup v =>
    rcases hcomplex _ f hf with h | h | ⟨m, hm, h⟩ | ⟨-, -, h, -⟩
    · exact .inl h
    · exact .inr (.inl h)
    · refine .inr (.inr (.inl ⟨m, ?_, h⟩))
      simpa [membersOf, C54.withAttrs] using hm
    · exact absurd rfl h

/-! ## Packages -/

theorem camel_dot (s : Str) : ∀ b, '.' ∉ Names.camel Names.dot Names.hyphen b s := by
  induction s with
  | nil => intro b h; cases h
  | cons c s ih =>
    intro b
    rw [Names.camel]
    by_cases h1 : Names.dot c = true
    · rw [if_pos h1]; exact ih _
    · rw [if_neg h1]
      by_cases h2 : Names.hyphen c = true
      · rw [if_pos h2]; exact ih _
      · rw [if_neg h2]
        intro h
        have hc : c ≠ '.' := by simpa [Names.dot] using h1
        rcases List.mem_cons.1 h with h | h
        · cases b
          · exact hc h.symm
          · exact hc ((upper_eq_iff (by decide) (by decide) c).1 h.symm)
        · exact ih _ h

theorem cap_dot {s : Str} (h : '.' ∉ s) : '.' ∉ Names.cap s := by
  cases s with
  | nil => exact h
  | cons c s =>
    rw [Names.cap]
    intro h'
    rcases List.mem_cons.1 h' with h' | h'
    · exact h (by rw [(upper_eq_iff (by decide) (by decide) c).1 h'.symm]; exact List.mem_cons_self)
    · exact h (List.mem_cons_of_mem _ h')

theorem goType_cases (s : Str) : s ∈ goBuildinType ∧ Names.goType goBuildinType s = s ∨
    s ∉ goBuildinType ∧ '.' ∉ Names.goType goBuildinType s := by
  by_cases h : s ∈ goBuildinType
  · exact .inl ⟨h, by rw [Names.goType, if_pos h]⟩
  · refine .inr ⟨h, ?_⟩
    rw [Names.goType, if_neg h]
    have hd : '.' ∉ (Names.cap (Names.camel Names.dot Names.hyphen true s)).filter (· ≠ '_') :=
      fun h => cap_dot (camel_dot s true) (List.mem_filter.1 h).1
    cases e : (Names.cap (Names.camel Names.dot Names.hyphen true s)).filter (· ≠ '_') with
    | nil => decide
    | cons c w => rw [e] at hd; intro h; exact hd ((List.mem_cons.1 h).resolve_left (by decide))

omit [Uni] [UniLaws] in
theorem package_none {t : Str} (h : '.' ∉ t) : package t = none := by
  unfold package
  rw [if_neg fun h' => h ((List.dropWhile_sublist _).subset h')]

omit [Uni] [UniLaws] in
theorem package_slice (b : Bool) (t : Str) : package ((if b then c!"[]" else []) ++ t) = package t := by cases b <;> rfl

/-- The packages that types are from. -/
theorem package_type (s p : Str) : package (Names.goType goBuildinType s) = some p ↔
    (Names.goType goBuildinType s = c!"time.Time" ∧ p = c!"time") ∨ (Names.goType goBuildinType s = c!"xml.Name" ∧ p = c!"xml") := by
  rcases goType_cases s with ⟨h, e⟩ | ⟨h, hd⟩
  · rw [e]
    have := (by decide : ∀ s ∈ goBuildinType, (s = c!"time.Time" ∧ package s = some c!"time") ∨ (s = c!"xml.Name" ∧ package s = some c!"xml") ∨
      (s ≠ c!"time.Time" ∧ s ≠ c!"xml.Name" ∧ package s = none)) s h
    rcases this with ⟨rfl, e⟩ | ⟨rfl, e⟩ | ⟨h1, h2, e⟩
    · rw [e]; simp [eq_comm]
    · rw [e]; simp [eq_comm]
    · rw [e]; simp [h1, h2]
  · rw [package_none hd]
    have h1 : Names.goType goBuildinType s ≠ c!"time.Time" := fun e => hd (e ▸ by decide)
    have h2 : Names.goType goBuildinType s ≠ c!"xml.Name" := fun e => hd (e ▸ by decide)
    simp [h1, h2]

theorem goType_ne (b : Bool) (s : Str) : (if b then c!"[]" else []) ++ Names.goType goBuildinType s ≠ c!"struct {" := by
  cases b
  · rw [if_neg (by decide), List.nil_append, Names.goType]
    split
    · rename_i h
      exact fun e => (by decide : c!"struct {" ∉ goBuildinType) (e ▸ h)
    · split
      · decide
      · simp
  · simp

/-- The packages that a declaration mentions. -/
theorem mentioned {order : List (Str × Str) → List (Str × Str)} (ho : C58.Order order) (t : Tree) {fn : Str} (hfn : Clean notInNames fn)
    (n : Node Element) (p : Str) : p ∈ (mentions (C58.Go.head t fn n, C58.Go.fields order t fn n)).filterMap package ↔
      ((isStruct n && fn ≠ nodeName n) = true ∧ p = c!"xml") ∨ ∃ u ∈ used t n, package u = some p := by
  have struct : headType (c!"type " ++ fn ++ c!" struct {") = none := C71.Go.headType_eq (b := ' ') hfn (.inl rfl)
  have other : ∀ (b : Char) (r : Str), b = ' ' ∨ b = '\t' → r ≠ c!"struct {" → headType (c!"type " ++ fn ++ b :: r) = some r := fun b r hb hr => by
    rw [C71.Go.headType_eq hfn hb, if_neg hr]
  have hxml : ∀ s : Str, (∃ f ∈ (if fn ≠ s then [(⟨c!"XMLName", c!"xml.Name", some (s, [])⟩ : Field)] else []), package f.type = some p) ↔
      (fn ≠ s ∧ p = c!"xml") := fun s => by
    by_cases h : fn = s
    · simp [h]
    · simp only [ne_eq, h, not_false_eq_true, if_true, List.mem_singleton, true_and]
      constructor
      · rintro ⟨f, rfl, e⟩; cases e; rfl
      · rintro rfl; exact ⟨_, rfl, (by decide : package c!"xml.Name" = some c!"xml")⟩
  have fields : ∀ l : List Field, p ∈ (l.map (·.type)).filterMap package ↔ ∃ f ∈ l, package f.type = some p := fun l => by
    simp [List.mem_filterMap]
  have orr : ∀ (l l' : List Field), (∃ f ∈ l ++ l', package f.type = some p) ↔ (∃ f ∈ l, package f.type = some p) ∨ ∃ f ∈ l', package f.type = some p := fun l l' => by
    simp only [List.mem_append, or_and_right, exists_or]
  have orr' : ∀ (l l' : List Str), (∃ f ∈ l ++ l', package f = some p) ↔ (∃ f ∈ l, package f = some p) ∨ ∃ f ∈ l', package f = some p := fun l l' => by
    simp only [List.mem_append, or_and_right, exists_or]
  have of : ∀ {α : Type} (l : List α) (g : α → Field), (∃ f ∈ l.map g, package f.type = some p) ↔ ∃ a ∈ l, package (g a).type = some p := fun l g =>
    ⟨fun ⟨f, hf, e⟩ => by obtain ⟨a, ha, rfl⟩ := List.mem_map.1 hf; exact ⟨a, ha, e⟩, fun ⟨a, ha, e⟩ => ⟨_, List.mem_map_of_mem ha, e⟩⟩
  have of' : ∀ {α : Type} (l : List α) (g : α → Str), (∃ f ∈ l.map g, package f = some p) ↔ ∃ a ∈ l, package (g a) = some p := fun l g =>
    ⟨fun ⟨f, hf, e⟩ => by obtain ⟨a, ha, rfl⟩ := List.mem_map.1 hf; exact ⟨a, ha, e⟩, fun ⟨a, ha, e⟩ => ⟨_, List.mem_map_of_mem ha, e⟩⟩
  have hcomplex : ∀ v : ComplexType, (∃ f ∈ C17.expected t fn v, package f.type = some p) ↔
      (fn ≠ v.name ∧ p = c!"xml") ∨ ∃ u ∈ used t (.complex v), package u = some p := by
    intro v
    have hb : (∃ f ∈ (if v.base = [] then [] else if v.base ∈ goBuildinType then
        [(⟨c!"Value", Names.goType goBuildinType v.base, some ([], [c!"chardata"])⟩ : Field)]
        else [⟨[], Names.goType goBuildinType v.base, none⟩]), package f.type = some p) ↔
        ∃ u ∈ (if v.base = [] then [] else [Names.goType goBuildinType v.base]), package u = some p := by
      split
      · simp
      · split <;> simp
    simp only [C17.expected, used, orr, orr', of, of', hxml, hb, package_slice, or_assoc]
  rw [mentions, List.filterMap_append, List.mem_append, fields, Bool.and_eq_true, decide_eq_true_eq]
  cases n with
  | simple v =>
    simp only [C58.Go.head, C58.Go.fields, isStruct, used]
    by_cases h1 : v.list = true
    · have hu : isUnion v = false := by simp [isUnion, h1]
      simp only [h1, if_true, hu, Bool.false_eq_true, if_false, Bool.not_true, Bool.false_and, false_and, false_or]
      rw [show c!" []" ++ Names.goType goBuildinType (typeOf t v.base) = ' ' :: (c!"[]" ++ Names.goType goBuildinType (typeOf t v.base)) from rfl,
        other ' ' (c!"[]" ++ Names.goType goBuildinType (typeOf t v.base)) (.inl rfl) (goType_ne true _)]
      have := package_slice true (Names.goType goBuildinType (typeOf t v.base))
      rw [if_pos rfl, List.cons_append, List.cons_append, List.nil_append] at this
      simp [this]
    · simp only [h1, Bool.false_eq_true, if_false, Bool.not_false, Bool.true_and, true_and]
      by_cases h2 : isUnion v = true
      · simp only [h2, if_true, struct, Option.toList, List.filterMap_nil, List.not_mem_nil, false_or, orr, hxml, of, of', nodeName, true_and]
        have : (∃ a ∈ order v.memberTypes, package (Names.goType goBuildinType (C55.memberMeaning t a)) = some p) ↔
            ∃ a ∈ v.memberTypes, package (Names.goType goBuildinType (C55.memberMeaning t a)) = some p := by
          simp only [(ho v.memberTypes).1.mem_iff]
        rw [this]
      · simp only [h2, Bool.false_eq_true, if_false, false_and, false_or]
        have e := other ' ' (typeOf t v.base) (.inl rfl) (goType_ne false _)
        rw [show c!" " ++ typeOf t v.base = ' ' :: typeOf t v.base from rfl, e]
        simp
  | attr v =>
    simp only [C58.Go.head, C58.Go.fields, isStruct, used]
    rw [show c!"\t" ++ (if v.plural then c!"[]" else []) ++ typeOf t v.type = '\t' :: ((if v.plural then c!"[]" else []) ++ typeOf t v.type) from rfl,
      other '\t' ((if v.plural then c!"[]" else []) ++ typeOf t v.type) (.inr rfl) (goType_ne v.plural _)]
    simp [package_slice]
  | elem v =>
    simp only [C58.Go.head, C58.Go.fields, isStruct, used]
    rw [show c!"\t" ++ (if v.plural then c!"[]" else []) ++ typeOf t v.type = '\t' :: ((if v.plural then c!"[]" else []) ++ typeOf t v.type) from rfl,
      other '\t' ((if v.plural then c!"[]" else []) ++ typeOf t v.type) (.inr rfl) (goType_ne v.plural _)]
    simp [package_slice]
  | complex v =>
    simp only [C58.Go.head, C58.Go.fields, isStruct, struct, hcomplex, nodeName, Option.toList, List.filterMap_nil, List.not_mem_nil, false_or, true_and]
  | group v =>
    simp only [C58.Go.head, C58.Go.fields, isStruct, struct, nodeName, Option.toList, List.filterMap_nil, List.not_mem_nil, false_or, true_and,
      C54.Go.group, used, orr, orr', of, of', hxml, package_slice, or_assoc]
  | attrGroup v =>
    simp only [C58.Go.head, C58.Go.fields, isStruct, struct, hcomplex, nodeName, Option.toList, List.filterMap_nil, List.not_mem_nil, false_or, true_and]
    simp [used, C54.withAttrs]

/-! ## Imports -/

theorem decls_eq (t : Tree) : C16.decls t = C58.declarations C58.Go.base C58.Go.numbered (fun _ => false) t := by
  rw [C16.decls, C58.named_declarations]
  congr 1
  · funext n; exact Names.go_name _

theorem noticed_eq (t : Tree) (n : Node Element) : C16.timeFlag t n = decide (c!"time.Time" ∈ noticed t n) := by
  rw [Bool.eq_iff_iff, decide_eq_true_eq]
  have hg : ∀ s, C16.goType t s = typeOf t s := fun s => by rw [C16.goType, typeOf, Names.go_type, Names.meaning_eq]
  cases n with
  | simple v =>
    by_cases h : v.list = true
    · simp [C16.timeFlag, noticed, h, hg, eq_comm]
    · simp [C16.timeFlag, noticed, h]
  | complex v => simp only [C16.timeFlag, noticed, hg, Bool.or_eq_true, List.any_eq_true, decide_eq_true_eq, List.mem_append, List.mem_map]
  | _ => simp [C16.timeFlag, noticed]

omit [Uni] [UniLaws] in
theorem struct_eq (n : Node Element) : C16.isStruct n = isStruct n := by
  cases n <;> simp [C16.isStruct, isStruct, isUnion]

theorem time_imported (t : Tree) : (goGen t).importTime = true ↔ ∃ x ∈ summary t, c!"time.Time" ∈ x.2.1 := by
  rw [C16.time_flag, List.any_eq_true, decls_eq]
  constructor
  · rintro ⟨x, hx, h⟩
    rw [noticed_eq, decide_eq_true_eq] at h
    exact ⟨_, List.mem_map_of_mem hx, h⟩
  · rintro ⟨y, hy, h⟩
    obtain ⟨x, hx, rfl⟩ := List.mem_map.1 hy
    exact ⟨x, hx, by rw [noticed_eq, decide_eq_true_eq]; exact h⟩

theorem xml_imported (t : Tree) : (goGen t).importEncodingXML = true ↔ ∃ x ∈ summary t, x.2.2 = true := by
  rw [C16.xml_flag, List.any_eq_true, decls_eq]
  constructor
  · rintro ⟨x, hx, h⟩
    rw [struct_eq] at h
    exact ⟨_, List.mem_map_of_mem hx, h⟩
  · rintro ⟨y, hy, h⟩
    obtain ⟨x, hx, rfl⟩ := List.mem_map.1 hy
    exact ⟨x, hx, by rw [struct_eq]; exact h⟩

/-- No line of the declarations is the start of the imports. -/
theorem field_lines {t : Tree} (hl : Legible t) : ∃ ls, Lines (goGen t).field ls ∧ ∀ l ∈ ls, l ≠ c!"import (" := by
  have one : ∀ x ∈ named (C15.goLang t) [] (Decl.declared (C15.goLang t) (nodes t)), ∃ ls, Lines ((C15.goLang t).text x.1 x.2) ls ∧ ∀ l ∈ ls, l ≠ c!"import (" := by
    intro x hx
    have hn := C56.mem_nodes hx
    have hfn : Clean notInNames x.2 := fun c hc => named_absent ((by decide : ∀ x ∈ notInNames, x.isDigit = false) c hc) hx
      (goName_absent ((by decide : ∀ x ∈ notInNames, Sym x) c hc) (hl.name hn c hc))
    obtain ⟨body, h1, -⟩ := C56.Go.text_starts hl.sound hn hfn
    obtain ⟨c, b, h2, h3, -, h4⟩ := h1.lines
    refine ⟨_, h2, fun l hl' e => ?_⟩
    rcases List.mem_append.1 hl' with h | h
    · have := h3 l h 'i' (by rw [e]; rfl)
      exact absurd this (by decide)
    · rcases List.mem_cons.1 h with h | h
      · rw [e] at h
        exact absurd (congrArg List.head? h) (by simp)
      · have := h4 l h 'i' (by rw [e]; rfl)
        exact absurd this (by decide)
  rw [C15.go, render_named]
  generalize named (C15.goLang t) [] (Decl.declared (C15.goLang t) (nodes t)) = xs at one
  induction xs with
  | nil => exact ⟨[], Lines.nil, fun l hl => by cases hl⟩
  | cons x xs ih =>
    obtain ⟨as, h1, h2⟩ := one x List.mem_cons_self
    obtain ⟨bs, h3, h4⟩ := ih fun y hy => one y (List.mem_cons_of_mem _ hy)
    rw [List.flatMap_cons]
    exact ⟨as ++ bs, h1.append h3, fun l hl => (List.mem_append.1 hl).elim (h2 l) (h4 l)⟩

/-- The imports of a generated file. -/
theorem imports_eq (pkg : Str) {t : Tree} (hp : '\n' ∉ pkg) (hl : Legible t) : imports (goSource pkg t) =
    (if (goGen t).importTime then [c!"time"] else []) ++ if (goGen t).importEncodingXML then [c!"encoding/xml"] else [] := by
  have hpk : '\n' ∉ c!"package " ++ (if pkg = [] then c!"schema" else pkg) := by
    split
    · decide
    · simp [hp]
  have hne : c!"package " ++ (if pkg = [] then c!"schema" else pkg) ≠ c!"import (" := fun e =>
    absurd (congrArg List.head? e) (by simp)
  obtain ⟨ls, h1, h2⟩ := field_lines hl
  have hf : splitOn '\n' (goGen t).field = ls ++ [[]] := by
    have := h1 []
    rwa [List.append_nil] at this
  have start : ∀ r : Str, imports (c!"// Code generated by xgen. DO NOT EDIT.\n\npackage " ++ (if pkg = [] then c!"schema" else pkg) ++ c!"\n" ++ r) =
      ((((splitOn '\n' r).dropWhile fun l => l ≠ c!"import (").drop 1).takeWhile fun l => l.head? ≠ some ')').map fun l => (l.drop 2).dropLast := by
    intro r
    have e : c!"// Code generated by xgen. DO NOT EDIT.\n\npackage " ++ (if pkg = [] then c!"schema" else pkg) ++ c!"\n" ++ r =
        c!"// Code generated by xgen. DO NOT EDIT." ++ '\n' :: ([] ++ '\n' :: ((c!"package " ++ (if pkg = [] then c!"schema" else pkg)) ++ '\n' :: r)) := by
      simp
    unfold imports
    rw [e, splitOn_append_sep (by decide), splitOn_append_sep (by decide), splitOn_append_sep hpk, List.dropWhile_cons, if_pos (by decide),
      List.dropWhile_cons, if_pos (by decide), List.dropWhile_cons, if_pos (by simpa using hne)]
  have close : ∀ r : Str, ((splitOn '\n' (')' :: r)).takeWhile fun l => l.head? ≠ some ')') = [] := by
    intro r
    obtain ⟨p, ps, -, h⟩ := splitOn_cons_ne (sep := '\n') (c := ')') (by decide) r
    rw [h, List.takeWhile_cons, if_neg (by simp)]
  rw [C16.source, List.append_assoc, start]
  cases h3 : (goGen t).importTime <;> cases h4 : (goGen t).importEncodingXML
  · dsimp only
    rw [List.nil_append, hf]
    have : (ls ++ [[]]).dropWhile (fun l => decide (l ≠ c!"import (")) = [] := by
      have all : ∀ ms : List Str, (∀ l ∈ ms, l ≠ c!"import (") → ms.dropWhile (fun l => decide (l ≠ c!"import (")) = [] := by
        intro ms
        induction ms with
        | nil => intro _; rfl
        | cons m ms ih =>
          intro h
          rw [List.dropWhile_cons, if_pos (by simpa using h m List.mem_cons_self)]
          exact ih fun l hl => h l (List.mem_cons_of_mem _ hl)
      refine all _ fun l hl' => ?_
      rcases List.mem_append.1 hl' with h | h
      · exact h2 l h
      · rw [List.mem_singleton.1 h]; decide
    rw [this]; rfl
  · dsimp only
    rw [show c!"import (\n\t\"encoding/xml\"\n)" ++ (goGen t).field = c!"import (" ++ '\n' :: (c!"\t\"encoding/xml\"" ++ '\n' :: (')' :: (goGen t).field)) from rfl,
      splitOn_append_sep (by decide), splitOn_append_sep (by decide), List.dropWhile_cons, if_neg (by decide), List.drop_succ_cons, List.drop_zero,
      List.takeWhile_cons, if_pos (by decide), close]
    rfl
  · dsimp only
    rw [show c!"import (\n\t\"time\"\n)" ++ (goGen t).field = c!"import (" ++ '\n' :: (c!"\t\"time\"" ++ '\n' :: (')' :: (goGen t).field)) from rfl,
      splitOn_append_sep (by decide), splitOn_append_sep (by decide), List.dropWhile_cons, if_neg (by decide), List.drop_succ_cons, List.drop_zero,
      List.takeWhile_cons, if_pos (by decide), close]
    rfl
  · dsimp only
    rw [show c!"import (\n\t\"time\"\n\t\"encoding/xml\"\n)" ++ (goGen t).field = c!"import (" ++ '\n' :: (c!"\t\"time\"" ++ '\n' ::
        (c!"\t\"encoding/xml\"" ++ '\n' :: (')' :: (goGen t).field))) from rfl,
      splitOn_append_sep (by decide), splitOn_append_sep (by decide), splitOn_append_sep (by decide), List.dropWhile_cons, if_neg (by decide),
      List.drop_succ_cons, List.drop_zero, List.takeWhile_cons, if_pos (by decide), List.takeWhile_cons, if_pos (by decide), close]
    rfl

/-- The packages that a generated file mentions. -/
theorem packages_eq (pkg : Str) {t : Tree} (hp : '\n' ∉ pkg) (hl : Legible t) (p : Str) : p ∈ packages (goSource pkg t) ↔
    (p = c!"time" ∧ ∃ x ∈ summary t, c!"time.Time" ∈ x.1) ∨ (p = c!"xml" ∧ ∃ x ∈ summary t, x.2.2 = true ∨ c!"xml.Name" ∈ x.1) := by
  obtain ⟨order, ho, hr⟩ := C58.Go.file pkg t hp hl
  have typed : ∀ n, ∀ u ∈ used t n, ∃ s, u = Names.goType goBuildinType s := by
    intro n u hu
    cases n with
    | simple v =>
      simp only [used] at hu
      split at hu
      · exact ⟨_, List.mem_singleton.1 hu⟩
      · split at hu
        · obtain ⟨m, -, rfl⟩ := List.mem_map.1 hu; exact ⟨_, rfl⟩
        · exact ⟨_, List.mem_singleton.1 hu⟩
    | attr v => exact ⟨_, List.mem_singleton.1 hu⟩
    | elem v => exact ⟨_, List.mem_singleton.1 hu⟩
    | complex v =>
      simp only [used, List.mem_append] at hu
      rcases hu with (((hu | hu) | hu) | hu) | hu
      · obtain ⟨m, -, rfl⟩ := List.mem_map.1 hu; exact ⟨_, rfl⟩
      · obtain ⟨m, -, rfl⟩ := List.mem_map.1 hu; exact ⟨_, rfl⟩
      · obtain ⟨m, -, rfl⟩ := List.mem_map.1 hu; exact ⟨_, rfl⟩
      · obtain ⟨m, -, rfl⟩ := List.mem_map.1 hu; exact ⟨_, rfl⟩
      · split at hu
        · cases hu
        · exact ⟨_, List.mem_singleton.1 hu⟩
    | group v =>
      rcases List.mem_append.1 hu with hu | hu
      · obtain ⟨m, -, rfl⟩ := List.mem_map.1 hu; exact ⟨_, rfl⟩
      · obtain ⟨m, -, rfl⟩ := List.mem_map.1 hu; exact ⟨_, rfl⟩
    | attrGroup v => obtain ⟨m, -, rfl⟩ := List.mem_map.1 hu; exact ⟨_, rfl⟩
  have hm : ∀ x ∈ C58.declarations C58.Go.base C58.Go.numbered (fun _ => false) t,
      (p ∈ (mentions (C58.Go.head t x.2 x.1, C58.Go.fields order t x.2 x.1)).filterMap package ↔
        (p = c!"time" ∧ c!"time.Time" ∈ used t x.1) ∨
          (p = c!"xml" ∧ ((isStruct x.1 && x.2 ≠ nodeName x.1) = true ∨ c!"xml.Name" ∈ used t x.1))) := by
    intro x hx
    rw [mentioned ho t (C71.declared_clean hx (C71.strict_clean (hl.name (C71.mem_declarations hx).1)))]
    constructor
    · rintro (⟨h, e⟩ | ⟨u, hu, e⟩)
      · exact .inr ⟨e, .inl h⟩
      · obtain ⟨s, rfl⟩ := typed _ _ hu
        rcases (package_type s p).1 e with ⟨h, e⟩ | ⟨h, e⟩
        · exact .inl ⟨e, h ▸ hu⟩
        · exact .inr ⟨e, .inr (h ▸ hu)⟩
    · rintro (⟨rfl, h⟩ | ⟨rfl, h | h⟩)
      · exact .inr ⟨_, h, by decide⟩
      · exact .inl ⟨h, rfl⟩
      · exact .inr ⟨_, h, by decide⟩
  unfold packages
  rw [hr, List.flatMap_map, List.mem_flatMap]
  constructor
  · rintro ⟨x, hx, h⟩
    rcases (hm x hx).1 h with ⟨e, h⟩ | ⟨e, h⟩
    · exact .inl ⟨e, _, List.mem_map_of_mem hx, h⟩
    · exact .inr ⟨e, _, List.mem_map_of_mem hx, h⟩
  · rintro (⟨e, y, hy, h⟩ | ⟨e, y, hy, h⟩)
    · obtain ⟨x, hx, rfl⟩ := List.mem_map.1 hy
      exact ⟨x, hx, (hm x hx).2 (.inl ⟨e, h⟩)⟩
    · obtain ⟨x, hx, rfl⟩ := List.mem_map.1 hy
      exact ⟨x, hx, (hm x hx).2 (.inr ⟨e, h⟩)⟩

theorem noticed_used (t : Tree) (n : Node Element) (h : c!"time.Time" ∈ noticed t n) : c!"time.Time" ∈ used t n := by
  cases n with
  | simple v =>
    simp only [noticed, used] at h ⊢
    split at h
    · rename_i hv
      rw [if_pos hv, ← List.mem_singleton.1 h, Names.goType, if_pos (by decide)]
      exact List.mem_singleton.2 rfl
    · cases h
  | complex v =>
    simp only [noticed, used, List.mem_append] at h ⊢
    rcases h with (h | h) | h
    · exact .inl (.inl (.inl (.inl h)))
    · exact .inl (.inl (.inl (.inr h)))
    · exact .inl (.inr h)
  | _ => cases h

/-- No import is unused, for every tree. -/
theorem imports_used (pkg : Str) {t : Tree} (hp : '\n' ∉ pkg) (hl : Legible t) : ∀ i ∈ imports (goSource pkg t), packageOf i ∈ packages (goSource pkg t) := by
  intro i hi
  rw [imports_eq pkg hp hl] at hi
  rw [packages_eq pkg hp hl]
  rcases List.mem_append.1 hi with hi | hi
  · split at hi
    · rename_i h
      rw [List.mem_singleton.1 hi]
      obtain ⟨y, hy, h⟩ := (time_imported t).1 h
      obtain ⟨x, hx, rfl⟩ := List.mem_map.1 hy
      exact .inl ⟨by decide, _, hy, noticed_used t _ h⟩
    · cases hi
  · split at hi
    · rename_i h
      rw [List.mem_singleton.1 hi]
      obtain ⟨y, hy, h⟩ := (xml_imported t).1 h
      exact .inr ⟨by decide, _, hy, .inl h⟩
    · cases hi

/-- No import is missing, exactly if times and qualified names are noticed. -/
theorem imports_exact (pkg : Str) {t : Tree} (hp : '\n' ∉ pkg) (hl : Legible t) :
    (∀ p ∈ packages (goSource pkg t), p ∈ (imports (goSource pkg t)).map packageOf) ↔ Imported (summary t) := by
  have ht : c!"time" ∈ (imports (goSource pkg t)).map packageOf ↔ (goGen t).importTime = true := by
    rw [imports_eq pkg hp hl]
    cases (goGen t).importTime <;> cases (goGen t).importEncodingXML <;> decide
  have hx : c!"xml" ∈ (imports (goSource pkg t)).map packageOf ↔ (goGen t).importEncodingXML = true := by
    rw [imports_eq pkg hp hl]
    cases (goGen t).importTime <;> cases (goGen t).importEncodingXML <;> decide
  constructor
  · intro h
    refine ⟨fun h' => ?_, fun ⟨x, h1, h2⟩ => ?_⟩
    · exact (time_imported t).1 (ht.1 (h _ ((packages_eq pkg hp hl _).2 (.inl ⟨rfl, h'⟩))))
    · exact (xml_imported t).1 (hx.1 (h _ ((packages_eq pkg hp hl _).2 (.inr ⟨rfl, x, h1, .inr h2⟩))))
  · intro h p hp'
    rcases (packages_eq pkg hp hl p).1 hp' with ⟨rfl, h'⟩ | ⟨rfl, x, h1, h2 | h2⟩
    · exact ht.2 ((time_imported t).2 (h.1 h'))
    · exact hx.2 ((xml_imported t).2 ⟨x, h1, h2⟩)
    · exact hx.2 ((xml_imported t).2 (h.2 ⟨x, h1, h2⟩))

/-! ## Files -/

/-- The name of a declaration. -/
theorem declared_eq (t : Tree) {fn : Str} (hc : Clean notInNames fn) (n : Node Element) (fs : List Field) : declared (C58.Go.head t fn n, fs) = fn := by
  have hn : ∀ c ∈ fn, (c ≠ ' ' && c ≠ '\t') = true := fun c h => by
    have h1 : c ≠ ' ' := fun e => hc ' ' (by decide) (e ▸ h)
    have h2 : c ≠ '\t' := fun e => hc '\t' (by decide) (e ▸ h)
    simp [h1, h2]
  have key : ∀ (b : Char) (r : Str), b = ' ' ∨ b = '\t' → ((c!"type " ++ fn ++ b :: r).drop 5).takeWhile (fun c => c ≠ ' ' && c ≠ '\t') = fn := by
    intro b r hb
    rw [show (c!"type " ++ fn ++ b :: r).drop 5 = fn ++ b :: r by simp]
    exact C73.takeWhile_eq hn (by rcases hb with rfl | rfl <;> decide)
  show ((C58.Go.head t fn n).drop 5).takeWhile _ = _
  cases n with
  | simple v =>
    unfold C58.Go.head
    dsimp only
    split
    · exact key ' ' _ (.inl rfl)
    · split
      · exact key ' ' _ (.inl rfl)
      · exact key ' ' _ (.inl rfl)
  | attr v => rw [C58.Go.head, List.append_assoc c!"\t"]; exact key '\t' _ (.inr rfl)
  | elem v => rw [C58.Go.head, List.append_assoc c!"\t"]; exact key '\t' _ (.inr rfl)
  | _ => exact key ' ' _ (.inl rfl)

theorem head_type (t : Tree) {fn : Str} (hc : Clean notInNames fn) (n : Node Element) {a : Str} (h : headType (C58.Go.head t fn n) = some a) :
    aliased t n = some a := by
  have struct : headType (c!"type " ++ fn ++ c!" struct {") = none := C71.Go.headType_eq (b := ' ') hc (.inl rfl)
  have other : ∀ (b : Char) (r : Str), b = ' ' ∨ b = '\t' → headType (c!"type " ++ fn ++ b :: r) = some a → some r = some a := fun b r hb hr => by
    rw [C71.Go.headType_eq hc hb] at hr
    split at hr
    · cases hr
    · exact hr
  cases n with
  | simple v =>
    simp only [C58.Go.head, aliased] at h ⊢
    split at h
    · rename_i h1
      rw [if_pos h1]
      exact other ' ' _ (.inl rfl) h
    · rename_i h1
      rw [if_neg h1]
      split at h
      · rw [struct] at h; cases h
      · rename_i h2
        rw [if_neg h2]
        exact other ' ' _ (.inl rfl) h
  | attr v => rw [C58.Go.head, List.append_assoc c!"\t"] at h; exact other '\t' _ (.inr rfl) h
  | elem v => rw [C58.Go.head, List.append_assoc c!"\t"] at h; exact other '\t' _ (.inr rfl) h
  | _ => cases struct.symm.trans h

/-- A file whose declarations a compiler accepts. -/
theorem accepted (pkg : Str) {t : Tree} (hp : '\n' ∉ pkg) (hl : Legible t) (h : Suits t) : Accepted (goSource pkg t) := by
  obtain ⟨order, ho, hr⟩ := C58.Go.file pkg t hp hl
  obtain ⟨hd, hnd⟩ := C73.declarations_distinct (base := C58.Go.base) (numbered := C58.Go.numbered) h.once
  have hnames : C56.Go.names (goSource pkg t) = (C56.firsts (fun _ => false) (nodes t)).map C58.Go.base := by
    rw [C56.Go.file_names pkg t hp hl.sound]
    exact C73.finals_distinct _ [] hnd fun n _ h => by cases h
  rw [hd, List.map_map] at hr
  have hfirst : ∀ n ∈ C56.firsts (fun _ => false) (nodes t), n ∈ nodes t := C71.firsts_mem _ _
  have hclean : ∀ n ∈ C56.firsts (fun _ => false) (nodes t), Clean notInNames (C58.Go.base n) := fun n hn => C71.strict_clean (hl.name (hfirst n hn))
  refine ⟨fun s hs => ?_, fun d hd f hf hne => ?_, hnames ▸ hnd, C74.Go.file pkg hp hl h.apart, C71.Go.file pkg hp hl h.linked,
    C73.Go.file pkg hp hl h.linked fun n hn => ?_, fun d hd f hf he => ?_, (imports_exact pkg hp hl).2 h.imported, imports_used pkg hp hl⟩
  · rw [hnames] at hs
    obtain ⟨n, hn, rfl⟩ := List.mem_map.1 hs
    exact word (h.names n (hfirst n hn))
  · rw [hr] at hd
    obtain ⟨n, hn, rfl⟩ := List.mem_map.1 hd
    rcases field_names ho t _ n f hf with e | e | ⟨m, hm, e⟩ | ⟨e, -⟩
    · rw [e]; exact ⟨'X', c!"MLName", rfl, by decide, by decide⟩
    · rw [e]; exact ⟨'V', c!"alue", rfl, by decide, by decide⟩
    · rw [e]
      refine extended (word (h.members n (hfirst n hn) m hm)) fun c hc => ?_
      split at hc
      · exact (by decide : ∀ d ∈ c!"Attr", (letterly d || isAsciiDigit d) = true) c hc
      · cases hc
    · exact absurd e hne
  · obtain ⟨⟨c, r, e, hc⟩, -⟩ := h.names n hn
    exact ⟨c, r, e, C13.letterly_wide (C13.starts_letterly hc)⟩
  · rw [hr] at hd
    obtain ⟨n, hn, rfl⟩ := List.mem_map.1 hd
    have hn' := hfirst n hn
    rcases field_names ho t _ n f hf with e | e | ⟨m, hm, e⟩ | ⟨-, e, h1, h2⟩
    · rw [e] at he; cases he
    · rw [e] at he; cases he
    · obtain ⟨c, cs, e', -⟩ := word (h.members n hn' m hm)
      rw [e, e'] at he
      cases he
    · have hok : C71.Ok c!"Go" (C71.typeNames t) (baseOf n) := by
        have := h.linked n hn'
        cases n with
        | complex v => exact this.1
        | _ => exact absurd rfl h1
      have hN : ∀ s ∈ C71.typeNames t, Names.strict s ∈ C56.Go.names (goSource pkg t) := fun s hs => by
        rw [C56.Go.file_names pkg t hp hl.sound]; exact C71.named _ _ _ t hs
      rcases C71.Go.cases hN hok with h3 | ⟨h3, -⟩ | ⟨-, -, h3, h4⟩
      · exact absurd h3 h1
      · exact absurd h3 h2
      refine ⟨_, h3, by rw [e, h4], fun d' hd' e' a ha => ?_⟩
      rw [hr] at hd'
      obtain ⟨m, hm, rfl⟩ := List.mem_map.1 hd'
      dsimp only [Function.comp_apply] at e' ha
      rw [declared_eq t (hclean m hm)] at e'
      have hb : ∃ n' ∈ nodes t, nodeName n' = baseOf n := by
        rcases hok with h5 | ⟨k, hk⟩ | ⟨h5, -, -⟩
        · exact absurd h5 h1
        · exact absurd (C71.Go.table hk).1 h2
        · obtain ⟨n', h6, h7⟩ := List.mem_map.1 h5
          exact ⟨n', (List.mem_filter.1 h6).1, h7⟩
      obtain ⟨n', h6, h7⟩ := hb
      have h8 := h.once m (hfirst m hm) n' h6 (by rw [h7]; exact e')
      have h9 := h.solid n hn' h1 h2 m hm (h8.trans h7)
      rw [head_type t (hclean m hm) m ha] at h9
      exact of_decide_eq_true h9

/-! ## Documentation does not matter -/

theorem type_bare (t : Tree) : typeOf (C57.bare t) = typeOf t := by funext s; simp only [typeOf, C59.meaning_bare]

theorem summary_bare (t : Tree) : summary (C57.bare t) = summary t := by
  refine C59.declarations_bare (g := fun t fn n => (used t n, noticed t n, isStruct n && fn ≠ nodeName n)) (fun n => by cases n <;> rfl)
    (fun n => by cases n <;> rfl) (fun n => rfl) t fun fn n => ?_
  rw [C59.name_bare]
  cases n <;> simp [C57.noDocNode, used, noticed, isStruct, type_bare, C59.memberMeaning_bare, C31.noDocE, C31.noDocS, C31.noDocA, C31.noDocC,
    C31.noDocG, C31.noDocAG, isUnion, Function.comp_def]

theorem solid_bare (t : Tree) : Solid (C57.bare t) ↔ Solid t := by
  have ha : ∀ n, aliased (C57.bare t) (C57.noDocNode C31.noDocE n) = aliased t n := fun n => by
    cases n <;> simp [C57.noDocNode, aliased, type_bare, C31.noDocE, C31.noDocS, C31.noDocA, C31.noDocC, C31.noDocG, C31.noDocAG, isUnion]
  unfold Solid
  rw [C59.nodes_bare, C59.firsts_map (f := C57.noDocNode C31.noDocE) (fun _ => rfl) C59.name_bare]
  simp only [List.mem_map, forall_exists_index, and_imp, forall_apply_eq_imp_iff₂, C74.base_bare, C59.name_bare, ha]

/-! ## Documents -/

variable {W : World} {cfg : Cfg} {sh : Shared} {ds : List Decl} {toks : List Token}

/-- Schemas whose Go files are accepted: no type is missing and no name taken; names start with a letter that has a capital; names
that differ in the schema differ in Go; and the conditions for bases and imports. -/
structure Suitable (ds : List Decl) : Prop where
  bound : C71.Bound c!"Go" ds
  free : C74.Go.Free ds
  names : ∀ d ∈ ds, ∀ s ∈ namesOf d, Word s
  members : ∀ d ∈ ds, ∀ x ∈ C74.parts d, ∀ m ∈ x.2, Word m.1
  once : ∀ d ∈ ds, ∀ s ∈ namesOf d, ∀ d' ∈ ds, ∀ s' ∈ namesOf d', Names.strict s = Names.strict s' → s = s'
  solid : Solid (treeOf (typeRef c!"Go" false) [] ds)
  imported : Imported (summary (treeOf (typeRef c!"Go" false) [] ds))

theorem suits (h : C59.Document W cfg sh ds toks) (hl : cfg.lang = c!"Go") (hs : Suitable ds) {t : Tree}
    (ht : C57.bare t = C57.bare (treeOf (typeRef cfg.lang false) [] ds)) : Suits t := by
  have hlink := C71.Document.linked h hl hs.bound ht
  rw [hl] at ht
  refine ⟨hlink, C74.Go.free_apart hs.free ht, fun n hn => ?_, fun n hn m hm => ?_, fun n hn n' hn' e => ?_, ?_, ?_⟩
  · obtain ⟨d, hd, h1⟩ := C73.names_alike ht n hn
    exact hs.names d hd _ h1
  · obtain ⟨n', hn', e, -⟩ := C74.alike ht hn
    rw [e] at hm
    rcases C74.tree_said _ ds [] n' hn' with h' | h'
    · cases h'
    · obtain ⟨d, hd, x, hx, hm'⟩ := h' m hm
      obtain ⟨u, hu, e⟩ := List.mem_map.1 hm'
      rw [← e]; exact hs.members d hd x hx u hu
  · obtain ⟨d, hd, h1⟩ := C73.names_alike ht n hn
    obtain ⟨d', hd', h2⟩ := C73.names_alike ht n' hn'
    exact hs.once d hd _ h1 d' hd' _ h2 e
  · rw [← solid_bare, ht, solid_bare]; exact hs.solid
  · rw [← summary_bare, ht, summary_bare]; exact hs.imported

/-- C80: in the source before it is formatted.  (Missing: schemas that do not satisfy `Suitable`, for most of
which the file is not accepted, see below and C71, C73 and C74.) -/
theorem go_partial (h : C59.Document W cfg sh ds toks) (hl : cfg.lang = c!"Go") (hp : '\n' ∉ cfg.package) (hs : Suitable ds) :
    ∃ source, Accepted source ∧
    (∀ text, W.gofmt source = some text → ∃ t sh', Parse W cfg sh = .ok t sh' ∧
      sh'.outputs = sh.outputs ++ [(C24.documentedPath cfg c!".go", text)]) ∧
    (W.gofmt source = none → ∃ sh', Parse W cfg sh = .err .gofmt sh') := by
  obtain ⟨t, h2, h3, h4, h5⟩ := C71.go_source h hl
  exact ⟨goSource cfg.package t, accepted _ hp h3 (suits h hl hs h2), fun text ht => ⟨t, h4 text ht⟩, h5⟩

/-- The imports of the file of a document: none is unused, and none is missing exactly if times and qualified names are noticed. -/
theorem imports_document (h : C59.Document W cfg sh ds toks) (hl : cfg.lang = c!"Go") (hp : '\n' ∉ cfg.package) :
    ∃ source, (∀ i ∈ imports source, packageOf i ∈ packages source) ∧
    ((∀ p ∈ packages source, p ∈ (imports source).map packageOf) ↔ Imported (summary (treeOf (typeRef c!"Go" false) [] ds))) ∧
    (∀ text, W.gofmt source = some text → ∃ t sh', Parse W cfg sh = .ok t sh' ∧
      sh'.outputs = sh.outputs ++ [(C24.documentedPath cfg c!".go", text)]) ∧
    (W.gofmt source = none → ∃ sh', Parse W cfg sh = .err .gofmt sh') := by
  obtain ⟨t, h2, h3, h4, h5⟩ := C71.go_source h hl
  refine ⟨goSource cfg.package t, imports_used _ hp h3, ?_, fun text ht => ⟨t, h4 text ht⟩, h5⟩
  rw [imports_exact _ hp h3, ← summary_bare t, h2, hl, summary_bare]

end

/-! ## Examples -/

open C70 (a)

instance [Uni] (s : Str) : Decidable (Word s) := decidable_of_iff (s.head?.any C13.starts = true ∧ ∀ c ∈ s, nameRune c = true) (by
  unfold Word
  cases s with
  | nil => simp
  | cons c r =>
    refine and_congr_left fun _ => ⟨fun h => ⟨c, r, rfl, h⟩, ?_⟩
    rintro ⟨c', r', e, h⟩
    cases e; exact h)

/-- A restriction. -/
def limited (base : String) : SimpleBody := .restriction (a [("base", base)]) [⟨c!"maxLength", a [("value", "9")]⟩]

/-- The schema of C74, with times and qualified names, in a simple type and in a complex type. -/
def schema : List Decl :=
  [.simple (a [("name", "day")]) (limited "xs:time"),
   .complex (a [("name", "visit")]) (.elem (a [("name", "from"), ("type", "xs:time")]) (.elem (a [("name", "what"), ("type", "xs:QName")]) .nil))] ++
  C74.schema

theorem suitable : @Suitable asciiUni schema :=
  @Suitable.mk asciiUni _ (by decide +kernel) (@C74.Go.Free.mk asciiUni _ (by decide +kernel) (by decide +kernel) (by decide +kernel)) (by decide +kernel) (by decide +kernel)
    (by decide +kernel) (by decide +kernel) (by decide +kernel)

theorem document : @C59.Document asciiUni (Ex.world [("a.xsd", schemaTokens C40.root schema)]) (C59.doc c!"Go") {} schema (schemaTokens C40.root schema) :=
  @C59.Document.mk asciiUni _ _ _ _ _ rfl (by decide +kernel) ⟨C40.root, by decide +kernel⟩ (by decide +kernel)
    (.inr ⟨rfl, rfl, by decide, rfl⟩) (by decide +kernel) rfl rfl fun _ => rfl

/-- The imports and the packages of the example, and a type that is embedded. -/
example : imports (C71.file c!"Go" schema) = [c!"time", c!"encoding/xml"] ∧ (packages (C71.file c!"Go" schema)).eraseDups = [c!"time", c!"xml"] ∧
    ((C58.Go.declsOf (C71.file c!"Go" schema)).flatMap fun d => (d.2.filter fun f => f.name = []).map (·.type)) = [c!"*Item"] := by decide +kernel

/-! ## Files that are not accepted -/

/-- A time in a simple type only: `time` is not imported. -/
theorem time_missing : let ds := [Decl.simple (a [("name", "day")]) (limited "xs:time")]
    Regular (typeRef c!"Go" false) [] ds ∧ ¬ Imported (@summary asciiUni (treeOf (typeRef c!"Go" false) [] ds)) ∧
    packages (C71.file c!"Go" ds) = [c!"time"] ∧ imports (C71.file c!"Go" ds) = [] := by decide +kernel

/-- A qualified name in a struct that is named like its type: `encoding/xml` is not imported. -/
theorem xml_missing : let ds := [Decl.complex (a [("name", "Visit")]) (.elem (a [("name", "what"), ("type", "xs:QName")]) .nil)]
    Regular (typeRef c!"Go" false) [] ds ∧ ¬ Imported (@summary asciiUni (treeOf (typeRef c!"Go" false) [] ds)) ∧
    packages (C71.file c!"Go" ds) = [c!"xml"] ∧ imports (C71.file c!"Go" ds) = [] := by decide +kernel

/-- A long chain of simple types out of order, the first of which is a base: a pointer is embedded. -/
theorem chain_embedded : let ds := [Decl.simple (a [("name", "A")]) (limited "B"), .simple (a [("name", "B")]) (limited "C"),
      .simple (a [("name", "C")]) (limited "D"), .simple (a [("name", "D")]) (limited "E"), .simple (a [("name", "E")]) (limited "xs:int"),
      .complex (a [("name", "T")]) (.ext (a [("base", "A")]) .nil .nil)]
    Regular (typeRef c!"Go" false) [] ds ∧ ¬ @Solid asciiUni (treeOf (typeRef c!"Go" false) [] ds) ∧
    ((C58.Go.declsOf (C71.file c!"Go" ds)).map fun d => (d.1, d.2.map fun f => (f.name, f.type))) =
      [(c!"type A *C", []), (c!"type B *D", []), (c!"type C *E", []), (c!"type D int", []), (c!"type E int", []),
       (c!"type T struct {", [([], c!"*C")])] := by decide +kernel

end Xgen.C80
