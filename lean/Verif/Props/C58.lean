import Verif.Props.C56
import Verif.Props.C49

/-! # C58: a generated file, read back declaration by declaration

Reading a complete generated file gives one declaration per component to declare (see C56), in order, and each declaration
says what its component says: its head line is that of the component, and its members are those of the component. -/

namespace Xgen.C58
open Decl C56
open C54 (Part asComplex withAttrs)
variable [Uni]

/-! ## Which trees -/

/-- The names in a component. -/
def namesIn : Node Element → List Str
  | .simple v => v.name :: v.memberTypes.map (·.1)
  | .attr v => [v.name]
  | .elem v => [v.name]
  | .complex v => v.name :: (v.attributes.map (·.name) ++ v.elements.map (·.name) ++ v.groups.map (·.name) ++ v.attributeGroup.map (·.name))
  | .group v => v.name :: (v.elements.map (·.name) ++ v.groups.map (·.name))
  | .attrGroup v => v.name :: v.attributes.map (·.name)

/-- The types in a component. -/
def typesIn : Node Element → List Str
  | .simple v => v.base :: v.memberTypes.map (·.2)
  | .attr v => [v.type]
  | .elem v => [v.type]
  | .complex v => v.base :: (v.attributes.map (·.type) ++ v.elements.map (·.type) ++ v.groups.map (·.ref) ++ v.attributeGroup.map (·.ref))
  | .group v => v.elements.map (·.type) ++ v.groups.map (·.ref)
  | .attrGroup v => v.attributes.map (·.type)

/-- The enumeration values in a component. -/
def valuesIn : Node Element → List Str
  | .simple v => v.enum
  | _ => []

/-- Names contain no quotes, brackets, separators or white space, types no line or field separators, and enumeration values
no line breaks.  Documentation may contain anything. -/
def Legible (tree : Tree) : Prop :=
  ∀ n ∈ nodes tree, (∀ s ∈ namesIn n, Clean notInNames s) ∧ (∀ s ∈ typesIn n, Clean notInTypes s) ∧ ∀ s ∈ valuesIn n, '\n' ∉ s

instance (tree : Tree) : Decidable (Legible tree) := by unfold Legible Clean; infer_instance

omit [Uni] in
theorem Legible.types {tree : Tree} (h : Legible tree) : ∀ t ∈ treeTypes tree, Clean notInTypes t := by
  intro t ht
  unfold treeTypes at ht
  obtain ⟨n, hn, hs⟩ := List.mem_filterMap.1 ht
  cases n with
  | none => cases hs
  | some n =>
    have := (h n (List.mem_filterMap.2 ⟨some n, hn, rfl⟩)).2.1
    cases n with
    | simple v => injection hs with e; subst e; exact this _ (by simp [typesIn])
    | attr v => injection hs with e; subst e; exact this _ (by simp [typesIn])
    | elem v => injection hs with e; subst e; exact this _ (by simp [typesIn])
    | complex v => cases hs
    | group v => cases hs
    | attrGroup v => cases hs

omit [Uni] in
theorem Legible.sound {tree : Tree} (h : Legible tree) : Sound tree := by
  intro n hn
  obtain ⟨h1, h2, h3⟩ := h n hn
  have h1' : ∀ s ∈ namesIn n, '\n' ∉ s := fun s hs => h1 s hs _ (by decide)
  have h2' : ∀ s ∈ typesIn n, '\n' ∉ s := fun s hs => h2 s hs _ (by decide)
  refine ⟨fun s hs => ?_, h1 _ (by cases n <;> simp [namesIn, nodeName])⟩
  have : s ∈ namesIn n ∨ s ∈ typesIn n ∨ s ∈ valuesIn n := by
    cases n with
    | simple v =>
      simp only [strings, namesIn, typesIn, valuesIn, List.mem_cons, List.mem_append] at hs ⊢
      rcases hs with h | h | (h | h) | h <;> simp [h]
    | attr v =>
      simp only [strings, namesIn, typesIn, valuesIn, List.mem_cons, List.not_mem_nil, or_false] at hs ⊢
      exact hs
    | elem v =>
      simp only [strings, namesIn, typesIn, valuesIn, List.mem_cons, List.not_mem_nil, or_false] at hs ⊢
      exact hs
    | complex v =>
      simp only [strings, namesIn, typesIn, valuesIn, List.mem_cons, List.mem_append] at hs ⊢
      rcases hs with h | h | (((((((h | h) | h) | h) | h) | h) | h) | h) <;> simp [h]
    | group v =>
      simp only [strings, namesIn, typesIn, valuesIn, List.mem_cons, List.mem_append] at hs ⊢
      rcases hs with h | (((h | h) | h) | h) <;> simp [h]
    | attrGroup v =>
      simp only [strings, namesIn, typesIn, valuesIn, List.mem_cons, List.mem_append] at hs ⊢
      rcases hs with h | (h | h) <;> simp [h]
  rcases this with h | h | h
  · exact h1' s h
  · exact h2' s h
  · exact h3 s h

omit [Uni] in
theorem Legible.complex {tree : Tree} (h : Legible tree) {v : ComplexType} (hv : Node.complex v ∈ nodes tree) : Readable tree v := by
  obtain ⟨h1, h2, -⟩ := h _ hv
  simp only [namesIn, typesIn, List.mem_cons, List.mem_append, List.mem_map] at h1 h2
  exact ⟨h1 _ (.inl rfl), h2 _ (.inl rfl), fun a ha => h1 _ (.inr (.inr ⟨a, ha, rfl⟩)), fun a ha => h2 _ (.inr (.inr ⟨a, ha, rfl⟩)),
    fun a ha => h1 _ (.inr (.inl (.inl (.inl ⟨a, ha, rfl⟩)))), fun a ha => h2 _ (.inr (.inl (.inl (.inl ⟨a, ha, rfl⟩)))),
    fun a ha => h1 _ (.inr (.inl (.inr ⟨a, ha, rfl⟩))), fun a ha => h2 _ (.inr (.inl (.inr ⟨a, ha, rfl⟩))),
    fun a ha => h1 _ (.inr (.inl (.inl (.inr ⟨a, ha, rfl⟩)))), fun a ha => h2 _ (.inr (.inl (.inl (.inr ⟨a, ha, rfl⟩)))), h.types⟩

omit [Uni] in
theorem Legible.group {tree : Tree} (h : Legible tree) {v : Group} (hv : Node.group v ∈ nodes tree) : Readable tree (asComplex v) := by
  obtain ⟨h1, h2, -⟩ := h _ hv
  simp only [namesIn, typesIn, List.mem_cons, List.mem_append, List.mem_map] at h1 h2
  exact ⟨h1 _ (.inl rfl), by simp [asComplex, Clean], by simp [asComplex], by simp [asComplex], by simp [asComplex], by simp [asComplex],
    fun a ha => h1 _ (.inr (.inr ⟨a, ha, rfl⟩)), fun a ha => h2 _ (.inr ⟨a, ha, rfl⟩),
    fun a ha => h1 _ (.inr (.inl ⟨a, ha, rfl⟩)), fun a ha => h2 _ (.inl ⟨a, ha, rfl⟩), h.types⟩

omit [Uni] in
theorem Legible.attrGroup {tree : Tree} (h : Legible tree) {v : AttributeGroup} (hv : Node.attrGroup v ∈ nodes tree) :
    Readable tree (withAttrs v) := by
  obtain ⟨h1, h2, -⟩ := h _ hv
  simp only [namesIn, typesIn, List.mem_cons, List.mem_append, List.mem_map] at h1 h2
  exact ⟨h1 _ (.inl rfl), by simp [withAttrs, Clean], by simp [withAttrs], by simp [withAttrs],
    fun a ha => h1 _ (.inr ⟨a, ha, rfl⟩), fun a ha => h2 _ ⟨a, ha, rfl⟩,
    by simp [withAttrs], by simp [withAttrs], by simp [withAttrs], by simp [withAttrs], h.types⟩

omit [Uni] in
theorem Legible.simple {tree : Tree} (h : Legible tree) {v : SimpleType} (hv : Node.simple v ∈ nodes tree) : C55.Tidy tree v := by
  obtain ⟨h1, h2, -⟩ := h _ hv
  simp only [namesIn, typesIn, List.mem_cons, List.mem_map] at h1 h2
  exact ⟨h1 _ (.inl rfl), h2 _ (.inl rfl), fun m hm => ⟨h1 _ (.inr ⟨m, hm, rfl⟩), h2 _ (.inr ⟨m, hm, rfl⟩)⟩, h.types⟩

omit [Uni] in
theorem Legible.name {tree : Tree} (h : Legible tree) {n : Node Element} (hn : n ∈ nodes tree) : Clean notInNames (nodeName n) :=
  (h n hn).1 _ (by cases n <;> simp [namesIn, nodeName])

/-! ## What is declared -/

/-- A union with named members. -/
def isUnion (v : SimpleType) : Bool := !v.list && (v.union && decide (v.memberTypes.length > 0))

omit [Uni] in
theorem isUnion_iff (v : SimpleType) : isUnion v = true ↔ C55.Union v := by
  simp [isUnion, C55.Union, List.length_pos_iff]

/-- An order of member types: a sorted permutation (see C08). -/
def Order (order : List (Str × Str) → List (Str × Str)) : Prop := ∀ l, (order l).Perm l ∧ C08.Sorted (order l)

omit [Uni] in
theorem order : Order toSortedPairs := fun l => ⟨C08.toSortedPairs_perm l, C08.toSortedPairs_sorted l⟩

/-- The components to declare with their names. -/
def declarations (base : Node Element → Str) (numbered free : Node Element → Bool) (tree : Tree) : List (Node Element × Str) :=
  (firsts free (nodes tree)).zip (finals base numbered [] (firsts free (nodes tree)))

omit [Uni] in
theorem named_zip (L : Lang) (used : List Str) (ns : List (Node Element)) : named L used ns = ns.zip (finals L.base L.unique used ns) := by
  rw [← finals_eq]
  conv => rhs; arg 1; rw [← map_fst_named L used ns]
  generalize named L used ns = l
  induction l with
  | nil => rfl
  | cons x l ih => rw [List.map_cons, List.map_cons, List.zip_cons_cons, ← ih]

omit [Uni] in
theorem named_declarations (L : Lang) (tree : Tree) : named L [] (declared L (nodes tree)) = declarations L.base L.unique L.free tree := by
  rw [named_zip, firsts_eq]; rfl

omit [Uni] in
/-- Lines that start in a given way are not head lines. -/
theorem quiet {kw : Str} {c : Char} {q : Char → Bool} (hk : kw.head? = some c) (hq : q c = false) (l : Str) (h : Begins q l) :
    kw.isPrefixOf l = false := by
  cases kw with
  | nil => cases hk
  | cons d kw =>
    injection hk with e
    subst e
    cases l with
    | nil => rfl
    | cons c l =>
      have : c ≠ d := fun e => by have := h c rfl; rw [e, hq] at this; cases this
      simp [List.isPrefixOf, this.symm]

omit [Uni] in
/-- A declaration with nothing after the head line: nothing but the head line is read. -/
theorem alone {β : Type} {q : Char → Bool} {s h : Str} {R : List Str → β} (hR : Reads R) (hs : Starts q s h []) :
    R (splitOn '\n' s) = R [h] := by
  obtain ⟨c, b, h1, h2, h3, h4⟩ := hs.lines
  have hb : b = [] := by
    have := h3 []
    simp only [List.nil_append] at this
    cases b with
    | nil => rfl
    | cons x b => simp [splitOn] at this
  subst hb
  have := h1 []
  rw [List.append_nil] at this
  have e : splitOn '\n' ([] : Str) = [[]] := rfl
  rw [this, List.append_assoc, hR.before c _ h2, e, hR.after [[]] [h]]
  intro l hl
  rw [List.mem_singleton.1 hl]; exact begins_nil _

/-! ## Go -/

namespace Go
open C17

/-- The name of a component. -/
def base (n : Node Element) : Str := Names.strict (nodeName n)

/-- Elements are not numbered. -/
def numbered : Node Element → Bool
  | .elem _ => false
  | _ => true

/-- The head line: a structure, or another name for a type. -/
def head (tree : Tree) (fn : Str) : Node Element → Str
  | .simple v =>
    if v.list then c!"type " ++ fn ++ (c!" []" ++ Names.goType goBuildinType (typeOf tree v.base))
    else if isUnion v then c!"type " ++ fn ++ c!" struct {"
    else c!"type " ++ fn ++ (c!" " ++ typeOf tree v.base)
  | .attr v => c!"type " ++ fn ++ (c!"\t" ++ (if v.plural then c!"[]" else []) ++ typeOf tree v.type)
  | .elem v => c!"type " ++ fn ++ (c!"\t" ++ (if v.plural then c!"[]" else []) ++ typeOf tree v.type)
  | _ => c!"type " ++ fn ++ c!" struct {"

/-- The fields. -/
def fields (order : List (Str × Str) → List (Str × Str)) (tree : Tree) (fn : Str) : Node Element → List Field
  | .simple v =>
    if isUnion v then
      (if fn ≠ v.name then [⟨c!"XMLName", c!"xml.Name", some (v.name, [])⟩] else []) ++
      (order v.memberTypes).map fun m => ⟨Names.strict m.1, Names.goType goBuildinType (C55.memberMeaning tree m), none⟩
    else []
  | .complex v => expected tree fn v
  | .group v => C54.Go.group tree fn v
  | .attrGroup v => expected tree fn (withAttrs v)
  | _ => []

/-- Reading a Go source. -/
def declsOf (text : Str) : List (Str × List Field) := readFile (fun l => c!"type ".isPrefixOf l) (List.filterMap readLine) text

omit [Uni] in
theorem reads : Reads (List.filterMap readLine) := Reads.filterMap fun l hl => by
  unfold readLine
  split
  · rename_i r; exact absurd rfl (untabbed_outer hl r)
  · rfl

variable [UniLaws]

theorem head_eq (tree : Tree) (fn : Str) (n : Node Element) : head tree fn n = c!"type " ++ fn ++ C56.Go.rest tree n := by
  cases n with
  | simple v =>
    simp only [head, C56.Go.rest, typeOf, ← Names.go_type, ← Names.meaning_eq, isUnion]
    by_cases h : v.list = true
    · rw [if_pos h, if_pos h]
    · rw [if_neg h, if_neg h]
      simp only [h, Bool.not_false, Bool.true_and]
      split <;> rfl
  | attr v => simp only [head, C56.Go.rest, typeOf, ← Names.go_type, ← Names.meaning_eq, goPlural]
  | elem v => simp only [head, C56.Go.rest, typeOf, ← Names.go_type, ← Names.meaning_eq, goPlural]
  | _ => rfl

/-- One declaration. -/
theorem read_text {tree : Tree} (hl : Legible tree) {n : Node Element} (hn : n ∈ nodes tree) {fn : Str} (hfn : Clean notInNames fn) :
    C17.read ((C15.goLang tree).text n fn) = fields toSortedPairs tree fn n := by
  have hs := hl.sound
  obtain ⟨body, h1, h2⟩ := C56.Go.text_starts hs hn hfn
  have hnone : isStruct n = false → C17.read ((C15.goLang tree).text n fn) = [] := fun h => by
    rw [h2 h, List.append_assoc] at h1
    exact (alone reads h1).trans (by simp [readLine])
  cases n with
  | simple v =>
    rw [fields]
    split
    · rename_i h
      exact C55.Go.union_at tree fn v (hfn _ (by decide)) ((isUnion_iff v).1 h) (hl.simple hn)
    · rename_i h
      exact hnone (by simpa [isStruct, isUnion] using h)
  | attr v => exact hnone rfl
  | elem v => exact hnone rfl
  | complex v => exact read_complex tree fn v (hfn _ (by decide)) (hl.complex hn)
  | group v => exact C54.Go.read_group tree fn v (hfn _ (by decide)) (hl.group hn)
  | attrGroup v => exact C54.Go.read_attrGroup tree fn v (hfn _ (by decide)) (hl.attrGroup hn)

theorem read_body {tree : Tree} (hl : Legible tree) {pre : Str} {ps : List Str} (hp : Lines pre ps)
    (hps : ∀ l ∈ ps, c!"type ".isPrefixOf l = false) : declsOf (pre ++ (goGen tree).field) =
      (declarations base numbered (fun _ => false) tree).map fun x => (head tree x.2 x.1, fields toSortedPairs tree x.2 x.1) := by
  have hnm : declarations base numbered (fun _ => false) tree = named (C15.goLang tree) [] (declared (C15.goLang tree) (nodes tree)) := by
    rw [named_declarations]
    congr 1
    · funext n; exact (Names.go_name _).symm
  have hfn : ∀ x ∈ named (C15.goLang tree) [] (declared (C15.goLang tree) (nodes tree)), x.1 ∈ nodes tree ∧ Clean notInNames x.2 := by
    intro x hx
    have hn := mem_nodes hx
    refine ⟨hn, fun c hc => named_absent ((by decide : ∀ x ∈ notInNames, x.isDigit = false) c hc) hx ?_⟩
    exact goName_absent ((by decide : ∀ x ∈ notInNames, Sym x) c hc) (hl.name hn c hc)
  rw [C15.go, render_named, declsOf, readFile_eq (q := inner) (head := fun x => head tree x.2 x.1) reads (quiet rfl (by decide)) (quiet rfl (by decide)) ?_ hp hps,
    hnm]
  · refine List.map_congr_left fun x hx => ?_
    rw [← read_text hl (hfn x hx).1 (hfn x hx).2]
    rfl
  · intro x hx
    obtain ⟨body, h1, -⟩ := C56.Go.text_starts hl.sound (hfn x hx).1 (hfn x hx).2
    rw [head_eq]
    refine ⟨?_, body, h1⟩
    simp [List.isPrefixOf]

/-- C58, Go. -/
theorem file (pkg : Str) (tree : Tree) (hp : '\n' ∉ pkg) (hl : Legible tree) : ∃ order, Order order ∧ declsOf (goSource pkg tree) =
    (declarations base numbered (fun _ => false) tree).map fun x => (head tree x.2 x.1, fields order tree x.2 x.1) := by
  refine ⟨_, order, ?_⟩
  have hpk : '\n' ∉ packageName pkg := by
    unfold packageName
    split
    · decide
    · exact hp
  have l1 : Lines (copyright ++ c!"\n" ++ ([] ++ c!"\n") ++ (c!"package " ++ packageName pkg ++ c!"\n"))
      ([copyright] ++ [[]] ++ [c!"package " ++ packageName pkg]) :=
    ((Lines.one (by decide)).append (Lines.one (by decide))).append (Lines.one (by simp [hpk]))
  have q1 : ∀ l ∈ [copyright] ++ [[]] ++ [c!"package " ++ packageName pkg], c!"type ".isPrefixOf l = false := by
    intro l hl
    simp only [List.mem_append, List.mem_singleton] at hl
    rcases hl with (rfl | rfl) | rfl
    · decide
    · rfl
    · simp [List.isPrefixOf]
  have hc : calm inner true ((if (goGen tree).importTime then c!"\t\"time\"\n" else []) ++
      (if (goGen tree).importEncodingXML then c!"\t\"encoding/xml\"\n" else [])) = true := by
    cases (goGen tree).importTime <;> cases (goGen tree).importEncodingXML <;> rfl
  unfold goSource goImports
  simp only
  generalize (if (goGen tree).importTime then c!"\t\"time\"\n" else []) ++
    (if (goGen tree).importEncodingXML then c!"\t\"encoding/xml\"\n" else []) = i at hc ⊢
  split
  · obtain ⟨is, h1, h2⟩ := (calm_lines inner i).1 hc
    have l2 := l1.append ((Lines.one (a := c!"import (") (by decide)).append h1)
    have q2 : ∀ l ∈ [copyright] ++ [[]] ++ [c!"package " ++ packageName pkg] ++ ([c!"import ("] ++ is), c!"type ".isPrefixOf l = false := by
      intro l hl
      rcases List.mem_append.1 hl with hl | hl
      · exact q1 l hl
      · rcases List.mem_append.1 hl with hl | hl
        · rw [List.mem_singleton.1 hl]; rfl
        · exact quiet rfl (by decide) l (h2 l hl)
    have key : ∀ x : Str, declsOf ((copyright ++ c!"\n" ++ ([] ++ c!"\n") ++ (c!"package " ++ packageName pkg ++ c!"\n") ++ (c!"import (" ++ c!"\n" ++ i)) ++ x) =
        declsOf x := by
      intro x
      unfold declsOf readFile
      rw [l2, chunks_skip q2]
    have e : ∀ i x : Str, copyright ++ c!"\n\npackage " ++ packageName pkg ++ c!"\n" ++ (c!"import (\n" ++ i ++ c!")") ++ x =
      (copyright ++ c!"\n" ++ ([] ++ c!"\n") ++ (c!"package " ++ packageName pkg ++ c!"\n") ++ (c!"import (" ++ c!"\n" ++ i)) ++ (')' :: x) := by
        intro i x; simp
    rw [e, key]
    have h0 := read_body hl Lines.nil (by simp)
    rw [List.nil_append] at h0
    rw [← h0]
    have := C56.Go.head_field tree
    cases hf : (goGen tree).field with
    | nil => decide
    | cons c s =>
      rw [hf] at this
      rcases this with this | this
      · cases this
      · injection this with this
        subst this
        exact readFile_glue (by decide) (by decide) (fun t => by simp [List.isPrefixOf]) (fun t => by simp [List.isPrefixOf])
  · have := read_body hl l1 q1
    rw [← this]
    simp

end Go

/-! ## Java -/

namespace Java
open C48.Java

/-- The name of a component. -/
def base (n : Node Element) : Str := Names.plain (nodeName n)

/-- The head line. -/
def head (tree : Tree) (fn : Str) : Node Element → Str
  | .complex v => header tree fn v
  | _ => c!"public class " ++ fn ++ c!" {"

/-- The members. -/
def members (order : List (Str × Str) → List (Str × Str)) (tree : Tree) : Node Element → List Member
  | .simple v =>
    if v.list then [⟨none, c!"List<" ++ typeOf tree v.base ++ c!">", Names.plain v.name⟩]
    else if isUnion v then
      (order v.memberTypes).map fun m => ⟨some c!"@XmlElement(required = true)",
        Names.plainType c!"void" javaBuildInType (C55.memberMeaning tree m), Names.plain m.1⟩
    else [⟨none, typeOf tree v.base, Names.plain v.name⟩]
  | .attr v => [⟨none, listOf v.plural (typeOf tree v.type), Names.plain v.name⟩]
  | .elem v => [⟨none, listOf v.plural (typeOf tree v.type), Names.plain v.name⟩]
  | .complex v => expected tree v
  | .group v => C54.Java.group tree v
  | .attrGroup v => C54.Java.attrs tree v

/-- Reading a Java source. -/
def declsOf (text : Str) : List (Str × List Member) := readFile (fun l => c!"public class ".isPrefixOf l) (scan field none) text

variable [UniLaws]

theorem head_eq (tree : Tree) (fn : Str) (n : Node Element) : head tree fn n = c!"public class " ++ fn ++ C56.Java.rest tree n := by
  cases n with
  | complex v => rw [head, header_raw]; simp only [C56.Java.rest, rawHeader, rawType, javaExtends, List.append_assoc]
  | _ => rfl

omit [Uni] [UniLaws] in
theorem plain_of {v : SimpleType} (h1 : ¬ v.list = true) (h2 : ¬ isUnion v = true) : C55.Plain v := by
  have h1 : v.list = false := by simpa using h1
  refine ⟨h1, ?_⟩
  simp only [isUnion, h1, Bool.not_false, Bool.true_and, Bool.and_eq_true, decide_eq_true_eq, not_and] at h2
  cases hu : v.union with
  | false => exact .inl rfl
  | true => exact .inr (by simpa using h2 hu)

/-- One declaration. -/
theorem read_text {tree : Tree} (hl : Legible tree) {n : Node Element} (hn : n ∈ nodes tree) {fn : Str} (hfn : '\n' ∉ fn) :
    C48.Java.read ((C15.javaLang tree).text n fn) = members toSortedPairs tree n := by
  have hname := hl.name hn
  have ht : ∀ s ∈ typesIn n, Clean notInTypes s := (hl n hn).2.1
  cases n with
  | simple v =>
    rw [members]
    by_cases h1 : v.list = true
    · rw [if_pos h1]
      exact (C55.Java.list tree fn v hfn h1 (hl.simple hn)).1
    · rw [if_neg h1]
      by_cases h2 : isUnion v = true
      · rw [if_pos h2]
        exact C55.Java.union_at tree fn v hfn ((isUnion_iff v).1 h2) (hl.simple hn)
      · rw [if_neg h2]
        exact (C55.Java.simple tree fn v hfn (plain_of h1 h2) (hl.simple hn)).1
  | attr v => exact (C55.Java.global_attribute tree fn v hfn hname (ht v.type (by simp [typesIn])) hl.types).1
  | elem v => exact (C55.Java.global_element tree fn v hfn hname (ht v.type (by simp [typesIn])) hl.types).1
  | complex v => exact (read_complex tree fn v hfn (hl.complex hn)).1
  | group v => exact C54.Java.read_group tree fn v hfn (hl.group hn)
  | attrGroup v => exact C54.Java.read_attrGroup tree fn v hfn (hl.attrGroup hn)

/-- C58, Java. -/
theorem file (pkg : Str) (tree : Tree) (hp : '\n' ∉ pkg) (hl : Legible tree) : ∃ order, Order order ∧ declsOf (javaSource pkg tree) =
    (declarations base (fun _ => true) (fun _ => false) tree).map fun x => (head tree x.2 x.1, members order tree x.1) := by
  refine ⟨_, order, ?_⟩
  have hpk : '\n' ∉ packageName pkg := by
    unfold packageName
    split
    · decide
    · exact hp
  have hnm : declarations base (fun _ => true) (fun _ => false) tree = named (C15.javaLang tree) [] (declared (C15.javaLang tree) (nodes tree)) := by
    rw [named_declarations]
    congr 1
    · funext n; exact (Names.java_name _).symm
  have hfn : ∀ x ∈ named (C15.javaLang tree) [] (declared (C15.javaLang tree) (nodes tree)), x.1 ∈ nodes tree ∧ Clean notInNames x.2 := by
    intro x hx
    have hn := mem_nodes hx
    refine ⟨hn, fun c hc => named_absent ((by decide : ∀ x ∈ notInNames, x.isDigit = false) c hc) hx ?_⟩
    exact cName_absent ((by decide : ∀ x ∈ notInNames, Sym x) c hc) (hl.name hn c hc)
  obtain ⟨is, l3, q3⟩ := (calm_lines (fun c => c ≠ 'p') (c!"\n" ++ javaImports ++ c!"\n")).1 (by decide +kernel)
  have l1 := (((Lines.one (a := copyright) (by decide)).append (Lines.one (a := []) (by decide))).append
    (Lines.one (a := c!"package " ++ packageName pkg ++ c!";") (by simp [hpk]))).append l3
  have q1 : ∀ l ∈ [copyright] ++ [[]] ++ [c!"package " ++ packageName pkg ++ c!";"] ++ is, c!"public class ".isPrefixOf l = false := by
    intro l hl
    rcases List.mem_append.1 hl with hl | hl
    · simp only [List.mem_append, List.mem_singleton] at hl
      rcases hl with (rfl | rfl) | rfl
      · decide
      · rfl
      · simp [List.isPrefixOf]
    · exact quiet rfl (by decide) l (q3 l hl)
  have e : javaSource pkg tree = (copyright ++ c!"\n" ++ ([] ++ c!"\n") ++ (c!"package " ++ packageName pkg ++ c!";" ++ c!"\n") ++
      (c!"\n" ++ javaImports ++ c!"\n")) ++ (javaGen tree).field := by simp [javaSource]
  rw [e, C15.java, render_named, declsOf, readFile_eq (q := inner) (head := fun x => head tree x.2 x.1) (Reads.scan field) (quiet rfl (by decide))
    (quiet rfl (by decide)) ?_ l1 q1, hnm]
  · refine List.map_congr_left fun x hx => ?_
    rw [← read_text hl (hfn x hx).1 ((hfn x hx).2 _ (by decide))]
    rfl
  · intro x hx
    obtain ⟨body, h1⟩ := C56.Java.text_starts hl.sound (hfn x hx).1 (hfn x hx).2
    rw [head_eq]
    refine ⟨?_, body, h1⟩
    simp [List.isPrefixOf]

end Java

/-! ## Rust -/

namespace Rust
open C48.Rust

/-- Elements and attributes are not numbered. -/
def numbered : Node Element → Bool
  | .elem _ => false
  | .attr _ => false
  | _ => true

/-- The members. -/
def members (order : List (Str × Str) → List (Str × Str)) (tree : Tree) : Node Element → List Member
  | .simple v =>
    if v.list then [⟨rename v.name, Names.rustMember rustKeywords v.name, vec (typeOf tree v.base)⟩]
    else if isUnion v then
      (order v.memberTypes).map fun m => ⟨rename v.name, Names.rustMember rustKeywords m.1,
        Names.rustType rustBuildinType (C55.memberMeaning tree m)⟩
    else [⟨rename v.name, Names.rustMember rustKeywords v.name, typeOf tree v.base⟩]
  | .attr v => [⟨rename v.name, Names.rustMember rustKeywords v.name, if v.plural then vec (typeOf tree v.type) else typeOf tree v.type⟩]
  | .elem v => [⟨rename v.name, Names.rustMember rustKeywords v.name, if v.plural then vec (typeOf tree v.type) else typeOf tree v.type⟩]
  | .complex v => expected tree v
  | .group v => C54.Rust.group tree v
  | .attrGroup v => C54.Rust.attrs tree v

/-- Reading a Rust source. -/
def declsOf (text : Str) : List (Str × List Member) := readFile (fun l => c!"pub struct ".isPrefixOf l) (scan field none) text

variable [UniLaws]

/-- One declaration. -/
theorem read_text {tree : Tree} (hl : Legible tree) {n : Node Element} (hn : n ∈ nodes tree) {fn : Str} (hfn : '\n' ∉ fn) :
    C48.Rust.read ((C15.rustLang tree).text n fn) = members toSortedPairs tree n := by
  have hname := hl.name hn
  have ht : ∀ s ∈ typesIn n, Clean notInTypes s := (hl n hn).2.1
  cases n with
  | simple v =>
    rw [members]
    by_cases h1 : v.list = true
    · rw [if_pos h1]
      exact C55.Rust.list tree fn v hfn h1 (hl.simple hn)
    · rw [if_neg h1]
      by_cases h2 : isUnion v = true
      · rw [if_pos h2]
        exact C55.Rust.union_at tree fn v hfn ((isUnion_iff v).1 h2) (hl.simple hn)
      · rw [if_neg h2]
        exact C55.Rust.simple tree fn v hfn (Java.plain_of h1 h2) (hl.simple hn)
  | attr v => exact C55.Rust.global_attribute tree fn v hfn hname (ht v.type (by simp [typesIn])) hl.types
  | elem v => exact C55.Rust.global_element tree fn v hfn hname (ht v.type (by simp [typesIn])) hl.types
  | complex v => exact read_complex tree fn v hfn (hl.complex hn)
  | group v => exact C54.Rust.read_group tree fn v hfn (hl.group hn)
  | attrGroup v => exact C54.Rust.read_attrGroup tree fn v hfn (hl.attrGroup hn)

/-- C58, Rust. -/
theorem file (tree : Tree) (hl : Legible tree) : ∃ order, Order order ∧ declsOf (rustSource tree) =
    (declarations C56.Rust.baseName numbered (fun _ => false) tree).map fun x => (c!"pub struct " ++ x.2 ++ c!" {", members order tree x.1) := by
  refine ⟨_, order, ?_⟩
  have hnm : declarations C56.Rust.baseName numbered (fun _ => false) tree = named (C15.rustLang tree) [] (declared (C15.rustLang tree) (nodes tree)) := by
    rw [named_declarations]
    congr 1
    · funext n
      cases n with
      | elem v => exact (Names.rust_member_name _).symm
      | attr v => exact (Names.rust_member_name _).symm
      | _ => exact (Names.rust_struct_name _).symm
  have hfn : ∀ x ∈ named (C15.rustLang tree) [] (declared (C15.rustLang tree) (nodes tree)), x.1 ∈ nodes tree ∧ Clean notInNames x.2 := by
    intro x hx
    have hn := mem_nodes hx
    refine ⟨hn, fun c hc => named_absent ((by decide : ∀ x ∈ notInNames, x.isDigit = false) c hc) hx ?_⟩
    have h1 : Sym c := (by decide : ∀ x ∈ notInNames, Sym x) c hc
    have h2 : c ≠ '_' := (by decide : ∀ x ∈ notInNames, x ≠ '_') c hc
    have h3 := hl.name hn c hc
    obtain ⟨n, fn⟩ := x
    cases n with
    | elem v => exact rustFieldName_absent h1 h2 h3
    | attr v => exact rustFieldName_absent h1 h2 h3
    | _ => exact rustStructName_absent h1 h3
  obtain ⟨is, l1, q1⟩ := (calm_lines (fun c => c ≠ 'p') (copyright ++
      c!"\n\n#[macro_use]\nextern crate serde_derive;\nextern crate serde;\nextern crate serde_xml_rs;\n\nuse serde_xml_rs::from_reader;\n")).1
      (by decide +kernel)
  unfold rustSource
  rw [C15.rust, render_named, declsOf, readFile_eq (q := inner) (head := fun x => c!"pub struct " ++ x.2 ++ c!" {") (Reads.scan field)
    (quiet rfl (by decide)) (quiet rfl (by decide)) ?_ l1 (fun l h => quiet rfl (by decide) l (q1 l h)), hnm]
  · refine List.map_congr_left fun x hx => ?_
    rw [← read_text hl (hfn x hx).1 ((hfn x hx).2 _ (by decide))]
    rfl
  · intro x hx
    obtain ⟨body, h1⟩ := C56.Rust.text_starts hl.sound (hfn x hx).1 (hfn x hx).2
    refine ⟨?_, body, h1⟩
    simp [List.isPrefixOf]

end Rust

/-! ## C -/

namespace C
open C48.C

/-- The name of a component. -/
def base (n : Node Element) : Str := Names.plain (nodeName n)

/-- `typedef type name;` -/
def synonym (t n : Str) (array : Bool) : Str := c!"typedef " ++ (t ++ c!" " ++ n ++ (if array then c!"[]" else [])) ++ c!";"

/-- The head line. -/
def head (tree : Tree) : Node Element → Str
  | .simple v =>
    if v.list then synonym (typeOf tree v.base) (Names.plain v.name) true
    else if isUnion v then c!"typedef struct {"
    else synonym (item (typeOf tree v.base)) (Names.plain v.name) (isArray (typeOf tree v.base))
  | .attr v => synonym (item (typeOf tree v.type)) (Names.plain v.name) (isArray (typeOf tree v.type) || v.plural)
  | .elem v => synonym (item (typeOf tree v.type)) (Names.plain v.name) (isArray (typeOf tree v.type) || v.plural)
  | _ => c!"typedef struct {"

/-- The members. -/
def members (order : List (Str × Str) → List (Str × Str)) (tree : Tree) : Node Element → List Member
  | .simple v =>
    if isUnion v then (order v.memberTypes).map fun m =>
      ⟨item (Names.plainType c!"void" cBuildInType (C55.memberMeaning tree m)), Names.plain m.1,
        isArray (Names.plainType c!"void" cBuildInType (C55.memberMeaning tree m)), []⟩
    else []
  | .complex v => expected tree v
  | .group v => C54.C.group tree v
  | .attrGroup v => expected tree (withAttrs v)
  | _ => []

/-- The declared name: only structures get the number. -/
def nameOf (n : Node Element) (fn : Str) : Str := if isStruct n then fn else base n

/-- Reading a C source: head line, members, declared names. -/
def declsOf (text : Str) : List (Str × List Member × List Str) :=
  readFile (fun l => c!"typedef ".isPrefixOf l) (fun ls => (ls.filterMap readLine, ls.filterMap C56.C.read)) text

omit [Uni] in
theorem reads_members : Reads (List.filterMap readLine) := Reads.filterMap fun l hl => by
  unfold readLine
  split
  · rename_i r; exact absurd rfl (untabbed_outer hl r)
  · rfl

omit [Uni] in
theorem reads_names : Reads (List.filterMap C56.C.read) := Reads.filterMap fun l hl => by
  unfold C56.C.read
  split
  · rw [if_neg, if_neg]
    · rintro ⟨t, rfl⟩
      exact absurd (hl 't' rfl) (by decide)
    · rintro ⟨t, rfl⟩
      exact absurd (hl '}' rfl) (by decide)
  · rfl

variable [UniLaws]

theorem head_eq (tree : Tree) (n : Node Element) : head tree n = C56.C.head tree n := by
  have hc : ∀ b, cPlural b = if b then c!"[]" else [] := fun b => by cases b <;> rfl
  cases n with
  | simple v =>
    simp only [head, C56.C.head, synonym, isUnion, innerArray_eq, hc]
    by_cases h : v.list = true
    · rw [if_pos h, if_pos h]
      have e : genCFieldType (genCFieldType (resolveIn tree v.base)) = typeOf tree v.base := by
        rw [Names.c_type, Names.c_type, C55.C.type_idem, typeOf, Names.meaning_eq]
      rw [e, Names.c_name]
    · rw [if_neg h, if_neg h]
      simp only [h, Bool.not_false, Bool.true_and]
      split
      · rfl
      · simp only [typeOf, ← Names.c_type, ← Names.c_name, ← Names.meaning_eq]
  | attr v => simp only [head, C56.C.head, synonym, innerArray_eq, hc, typeOf, ← Names.c_type, ← Names.c_name, ← Names.meaning_eq]
  | elem v => simp only [head, C56.C.head, synonym, innerArray_eq, hc, typeOf, ← Names.c_type, ← Names.c_name, ← Names.meaning_eq]
  | _ => rfl

omit [UniLaws] in
theorem head_typedef (tree : Tree) (n : Node Element) : ∃ t, head tree n = c!"typedef " ++ t := by
  cases n with
  | simple v =>
    simp only [head, synonym]
    split
    · exact ⟨_, by rw [List.append_assoc]⟩
    · split
      · exact ⟨c!"struct {", rfl⟩
      · exact ⟨_, by rw [List.append_assoc]⟩
  | attr v => exact ⟨_, by rw [head, synonym, List.append_assoc]⟩
  | elem v => exact ⟨_, by rw [head, synonym, List.append_assoc]⟩
  | _ => exact ⟨c!"struct {", rfl⟩

/-- The members of one declaration. -/
theorem read_text {tree : Tree} (hl : Legible tree) {n : Node Element} (hn : n ∈ nodes tree) {fn : Str} (hfn : Clean notInNames fn)
    (he : ∀ v, n = .elem v → fn = cName v.name) : C48.C.read ((C15.cLang tree).text n fn) = members toSortedPairs tree n := by
  obtain ⟨body, h1, h2⟩ := C56.C.text_starts hl.sound hn hfn he
  have hnone : isStruct n = false → C48.C.read ((C15.cLang tree).text n fn) = [] := fun h => by
    rw [h2 h, ← head_eq] at h1
    obtain ⟨t, ht⟩ := head_typedef tree n
    rw [ht] at h1
    exact (alone reads_members h1).trans (by simp [readLine])
  cases n with
  | simple v =>
    rw [members]
    split
    · rename_i h
      exact C55.C.union_at tree fn v (hfn _ (by decide)) ((isUnion_iff v).1 h) (hl.simple hn)
    · rename_i h
      exact hnone (by simpa [isStruct, isUnion] using h)
  | attr v => exact hnone rfl
  | elem v => exact hnone rfl
  | complex v => exact read_complex tree fn v (hfn _ (by decide)) (hl.complex hn)
  | group v => exact C54.C.read_group tree fn v (hfn _ (by decide)) (hl.group hn)
  | attrGroup v => exact C54.C.read_attrGroup tree fn v (hfn _ (by decide)) (hl.attrGroup hn)

/-- C58, C. -/
theorem file (tree : Tree) (hl : Legible tree) : ∃ order, Order order ∧ declsOf (cSource tree) =
    (declarations base C56.C.counted (fun _ => false) tree).map fun x => (head tree x.1, members order tree x.1, [nameOf x.1 x.2]) := by
  refine ⟨_, order, ?_⟩
  have hnm : declarations base C56.C.counted (fun _ => false) tree = named (C15.cLang tree) [] (declared (C15.cLang tree) (nodes tree)) := by
    rw [named_declarations]
    congr 1
    · funext n; exact (Names.c_name _).symm
  have hfn : ∀ x ∈ named (C15.cLang tree) [] (declared (C15.cLang tree) (nodes tree)), x.1 ∈ nodes tree ∧ Clean notInNames x.2 := by
    intro x hx
    have hn := mem_nodes hx
    refine ⟨hn, fun c hc => named_absent ((by decide : ∀ x ∈ notInNames, x.isDigit = false) c hc) hx ?_⟩
    exact cName_absent ((by decide : ∀ x ∈ notInNames, Sym x) c hc) (hl.name hn c hc)
  obtain ⟨is, l1, q1⟩ := (calm_lines (fun c => c ≠ 't') (copyright ++ c!"\n")).1 (by decide +kernel)
  unfold cSource
  rw [C15.c, render_named, declsOf, readFile_eq (q := C56.C.around) (head := fun x => head tree x.1) (Reads.pair reads_members reads_names)
    (quiet rfl (by decide)) (quiet rfl (by decide)) ?_ l1 (fun l h => quiet rfl (by decide) l (q1 l h)), hnm]
  · refine List.map_congr_left fun x hx => ?_
    rw [← read_text hl (hfn x hx).1 (hfn x hx).2 (C56.C.elem_name tree hx)]
    have hp := (C56.C.text_names hl.sound (hfn x hx).1 (hfn x hx).2 (C56.C.elem_name tree hx)).done (tail := []) (by decide)
    rw [List.append_nil] at hp
    rw [hp]
    simp only [nameOf, base, ← Names.c_name]
    rfl
  · intro x hx
    obtain ⟨body, h1, -⟩ := C56.C.text_starts hl.sound (hfn x hx).1 (hfn x hx).2 (C56.C.elem_name tree hx)
    refine ⟨?_, body, by rw [head_eq]; exact h1⟩
    obtain ⟨t, ht⟩ := head_typedef tree x.1
    rw [ht]
    simp [List.isPrefixOf]

end C

/-! ## TypeScript -/

namespace TS
open C48.TS

/-- The name of a component. -/
def base (n : Node Element) : Str := Names.plain (nodeName n)

/-- `export type name = type;` -/
def synonym (fn t : Str) : Str := c!"export type " ++ fn ++ (c!" = " ++ t ++ c!";")

/-- The head line. -/
def head (tree : Tree) (fn : Str) : Node Element → Str
  | .simple v =>
    if v.list then synonym fn (typeOf tree v.base true)
    else if isUnion v then c!"export class " ++ fn ++ c!" {"
    else if v.enum ≠ [] then c!"export enum " ++ fn ++ c!" {"
    else synonym fn (typeOf tree v.base false)
  | .attr v => synonym fn (typeOf tree v.type v.plural)
  | .elem v => synonym fn (typeOf tree v.type v.plural)
  | .complex v => header tree fn v
  | _ => c!"export class " ++ fn ++ c!" {"

/-- The members of a class, or the values of an enumeration. -/
inductive Body where
  | class (members : List Member)
  | enum (members : List C49.Member)
deriving DecidableEq, Repr

/-- What is declared. -/
def members (order : List (Str × Str) → List (Str × Str)) (tree : Tree) : Node Element → Body
  | .simple v =>
    if v.list then .class []
    else if isUnion v then .class ((order v.memberTypes).map fun m =>
      ⟨Names.plain m.1, Names.tsType typeScriptBuildInType (C55.memberMeaning tree m) false⟩)
    else if v.enum ≠ [] then .enum (C49.expected (typeOf tree v.base false) v.enum)
    else .class []
  | .complex v => .class (expected tree v)
  | .group v => .class (C54.TS.group tree v)
  | .attrGroup v => .class (expected tree (withAttrs v))
  | _ => .class []

/-- Reading a declaration: an enumeration, or anything else. -/
def readBody (ls : List Str) : Body :=
  if ls.any (fun l => c!"export enum ".isPrefixOf l) then .enum (ls.filterMap C49.readLine) else .class (ls.filterMap readLine)

/-- Reading a TypeScript source. -/
def declsOf (text : Str) : List (Str × Body) := readFile (fun l => c!"export ".isPrefixOf l) readBody text

omit [Uni] in
theorem any_enum (c ls : List Str) (h : ∀ l ∈ c, Begins outer l) :
    (c ++ ls).any (fun l => c!"export enum ".isPrefixOf l) = ls.any (fun l => c!"export enum ".isPrefixOf l) ∧
    (ls ++ c).any (fun l => c!"export enum ".isPrefixOf l) = ls.any (fun l => c!"export enum ".isPrefixOf l) := by
  have : c.any (fun l => c!"export enum ".isPrefixOf l) = false := List.any_eq_false.2 fun l hl => by
    rw [quiet rfl (by decide) l (h l hl)]; decide
  rw [List.any_append, List.any_append, this]
  simp

omit [Uni] in
theorem reads : Reads readBody := by
  have r1 : Reads (List.filterMap readLine) := Reads.filterMap fun l hl => by
    unfold readLine
    split
    · rename_i r; exact absurd rfl (untabbed_outer hl r)
    · rfl
  have r2 : Reads (List.filterMap C49.readLine) := Reads.filterMap fun l hl => by
    unfold C49.readLine
    split
    · rename_i r; exact absurd rfl (untabbed_outer hl r)
    · rfl
  constructor
  · intro c ls hc
    simp only [readBody, (any_enum c ls hc).1, r1.before c ls hc, r2.before c ls hc]
  · intro c ls hc
    simp only [readBody, (any_enum c ls hc).2, r1.after c ls hc, r2.after c ls hc]

/-- Enumeration values that can be read (see C49). -/
def PlainValues (tree : Tree) : Prop := ∀ n ∈ nodes tree, ∀ s ∈ valuesIn n, C49.Plain s

instance (tree : Tree) : Decidable (PlainValues tree) := by unfold PlainValues; infer_instance

variable [UniLaws]

theorem head_eq (tree : Tree) (fn : Str) (n : Node Element) : head tree fn n = C56.TS.keyword n ++ fn ++ C56.TS.rest tree n := by
  cases n with
  | simple v =>
    simp only [head, C56.TS.keyword, C56.TS.rest, synonym, isUnion]
    by_cases h : v.list = true
    · rw [if_pos h, if_pos h, if_pos h]
      simp only [typeOf, ← Names.ts_type, ← Names.meaning_eq]
    · rw [if_neg h, if_neg h, if_neg h]
      simp only [h, Bool.not_false, Bool.true_and]
      by_cases h2 : (v.union && decide (v.memberTypes.length > 0)) = true
      · rw [if_pos h2, if_pos h2, if_pos h2]
      · rw [if_neg h2, if_neg h2, if_neg h2]
        by_cases h3 : v.enum = []
        · rw [if_neg (by simpa using h3), if_neg (by simp [h3]), if_neg (by simp [h3])]
          simp only [typeOf, ← Names.ts_type, ← Names.meaning_eq]
        · rw [if_pos h3, if_pos (List.length_pos_iff.2 h3), if_pos (List.length_pos_iff.2 h3)]
  | attr v => simp only [head, synonym, C56.TS.keyword, C56.TS.rest, typeOf, ← Names.ts_type, ← Names.meaning_eq]
  | elem v => simp only [head, synonym, C56.TS.keyword, C56.TS.rest, typeOf, ← Names.ts_type, ← Names.meaning_eq]
  | complex v =>
    rw [head, header_raw]
    simp only [C56.TS.keyword, C56.TS.rest, rawHeader, rawType, tsExtends, List.append_assoc]
  | _ => rfl

omit [UniLaws] in
theorem head_export (tree : Tree) (fn : Str) (n : Node Element) : c!"export ".isPrefixOf (head tree fn n) = true := by
  cases n with
  | simple v =>
    simp only [head, synonym]
    split
    · simp [List.isPrefixOf]
    · split
      · simp [List.isPrefixOf]
      · split <;> simp [List.isPrefixOf]
  | complex v => simp [head, C48.TS.header, List.isPrefixOf]
  | _ => simp [head, synonym, List.isPrefixOf]

/-- Whether a text contains the head line of an enumeration. -/
theorem any_text {tree : Tree} (hl : Legible tree) {n : Node Element} (hn : n ∈ nodes tree) {fn : Str} (hfn : Clean notInNames fn) :
    (splitOn '\n' ((C15.tsLang tree).text n fn)).any (fun l => c!"export enum ".isPrefixOf l) = decide (C56.TS.keyword n = c!"export enum ") := by
  obtain ⟨body, h1, -⟩ := C56.TS.text_starts hl.sound hn hfn
  obtain ⟨c, b, e, h2, -, h4⟩ := h1.lines
  have := e []
  rw [List.append_nil] at this
  have hb : b.any (fun l => c!"export enum ".isPrefixOf l) = false := List.any_eq_false.2 fun l hl => by
    rw [quiet rfl (by decide) l (h4 l hl)]; decide
  rw [this, List.append_assoc, (any_enum c _ h2).1, List.cons_append, List.any_cons, List.any_append, hb]
  have e0 : splitOn '\n' ([] : Str) = [[]] := rfl
  rw [e0]
  rcases C56.TS.keyword_form n with k | k | k <;> rw [k] <;> simp [List.isPrefixOf]

/-- One declaration. -/
theorem read_text {tree : Tree} (hl : Legible tree) (hv : PlainValues tree) {n : Node Element} (hn : n ∈ nodes tree) {fn : Str}
    (hfn : Clean notInNames fn) : readBody (splitOn '\n' ((C15.tsLang tree).text n fn)) = members toSortedPairs tree n := by
  have hfn' := hfn '\n' (by decide)
  have hany := any_text hl hn hfn
  obtain ⟨body, h1, h2⟩ := C56.TS.text_starts hl.sound hn hfn
  have hnone : C56.TS.keyword n = c!"export type " → readBody (splitOn '\n' ((C15.tsLang tree).text n fn)) = .class [] := fun h => by
    rw [h2 h] at h1
    rw [alone reads h1, h]
    simp [readBody, List.isPrefixOf, readLine]
  have hclass : C56.TS.keyword n = c!"export class " → ∀ ms, C48.TS.read ((C15.tsLang tree).text n fn) = ms →
      readBody (splitOn '\n' ((C15.tsLang tree).text n fn)) = .class ms := fun h ms hms => by
    unfold readBody
    rw [hany, h, if_neg (by decide)]
    exact congrArg Body.class hms
  cases n with
  | simple v =>
    simp only [members]
    by_cases g1 : v.list = true
    · rw [if_pos g1]
      exact hnone (by simp [C56.TS.keyword, g1])
    · rw [if_neg g1]
      have g1' : v.list = false := by simpa using g1
      by_cases g2 : isUnion v = true
      · rw [if_pos g2]
        refine hclass ?_ _ (C55.TS.union_at tree fn v hfn' ((isUnion_iff v).1 g2) (hl.simple hn))
        rw [isUnion, g1'] at g2
        rw [C56.TS.keyword, if_neg g1, if_pos (by simpa using g2)]
      · rw [if_neg g2]
        have g2' : (v.union && decide (v.memberTypes.length > 0)) = false := by
          rw [isUnion, g1'] at g2; simpa using g2
        by_cases g3 : v.enum = []
        · rw [if_neg (by simpa using g3)]
          exact hnone (by simp [C56.TS.keyword, g1, g2', g3])
        · rw [if_pos g3]
          have hk : C56.TS.keyword (.simple v) = c!"export enum " := by
            rw [C56.TS.keyword, if_neg g1, if_neg (by simp [g2']), if_pos (List.length_pos_iff.2 g3)]
          unfold readBody
          rw [hany, hk, if_pos (by decide)]
          have ht : (C15.tsLang tree).text (.simple v) fn =
              C49.enumText fn v.doc (genTypeScriptFieldType (resolveIn tree v.base) false) v.enum := by
            simp only [C15.tsLang, C49.enumText]
            rw [if_neg g1, if_neg (by simp [g2']), if_pos (List.length_pos_iff.2 g3)]
          rw [ht]
          refine congrArg Body.enum ((C49.read_enum_partial fn v.doc _ v.enum hfn' (hv _ hn)).trans ?_)
          simp only [typeOf, ← Names.ts_type, ← Names.meaning_eq]
  | attr v => exact hnone rfl
  | elem v => exact hnone rfl
  | complex v => exact hclass rfl _ (read_complex tree fn v hfn' (hl.complex hn)).1
  | group v => exact hclass rfl _ (C54.TS.read_group tree fn v hfn' (hl.group hn))
  | attrGroup v => exact hclass rfl _ (C54.TS.read_attrGroup tree fn v hfn' (hl.attrGroup hn))

/-- C58, TypeScript.  (Missing: lists with enumeration values after components of their name, and values that cannot be read, see C49.) -/
theorem file_partial (tree : Tree) (hl : Legible tree) (hv : PlainValues tree) (he : C15.ListsNew (nodes tree)) :
    ∃ order, Order order ∧ declsOf (tsSource tree) =
      (declarations base (fun _ => true) C15.isEnum tree).map fun x => (head tree x.2 x.1, members order tree x.1) := by
  refine ⟨_, order, ?_⟩
  have hnm : declarations base (fun _ => true) C15.isEnum tree = named (C15.tsLang tree) [] (declared (C15.tsLang tree) (nodes tree)) := by
    rw [named_declarations]
    congr 1
    · funext n; exact (Names.ts_name _).symm
  have hfn : ∀ x ∈ named (C15.tsLang tree) [] (declared (C15.tsLang tree) (nodes tree)), x.1 ∈ nodes tree ∧ Clean notInNames x.2 := by
    intro x hx
    have hn := mem_nodes hx
    refine ⟨hn, fun c hc => named_absent ((by decide : ∀ x ∈ notInNames, x.isDigit = false) c hc) hx ?_⟩
    exact cName_absent ((by decide : ∀ x ∈ notInNames, Sym x) c hc) (hl.name hn c hc)
  obtain ⟨is, l1, q1⟩ := (calm_lines (fun c => c ≠ 'e') (copyright ++ c!"\n")).1 (by decide +kernel)
  unfold tsSource
  rw [C15.ts_partial tree he, render_named, declsOf, readFile_eq (q := inner) (head := fun x => head tree x.2 x.1) reads
    (quiet rfl (by decide)) (quiet rfl (by decide)) ?_ l1 (fun l h => quiet rfl (by decide) l (q1 l h)), hnm]
  · refine List.map_congr_left fun x hx => ?_
    rw [← read_text hl hv (hfn x hx).1 (hfn x hx).2]
  · intro x hx
    obtain ⟨body, h1, -⟩ := C56.TS.text_starts hl.sound (hfn x hx).1 (hfn x hx).2
    exact ⟨head_export _ _ _, body, by rw [head_eq]; exact h1⟩

end TS

/-! ## Examples -/

/-- A schema with a complex type, a group, an attribute group, a list, a union, an enumeration and an element. -/
def sample : Tree :=
  [some (.complex { name := c!"my-type", doc := c!"type X struct\n}\n\tField int", base := c!"string"
                    elements := [{ name := c!"a", type := c!"xs:int", plural := true }] }), none,
   some (.group { name := c!"g", elements := [{ name := c!"b", type := c!"string" }] }),
   some (.attrGroup { name := c!"ag", attributes := [{ name := c!"x", type := c!"string", optional := true }] }),
   some (.simple { name := c!"many", base := c!"string", list := true }),
   some (.elem { name := c!"root", type := c!"tns:my-type" }),
   some (.simple { name := c!"either", union := true, memberTypes := [(c!"b", []), (c!"a", c!"string")] }),
   some (.simple { name := c!"kind", base := c!"string", enum := [c!"on", c!"off"] })]

example : Legible sample := by decide +kernel
example : TS.PlainValues sample := by decide +kernel
example : C15.ListsNew (nodes sample) := .of_none (by decide)

example : Go.declsOf (@goSource asciiUni c!"p" sample) =
    [(c!"type Mytype struct {", [⟨c!"XMLName", c!"xml.Name", some (c!"my-type", [])⟩, ⟨c!"A", c!"[]int", some (c!"a", [])⟩,
        ⟨c!"Value", c!"string", some ([], [c!"chardata"])⟩]),
     (c!"type G struct {", [⟨c!"XMLName", c!"xml.Name", some (c!"g", [])⟩, ⟨c!"B", c!"string", none⟩]),
     (c!"type Ag struct {", [⟨c!"XMLName", c!"xml.Name", some (c!"ag", [])⟩, ⟨c!"XAttr", c!"string", some (c!"x", [c!"attr", c!"omitempty"])⟩]),
     (c!"type Many []string", []), (c!"type Root\t*Mytype", []),
     (c!"type Either struct {", [⟨c!"XMLName", c!"xml.Name", some (c!"either", [])⟩, ⟨c!"B", c!"*B", none⟩, ⟨c!"A", c!"string", none⟩]),
     (c!"type Kind string", [])] := by decide +kernel

example : (TS.declsOf (@tsSource asciiUni sample)).map (·.1) = [c!"export class Mytype {", c!"export class G {", c!"export class Ag {",
    c!"export type Many = string;", c!"export type Root = Mytype;", c!"export class Either {", c!"export enum Kind {"] := by decide +kernel

end Xgen.C58
