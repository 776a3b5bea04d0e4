import Verif.Props.C48

/-! # C54: groups and attribute groups declare their members like complex types

A group is read back as the elements and group references a complex type with these members would have, an attribute group
as the attributes.  True in TypeScript, and in Java for groups.  False in Go for groups (no XML tag on elements), in C for
groups (array types are not split), in Java for attribute groups (the suffix `Attr` goes to the type instead of the name),
in Rust for groups (the plurality of the group decides, not that of the member; optional elements are not optional) and for
attribute groups (a required attribute becomes a vector).  In these cases the negation is proved with a witness, and what
is declared instead is proved for all groups and attribute groups. -/

namespace Xgen.C54
variable [Uni]

/-- A complex type with the members of a group. -/
def asComplex (v : Group) : ComplexType := { doc := v.doc, name := v.name, elements := v.elements, groups := v.groups }

/-- A complex type with the attributes of an attribute group. -/
def withAttrs (v : AttributeGroup) : ComplexType := { doc := v.doc, name := v.name, attributes := v.attributes }

/-! ## Reading a text part by part -/

/-- The text `s` consists of complete lines that are read as `ms`. -/
def Part {β : Type} (rd : List Str → List β) (s : Str) (ms : List β) : Prop :=
  ∃ ls, Lines s ls ∧ ∀ rest, rd (ls ++ rest) = ms ++ rd rest

namespace Part
variable {α β : Type} {rd : List Str → List β}

omit [Uni] in
theorem nil : Part rd [] [] := ⟨[], Lines.nil, fun _ => rfl⟩

omit [Uni] in
theorem append {a b : Str} {xs ys : List β} (ha : Part rd a xs) (hb : Part rd b ys) : Part rd (a ++ b) (xs ++ ys) := by
  obtain ⟨as, h1, h2⟩ := ha
  obtain ⟨bs, h3, h4⟩ := hb
  exact ⟨as ++ bs, h1.append h3, fun rest => by rw [List.append_assoc, h2, h4, List.append_assoc]⟩

omit [Uni] in
theorem flatMap {l : List α} {f : α → Str} {r : α → β} (h : ∀ a ∈ l, Part rd (f a) [r a]) :
    Part rd (l.flatMap f) (l.map r) := by
  induction l with
  | nil => exact nil
  | cons a l ih =>
    rw [List.flatMap_cons, List.map_cons]
    exact (h a (by simp)).append (ih fun b hb => h b (by simp [hb]))

omit [Uni] in
theorem done {s tail : Str} {ms : List β} (h : Part rd s ms) (ht : rd (splitOn '\n' tail) = []) :
    rd (splitOn '\n' (s ++ tail)) = ms := by
  obtain ⟨ls, h1, h2⟩ := h
  rw [h1, h2, ht, List.append_nil]

omit [Uni] in
theorem lines {r : Str → Option β} {s : Str} {ls : List Str} {ms : List β} (h : Lines s ls) (hm : ls.filterMap r = ms) :
    Part (List.filterMap r) s ms := ⟨ls, h, fun rest => by rw [List.filterMap_append, hm]⟩

omit [Uni] in
theorem block {field : Option Str → Str → Option β} {s : Str} {ls : List Str} {ms : List β} (h : Lines s ls)
    (hm : Block field ls ms) : Part (scan field none) s ms := ⟨ls, h, hm⟩

end Part

/-! ## Go -/

namespace Go
open C17

/-- The fields of a group: elements carry no tag. -/
def group (tree : Tree) (fn : Str) (v : Group) : List Field :=
  (if fn ≠ v.name then [⟨c!"XMLName", c!"xml.Name", some (v.name, [])⟩] else []) ++
  v.elements.map (fun e => ⟨Names.strict e.name, (if e.plural then c!"[]" else []) ++ typeOf tree e.type, none⟩) ++
  v.groups.map (fun g => ⟨Names.strict g.name, (if g.plural then c!"[]" else []) ++ typeOf tree g.ref, none⟩)

omit [Uni] in
theorem opened (fn doc : Str) (hfn : '\n' ∉ fn) :
    Part (List.filterMap readLine) (genFieldComment fn doc c!"//" ++ (c!"type " ++ fn ++ c!" struct {" ++ c!"\n")) [] := by
  obtain ⟨cl, hcl, hcl'⟩ := comment_untabbed fn doc hfn
  refine Part.append (xs := []) (ys := []) (Part.lines hcl (untabbed hcl')) (Part.lines (Lines.one ?_) ?_)
  · simp [hfn]
  · simp [readLine]

omit [Uni] in
theorem xmlName (fn name : Str) (h : Clean notInNames name) : Part (List.filterMap readLine) (goXMLNameLine fn name)
    (if fn ≠ name then [⟨c!"XMLName", c!"xml.Name", some (name, [])⟩] else []) := by
  unfold goXMLNameLine
  split
  · have e : c!"\tXMLName\txml.Name\t`xml:\"" ++ name ++ c!"\"`\n" =
        c!"\t" ++ c!"XMLName" ++ c!"\t" ++ c!"xml.Name" ++ c!"\t" ++ (c!"`xml:\"" ++ name ++ c!"\"`") ++ c!"\n" := by simp
    rw [e]
    refine Part.lines (Lines.one (by simp [h '\n' (by decide)])) ?_
    rw [List.filterMap_cons, readLine3 (by decide) (by decide) (by simp [h '\t' (by decide)]), tag1 (h ',' (by decide))]
    rfl
  · exact Part.nil

omit [Uni] in
theorem member {n t : Str} (h1 : '\n' ∉ n) (h2 : '\t' ∉ n) (h3 : '\n' ∉ t) (h4 : '\t' ∉ t) :
    Part (List.filterMap readLine) (c!"\t" ++ n ++ c!"\t" ++ t ++ c!"\n") [⟨n, t, none⟩] := by
  refine Part.lines (Lines.one (by simp [h1, h3])) ?_
  rw [List.filterMap_cons, readLine2 h2 h4]
  rfl

variable [UniLaws]

theorem typed {x : Char} (hx : x = '\n' ∨ x = '\t') (b : Bool) {tree : Tree} {s : Str} (hs : Clean notInTypes s)
    (ht : ∀ t ∈ treeTypes tree, Clean notInTypes t) : x ∉ (if b then c!"[]" else []) ++ genGoFieldType (resolveIn tree s) := by
  have : x ∉ genGoFieldType (resolveIn tree s) := by
    rcases hx with rfl | rfl <;> exact goType_absent (by decide) (by decide) (resolveIn_clean hs ht _ (by decide))
  rw [List.mem_append, not_or]
  refine ⟨?_, this⟩
  rcases hx with rfl | rfl <;> cases b <;> decide

/-- What is declared for a group. -/
theorem read_group (tree : Tree) (fn : Str) (v : Group) (hfn : '\n' ∉ fn) (h : Readable tree (asComplex v)) :
    read ((C15.goLang tree).text (.group v) fn) = group tree fn v := by
  have he : Part (List.filterMap readLine) (v.elements.flatMap (goGroupElemLine tree)) (v.elements.map fun e =>
      (⟨goName e.name, (if e.plural then c!"[]" else []) ++ genGoFieldType (resolveIn tree e.type), none⟩ : Field)) := by
    refine Part.flatMap fun a ha => ?_
    have := member (n := goName a.name) (t := (if a.plural then c!"[]" else []) ++ genGoFieldType (resolveIn tree a.type))
      (goName_absent (by decide) (h.elName a ha _ (by decide))) (goName_absent (by decide) (h.elName a ha _ (by decide)))
      (typed (.inl rfl) _ (h.elType a ha) h.tree) (typed (.inr rfl) _ (h.elType a ha) h.tree)
    simpa [goGroupElemLine, goPlural] using this
  have hg : Part (List.filterMap readLine) (v.groups.flatMap (goGroupLine tree)) (v.groups.map fun e =>
      (⟨goName e.name, (if e.plural then c!"[]" else []) ++ genGoFieldType (resolveIn tree e.ref), none⟩ : Field)) := by
    refine Part.flatMap fun a ha => ?_
    have := member (n := goName a.name) (t := (if a.plural then c!"[]" else []) ++ genGoFieldType (resolveIn tree a.ref))
      (goName_absent (by decide) (h.grName a ha _ (by decide))) (goName_absent (by decide) (h.grName a ha _ (by decide)))
      (typed (.inl rfl) _ (h.grType a ha) h.tree) (typed (.inr rfl) _ (h.grType a ha) h.tree)
    simpa [goGroupLine, goPlural] using this
  have := (((opened fn v.doc hfn).append (xmlName fn v.name h.name)).append (he.append hg)).done (tail := c!"}\n") (by decide)
  unfold C17.read
  have ht : (C15.goLang tree).text (.group v) fn = ((genFieldComment fn v.doc c!"//" ++ (c!"type " ++ fn ++ c!" struct {" ++ c!"\n")) ++
      goXMLNameLine fn v.name) ++ (v.elements.flatMap (goGroupElemLine tree) ++ v.groups.flatMap (goGroupLine tree)) ++ c!"}\n" := by
    simp only [C15.goLang, goDecl, List.append_assoc]
    rfl
  rw [ht, this]
  simp only [group, typeOf, Names.go_name, Names.go_type, Names.meaning_eq, List.nil_append, List.append_assoc]

omit [UniLaws] in
/-- The attributes are declared exactly as those of a complex type; these are read by C17. -/
theorem attrGroup (tree : Tree) (fn : Str) (v : AttributeGroup) :
    (C15.goLang tree).text (.attrGroup v) fn = (C15.goLang tree).text (.complex (withAttrs v)) fn := by
  simp only [C15.goLang, withAttrs, goComplexContent, goBaseLine, List.flatMap_nil, List.append_nil, ne_eq, not_true_eq_false,
    if_false]

/-- Reading an attribute group. -/
theorem read_attrGroup (tree : Tree) (fn : Str) (v : AttributeGroup) (hfn : '\n' ∉ fn) (h : Readable tree (withAttrs v)) :
    read ((C15.goLang tree).text (.attrGroup v) fn) = expected tree fn (withAttrs v) := by
  rw [attrGroup, read_complex tree fn _ hfn h]

omit [UniLaws] in
/-- The fields of a group are those of a complex type, without tags.  (Missing: the tags of the elements, see `untagged`.) -/
theorem like_complex_partial (tree : Tree) (fn : Str) (v : Group) :
    ((group tree fn v).map fun f => (f.name, f.type)).Perm ((expected tree fn (asComplex v)).map fun f => (f.name, f.type)) := by
  simp only [group, expected, asComplex, List.map_append, List.map_map, List.map_nil, List.append_nil, if_true, List.append_assoc]
  exact List.Perm.append_left _ List.perm_append_comm

end Go

/-! ## C -/

namespace C
open C48.C

/-- The members of a group: array types are left as they are. -/
def group (tree : Tree) (v : Group) : List Member :=
  v.elements.map (fun e => ⟨typeOf tree e.type, Names.plain e.name, e.plural, []⟩) ++
  v.groups.map (fun g => ⟨typeOf tree g.ref, Names.plain g.name, g.plural, []⟩)

omit [Uni] in
theorem member {t n : Str} (b : Bool) (hn : Clean notInNames n) (ht : Clean notInTypes t) :
    Part (List.filterMap readLine) (c!"\t" ++ t ++ c!" " ++ n ++ cPlural b ++ c!";" ++ c!"\n") [⟨t, n, b, []⟩] := by
  refine Part.lines (Lines.one (by simp [hn '\n' (by decide), ht '\n' (by decide), plural_nl b])) ?_
  have := readLine_eq (t := t) (n := n) (note := []) b (hn _ (by decide)) (hn _ (by decide)) (hn _ (by decide)) (ht _ (by decide))
  rw [List.append_nil] at this
  rw [List.filterMap_cons, this]
  rfl

variable [UniLaws]

/-- What is declared for a group. -/
theorem read_group (tree : Tree) (fn : Str) (v : Group) (hfn : '\n' ∉ fn) (h : Readable tree (asComplex v)) :
    read ((C15.cLang tree).text (.group v) fn) = group tree v := by
  have sym : ∀ x ∈ notInNames, Sym x := by decide
  have symt : ∀ x ∈ notInTypes, Sym x := by decide
  have gname : ∀ {s : Str}, Clean notInNames s → Clean notInNames (cName s) :=
    fun hs x hx => cName_absent (sym x hx) (hs x hx)
  have gtype : ∀ {s : Str}, Clean notInTypes s → Clean notInTypes (genCFieldType (resolveIn tree s)) :=
    fun hs x hx => cType_absent (symt x hx) (resolveIn_clean hs h.tree x hx)
  have he : Part (List.filterMap readLine) (v.elements.flatMap (cGroupElemLine tree)) (v.elements.map fun e =>
      (⟨genCFieldType (resolveIn tree e.type), cName e.name, e.plural, []⟩ : Member)) := by
    refine Part.flatMap fun a ha => ?_
    have := member a.plural (gname (h.elName a ha)) (gtype (h.elType a ha))
    simpa [cGroupElemLine] using this
  have hg : Part (List.filterMap readLine) (v.groups.flatMap (cGroupLine tree)) (v.groups.map fun e =>
      (⟨genCFieldType (resolveIn tree e.ref), cName e.name, e.plural, []⟩ : Member)) := by
    refine Part.flatMap fun a ha => ?_
    have := member a.plural (gname (h.grName a ha)) (gtype (h.grType a ha))
    simpa [cGroupLine] using this
  obtain ⟨cl, hcl, hcl'⟩ := comment_untabbed fn v.doc hfn
  have hh : Part (List.filterMap readLine) (c!"typedef struct {" ++ c!"\n") [] := Part.lines (Lines.one (by decide)) (by decide)
  have htail : List.filterMap readLine (splitOn '\n' (c!"} " ++ fn ++ c!";\n")) = [] := by
    have := Lines.one (a := c!"} " ++ fn ++ c!";") (by simp [hfn]) []
    have e : c!"} " ++ fn ++ c!";\n" = c!"} " ++ fn ++ c!";" ++ c!"\n" ++ [] := by simp
    rw [e, this]
    simp [readLine, splitOn]
  have := ((Part.lines hcl (untabbed hcl')).append (hh.append (he.append hg))).done htail
  unfold C48.C.read
  have ht : (C15.cLang tree).text (.group v) fn = genFieldComment fn v.doc c!"//" ++ ((c!"typedef struct {" ++ c!"\n") ++
      (v.elements.flatMap (cGroupElemLine tree) ++ v.groups.flatMap (cGroupLine tree))) ++ (c!"} " ++ fn ++ c!";\n") := by
    simp only [C15.cLang, cDecl, List.append_assoc]
    rfl
  rw [ht, this]
  simp only [group, typeOf, Names.c_name, Names.c_type, Names.meaning_eq, List.nil_append]

omit [UniLaws] in
/-- The attributes are declared exactly as those of a complex type; these are read by C48. -/
theorem attrGroup (tree : Tree) (fn : Str) (v : AttributeGroup) :
    (C15.cLang tree).text (.attrGroup v) fn = (C15.cLang tree).text (.complex (withAttrs v)) fn := by
  simp only [C15.cLang, withAttrs, cComplexContent, List.flatMap_nil, List.append_nil]

/-- Reading an attribute group. -/
theorem read_attrGroup (tree : Tree) (fn : Str) (v : AttributeGroup) (hfn : '\n' ∉ fn) (h : Readable tree (withAttrs v)) :
    read ((C15.cLang tree).text (.attrGroup v) fn) = expected tree (withAttrs v) := by
  rw [attrGroup, read_complex tree fn _ hfn h]

omit [UniLaws] in
/-- The members of a group without elements of array types are those of a complex type. -/
theorem like_complex_partial (tree : Tree) (v : Group) (h : ∀ e ∈ v.elements, isArray (typeOf tree e.type) = false) :
    (group tree v).Perm (expected tree (asComplex v)) := by
  have e : expected tree (asComplex v) = v.groups.map (fun g => ⟨typeOf tree g.ref, Names.plain g.name, g.plural, []⟩) ++
      v.elements.map (fun e => ⟨typeOf tree e.type, Names.plain e.name, e.plural, []⟩) := by
    simp only [expected, asComplex, List.map_nil, List.nil_append]
    refine congrArg _ (List.map_congr_left fun e he => ?_)
    simp [item, h e he]
  rw [e]
  exact List.perm_append_comm

end C

/-! ## TypeScript -/

namespace TS
open C48.TS

/-- The members of a group: its elements, then its group references. -/
def group (tree : Tree) (v : Group) : List Member :=
  v.elements.map (fun e => ⟨Names.plain e.name, typeOf tree e.type e.plural⟩) ++
  v.groups.map (fun g => ⟨Names.plain g.name, typeOf tree g.ref g.plural⟩)

omit [Uni] in
theorem member {n t : Str} (h1 : '\n' ∉ n) (h2 : ':' ∉ n) (h3 : '\n' ∉ t) :
    Part (List.filterMap readLine) (c!"\t" ++ n ++ c!": " ++ t ++ c!";" ++ c!"\n") [⟨n, t⟩] := by
  refine Part.lines (Lines.one (by simp [h1, h3])) ?_
  rw [List.filterMap_cons, readLine_eq h2]
  rfl

variable [UniLaws]

/-- What is declared for a group. -/
theorem read_group (tree : Tree) (fn : Str) (v : Group) (hfn : '\n' ∉ fn) (h : Readable tree (asComplex v)) :
    read ((C15.tsLang tree).text (.group v) fn) = group tree v := by
  have gtype : ∀ {s : Str} (b : Bool), Clean notInTypes s → '\n' ∉ genTypeScriptFieldType (resolveIn tree s) b :=
    fun b hs => tsType_absent (by decide) (by decide) (resolveIn_clean hs h.tree _ (by decide))
  have he : Part (List.filterMap readLine) (v.elements.flatMap (tsElemLine tree)) (v.elements.map fun e =>
      (⟨tsName e.name, genTypeScriptFieldType (resolveIn tree e.type) e.plural⟩ : Member)) := by
    refine Part.flatMap fun a ha => ?_
    have := member (cName_absent (by decide) (h.elName a ha _ (by decide))) (colon_tsName a.name) (gtype a.plural (h.elType a ha))
    simpa [tsElemLine, tsName, cName] using this
  have hg : Part (List.filterMap readLine) (v.groups.flatMap (tsGroupLine tree)) (v.groups.map fun e =>
      (⟨tsName e.name, genTypeScriptFieldType (resolveIn tree e.ref) e.plural⟩ : Member)) := by
    refine Part.flatMap fun a ha => ?_
    have := member (cName_absent (by decide) (h.grName a ha _ (by decide))) (colon_tsName a.name) (gtype a.plural (h.grType a ha))
    simpa [tsGroupLine, tsName, cName] using this
  obtain ⟨cl, hcl, hcl'⟩ := comment_untabbed fn v.doc hfn
  have hh : Part (List.filterMap readLine) (c!"export class " ++ fn ++ c!" {" ++ c!"\n") [] :=
    Part.lines (Lines.one (by simp [hfn])) (by simp [readLine])
  have := ((Part.lines hcl (untabbed hcl')).append (hh.append (he.append hg))).done (tail := c!"}\n") (by decide)
  unfold C48.TS.read
  have ht : (C15.tsLang tree).text (.group v) fn = genFieldComment fn v.doc c!"//" ++ ((c!"export class " ++ fn ++ c!" {" ++ c!"\n") ++
      (v.elements.flatMap (tsElemLine tree) ++ v.groups.flatMap (tsGroupLine tree))) ++ c!"}\n" := by
    simp only [C15.tsLang, tsClass, tsComment, List.append_assoc]
    rfl
  rw [ht, this]
  simp only [group, typeOf, Names.ts_name, Names.ts_type, Names.meaning_eq, List.nil_append]

omit [UniLaws] in
/-- The attributes are declared exactly as those of a complex type; these are read by C48. -/
theorem attrGroup (tree : Tree) (fn : Str) (v : AttributeGroup) :
    (C15.tsLang tree).text (.attrGroup v) fn = (C15.tsLang tree).text (.complex (withAttrs v)) fn := by
  simp [C15.tsLang, withAttrs, tsComplexContent, tsClass, tsExtends, tsValueLine, List.append_assoc]

/-- Reading an attribute group. -/
theorem read_attrGroup (tree : Tree) (fn : Str) (v : AttributeGroup) (hfn : '\n' ∉ fn) (h : Readable tree (withAttrs v)) :
    read ((C15.tsLang tree).text (.attrGroup v) fn) = expected tree (withAttrs v) := by
  rw [attrGroup, (read_complex tree fn _ hfn h).1]

omit [UniLaws] in
/-- The members of a group are those of a complex type. -/
theorem like_complex (tree : Tree) (v : Group) : (group tree v).Perm (expected tree (asComplex v)) := by
  have e : expected tree (asComplex v) = v.groups.map (fun g => ⟨Names.plain g.name, typeOf tree g.ref g.plural⟩) ++
      v.elements.map (fun e => ⟨Names.plain e.name, typeOf tree e.type e.plural⟩) := by
    simp [expected, asComplex]
  rw [e]
  exact List.perm_append_comm

end TS

/-! ## Java -/

namespace Java
open C48.Java

/-- The members of a group: its elements, then its group references. -/
def group (tree : Tree) (v : Group) : List Member :=
  v.elements.map (fun e => ⟨some (c!"@XmlElement(required = true, name = \"" ++ e.name ++ c!"\")"),
    listOf e.plural (typeOf tree e.type), Names.plain e.name⟩) ++
  v.groups.map (fun g => ⟨none, listOf g.plural (typeOf tree g.ref), Names.plain g.name⟩)

/-- The members of an attribute group: the suffix is on the type. -/
def attrs (tree : Tree) (v : AttributeGroup) : List Member :=
  v.attributes.map (fun a => ⟨some (c!"@XmlAttribute(name = \"" ++ a.name ++ c!"\"" ++
    (if a.optional then [] else c!", required = true") ++ c!")"), typeOf tree a.type ++ c!"Attr", Names.plain a.name⟩)

omit [Uni] in
theorem member {t n : Str} (hn : '\n' ∉ n) (hn2 : ' ' ∉ n) (ht : '\n' ∉ t) :
    Part (scan field none) (c!"\t" ++ (c!"protected " ++ t ++ c!" " ++ n ++ c!";") ++ c!"\n") [⟨none, t, n⟩] :=
  Part.block (Lines.one (by simp [hn, ht])) (Block.one (field_eq hn2))

omit [Uni] in
theorem annotated {a t n : Str} (ha : '\n' ∉ a) (hn : '\n' ∉ n) (hn2 : ' ' ∉ n) (ht : '\n' ∉ t) :
    Part (scan field none) ((c!"\t" ++ (c!"@" ++ a) ++ c!"\n") ++ (c!"\t" ++ (c!"protected " ++ t ++ c!" " ++ n ++ c!";") ++ c!"\n"))
      [⟨some (c!"@" ++ a), t, n⟩] :=
  Part.block ((Lines.one (by simp [ha])).append (Lines.one (by simp [hn, ht]))) (Block.two (field_none a) (field_eq hn2))

omit [Uni] in
theorem opened (fn doc : Str) (hfn : '\n' ∉ fn) :
    Part (scan field none) (genFieldComment fn doc c!"//" ++ (c!"public class " ++ fn ++ c!" {" ++ c!"\n")) [] := by
  obtain ⟨cl, hcl, hcl'⟩ := comment_untabbed fn doc hfn
  exact Part.append (xs := []) (ys := []) (Part.block hcl (Block.untabbed hcl')) (Part.block (Lines.one (by simp [hfn]))
    (Block.untabbed (by simp)))

variable [UniLaws]

theorem listOf_nl {b : Bool} {t : Str} (h : '\n' ∉ t) : '\n' ∉ listOf b t := by
  cases b <;> simp [listOf, h]

/-- What is declared for a group. -/
theorem read_group (tree : Tree) (fn : Str) (v : Group) (hfn : '\n' ∉ fn) (h : Readable tree (asComplex v)) :
    read ((C15.javaLang tree).text (.group v) fn) = group tree v := by
  have gtype : ∀ {s : Str}, Clean notInTypes s → '\n' ∉ genJavaFieldType (resolveIn tree s) :=
    fun hs => javaType_absent (by decide) (resolveIn_clean hs h.tree _ (by decide))
  have he : Part (scan field none) (v.elements.flatMap (javaElemLine tree)) (v.elements.map fun e =>
      (⟨some (c!"@XmlElement(required = true, name = \"" ++ e.name ++ c!"\")"),
        listOf e.plural (genJavaFieldType (resolveIn tree e.type)), javaName e.name⟩ : Member)) := by
    refine Part.flatMap fun a ha => ?_
    have := annotated (a := c!"XmlElement(required = true, name = \"" ++ a.name ++ c!"\")") (n := javaName a.name)
      (by simp [h.elName a ha '\n' (by decide)])
      (cName_absent (by decide) (h.elName a ha _ (by decide))) (cName_absent (by decide) (h.elName a ha _ (by decide)))
      (listOf_nl (b := a.plural) (gtype (h.elType a ha)))
    simpa [javaElemLine, javaPlural, listOf] using this
  have hg : Part (scan field none) (v.groups.flatMap (javaGroupLine tree)) (v.groups.map fun e =>
      (⟨none, listOf e.plural (genJavaFieldType (resolveIn tree e.ref)), javaName e.name⟩ : Member)) := by
    refine Part.flatMap fun a ha => ?_
    have := member (n := javaName a.name) (cName_absent (by decide) (h.grName a ha _ (by decide)))
      (cName_absent (by decide) (h.grName a ha _ (by decide))) (listOf_nl (b := a.plural) (gtype (h.grType a ha)))
    simpa [javaGroupLine, javaPlural, listOf] using this
  have := ((opened fn v.doc hfn).append (he.append hg)).done (tail := c!"}\n") (by decide)
  unfold C48.Java.read
  have ht : (C15.javaLang tree).text (.group v) fn = (genFieldComment fn v.doc c!"//" ++ (c!"public class " ++ fn ++ c!" {" ++ c!"\n")) ++
      (v.elements.flatMap (javaElemLine tree) ++ v.groups.flatMap (javaGroupLine tree)) ++ c!"}\n" := by
    simp only [C15.javaLang, javaDecl, List.append_assoc]
    rfl
  rw [ht, this]
  simp only [group, typeOf, Names.java_name, Names.java_type, Names.meaning_eq, List.nil_append]

omit [UniLaws] in
/-- The members of a group are those of a complex type. -/
theorem like_complex (tree : Tree) (v : Group) : (group tree v).Perm (expected tree (asComplex v)) := by
  have e : expected tree (asComplex v) = v.groups.map (fun g => ⟨none, listOf g.plural (typeOf tree g.ref), Names.plain g.name⟩) ++
      v.elements.map (fun e => ⟨some (c!"@XmlElement(required = true, name = \"" ++ e.name ++ c!"\")"),
        listOf e.plural (typeOf tree e.type), Names.plain e.name⟩) := by
    simp [expected, asComplex]
  rw [e]
  exact List.perm_append_comm

/-- What is declared for an attribute group. -/
theorem read_attrGroup (tree : Tree) (fn : Str) (v : AttributeGroup) (hfn : '\n' ∉ fn) (h : Readable tree (withAttrs v)) :
    read ((C15.javaLang tree).text (.attrGroup v) fn) = attrs tree v := by
  have gtype : ∀ {s : Str}, Clean notInTypes s → '\n' ∉ genJavaFieldType (resolveIn tree s) ++ c!"Attr" :=
    fun hs => by simp [javaType_absent (by decide) (resolveIn_clean hs h.tree '\n' (by decide))]
  have he : Part (scan field none) (v.attributes.flatMap (javaAttrGroupAttrLine tree)) (v.attributes.map fun a =>
      (⟨some (c!"@XmlAttribute(name = \"" ++ a.name ++ c!"\"" ++ (if a.optional then [] else c!", required = true") ++ c!")"),
        genJavaFieldType (resolveIn tree a.type) ++ c!"Attr", javaName a.name⟩ : Member)) := by
    refine Part.flatMap fun a ha => ?_
    have := annotated (a := c!"XmlAttribute(name = \"" ++ a.name ++ c!"\"" ++ (if a.optional then [] else c!", required = true") ++ c!")")
      (n := javaName a.name) (by split <;> simp [h.atName a ha '\n' (by decide)])
      (cName_absent (by decide) (h.atName a ha _ (by decide))) (cName_absent (by decide) (h.atName a ha _ (by decide)))
      (gtype (h.atType a ha))
    simpa [javaAttrGroupAttrLine] using this
  have := ((opened fn v.doc hfn).append he).done (tail := c!"}\n") (by decide)
  unfold C48.Java.read
  have ht : (C15.javaLang tree).text (.attrGroup v) fn = (genFieldComment fn v.doc c!"//" ++ (c!"public class " ++ fn ++ c!" {" ++ c!"\n")) ++
      v.attributes.flatMap (javaAttrGroupAttrLine tree) ++ c!"}\n" := by
    simp only [C15.javaLang, javaDecl, List.append_assoc]
    rfl
  rw [ht, this]
  simp only [attrs, typeOf, Names.java_name, Names.java_type, Names.meaning_eq, List.nil_append]

omit [UniLaws] in
/-- The members of an attribute group are annotated and named like the attributes of a complex type, but the suffix `Attr`
of the name is on the type. -/
theorem attrs_like_complex_partial (tree : Tree) (v : AttributeGroup) :
    (attrs tree v).map (fun m => (m.annotation, m.type, m.name ++ c!"Attr")) =
      (expected tree (withAttrs v)).map (fun m => (m.annotation, m.type ++ c!"Attr", m.name)) := by
  simp [attrs, expected, withAttrs]

end Java

/-! ## Rust -/

namespace Rust
open C48.Rust

/-- The members of a group: the plurality of the group decides. -/
def group (tree : Tree) (v : Group) : List Member :=
  v.elements.map (fun e => ⟨rename e.name, Names.rustMember rustKeywords e.name,
    if v.plural then vec (typeOf tree e.type) else typeOf tree e.type⟩) ++
  v.groups.map (fun g => ⟨rename g.name, Names.rustMember rustKeywords g.name,
    if v.plural then vec (typeOf tree g.ref) else typeOf tree g.ref⟩)

/-- The members of an attribute group: required attributes are vectors. -/
def attrs (tree : Tree) (v : AttributeGroup) : List Member :=
  v.attributes.map (fun a => ⟨rename a.name, Names.rustMember rustKeywords a.name,
    if a.optional then opt (typeOf tree a.type) else vec (typeOf tree a.type)⟩)

omit [Uni] in
theorem member {x n t : Str} (hx : '\n' ∉ x) (hn : '\n' ∉ n) (hn2 : ':' ∉ n) (ht : '\n' ∉ t) :
    Part (scan field none) (rustField x n t) [⟨rename x, n, t⟩] := by
  have l1 := Lines.one (a := c!"\t" ++ (c!"#" ++ (c!"[serde(rename = \"" ++ x ++ c!"\")]"))) (by simp [hx])
  have l2 := Lines.one (a := c!"\t" ++ (c!"pub " ++ n ++ c!": " ++ t ++ c!",")) (by simp [hn, ht])
  have e : rustField x n t = c!"\t" ++ (c!"#" ++ (c!"[serde(rename = \"" ++ x ++ c!"\")]")) ++ c!"\n" ++
      (c!"\t" ++ (c!"pub " ++ n ++ c!": " ++ t ++ c!",") ++ c!"\n") := by simp [rustField]
  rw [e]
  exact Part.block (l1.append l2) (Block.two (field_none _) (field_eq hn2))

omit [Uni] in
theorem opened (fn doc : Str) (hfn : '\n' ∉ fn) :
    Part (scan field none) (c!"\n" ++ genFieldComment fn doc c!"//" ++
      ((c!"#[derive(Debug, Deserialize, Serialize, PartialEq)]" ++ c!"\n") ++ (c!"pub struct " ++ fn ++ c!" {" ++ c!"\n"))) [] := by
  obtain ⟨cl, hcl, hcl'⟩ := comment_untabbed fn doc hfn
  refine Part.append (xs := []) (ys := []) (Part.append (xs := []) (ys := [])
    (Part.block (Lines.one (a := []) (by decide)) (Block.untabbed (by simp))) (Part.block hcl (Block.untabbed hcl')))
    (Part.append (xs := []) (ys := []) (Part.block (Lines.one (by decide)) (Block.untabbed (by simp)))
      (Part.block (Lines.one (by simp [hfn])) (Block.untabbed (by simp))))

omit [Uni] in
theorem closed (fn doc content : Str) : rustDecl fn doc content = (c!"\n" ++ genFieldComment fn doc c!"//" ++
    ((c!"#[derive(Debug, Deserialize, Serialize, PartialEq)]" ++ c!"\n") ++ (c!"pub struct " ++ fn ++ c!" {" ++ c!"\n"))) ++
      content ++ c!"}\n" := by
  simp only [rustDecl, rustStruct, List.append_assoc]
  rfl

variable [UniLaws]

theorem grouped (tree : Tree) (b : Bool) {n t : Str} (hn : Clean notInNames n) (ht : Clean notInTypes t)
    (htr : ∀ t ∈ treeTypes tree, Clean notInTypes t) : Part (scan field none) (rustGroupMember tree b n t)
    [⟨rename n, rustFieldName n, if b then vec (genRustFieldType (resolveIn tree t)) else genRustFieldType (resolveIn tree t)⟩] := by
  have gtype : '\n' ∉ genRustFieldType (resolveIn tree t) :=
    rustType_absent (by decide) (resolveIn_clean ht htr _ (by decide))
  refine member (hn _ (by decide)) (rustFieldName_absent (by decide) (by decide) (hn _ (by decide))) (colon_rustFieldName _) ?_
  split
  · simp [vec, rustVec, gtype]
  · exact gtype

/-- What is declared for a group. -/
theorem read_group (tree : Tree) (fn : Str) (v : Group) (hfn : '\n' ∉ fn) (h : Readable tree (asComplex v)) :
    read ((C15.rustLang tree).text (.group v) fn) = group tree v := by
  have he := Part.flatMap (l := v.elements) fun a ha => grouped tree v.plural (h.elName a ha) (h.elType a ha) h.tree
  have hg := Part.flatMap (l := v.groups) fun a ha => grouped tree v.plural (h.grName a ha) (h.grType a ha) h.tree
  have := ((opened fn v.doc hfn).append (he.append hg)).done (tail := c!"}\n") (by decide)
  unfold C48.Rust.read
  simp only [C15.rustLang, closed]
  rw [this]
  simp only [group, typeOf, Names.rust_member_name, Names.rust_type, Names.meaning_eq, List.nil_append]

/-- What is declared for an attribute group. -/
theorem read_attrGroup (tree : Tree) (fn : Str) (v : AttributeGroup) (hfn : '\n' ∉ fn) (h : Readable tree (withAttrs v)) :
    read ((C15.rustLang tree).text (.attrGroup v) fn) = attrs tree v := by
  have he : Part (scan field none) (v.attributes.flatMap (rustAttrGroupAttrLine tree)) (v.attributes.map fun a =>
      (⟨rename a.name, rustFieldName a.name, if a.optional then opt (genRustFieldType (resolveIn tree a.type))
        else vec (genRustFieldType (resolveIn tree a.type))⟩ : Member)) := by
    refine Part.flatMap fun a ha => ?_
    have gtype : '\n' ∉ genRustFieldType (resolveIn tree a.type) :=
      rustType_absent (by decide) (resolveIn_clean (h.atType a ha) h.tree _ (by decide))
    refine member (h.atName a ha _ (by decide)) (rustFieldName_absent (by decide) (by decide) (h.atName a ha _ (by decide)))
      (colon_rustFieldName _) ?_
    split
    · simp [opt, rustOption, gtype]
    · simp [vec, rustVec, gtype]
  have := ((opened fn v.doc hfn).append he).done (tail := c!"}\n") (by decide)
  unfold C48.Rust.read
  simp only [C15.rustLang, closed]
  rw [this]
  simp only [attrs, typeOf, Names.rust_member_name, Names.rust_type, Names.meaning_eq, List.nil_append]

omit [UniLaws] in
/-- The members of a group all of whose members have its plurality and are not optional are those of a complex type. -/
theorem like_complex_partial (tree : Tree) (v : Group)
    (he : ∀ e ∈ v.elements, e.plural = v.plural ∧ (e.plural = false → e.optional = false))
    (hg : ∀ g ∈ v.groups, g.plural = v.plural) : (group tree v).Perm (expected tree (asComplex v)) := by
  have e : expected tree (asComplex v) = v.groups.map (fun g => ⟨rename g.name, Names.rustMember rustKeywords g.name,
      if v.plural then vec (typeOf tree g.ref) else typeOf tree g.ref⟩) ++
      v.elements.map (fun e => ⟨rename e.name, Names.rustMember rustKeywords e.name,
        if v.plural then vec (typeOf tree e.type) else typeOf tree e.type⟩) := by
    simp only [expected, asComplex, List.map_nil, List.nil_append, if_true, List.append_nil]
    refine congr (congrArg _ (List.map_congr_left fun g h => by rw [hg g h])) (List.map_congr_left fun e h => ?_)
    obtain ⟨h1, h2⟩ := he e h
    rw [← h1]
    cases hp : e.plural with
    | true => simp
    | false => simp [h2 hp]
  rw [e]
  exact List.perm_append_comm

omit [UniLaws] in
/-- The members of an attribute group without required attributes are those of a complex type. -/
theorem attrs_like_complex_partial (tree : Tree) (v : AttributeGroup) (h : ∀ a ∈ v.attributes, a.optional = true) :
    attrs tree v = expected tree (withAttrs v) := by
  simp only [attrs, expected, withAttrs, List.map_nil, List.nil_append, if_true, List.append_nil]
  exact List.map_congr_left fun a ha => by rw [h a ha]; rfl

end Rust

/-! ## Where the property fails -/

/-- A group with an optional element, a repeated one and one of an array type. -/
def mixed : Group :=
  { name := c!"G", elements := [{ name := c!"one", type := c!"tns:T", optional := true },
      { name := c!"many", type := c!"tns:T", plural := true }, { name := c!"text", type := c!"char[]" }]
    groups := [{ name := c!"h", ref := c!"H", plural := true }] }

/-- An attribute group with a required attribute. -/
def required : AttributeGroup := { name := c!"A", attributes := [{ name := c!"id", type := c!"tns:T" }] }

example : Readable [] (asComplex mixed) := by constructor <;> decide
example : Readable [] (withAttrs required) := by constructor <;> decide

/-- Go: elements of groups carry no XML name. -/
theorem Go.untagged : ¬ ∀ (tree : Tree) (v : Group), Readable tree (asComplex v) →
    (@C17.read ((@C15.goLang asciiUni tree).text (.group v) v.name)).Perm (@C17.expected asciiUni tree v.name (asComplex v)) := by
  intro h
  have := (h [] mixed (by constructor <;> decide)).mem_iff (a := ⟨c!"One", c!"*T", some (c!"one", [])⟩)
  revert this
  decide +kernel

/-- C: arrays in groups are declared as members of an array type instead of array members. -/
theorem C.unsplit : ¬ ∀ (tree : Tree) (v : Group), Readable tree (asComplex v) →
    (C48.C.read ((@C15.cLang asciiUni tree).text (.group v) v.name)).Perm (@C48.C.expected asciiUni tree (asComplex v)) := by
  intro h
  have := (h [] mixed (by constructor <;> decide)).mem_iff (a := ⟨c!"char", c!"Text", true, []⟩)
  revert this
  decide +kernel

/-- Java: the attributes of an attribute group have types that do not exist. -/
theorem Java.misplaced : ¬ ∀ (tree : Tree) (v : AttributeGroup), Readable tree (withAttrs v) →
    (C48.Java.read ((@C15.javaLang asciiUni tree).text (.attrGroup v) v.name)) = (@C48.Java.expected asciiUni tree (withAttrs v)) := by
  intro h
  have := h [] required (by constructor <;> decide)
  revert this
  decide +kernel

/-- Rust: repeated elements of a group are not vectors. -/
theorem Rust.single : ¬ ∀ (tree : Tree) (v : Group), Readable tree (asComplex v) →
    (C48.Rust.read ((@C15.rustLang asciiUni tree).text (.group v) v.name)).Perm (@C48.Rust.expected asciiUni tree (asComplex v)) := by
  intro h
  have := (h [] mixed (by constructor <;> decide)).mem_iff (a := ⟨C48.Rust.rename c!"many", c!"many", c!"Vec<T>"⟩)
  revert this
  decide +kernel

/-- Rust: required attributes of an attribute group are vectors. -/
theorem Rust.vectors : ¬ ∀ (tree : Tree) (v : AttributeGroup), Readable tree (withAttrs v) →
    (C48.Rust.read ((@C15.rustLang asciiUni tree).text (.attrGroup v) v.name)) = (@C48.Rust.expected asciiUni tree (withAttrs v)) := by
  intro h
  have := h [] required (by constructor <;> decide)
  revert this
  decide +kernel

/-- What is declared for `mixed` and `required`. -/
example : @Go.group asciiUni [] c!"G" mixed = [⟨c!"One", c!"*T", none⟩, ⟨c!"Many", c!"[]*T", none⟩, ⟨c!"Text", c!"*Char[]", none⟩,
    ⟨c!"H", c!"[]*H", none⟩] := by decide +kernel
example : @C.group asciiUni [] mixed = [⟨c!"T", c!"One", false, []⟩, ⟨c!"T", c!"Many", true, []⟩, ⟨c!"char[]", c!"Text", false, []⟩,
    ⟨c!"H", c!"H", true, []⟩] := by decide +kernel
example : (@Rust.group asciiUni [] mixed).map (·.type) = [c!"T", c!"T", c!"Char[]", c!"H"] := by decide +kernel
example : (@Rust.attrs asciiUni [] required).map (·.type) = [c!"Vec<T>"] := by decide +kernel
example : (@Java.attrs asciiUni [] required).map (fun m => (m.type, m.name)) = [(c!"TAttr", c!"Id")] := by decide +kernel
example : (@TS.group asciiUni [] mixed).map (·.type) = [c!"T", c!"Array<T>", c!"Char[]", c!"Array<H>"] := by decide +kernel
example : (@Java.group asciiUni [] mixed).map (·.type) = [c!"T", c!"List<T>", c!"Char[]", c!"List<H>"] := by decide +kernel

end Xgen.C54
