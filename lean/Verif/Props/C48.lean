import Verif.Spec.Read
import Verif.Props.C17

/-! # C48: the declarations of a complex type in C, Java, Rust and TypeScript, read back -/

namespace Xgen.C48
variable [Uni]

theorem colon_baseName [UniLaws] (s : Str) : ':' ∉ baseName s :=
  C13.titleParts_keeps_absent (by decide) (by decide) (C13.titleParts_no_sep (by decide) (by decide) s)

/-! ## C -/

namespace C

/-- A member of a C struct: `type name[];note`. -/
structure Member where
  type : Str
  name : Str
  array : Bool
  note : Str
deriving DecidableEq, Repr

/-- Reading a line. -/
def readLine : Str → Option Member
  | '\t' :: r =>
    let d := splitFirst ';' r
    if c!"[]" <:+ d.1 then
      let x := splitLast ' ' (d.1.take (d.1.length - 2))
      some ⟨x.1, x.2, true, d.2⟩
    else
      let x := splitLast ' ' d.1
      some ⟨x.1, x.2, false, d.2⟩
  | _ => none

/-- Reading a declaration. -/
def read (text : Str) : List Member := (splitOn '\n' text).filterMap readLine

/-- The target type as the generator computes it. -/
def rawType (tree : Tree) (s : Str) : Str := genCFieldType (resolveIn tree s)

/-- Whether a type is an array type, and its item type. -/
def isArray (t : Str) : Bool := decide (c!"[]" <:+ t)
/-- The item type of an array type. -/
def item (t : Str) : Str := if isArray t then t.take (t.length - 2) else t

/-- The members as the generator computes them. -/
def raw (tree : Tree) (v : ComplexType) : List Member :=
  v.attributeGroup.map (fun a => ⟨rawType tree a.ref, cName a.name, false, []⟩) ++
  v.attributes.map (fun a => ⟨item (rawType tree a.type), cName a.name ++ c!"Attr", isArray (rawType tree a.type),
    if a.optional then c!" // attr, optional" else c!" // attr"⟩) ++
  v.groups.map (fun g => ⟨rawType tree g.ref, cName g.name, g.plural, []⟩) ++
  v.elements.map (fun e => ⟨item (rawType tree e.type), cName e.name, isArray (rawType tree e.type) || e.plural, []⟩)

omit [Uni] in
theorem innerArray_eq (t : Str) : innerArray t = (item t, isArray t) := by
  unfold innerArray item isArray
  by_cases h : c!"[]" <:+ t
  · rw [if_pos ((hasSuffix_iff _ _).2 h), decide_eq_true h]
    simp [trimSuffix, (hasSuffix_iff _ _).2 h]
  · rw [if_neg (fun e => h ((hasSuffix_iff _ _).1 e)), decide_eq_false h]
    simp

omit [Uni] in
theorem readLine_eq {t n note : Str} (b : Bool) (hn : ' ' ∉ n) (hn2 : ';' ∉ n) (hn3 : ']' ∉ n) (ht : ';' ∉ t) :
    readLine (c!"\t" ++ t ++ c!" " ++ n ++ cPlural b ++ c!";" ++ note) = some ⟨t, n, b, note⟩ := by
  have e : c!"\t" ++ t ++ c!" " ++ n ++ cPlural b ++ c!";" ++ note = '\t' :: ((t ++ ' ' :: n ++ cPlural b) ++ ';' :: note) := by
    simp
  rw [e]
  simp only [readLine]
  rw [splitFirst_eq]
  · cases b with
    | true =>
      have hs : c!"[]" <:+ (t ++ ' ' :: n ++ cPlural true) := ⟨t ++ ' ' :: n, rfl⟩
      simp only [hs, if_true]
      have : (t ++ ' ' :: n ++ cPlural true).take ((t ++ ' ' :: n ++ cPlural true).length - 2) = t ++ ' ' :: n := by
        have : (t ++ ' ' :: n ++ cPlural true).length - 2 = (t ++ ' ' :: n).length := by simp [cPlural]; omega
        rw [this, List.take_left' rfl]
      rw [this, splitLast_eq hn]
    | false =>
      have hs : ¬ c!"[]" <:+ (t ++ ' ' :: n ++ cPlural false) := by
        rintro ⟨r, hr⟩
        simp only [cPlural, Bool.false_eq_true, if_false, List.append_nil] at hr
        have h1 := congrArg List.getLast? hr
        simp only [List.getLast?_append, List.getLast?_cons] at h1
        cases hg : n.getLast? with
        | none => rw [hg] at h1; simp at h1
        | some c =>
          rw [hg] at h1
          simp at h1
          exact hn3 (h1 ▸ List.mem_of_getLast? hg)
      simp only [hs, if_false]
      simp only [cPlural, Bool.false_eq_true, if_false, List.append_nil]
      rw [splitLast_eq hn]
  · simp only [List.mem_append, List.mem_cons, not_or]
    refine ⟨⟨ht, by decide, hn2⟩, ?_⟩
    cases b <;> decide

omit [Uni] in
theorem item_absent {x : Char} {t : Str} (h : x ∉ t) : x ∉ item t := by
  unfold item
  split
  · exact fun hm => h (List.mem_of_mem_take hm)
  · exact h

omit [Uni] in
theorem untabbed {ls : List Str} (h : ∀ l ∈ ls, ∀ r, l ≠ '\t' :: r) : ls.filterMap readLine = [] := by
  rw [List.filterMap_eq_nil_iff]
  intro l hl
  unfold readLine
  split
  · rename_i r
    exact absurd rfl (h _ hl r)
  · rfl

omit [Uni] in
theorem plural_nl (b : Bool) : '\n' ∉ cPlural b := by cases b <;> decide

theorem read_raw [UniLaws] (tree : Tree) (fn : Str) (v : ComplexType) (hfn : '\n' ∉ fn) (h : Readable tree v) :
    read ((C15.cLang tree).text (.complex v) fn) = raw tree v := by
  have gname : ∀ {s : Str} (x : Char), x ∈ notInNames → Sym x → Clean notInNames s → x ∉ cName s :=
    fun x hx hy hs => cName_absent hy (hs x hx)
  have gtype : ∀ {s : Str} (x : Char), x ∈ notInTypes → Sym x → Clean notInTypes s → x ∉ rawType tree s :=
    fun x hx hy hs => cType_absent hy (resolveIn_clean hs h.tree x hx)
  obtain ⟨cl, hcl, hcl'⟩ := comment_untabbed fn v.doc hfn
  have line : ∀ {t n note : Str} (b : Bool), '\n' ∉ t → '\n' ∉ n → '\n' ∉ note →
      Lines (c!"\t" ++ t ++ c!" " ++ n ++ cPlural b ++ c!";" ++ note ++ c!"\n")
        [c!"\t" ++ t ++ c!" " ++ n ++ cPlural b ++ c!";" ++ note] := by
    intro t n note b h1 h2 h3
    exact Lines.one (by simp [h1, h2, h3, plural_nl b])
  have hag : Lines (v.attributeGroup.flatMap (cAttrGroupLine tree))
      (v.attributeGroup.flatMap fun a => [c!"\t" ++ rawType tree a.ref ++ c!" " ++ cName a.name ++ cPlural false ++ c!";" ++ []]) := by
    refine Lines.flatMap fun a ha => ?_
    have := line (t := rawType tree a.ref) (n := cName a.name) (note := []) false
      (gtype '\n' (by decide) (by decide) (h.agType a ha)) (gname '\n' (by decide) (by decide) (h.agName a ha)) (by simp)
    simpa [cAttrGroupLine, cPlural, rawType] using this
  have hat : Lines (v.attributes.flatMap (cAttrLine tree))
      (v.attributes.flatMap fun a => [c!"\t" ++ item (rawType tree a.type) ++ c!" " ++ (cName a.name ++ c!"Attr") ++
        cPlural (isArray (rawType tree a.type)) ++ c!";" ++ (if a.optional then c!" // attr, optional" else c!" // attr")]) := by
    refine Lines.flatMap fun a ha => ?_
    have := line (t := item (rawType tree a.type)) (n := cName a.name ++ c!"Attr")
      (note := if a.optional then c!" // attr, optional" else c!" // attr") (isArray (rawType tree a.type))
      (item_absent (gtype '\n' (by decide) (by decide) (h.atType a ha)))
      (by simp [gname '\n' (by decide) (by decide) (h.atName a ha)]) (by split <;> decide)
    cases ho : a.optional <;> simpa [cAttrLine, innerArray_eq, rawType, ho] using this
  have hgr : Lines (v.groups.flatMap (cGroupLine tree))
      (v.groups.flatMap fun g => [c!"\t" ++ rawType tree g.ref ++ c!" " ++ cName g.name ++ cPlural g.plural ++ c!";" ++ []]) := by
    refine Lines.flatMap fun a ha => ?_
    have := line (t := rawType tree a.ref) (n := cName a.name) (note := []) a.plural
      (gtype '\n' (by decide) (by decide) (h.grType a ha)) (gname '\n' (by decide) (by decide) (h.grName a ha)) (by simp)
    simpa [cGroupLine, rawType] using this
  have hel : Lines (v.elements.flatMap (cElemLine tree))
      (v.elements.flatMap fun e => [c!"\t" ++ item (rawType tree e.type) ++ c!" " ++ cName e.name ++
        cPlural (isArray (rawType tree e.type) || e.plural) ++ c!";" ++ []]) := by
    refine Lines.flatMap fun a ha => ?_
    have := line (t := item (rawType tree a.type)) (n := cName a.name) (note := []) (isArray (rawType tree a.type) || a.plural)
      (item_absent (gtype '\n' (by decide) (by decide) (h.elType a ha))) (gname '\n' (by decide) (by decide) (h.elName a ha))
      (by simp)
    simpa [cElemLine, innerArray_eq, rawType] using this
  have hall := ((((hcl.append (Lines.one (a := c!"typedef struct {") (by decide))).append hag).append hat).append
    (hgr.append hel)) (c!"} " ++ fn ++ c!";\n")
  have htext : (C15.cLang tree).text (.complex v) fn =
      ((((genFieldComment fn v.doc c!"//" ++ (c!"typedef struct {" ++ c!"\n")) ++
        v.attributeGroup.flatMap (cAttrGroupLine tree)) ++ v.attributes.flatMap (cAttrLine tree)) ++
        (v.groups.flatMap (cGroupLine tree) ++ v.elements.flatMap (cElemLine tree))) ++ (c!"} " ++ fn ++ c!";\n") := by
    simp only [C15.cLang, cDecl, cComplexContent, List.append_assoc]
    rfl
  have htail : (splitOn '\n' (c!"} " ++ fn ++ c!";\n")).filterMap readLine = [] := by
    have := Lines.one (a := c!"} " ++ fn ++ c!";") (by simp [hfn]) []
    have e : c!"} " ++ fn ++ c!";\n" = c!"} " ++ fn ++ c!";" ++ c!"\n" ++ [] := by simp
    rw [e, this]
    simp [readLine, splitOn]
  unfold read
  rw [htext, hall]
  simp only [List.filterMap_append]
  rw [untabbed hcl', htail, filterMap_flatMap (r := fun a => ⟨rawType tree a.ref, cName a.name, false, []⟩),
    filterMap_flatMap (r := fun a => ⟨item (rawType tree a.type), cName a.name ++ c!"Attr", isArray (rawType tree a.type),
      if a.optional then c!" // attr, optional" else c!" // attr"⟩),
    filterMap_flatMap (r := fun g => ⟨rawType tree g.ref, cName g.name, g.plural, []⟩),
    filterMap_flatMap (r := fun e => ⟨item (rawType tree e.type), cName e.name, isArray (rawType tree e.type) || e.plural, []⟩)]
  · have e1 : ([c!"typedef struct {"].filterMap readLine) = [] := by decide
    rw [e1]
    simp only [raw, List.nil_append, List.append_nil, List.append_assoc]
  · intro e he
    exact readLine_eq _ (gname ' ' (by decide) (by decide) (h.elName e he)) (gname ';' (by decide) (by decide) (h.elName e he))
      (gname ']' (by decide) (by decide) (h.elName e he)) (item_absent (gtype ';' (by decide) (by decide) (h.elType e he)))
  · intro e he
    exact readLine_eq _ (gname ' ' (by decide) (by decide) (h.grName e he)) (gname ';' (by decide) (by decide) (h.grName e he))
      (gname ']' (by decide) (by decide) (h.grName e he)) (gtype ';' (by decide) (by decide) (h.grType e he))
  · intro e he
    exact readLine_eq _ (by simp [gname ' ' (by decide) (by decide) (h.atName e he)])
      (by simp [gname ';' (by decide) (by decide) (h.atName e he)])
      (by simp [gname ']' (by decide) (by decide) (h.atName e he)])
      (item_absent (gtype ';' (by decide) (by decide) (h.atType e he)))
  · intro e he
    exact readLine_eq _ (gname ' ' (by decide) (by decide) (h.agName e he)) (gname ';' (by decide) (by decide) (h.agName e he))
      (gname ']' (by decide) (by decide) (h.agName e he)) (gtype ';' (by decide) (by decide) (h.agType e he))

/-- The target type of a schema type name. -/
def typeOf (tree : Tree) (s : Str) : Str := Names.plainType c!"void" cBuildInType (Names.meaning tree s)

/-- The members a complex type must have. -/
def expected (tree : Tree) (v : ComplexType) : List Member :=
  v.attributeGroup.map (fun a => ⟨typeOf tree a.ref, Names.plain a.name, false, []⟩) ++
  v.attributes.map (fun a => ⟨item (typeOf tree a.type), Names.plain a.name ++ c!"Attr", isArray (typeOf tree a.type),
    if a.optional then c!" // attr, optional" else c!" // attr"⟩) ++
  v.groups.map (fun g => ⟨typeOf tree g.ref, Names.plain g.name, g.plural, []⟩) ++
  v.elements.map (fun e => ⟨item (typeOf tree e.type), Names.plain e.name, isArray (typeOf tree e.type) || e.plural, []⟩)

theorem expected_raw [UniLaws] (tree : Tree) (v : ComplexType) : expected tree v = raw tree v := by
  simp only [expected, raw, typeOf, rawType, Names.c_name, Names.c_type, Names.meaning_eq]

/-- C48 for C. -/
theorem read_complex [UniLaws] (tree : Tree) (fn : Str) (v : ComplexType) (hfn : '\n' ∉ fn) (h : Readable tree v) :
    read ((C15.cLang tree).text (.complex v) fn) = expected tree v := by
  rw [expected_raw]
  exact read_raw tree fn v hfn h

/-- C48 for C, in the generated file. -/
theorem in_file [UniLaws] (tree : Tree) :
    (cGen tree).field = (Decl.named (C15.cLang tree) [] (Decl.declared (C15.cLang tree) (Decl.nodes tree))).flatMap
      (fun x => (C15.cLang tree).text x.1 x.2) ∧
    ∀ x ∈ Decl.named (C15.cLang tree) [] (Decl.declared (C15.cLang tree) (Decl.nodes tree)), ∀ v, x.1 = .complex v →
      Readable tree v → read ((C15.cLang tree).text x.1 x.2) = expected tree v := by
  refine ⟨?_, ?_⟩
  · rw [C15.c, Decl.render_named]
  · intro x hx v hv h
    have hn : '\n' ∉ x.2 := Decl.named_absent (by decide) hx (by
      rw [hv]; exact cName_absent (by decide) (h.name _ (by decide)))
    rw [hv]
    exact read_complex tree x.2 v hn h

example : @expected asciiUni [] { C17.sample with elements := [{ name := c!"e", type := c!"char[]" }] } =
    [⟨c!"AG", c!"Ag", false, []⟩, ⟨c!"String", c!"IdAttr", false, c!" // attr"⟩,
     ⟨c!"int", c!"OptAttr", false, c!" // attr, optional"⟩, ⟨c!"G", c!"G", false, []⟩, ⟨c!"char", c!"E", true, []⟩] := by
  decide +kernel

end C

/-! ## TypeScript -/

namespace TS

/-- A member of a TypeScript class: `name: type;`. -/
structure Member where
  name : Str
  type : Str
deriving DecidableEq, Repr

/-- Reading a line. -/
def readLine : Str → Option Member
  | '\t' :: r =>
    let d := splitFirst ':' r
    some ⟨d.1, (d.2.drop 1).dropLast⟩
  | _ => none

/-- Reading a declaration. -/
def read (text : Str) : List Member := (splitOn '\n' text).filterMap readLine

/-- The target type as the generator computes it. -/
def rawType (tree : Tree) (s : Str) (plural : Bool) : Str := genTypeScriptFieldType (resolveIn tree s) plural

/-- The members as the generator computes them. -/
def raw (tree : Tree) (v : ComplexType) : List Member :=
  v.attributeGroup.map (fun a => ⟨tsName a.name, rawType tree a.ref false⟩) ++
  v.attributes.map (fun a => ⟨tsName a.name ++ c!"Attr",
    rawType tree a.type a.plural ++ (if a.optional then c!" | null" else [])⟩) ++
  v.groups.map (fun g => ⟨tsName g.name, rawType tree g.ref g.plural⟩) ++
  v.elements.map (fun e => ⟨tsName e.name, rawType tree e.type e.plural⟩) ++
  (if v.base ≠ [] && isBuiltInTypeScriptType v.base then [⟨c!"Value", rawType tree v.base false⟩] else [])

/-- The first line of the class as the generator computes it. -/
def rawHeader (tree : Tree) (fn : Str) (v : ComplexType) : Str :=
  c!"export class " ++ fn ++
    (if v.base ≠ [] && !isBuiltInTypeScriptType v.base then c!" extends " ++ rawType tree v.base false ++ c!" " else []) ++ c!" {"

omit [Uni] in
theorem readLine_eq {n t : Str} (hn : ':' ∉ n) : readLine (c!"\t" ++ n ++ c!": " ++ t ++ c!";") = some ⟨n, t⟩ := by
  have e : c!"\t" ++ n ++ c!": " ++ t ++ c!";" = '\t' :: (n ++ ':' :: (' ' :: (t ++ c!";"))) := by simp
  rw [e]
  simp only [readLine]
  rw [splitFirst_eq hn]
  simp

omit [Uni] in
theorem untabbed {ls : List Str} (h : ∀ l ∈ ls, ∀ r, l ≠ '\t' :: r) : ls.filterMap readLine = [] := by
  rw [List.filterMap_eq_nil_iff]
  intro l hl
  unfold readLine
  split
  · rename_i r
    exact absurd rfl (h _ hl r)
  · rfl

theorem colon_tsName [UniLaws] (s : Str) : ':' ∉ tsName s := dropChar_absent (colon_baseName s)

theorem read_raw [UniLaws] (tree : Tree) (fn : Str) (v : ComplexType) (hfn : '\n' ∉ fn) (h : Readable tree v) :
    read ((C15.tsLang tree).text (.complex v) fn) = raw tree v ∧
    rawHeader tree fn v ∈ splitOn '\n' ((C15.tsLang tree).text (.complex v) fn) := by
  have gname : ∀ {s : Str} (x : Char), x ∈ notInNames → Sym x → Clean notInNames s → x ∉ tsName s :=
    fun x hx hy hs => cName_absent hy (hs x hx)
  have gtype : ∀ {s : Str} {p : Bool} (x : Char), x ∈ notInTypes → Sym x → x ∉ c!"<>" → Clean notInTypes s →
      x ∉ rawType tree s p :=
    fun x hx hy hb hs => tsType_absent hy hb (resolveIn_clean hs h.tree x hx)
  obtain ⟨cl, hcl, hcl'⟩ := comment_untabbed fn v.doc hfn
  have line : ∀ {n t : Str}, '\n' ∉ n → '\n' ∉ t →
      Lines (c!"\t" ++ n ++ c!": " ++ t ++ c!";" ++ c!"\n") [c!"\t" ++ n ++ c!": " ++ t ++ c!";"] := by
    intro n t h1 h2
    exact Lines.one (by simp [h1, h2])
  have hag : Lines (v.attributeGroup.flatMap (tsAttrGroupLine tree))
      (v.attributeGroup.flatMap fun a => [c!"\t" ++ tsName a.name ++ c!": " ++ rawType tree a.ref false ++ c!";"]) := by
    refine Lines.flatMap fun a ha => ?_
    have := line (n := tsName a.name) (t := rawType tree a.ref false) (gname '\n' (by decide) (by decide) (h.agName a ha))
      (gtype '\n' (by decide) (by decide) (by decide) (h.agType a ha))
    simpa [tsAttrGroupLine, rawType] using this
  have hat : Lines (v.attributes.flatMap (tsAttrLine tree))
      (v.attributes.flatMap fun a => [c!"\t" ++ (tsName a.name ++ c!"Attr") ++ c!": " ++
        (rawType tree a.type a.plural ++ (if a.optional then c!" | null" else [])) ++ c!";"]) := by
    refine Lines.flatMap fun a ha => ?_
    have := line (n := tsName a.name ++ c!"Attr")
      (t := rawType tree a.type a.plural ++ (if a.optional then c!" | null" else []))
      (by simp [gname '\n' (by decide) (by decide) (h.atName a ha)]) (by
        rw [List.mem_append, not_or]
        exact ⟨gtype '\n' (by decide) (by decide) (by decide) (h.atType a ha), by split <;> decide⟩)
    simpa [tsAttrLine, rawType] using this
  have hgr : Lines (v.groups.flatMap (tsGroupLine tree))
      (v.groups.flatMap fun g => [c!"\t" ++ tsName g.name ++ c!": " ++ rawType tree g.ref g.plural ++ c!";"]) := by
    refine Lines.flatMap fun a ha => ?_
    have := line (n := tsName a.name) (t := rawType tree a.ref a.plural) (gname '\n' (by decide) (by decide) (h.grName a ha))
      (gtype '\n' (by decide) (by decide) (by decide) (h.grType a ha))
    simpa [tsGroupLine, rawType] using this
  have hel : Lines (v.elements.flatMap (tsElemLine tree))
      (v.elements.flatMap fun e => [c!"\t" ++ tsName e.name ++ c!": " ++ rawType tree e.type e.plural ++ c!";"]) := by
    refine Lines.flatMap fun a ha => ?_
    have := line (n := tsName a.name) (t := rawType tree a.type a.plural) (gname '\n' (by decide) (by decide) (h.elName a ha))
      (gtype '\n' (by decide) (by decide) (by decide) (h.elType a ha))
    simpa [tsElemLine, rawType] using this
  have hva : Lines (tsValueLine tree v.base) (if v.base ≠ [] && isBuiltInTypeScriptType v.base then
      [c!"\t" ++ c!"Value" ++ c!": " ++ rawType tree v.base false ++ c!";"] else []) := by
    unfold tsValueLine
    split
    · have := line (n := c!"Value") (t := rawType tree v.base false) (by decide)
        (gtype '\n' (by decide) (by decide) (by decide) h.base)
      simpa [rawType] using this
    · exact Lines.nil
  have hhd : Lines (c!"export class " ++ fn ++ tsExtends tree v.base ++ c!" {\n") [rawHeader tree fn v] := by
    have e : c!"export class " ++ fn ++ tsExtends tree v.base ++ c!" {\n" = rawHeader tree fn v ++ c!"\n" := by
      simp only [rawHeader, tsExtends, rawType]
      simp
    rw [e]
    refine Lines.one ?_
    unfold rawHeader
    split <;> simp [hfn, gtype (p := false) '\n' (by decide) (by decide) (by decide) h.base]
  have hall := ((((hcl.append hhd).append hag).append hat).append ((hgr.append hel).append hva)) c!"}\n"
  have htext : (C15.tsLang tree).text (.complex v) fn =
      ((((genFieldComment fn v.doc c!"//" ++ (c!"export class " ++ fn ++ tsExtends tree v.base ++ c!" {\n")) ++
        v.attributeGroup.flatMap (tsAttrGroupLine tree)) ++ v.attributes.flatMap (tsAttrLine tree)) ++
        ((v.groups.flatMap (tsGroupLine tree) ++ v.elements.flatMap (tsElemLine tree)) ++ tsValueLine tree v.base)) ++
        c!"}\n" := by
    simp only [C15.tsLang, tsComment, tsComplexContent, List.append_assoc]
  refine ⟨?_, ?_⟩
  · unfold read
    rw [htext, hall]
    simp only [List.filterMap_append]
    rw [untabbed hcl', filterMap_flatMap (r := fun a => ⟨tsName a.name, rawType tree a.ref false⟩),
      filterMap_flatMap (r := fun a => ⟨tsName a.name ++ c!"Attr",
        rawType tree a.type a.plural ++ (if a.optional then c!" | null" else [])⟩),
      filterMap_flatMap (r := fun g => ⟨tsName g.name, rawType tree g.ref g.plural⟩),
      filterMap_flatMap (r := fun e => ⟨tsName e.name, rawType tree e.type e.plural⟩)]
    · have e1 : ([rawHeader tree fn v].filterMap readLine) = [] := by simp [readLine, rawHeader]
      have e2 : (splitOn '\n' c!"}\n").filterMap readLine = [] := by decide
      have e3 : (if v.base ≠ [] && isBuiltInTypeScriptType v.base then
          [c!"\t" ++ c!"Value" ++ c!": " ++ rawType tree v.base false ++ c!";"] else []).filterMap readLine =
          (if v.base ≠ [] && isBuiltInTypeScriptType v.base then [⟨c!"Value", rawType tree v.base false⟩] else []) := by
        split
        · simp only [List.filterMap_cons, List.filterMap_nil, readLine_eq (n := c!"Value") (by decide)]
        · rfl
      rw [e1, e2, e3]
      simp only [raw, List.nil_append, List.append_nil, List.append_assoc]
    · exact fun e _ => readLine_eq (colon_tsName _)
    · exact fun e _ => readLine_eq (colon_tsName _)
    · exact fun e _ => readLine_eq (by simp [colon_tsName])
    · exact fun e _ => readLine_eq (colon_tsName _)
  · rw [htext, hall]
    simp

/-- The target type of a schema type name. -/
def typeOf (tree : Tree) (s : Str) (plural : Bool) : Str := Names.tsType typeScriptBuildInType (Names.meaning tree s) plural

/-- The members a complex type must have. -/
def expected (tree : Tree) (v : ComplexType) : List Member :=
  v.attributeGroup.map (fun a => ⟨Names.plain a.name, typeOf tree a.ref false⟩) ++
  v.attributes.map (fun a => ⟨Names.plain a.name ++ c!"Attr",
    typeOf tree a.type a.plural ++ (if a.optional then c!" | null" else [])⟩) ++
  v.groups.map (fun g => ⟨Names.plain g.name, typeOf tree g.ref g.plural⟩) ++
  v.elements.map (fun e => ⟨Names.plain e.name, typeOf tree e.type e.plural⟩) ++
  (if v.base ≠ [] && decide (v.base ∈ typeScriptBuildInType) then [⟨c!"Value", typeOf tree v.base false⟩] else [])

/-- The first line of the class, with its base class. -/
def header (tree : Tree) (fn : Str) (v : ComplexType) : Str :=
  c!"export class " ++ fn ++
    (if v.base ≠ [] && !decide (v.base ∈ typeScriptBuildInType) then c!" extends " ++ typeOf tree v.base false ++ c!" " else []) ++ c!" {"

theorem expected_raw [UniLaws] (tree : Tree) (v : ComplexType) : expected tree v = raw tree v := by
  simp only [expected, raw, typeOf, rawType, Names.ts_name, Names.ts_type, Names.meaning_eq, isBuiltInTypeScriptType, List.contains_eq_mem]

theorem header_raw [UniLaws] (tree : Tree) (fn : Str) (v : ComplexType) : header tree fn v = rawHeader tree fn v := by
  simp only [header, rawHeader, typeOf, rawType, Names.ts_name, Names.ts_type, Names.meaning_eq, isBuiltInTypeScriptType, List.contains_eq_mem]

/-- C48 for TypeScript. -/
theorem read_complex [UniLaws] (tree : Tree) (fn : Str) (v : ComplexType) (hfn : '\n' ∉ fn) (h : Readable tree v) :
    read ((C15.tsLang tree).text (.complex v) fn) = expected tree v ∧
    header tree fn v ∈ splitOn '\n' ((C15.tsLang tree).text (.complex v) fn) := by
  rw [expected_raw, header_raw]
  exact read_raw tree fn v hfn h

/-- C48 for TypeScript, in the generated file (enumerated list types come first of their names, see C15). -/
theorem in_file [UniLaws] (tree : Tree) (ht : C15.ListsNew (Decl.nodes tree)) :
    (tsGen tree).field = (Decl.named (C15.tsLang tree) [] (Decl.declared (C15.tsLang tree) (Decl.nodes tree))).flatMap
      (fun x => (C15.tsLang tree).text x.1 x.2) ∧
    ∀ x ∈ Decl.named (C15.tsLang tree) [] (Decl.declared (C15.tsLang tree) (Decl.nodes tree)), ∀ v, x.1 = .complex v →
      Readable tree v → read ((C15.tsLang tree).text x.1 x.2) = expected tree v ∧
        header tree x.2 v ∈ splitOn '\n' ((C15.tsLang tree).text x.1 x.2) := by
  refine ⟨?_, ?_⟩
  · rw [C15.ts_partial tree ht, Decl.render_named]
  · intro x hx v hv h
    have hn : '\n' ∉ x.2 := Decl.named_absent (by decide) hx (by
      rw [hv]; exact cName_absent (by decide) (h.name _ (by decide)))
    rw [hv]
    exact read_complex tree x.2 v hn h

example : @expected asciiUni [] C17.sample = [⟨c!"Ag", c!"AG"⟩, ⟨c!"IdAttr", c!"string"⟩, ⟨c!"OptAttr", c!"Int | null"⟩,
    ⟨c!"G", c!"G"⟩, ⟨c!"Item", c!"Array<Item>"⟩, ⟨c!"Value", c!"string"⟩] := by decide +kernel

end TS

/-! ## Java -/

namespace Java

/-- A member of a Java class: annotation, type and name. -/
structure Member where
  annotation : Option Str
  type : Str
  name : Str
deriving DecidableEq, Repr

/-- Reading `protected type name;`. -/
def field (p : Option Str) (r : Str) : Option Member :=
  if c!"protected " <+: r then
    let d := splitLast ' ' ((r.drop 10).dropLast)
    some ⟨p, d.1, d.2⟩
  else none

/-- Reading a declaration. -/
def read (text : Str) : List Member := scan field none (splitOn '\n' text)

/-- The target type as the generator computes it. -/
def rawType (tree : Tree) (s : Str) : Str := genJavaFieldType (resolveIn tree s)

/-- The list type of plural members. -/
def listOf (b : Bool) (t : Str) : Str := if b then c!"List<" ++ t ++ c!">" else t

/-- The members as the generator computes them. -/
def raw (tree : Tree) (v : ComplexType) : List Member :=
  v.attributeGroup.map (fun a => ⟨some c!"@XmlElement(required = true)", rawType tree a.ref, javaName a.name⟩) ++
  v.attributes.map (fun a => ⟨some (c!"@XmlAttribute(name = \"" ++ a.name ++ c!"\"" ++
    (if a.optional then [] else c!", required = true") ++ c!")"), rawType tree a.type, javaName a.name ++ c!"Attr"⟩) ++
  v.groups.map (fun g => ⟨none, listOf g.plural (rawType tree g.ref), javaName g.name⟩) ++
  v.elements.map (fun e => ⟨some (c!"@XmlElement(required = true, name = \"" ++ e.name ++ c!"\")"),
    listOf e.plural (rawType tree e.type), javaName e.name⟩) ++
  (if v.base ≠ [] && isBuiltInJavaType v.base then [⟨some c!"@XmlValue", rawType tree v.base, c!"value"⟩] else [])

/-- The first line of the class as the generator computes it. -/
def rawHeader (tree : Tree) (fn : Str) (v : ComplexType) : Str :=
  c!"public class " ++ fn ++
    (if v.base ≠ [] && !isBuiltInJavaType v.base then c!" extends " ++ rawType tree v.base ++ c!" " else []) ++ c!" {"

omit [Uni] in
theorem field_eq {p : Option Str} {t n : Str} (hn : ' ' ∉ n) :
    field p (c!"protected " ++ t ++ c!" " ++ n ++ c!";") = some ⟨p, t, n⟩ := by
  have h1 : c!"protected " <+: (c!"protected " ++ t ++ c!" " ++ n ++ c!";") := ⟨t ++ c!" " ++ n ++ c!";", by simp⟩
  unfold field
  rw [if_pos h1]
  have : ((c!"protected " ++ t ++ c!" " ++ n ++ c!";").drop 10).dropLast = t ++ ' ' :: n := by
    have : (c!"protected " ++ t ++ c!" " ++ n ++ c!";").drop 10 = t ++ ' ' :: n ++ c!";" := by
      simp
    rw [this, List.dropLast_concat]
  rw [this]
  simp only [splitLast_eq hn]

omit [Uni] in
theorem field_none (a : Str) : field none ('@' :: a) = none := by
  unfold field
  rw [if_neg]
  rintro ⟨t, ht⟩
  cases ht

theorem read_raw [UniLaws] (tree : Tree) (fn : Str) (v : ComplexType) (hfn : '\n' ∉ fn) (h : Readable tree v) :
    read ((C15.javaLang tree).text (.complex v) fn) = raw tree v ∧
    rawHeader tree fn v ∈ splitOn '\n' ((C15.javaLang tree).text (.complex v) fn) := by
  have nn : ∀ {s : Str} (x : Char), x ∈ notInNames → Clean notInNames s → x ∉ s := fun x hx hs => hs x hx
  have gname : ∀ {s : Str} (x : Char), x ∈ notInNames → Sym x → Clean notInNames s → x ∉ javaName s :=
    fun x hx hy hs => cName_absent hy (hs x hx)
  have gtype : ∀ {s : Str} (x : Char), x ∈ notInTypes → Sym x → Clean notInTypes s → x ∉ rawType tree s :=
    fun x hx hy hs => javaType_absent hy (resolveIn_clean hs h.tree x hx)
  have ltype : ∀ {s : Str} (b : Bool), Clean notInTypes s → '\n' ∉ listOf b (rawType tree s) := by
    intro s b hs
    unfold listOf
    split
    · simp [gtype '\n' (by decide) (by decide) hs]
    · exact gtype '\n' (by decide) (by decide) hs
  obtain ⟨cl, hcl, hcl'⟩ := comment_untabbed fn v.doc hfn
  -- one member of two lines
  have two : ∀ {a t n : Str}, '\n' ∉ a → '\n' ∉ t → '\n' ∉ n →
      Lines (c!"\t@" ++ a ++ c!"\n" ++ (c!"\t" ++ (c!"protected " ++ t ++ c!" " ++ n ++ c!";") ++ c!"\n"))
        ['\t' :: '@' :: a, '\t' :: (c!"protected " ++ t ++ c!" " ++ n ++ c!";")] := by
    intro a t n h1 h2 h3
    have l1 := Lines.one (a := c!"\t@" ++ a) (by simp [h1])
    have l2 := Lines.one (a := c!"\t" ++ (c!"protected " ++ t ++ c!" " ++ n ++ c!";")) (by simp [h2, h3])
    exact l1.append l2
  have hag : Lines (v.attributeGroup.flatMap (javaAttrGroupLine tree)) (v.attributeGroup.flatMap fun a =>
      ['\t' :: '@' :: c!"XmlElement(required = true)",
       '\t' :: (c!"protected " ++ rawType tree a.ref ++ c!" " ++ javaName a.name ++ c!";")]) := by
    refine Lines.flatMap fun a ha => ?_
    have := two (a := c!"XmlElement(required = true)") (by decide) (gtype '\n' (by decide) (by decide) (h.agType a ha))
      (gname '\n' (by decide) (by decide) (h.agName a ha))
    simpa [javaAttrGroupLine, rawType] using this
  have hat : Lines (v.attributes.flatMap (javaAttrLine tree)) (v.attributes.flatMap fun a =>
      ['\t' :: '@' :: (c!"XmlAttribute(name = \"" ++ a.name ++ c!"\"" ++
        (if a.optional then [] else c!", required = true") ++ c!")"),
       '\t' :: (c!"protected " ++ rawType tree a.type ++ c!" " ++ (javaName a.name ++ c!"Attr") ++ c!";")]) := by
    refine Lines.flatMap fun a ha => ?_
    have := two (a := c!"XmlAttribute(name = \"" ++ a.name ++ c!"\"" ++
        (if a.optional then [] else c!", required = true") ++ c!")") (n := javaName a.name ++ c!"Attr") (by
        cases a.optional <;> simp [nn '\n' (by decide) (h.atName a ha)]) (gtype '\n' (by decide) (by decide) (h.atType a ha))
      (by simp [gname '\n' (by decide) (by decide) (h.atName a ha)])
    simpa [javaAttrLine, rawType] using this
  have hgr : Lines (v.groups.flatMap (javaGroupLine tree)) (v.groups.flatMap fun g =>
      ['\t' :: (c!"protected " ++ listOf g.plural (rawType tree g.ref) ++ c!" " ++ javaName g.name ++ c!";")]) := by
    refine Lines.flatMap fun a ha => ?_
    have := Lines.one (a := c!"\t" ++ (c!"protected " ++ listOf a.plural (rawType tree a.ref) ++ c!" " ++ javaName a.name ++ c!";"))
      (by simp [ltype a.plural (h.grType a ha), gname '\n' (by decide) (by decide) (h.grName a ha)])
    simpa [javaGroupLine, rawType, javaPlural, listOf] using this
  have hel : Lines (v.elements.flatMap (javaElemLine tree)) (v.elements.flatMap fun e =>
      ['\t' :: '@' :: (c!"XmlElement(required = true, name = \"" ++ e.name ++ c!"\")"),
       '\t' :: (c!"protected " ++ listOf e.plural (rawType tree e.type) ++ c!" " ++ javaName e.name ++ c!";")]) := by
    refine Lines.flatMap fun a ha => ?_
    have := two (a := c!"XmlElement(required = true, name = \"" ++ a.name ++ c!"\")")
      (by simp [nn '\n' (by decide) (h.elName a ha)]) (ltype a.plural (h.elType a ha))
      (gname '\n' (by decide) (by decide) (h.elName a ha))
    simpa [javaElemLine, rawType, javaPlural, listOf] using this
  have hva : Lines (javaValueLine tree v.base) (if v.base ≠ [] && isBuiltInJavaType v.base then
      ['\t' :: '@' :: c!"XmlValue", '\t' :: (c!"protected " ++ rawType tree v.base ++ c!" " ++ c!"value" ++ c!";")] else []) := by
    unfold javaValueLine
    split
    · have := two (a := c!"XmlValue") (n := c!"value") (by decide) (gtype '\n' (by decide) (by decide) h.base) (by decide)
      simpa [rawType] using this
    · exact Lines.nil
  have hhd : Lines (c!"public class " ++ fn ++ javaExtends tree v.base ++ c!" {\n") [rawHeader tree fn v] := by
    have e : c!"public class " ++ fn ++ javaExtends tree v.base ++ c!" {\n" = rawHeader tree fn v ++ c!"\n" := by
      simp only [rawHeader, javaExtends, rawType]
      simp
    rw [e]
    refine Lines.one ?_
    unfold rawHeader
    split <;> simp [hfn, gtype '\n' (by decide) (by decide) h.base]
  have hall := ((((hcl.append hhd).append hag).append hat).append ((hgr.append hel).append hva)) c!"}\n"
  have htext : (C15.javaLang tree).text (.complex v) fn =
      ((((genFieldComment fn v.doc c!"//" ++ (c!"public class " ++ fn ++ javaExtends tree v.base ++ c!" {\n")) ++
        v.attributeGroup.flatMap (javaAttrGroupLine tree)) ++ v.attributes.flatMap (javaAttrLine tree)) ++
        ((v.groups.flatMap (javaGroupLine tree) ++ v.elements.flatMap (javaElemLine tree)) ++ javaValueLine tree v.base)) ++
        c!"}\n" := by
    simp only [C15.javaLang, javaComplexContent, List.append_assoc]
  refine ⟨?_, ?_⟩
  · unfold read
    rw [htext, hall]
    have b0 : Block field (cl ++ [rawHeader tree fn v]) [] := by
      refine Block.untabbed fun l hl r => ?_
      rcases List.mem_append.1 hl with hl | hl
      · exact hcl' l hl r
      · simp only [List.mem_singleton] at hl
        subst hl
        simp [rawHeader]
    have b1 : Block field _ (v.attributeGroup.map fun a =>
        (⟨some c!"@XmlElement(required = true)", rawType tree a.ref, javaName a.name⟩ : Member)) :=
      Block.flatMap fun a ha => Block.two (field_none c!"XmlElement(required = true)")
        (field_eq (gname ' ' (by decide) (by decide) (h.agName a ha)))
    have b2 : Block field _ (v.attributes.map fun a => (⟨some (c!"@XmlAttribute(name = \"" ++ a.name ++ c!"\"" ++
        (if a.optional then [] else c!", required = true") ++ c!")"), rawType tree a.type, javaName a.name ++ c!"Attr"⟩ : Member)) :=
      Block.flatMap fun a ha => Block.two (field_none (c!"XmlAttribute(name = \"" ++ a.name ++ c!"\"" ++
        (if a.optional then [] else c!", required = true") ++ c!")"))
        (field_eq (by simp [gname ' ' (by decide) (by decide) (h.atName a ha)]))
    have b3 : Block field _ (v.groups.map fun g =>
        (⟨none, listOf g.plural (rawType tree g.ref), javaName g.name⟩ : Member)) :=
      Block.flatMap fun a ha => Block.one (field_eq (gname ' ' (by decide) (by decide) (h.grName a ha)))
    have b4 : Block field _ (v.elements.map fun e => (⟨some (c!"@XmlElement(required = true, name = \"" ++ e.name ++ c!"\")"),
        listOf e.plural (rawType tree e.type), javaName e.name⟩ : Member)) :=
      Block.flatMap fun a ha => Block.two (field_none (c!"XmlElement(required = true, name = \"" ++ a.name ++ c!"\")"))
        (field_eq (gname ' ' (by decide) (by decide) (h.elName a ha)))
    have b5 : Block field (if v.base ≠ [] && isBuiltInJavaType v.base then
      ['\t' :: '@' :: c!"XmlValue", '\t' :: (c!"protected " ++ rawType tree v.base ++ c!" " ++ c!"value" ++ c!";")] else [])
        (if v.base ≠ [] && isBuiltInJavaType v.base then [(⟨some c!"@XmlValue", rawType tree v.base, c!"value"⟩ : Member)] else []) := by
      split
      · exact Block.two (field_none c!"XmlValue") (field_eq (by decide))
      · exact Block.nil
    rw [((((b0.append b1).append b2).append ((b3.append b4).append b5)) _)]
    have e2 : scan field none (splitOn '\n' c!"}\n") = [] := by decide
    rw [e2]
    simp only [raw, List.nil_append, List.append_nil, List.append_assoc]
  · rw [htext, hall]
    simp

/-- The target type of a schema type name. -/
def typeOf (tree : Tree) (s : Str) : Str := Names.plainType c!"void" javaBuildInType (Names.meaning tree s)

/-- The members a complex type must have. -/
def expected (tree : Tree) (v : ComplexType) : List Member :=
  v.attributeGroup.map (fun a => ⟨some c!"@XmlElement(required = true)", typeOf tree a.ref, Names.plain a.name⟩) ++
  v.attributes.map (fun a => ⟨some (c!"@XmlAttribute(name = \"" ++ a.name ++ c!"\"" ++
    (if a.optional then [] else c!", required = true") ++ c!")"), typeOf tree a.type, Names.plain a.name ++ c!"Attr"⟩) ++
  v.groups.map (fun g => ⟨none, listOf g.plural (typeOf tree g.ref), Names.plain g.name⟩) ++
  v.elements.map (fun e => ⟨some (c!"@XmlElement(required = true, name = \"" ++ e.name ++ c!"\")"),
    listOf e.plural (typeOf tree e.type), Names.plain e.name⟩) ++
  (if v.base ≠ [] && decide (v.base ∈ javaBuildInType) then [⟨some c!"@XmlValue", typeOf tree v.base, c!"value"⟩] else [])

/-- The first line of the class, with its base class. -/
def header (tree : Tree) (fn : Str) (v : ComplexType) : Str :=
  c!"public class " ++ fn ++
    (if v.base ≠ [] && !decide (v.base ∈ javaBuildInType) then c!" extends " ++ typeOf tree v.base ++ c!" " else []) ++ c!" {"

theorem expected_raw [UniLaws] (tree : Tree) (v : ComplexType) : expected tree v = raw tree v := by
  simp only [expected, raw, typeOf, rawType, Names.java_name, Names.java_type, Names.meaning_eq, isBuiltInJavaType, List.contains_eq_mem]

theorem header_raw [UniLaws] (tree : Tree) (fn : Str) (v : ComplexType) : header tree fn v = rawHeader tree fn v := by
  simp only [header, rawHeader, typeOf, rawType, Names.java_name, Names.java_type, Names.meaning_eq, isBuiltInJavaType, List.contains_eq_mem]

/-- C48 for Java. -/
theorem read_complex [UniLaws] (tree : Tree) (fn : Str) (v : ComplexType) (hfn : '\n' ∉ fn) (h : Readable tree v) :
    read ((C15.javaLang tree).text (.complex v) fn) = expected tree v ∧
    header tree fn v ∈ splitOn '\n' ((C15.javaLang tree).text (.complex v) fn) := by
  rw [expected_raw, header_raw]
  exact read_raw tree fn v hfn h

/-- C48 for Java, in the generated file. -/
theorem in_file [UniLaws] (tree : Tree) :
    (javaGen tree).field = (Decl.named (C15.javaLang tree) [] (Decl.declared (C15.javaLang tree) (Decl.nodes tree))).flatMap
      (fun x => (C15.javaLang tree).text x.1 x.2) ∧
    ∀ x ∈ Decl.named (C15.javaLang tree) [] (Decl.declared (C15.javaLang tree) (Decl.nodes tree)), ∀ v, x.1 = .complex v →
      Readable tree v → read ((C15.javaLang tree).text x.1 x.2) = expected tree v ∧
        header tree x.2 v ∈ splitOn '\n' ((C15.javaLang tree).text x.1 x.2) := by
  refine ⟨?_, ?_⟩
  · rw [C15.java, Decl.render_named]
  · intro x hx v hv h
    have hn : '\n' ∉ x.2 := Decl.named_absent (by decide) hx (by
      rw [hv]; exact cName_absent (by decide) (h.name _ (by decide)))
    rw [hv]
    exact read_complex tree x.2 v hn h

example : (@expected asciiUni [] C17.sample).map (fun m => (m.type, m.name)) =
    [(c!"AG", c!"Ag"), (c!"String", c!"IdAttr"), (c!"Int", c!"OptAttr"), (c!"G", c!"G"), (c!"List<Item>", c!"Item")] := by
  decide +kernel

end Java

/-! ## Rust -/

namespace Rust

/-- A field of a Rust struct: serde attribute, name and type. -/
structure Member where
  annotation : Option Str
  name : Str
  type : Str
deriving DecidableEq, Repr

/-- Reading `pub name: type,`. -/
def field (p : Option Str) (r : Str) : Option Member :=
  if c!"pub " <+: r then
    let d := splitFirst ':' (r.drop 4)
    some ⟨p, d.1, (d.2.drop 1).dropLast⟩
  else none

/-- Reading a declaration. -/
def read (text : Str) : List Member := scan field none (splitOn '\n' text)

/-- The target type as the generator computes it. -/
def rawType (tree : Tree) (s : Str) : Str := genRustFieldType (resolveIn tree s)

/-- The vector type. -/
def vec (t : Str) : Str := c!"Vec<" ++ t ++ c!">"
/-- The option type. -/
def opt (t : Str) : Str := c!"Option<" ++ t ++ c!">"

/-- `#[serde(rename = "name")]` -/
def rename (n : Str) : Option Str := some (c!"#[serde(rename = \"" ++ n ++ c!"\")]")

/-- The members as the generator computes them. -/
def raw (tree : Tree) (v : ComplexType) : List Member :=
  v.attributeGroup.map (fun a => ⟨rename a.name, rustFieldName a.name, vec (rawType tree a.ref)⟩) ++
  v.attributes.map (fun a => ⟨rename a.name, rustFieldName a.name,
    if a.optional then opt (rawType tree a.type) else rawType tree a.type⟩) ++
  v.groups.map (fun g => ⟨rename g.name, rustFieldName g.name,
    if g.plural then vec (rawType tree g.ref) else rawType tree g.ref⟩) ++
  v.elements.map (fun e => ⟨rename e.name, rustFieldName e.name,
    if e.plural then vec (rawType tree e.type) else if e.optional then opt (rawType tree e.type) else rawType tree e.type⟩) ++
  (if v.base = [] then [] else if isRustBuiltInType v.base then [⟨rename c!"$value", c!"value", rawType tree v.base⟩]
    else [⟨some c!"#[serde(flatten)]", rustFieldName (rawType tree v.base), rawType tree v.base⟩])

omit [Uni] in
theorem field_eq {p : Option Str} {t n : Str} (hn : ':' ∉ n) :
    field p (c!"pub " ++ n ++ c!": " ++ t ++ c!",") = some ⟨p, n, t⟩ := by
  have h1 : c!"pub " <+: (c!"pub " ++ n ++ c!": " ++ t ++ c!",") := ⟨n ++ c!": " ++ t ++ c!",", by simp⟩
  unfold field
  rw [if_pos h1]
  have : (c!"pub " ++ n ++ c!": " ++ t ++ c!",").drop 4 = n ++ ':' :: (' ' :: (t ++ c!",")) := by simp
  rw [this]
  simp [splitFirst_eq hn]

omit [Uni] in
theorem field_none (a : Str) : field none ('#' :: a) = none := by
  unfold field
  rw [if_neg]
  rintro ⟨t, ht⟩
  cases ht

theorem colon_rustFieldName [UniLaws] (s : Str) : ':' ∉ rustFieldName s := by
  have h1 := toSnakeCase_absent (x := ':') (by decide) (by decide) (dropChar_absent (y := '-') (colon_baseName s))
  unfold rustFieldName
  simp only
  split
  · simp [h1]
  · exact h1

theorem read_raw [UniLaws] (tree : Tree) (fn : Str) (v : ComplexType) (hfn : '\n' ∉ fn) (h : Readable tree v) :
    read ((C15.rustLang tree).text (.complex v) fn) = raw tree v := by
  have nn : ∀ {s : Str} (x : Char), x ∈ notInNames → Clean notInNames s → x ∉ s := fun x hx hs => hs x hx
  have gname : ∀ {s : Str}, '\n' ∉ s → '\n' ∉ rustFieldName s :=
    fun hs => rustFieldName_absent (by decide) (by decide) hs
  have gtype : ∀ {s : Str}, Clean notInTypes s → '\n' ∉ rawType tree s :=
    fun hs => rustType_absent (by decide) (resolveIn_clean hs h.tree '\n' (by decide))
  have gvec : ∀ {t : Str}, '\n' ∉ t → '\n' ∉ vec t := fun ht => by simp [vec, ht]
  have gopt : ∀ {t : Str}, '\n' ∉ t → '\n' ∉ opt t := fun ht => by simp [opt, ht]
  obtain ⟨cl, hcl, hcl'⟩ := comment_untabbed fn v.doc hfn
  have two : ∀ {a t n : Str}, '\n' ∉ a → '\n' ∉ t → '\n' ∉ n →
      Lines (c!"\t#" ++ a ++ c!"\n" ++ (c!"\t" ++ (c!"pub " ++ n ++ c!": " ++ t ++ c!",") ++ c!"\n"))
        ['\t' :: '#' :: a, '\t' :: (c!"pub " ++ n ++ c!": " ++ t ++ c!",")] := by
    intro a t n h1 h2 h3
    have l1 := Lines.one (a := c!"\t#" ++ a) (by simp [h1])
    have l2 := Lines.one (a := c!"\t" ++ (c!"pub " ++ n ++ c!": " ++ t ++ c!",")) (by simp [h2, h3])
    exact l1.append l2
  have rf : ∀ {x n t : Str}, '\n' ∉ x → '\n' ∉ n → '\n' ∉ t → Lines (rustField x n t)
      ['\t' :: '#' :: (c!"[serde(rename = \"" ++ x ++ c!"\")]"), '\t' :: (c!"pub " ++ n ++ c!": " ++ t ++ c!",")] := by
    intro x n t hx hn ht
    have := two (a := c!"[serde(rename = \"" ++ x ++ c!"\")]") (n := n) (t := t) (by simp [hx]) ht hn
    simpa [rustField] using this
  have bl : ∀ {x n t : Str}, ':' ∉ n → Block field
      ['\t' :: '#' :: (c!"[serde(rename = \"" ++ x ++ c!"\")]"), '\t' :: (c!"pub " ++ n ++ c!": " ++ t ++ c!",")]
      [⟨rename x, n, t⟩] := by
    intro x n t hn
    exact Block.two (field_none _) (field_eq hn)
  have hag : Lines (v.attributeGroup.flatMap (rustAttrGroupLine tree)) (v.attributeGroup.flatMap fun a =>
      ['\t' :: '#' :: (c!"[serde(rename = \"" ++ a.name ++ c!"\")]"),
       '\t' :: (c!"pub " ++ rustFieldName a.name ++ c!": " ++ vec (rawType tree a.ref) ++ c!",")]) :=
    Lines.flatMap fun a ha => rf (nn '\n' (by decide) (h.agName a ha)) (gname (nn '\n' (by decide) (h.agName a ha)))
      (gvec (gtype (h.agType a ha)))
  have hat : Lines (v.attributes.flatMap (rustAttrLine tree)) (v.attributes.flatMap fun a =>
      ['\t' :: '#' :: (c!"[serde(rename = \"" ++ a.name ++ c!"\")]"),
       '\t' :: (c!"pub " ++ rustFieldName a.name ++ c!": " ++
        (if a.optional then opt (rawType tree a.type) else rawType tree a.type) ++ c!",")]) :=
    Lines.flatMap fun a ha => rf (nn '\n' (by decide) (h.atName a ha)) (gname (nn '\n' (by decide) (h.atName a ha)))
      (by split
          · exact gopt (gtype (h.atType a ha))
          · exact gtype (h.atType a ha))
  have hgr : Lines (v.groups.flatMap (rustGroupLine tree)) (v.groups.flatMap fun a =>
      ['\t' :: '#' :: (c!"[serde(rename = \"" ++ a.name ++ c!"\")]"),
       '\t' :: (c!"pub " ++ rustFieldName a.name ++ c!": " ++
        (if a.plural then vec (rawType tree a.ref) else rawType tree a.ref) ++ c!",")]) :=
    Lines.flatMap fun a ha => rf (nn '\n' (by decide) (h.grName a ha)) (gname (nn '\n' (by decide) (h.grName a ha)))
      (by split
          · exact gvec (gtype (h.grType a ha))
          · exact gtype (h.grType a ha))
  have hel : Lines (v.elements.flatMap (rustElemLine tree)) (v.elements.flatMap fun a =>
      ['\t' :: '#' :: (c!"[serde(rename = \"" ++ a.name ++ c!"\")]"),
       '\t' :: (c!"pub " ++ rustFieldName a.name ++ c!": " ++ (if a.plural then vec (rawType tree a.type)
         else if a.optional then opt (rawType tree a.type) else rawType tree a.type) ++ c!",")]) :=
    Lines.flatMap fun a ha => rf (nn '\n' (by decide) (h.elName a ha)) (gname (nn '\n' (by decide) (h.elName a ha)))
      (by split
          · exact gvec (gtype (h.elType a ha))
          · split
            · exact gopt (gtype (h.elType a ha))
            · exact gtype (h.elType a ha))
  have hba : Lines (rustBaseLine tree v.base) (if v.base = [] then [] else if isRustBuiltInType v.base then
      ['\t' :: '#' :: (c!"[serde(rename = \"" ++ c!"$value" ++ c!"\")]"),
       '\t' :: (c!"pub " ++ c!"value" ++ c!": " ++ rawType tree v.base ++ c!",")]
      else ['\t' :: '#' :: c!"[serde(flatten)]",
       '\t' :: (c!"pub " ++ rustFieldName (rawType tree v.base) ++ c!": " ++ rawType tree v.base ++ c!",")]) := by
    unfold rustBaseLine
    by_cases hb : v.base = []
    · rw [if_neg (by simpa using hb), if_pos hb]; exact Lines.nil
    · rw [if_pos hb, if_neg hb]
      simp only
      split
      · exact rf (by decide) (by decide) (gtype h.base)
      · have := two (a := c!"[serde(flatten)]") (n := rustFieldName (rawType tree v.base)) (by decide) (gtype h.base)
          (gname (gtype h.base))
        simpa [rawType] using this
  have hh1 := Lines.one (a := ([] : Str)) (by decide)
  have hh2 := Lines.one (a := c!"#[derive(Debug, Deserialize, Serialize, PartialEq)]") (by decide)
  have hh3 := Lines.one (a := c!"pub struct " ++ fn ++ c!" {") (by simp [hfn])
  have hall := (((((hh1.append hcl).append (hh2.append hh3)).append hag).append hat).append ((hgr.append hel).append hba)) c!"}\n"
  have htext : (C15.rustLang tree).text (.complex v) fn =
      ((((([] ++ c!"\n") ++ genFieldComment fn v.doc c!"//" ++ ((c!"#[derive(Debug, Deserialize, Serialize, PartialEq)]" ++ c!"\n") ++
        (c!"pub struct " ++ fn ++ c!" {" ++ c!"\n"))) ++
        v.attributeGroup.flatMap (rustAttrGroupLine tree)) ++ v.attributes.flatMap (rustAttrLine tree)) ++
        ((v.groups.flatMap (rustGroupLine tree) ++ v.elements.flatMap (rustElemLine tree)) ++ rustBaseLine tree v.base)) ++
        c!"}\n" := by
    simp only [C15.rustLang, rustDecl, rustStruct, rustComplexContent, List.append_assoc, List.nil_append]
    rfl
  unfold read
  rw [htext, hall]
  have b0 : Block field (([[]] ++ cl) ++ ([c!"#[derive(Debug, Deserialize, Serialize, PartialEq)]"] ++
      [c!"pub struct " ++ fn ++ c!" {"])) [] := by
    refine Block.untabbed fun l hl r => ?_
    rcases List.mem_append.1 hl with hl | hl
    · rcases List.mem_append.1 hl with hl | hl
      · simp only [List.mem_singleton] at hl
        subst hl
        simp
      · exact hcl' l hl r
    · simp only [List.mem_append, List.mem_singleton] at hl
      rcases hl with rfl | rfl <;> simp
  have b1 : Block field _ (v.attributeGroup.map fun a =>
      (⟨rename a.name, rustFieldName a.name, vec (rawType tree a.ref)⟩ : Member)) :=
    Block.flatMap fun a _ => bl (colon_rustFieldName _)
  have b2 : Block field _ (v.attributes.map fun a => (⟨rename a.name, rustFieldName a.name,
      if a.optional then opt (rawType tree a.type) else rawType tree a.type⟩ : Member)) :=
    Block.flatMap fun a _ => bl (colon_rustFieldName _)
  have b3 : Block field _ (v.groups.map fun a => (⟨rename a.name, rustFieldName a.name,
      if a.plural then vec (rawType tree a.ref) else rawType tree a.ref⟩ : Member)) :=
    Block.flatMap fun a _ => bl (colon_rustFieldName _)
  have b4 : Block field _ (v.elements.map fun a => (⟨rename a.name, rustFieldName a.name,
      if a.plural then vec (rawType tree a.type) else if a.optional then opt (rawType tree a.type) else rawType tree a.type⟩ : Member)) :=
    Block.flatMap fun a _ => bl (colon_rustFieldName _)
  have b5 : Block field (if v.base = [] then [] else if isRustBuiltInType v.base then
      ['\t' :: '#' :: (c!"[serde(rename = \"" ++ c!"$value" ++ c!"\")]"),
       '\t' :: (c!"pub " ++ c!"value" ++ c!": " ++ rawType tree v.base ++ c!",")]
      else ['\t' :: '#' :: c!"[serde(flatten)]",
       '\t' :: (c!"pub " ++ rustFieldName (rawType tree v.base) ++ c!": " ++ rawType tree v.base ++ c!",")])
      (if v.base = [] then [] else if isRustBuiltInType v.base then [⟨rename c!"$value", c!"value", rawType tree v.base⟩]
        else [⟨some c!"#[serde(flatten)]", rustFieldName (rawType tree v.base), rawType tree v.base⟩]) := by
    split
    · exact Block.nil
    · split
      · exact bl (by decide)
      · exact Block.two (field_none _) (field_eq (colon_rustFieldName _))
  rw [((((b0.append b1).append b2).append ((b3.append b4).append b5)) _)]
  have e2 : scan field none (splitOn '\n' c!"}\n") = [] := by decide
  rw [e2]
  simp only [raw, List.nil_append, List.append_nil, List.append_assoc]

/-- The target type of a schema type name. -/
def typeOf (tree : Tree) (s : Str) : Str := Names.rustType rustBuildinType (Names.meaning tree s)

/-- The members a complex type must have. -/
def expected (tree : Tree) (v : ComplexType) : List Member :=
  v.attributeGroup.map (fun a => ⟨rename a.name, Names.rustMember rustKeywords a.name, vec (typeOf tree a.ref)⟩) ++
  v.attributes.map (fun a => ⟨rename a.name, Names.rustMember rustKeywords a.name,
    if a.optional then opt (typeOf tree a.type) else typeOf tree a.type⟩) ++
  v.groups.map (fun g => ⟨rename g.name, Names.rustMember rustKeywords g.name,
    if g.plural then vec (typeOf tree g.ref) else typeOf tree g.ref⟩) ++
  v.elements.map (fun e => ⟨rename e.name, Names.rustMember rustKeywords e.name,
    if e.plural then vec (typeOf tree e.type) else if e.optional then opt (typeOf tree e.type) else typeOf tree e.type⟩) ++
  (if v.base = [] then [] else if v.base ∈ rustBuildinType then [⟨rename c!"$value", c!"value", typeOf tree v.base⟩]
    else [⟨some c!"#[serde(flatten)]", Names.rustMember rustKeywords (typeOf tree v.base), typeOf tree v.base⟩])

theorem expected_raw [UniLaws] (tree : Tree) (v : ComplexType) : expected tree v = raw tree v := by
  simp only [expected, raw, typeOf, rawType, Names.rust_member_name, Names.rust_type, Names.meaning_eq, isRustBuiltInType, List.contains_iff_mem]

/-- C48 for Rust. -/
theorem read_complex [UniLaws] (tree : Tree) (fn : Str) (v : ComplexType) (hfn : '\n' ∉ fn) (h : Readable tree v) :
    read ((C15.rustLang tree).text (.complex v) fn) = expected tree v := by
  rw [expected_raw]
  exact read_raw tree fn v hfn h

/-- C48 for Rust, in the generated file. -/
theorem in_file [UniLaws] (tree : Tree) :
    (rustGen tree).field = (Decl.named (C15.rustLang tree) [] (Decl.declared (C15.rustLang tree) (Decl.nodes tree))).flatMap
      (fun x => (C15.rustLang tree).text x.1 x.2) ∧
    ∀ x ∈ Decl.named (C15.rustLang tree) [] (Decl.declared (C15.rustLang tree) (Decl.nodes tree)), ∀ v, x.1 = .complex v →
      Readable tree v → read ((C15.rustLang tree).text x.1 x.2) = expected tree v := by
  refine ⟨?_, ?_⟩
  · rw [C15.rust, Decl.render_named]
  · intro x hx v hv h
    have hn : '\n' ∉ x.2 := Decl.named_absent (by decide) hx (by
      rw [hv]; exact rustStructName_absent (by decide) (h.name _ (by decide)))
    rw [hv]
    exact read_complex tree x.2 v hn h

example : (@expected asciiUni [] C17.sample).map (fun m => (m.name, m.type)) =
    [(c!"ag", c!"Vec<AG>"), (c!"id", c!"String"), (c!"opt", c!"Option<Int>"), (c!"g", c!"G"), (c!"item", c!"Vec<Item>"),
     (c!"string", c!"String")] := by
  decide +kernel

end Rust

end Xgen.C48
