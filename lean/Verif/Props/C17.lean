import Verif.Spec.Read
import Verif.Spec.Names

/-! # C17: the Go struct of a complex type, read back -/

namespace Xgen.C17
variable [Uni]

/-- A field of a Go struct: name (empty for an embedded type), type, and tag: XML name and options. -/
structure Field where
  name : Str
  type : Str
  tag : Option (Str × List Str)
deriving DecidableEq, Repr

/-- Reading a tag `` `xml:"name,option,…"` ``. -/
def readTag (s : Str) : Option (Str × List Str) :=
  if c!"`xml:\"" <+: s ∧ c!"\"`" <:+ s then
    match splitOn ',' ((s.drop 6).take (s.length - 8)) with
    | [] => none
    | n :: opts => some (n, opts)
  else none

/-- Reading the columns of a field. -/
def readField : List Str → Option Field
  | [t] => some ⟨[], t, none⟩
  | [n, t] => some ⟨n, t, none⟩
  | [n, t, g] => (readTag g).map fun tag => ⟨n, t, some tag⟩
  | _ => none

/-- Reading a line: the fields are the lines that start with a tab. -/
def readLine : Str → Option Field
  | '\t' :: r => readField (splitOn '\t' r)
  | _ => none

/-- Reading a declaration. -/
def read (text : Str) : List Field := (splitOn '\n' text).filterMap readLine

/-- The target type as the generator computes it. -/
def rawType (tree : Tree) (s : Str) : Str := genGoFieldType (resolveIn tree s)

/-- The fields as the generator computes them. -/
def raw (tree : Tree) (fn : Str) (v : ComplexType) : List Field :=
  (if fn ≠ v.name then [⟨c!"XMLName", c!"xml.Name", some (v.name, [])⟩] else []) ++
  v.attributeGroup.map (fun a => ⟨goName a.name, rawType tree a.ref, none⟩) ++
  v.attributes.map (fun a => ⟨goName a.name ++ c!"Attr", rawType tree a.type,
    some (a.name, if a.optional then [c!"attr", c!"omitempty"] else [c!"attr"])⟩) ++
  v.groups.map (fun g => ⟨goName g.name, (if g.plural then c!"[]" else []) ++ rawType tree g.ref, none⟩) ++
  v.elements.map (fun e => ⟨goName e.name, (if e.plural then c!"[]" else []) ++ rawType tree e.type, some (e.name, [])⟩) ++
  (if v.base = [] then [] else if isGoBuiltInType v.base then [⟨c!"Value", genGoFieldType v.base, some ([], [c!"chardata"])⟩]
    else [⟨[], genGoFieldType v.base, none⟩])

omit [Uni] in
theorem readTag_eq (body : Str) (n : Str) (opts : List Str) (h : splitOn ',' body = n :: opts) :
    readTag (c!"`xml:\"" ++ body ++ c!"\"`") = some (n, opts) := by
  have h1 : c!"`xml:\"" <+: (c!"`xml:\"" ++ body ++ c!"\"`") := ⟨body ++ c!"\"`", by simp⟩
  have h2 : c!"\"`" <:+ (c!"`xml:\"" ++ body ++ c!"\"`") := ⟨c!"`xml:\"" ++ body, rfl⟩
  have h3 : ((c!"`xml:\"" ++ body ++ c!"\"`").drop 6).take ((c!"`xml:\"" ++ body ++ c!"\"`").length - 8) = body := by
    have : (c!"`xml:\"" ++ body ++ c!"\"`").length - 8 = body.length := by simp
    rw [this]
    have : (c!"`xml:\"" ++ body ++ c!"\"`").drop 6 = body ++ c!"\"`" := by
      rw [List.append_assoc]; exact List.drop_left' rfl
    rw [this, List.take_left' rfl]
  unfold readTag
  rw [if_pos ⟨h1, h2⟩, h3, h]

omit [Uni] in
theorem tag1 {n : Str} (h : ',' ∉ n) : readTag (c!"`xml:\"" ++ n ++ c!"\"`") = some (n, []) :=
  readTag_eq _ _ _ (splitOn_of_not_mem h)

omit [Uni] in
theorem readLine3 {n t g : Str} (hn : '\t' ∉ n) (ht : '\t' ∉ t) (hg : '\t' ∉ g) :
    readLine (c!"\t" ++ n ++ c!"\t" ++ t ++ c!"\t" ++ g) = (readTag g).map fun tag => ⟨n, t, some tag⟩ := by
  have : c!"\t" ++ n ++ c!"\t" ++ t ++ c!"\t" ++ g = '\t' :: (n ++ '\t' :: (t ++ '\t' :: g)) := by simp
  rw [this]
  simp only [readLine]
  rw [splitOn_append_sep hn, splitOn_append_sep ht, splitOn_of_not_mem hg]
  rfl

omit [Uni] in
theorem readLine2 {n t : Str} (hn : '\t' ∉ n) (ht : '\t' ∉ t) :
    readLine (c!"\t" ++ n ++ c!"\t" ++ t) = some ⟨n, t, none⟩ := by
  have : c!"\t" ++ n ++ c!"\t" ++ t = '\t' :: (n ++ '\t' :: t) := by simp
  rw [this]
  simp only [readLine]
  rw [splitOn_append_sep hn, splitOn_of_not_mem ht]
  rfl

omit [Uni] in
theorem filterMap_lines {α : Type} {l : List α} {g : α → Str} {r : α → Field} (h : ∀ a ∈ l, readLine (g a) = some (r a)) :
    (l.flatMap fun a => [g a]).filterMap readLine = l.map r := by
  induction l with
  | nil => rfl
  | cons a l ih =>
    rw [List.flatMap_cons, List.singleton_append, List.filterMap_cons, h a (by simp), List.map_cons,
      ih fun b hb => h b (by simp [hb])]

omit [Uni] in
theorem untabbed {ls : List Str} (h : ∀ l ∈ ls, ∀ r, l ≠ '\t' :: r) : ls.filterMap readLine = [] := by
  rw [List.filterMap_eq_nil_iff]
  intro l hl
  unfold readLine
  split
  · rename_i r
    exact absurd rfl (h _ hl r)
  · rfl

theorem read_raw [UniLaws] (tree : Tree) (fn : Str) (v : ComplexType) (hfn : '\n' ∉ fn) (h : Readable tree v) :
    read ((C15.goLang tree).text (.complex v) fn) = raw tree fn v := by
  have nn : ∀ {s : Str} (x : Char), x ∈ notInNames → Clean notInNames s → x ∉ s := fun x hx hs => hs x hx
  have gname : ∀ {s : Str} (x : Char), x ∈ notInNames → Sym x → Clean notInNames s → x ∉ goName s :=
    fun x hx hy hs => goName_absent hy (hs x hx)
  have gtype : ∀ {s : Str} (x : Char), x ∈ notInTypes → Sym x → x ∉ c!"*interface{}" → Clean notInTypes s →
      x ∉ rawType tree s :=
    fun x hx hy hb hs => goType_absent hy hb (resolveIn_clean hs h.tree x hx)
  have ptype : ∀ {s : Str} (b : Bool) (x : Char), x ∈ notInTypes → Sym x → x ∉ c!"*interface{}" → x ∉ c!"[]" →
      Clean notInTypes s → x ∉ (if b then c!"[]" else []) ++ rawType tree s := by
    intro s b x hx hy hb hc hs hm
    rcases List.mem_append.1 hm with hm | hm
    · cases b
      · simp at hm
      · exact hc hm
    · exact gtype x hx hy hb hs hm
  obtain ⟨cl, hcl, hcl'⟩ := comment_untabbed fn v.doc hfn
  -- the lines of each part
  have hx : Lines (goXMLNameLine fn v.name) (if fn ≠ v.name then [c!"\tXMLName\txml.Name\t`xml:\"" ++ v.name ++ c!"\"`"] else []) := by
    unfold goXMLNameLine
    split
    · have := Lines.one (a := c!"\tXMLName\txml.Name\t`xml:\"" ++ v.name ++ c!"\"`")
        (by simp [nn '\n' (by decide) h.name])
      simpa using this
    · exact Lines.nil
  have hag : Lines (v.attributeGroup.flatMap (goAttrGroupLine tree))
      (v.attributeGroup.flatMap fun a => [c!"\t" ++ goName a.name ++ c!"\t" ++ rawType tree a.ref]) := by
    refine Lines.flatMap fun a ha => ?_
    exact Lines.one (a := c!"\t" ++ goName a.name ++ c!"\t" ++ rawType tree a.ref) (by
      simp [gname '\n' (by decide) (by decide) (h.agName a ha), gtype '\n' (by decide) (by decide) (by decide) (h.agType a ha)])
  have hat : Lines (v.attributes.flatMap (goAttrLine tree))
      (v.attributes.flatMap fun a => [c!"\t" ++ (goName a.name ++ c!"Attr") ++ c!"\t" ++ rawType tree a.type ++ c!"\t" ++
        (c!"`xml:\"" ++ (a.name ++ c!",attr" ++ (if a.optional then c!",omitempty" else [])) ++ c!"\"`")]) := by
    refine Lines.flatMap fun a ha => ?_
    have := Lines.one (a := c!"\t" ++ (goName a.name ++ c!"Attr") ++ c!"\t" ++ rawType tree a.type ++ c!"\t" ++
        (c!"`xml:\"" ++ (a.name ++ c!",attr" ++ (if a.optional then c!",omitempty" else [])) ++ c!"\"`")) (by
      simp only [List.mem_append, not_or]
      refine ⟨⟨⟨⟨⟨by decide, gname '\n' (by decide) (by decide) (h.atName a ha), by decide⟩, by decide⟩,
        gtype '\n' (by decide) (by decide) (by decide) (h.atType a ha)⟩, by decide⟩, ⟨by decide,
        ⟨nn '\n' (by decide) (h.atName a ha), by decide⟩, ?_⟩, by decide⟩
      split <;> decide)
    simpa [goAttrLine, rawType] using this
  have hgr : Lines (v.groups.flatMap (goGroupLine tree))
      (v.groups.flatMap fun g => [c!"\t" ++ goName g.name ++ c!"\t" ++ ((if g.plural then c!"[]" else []) ++ rawType tree g.ref)]) := by
    refine Lines.flatMap fun a ha => ?_
    have := Lines.one (a := c!"\t" ++ goName a.name ++ c!"\t" ++ ((if a.plural then c!"[]" else []) ++ rawType tree a.ref)) (by
      rw [List.mem_append, not_or]
      exact ⟨by simp [gname '\n' (by decide) (by decide) (h.grName a ha)],
        ptype _ '\n' (by decide) (by decide) (by decide) (by decide) (h.grType a ha)⟩)
    simpa [goGroupLine, rawType, goPlural] using this
  have hel : Lines (v.elements.flatMap (goElemLine tree))
      (v.elements.flatMap fun e => [c!"\t" ++ goName e.name ++ c!"\t" ++
        ((if e.plural then c!"[]" else []) ++ rawType tree e.type) ++ c!"\t" ++ (c!"`xml:\"" ++ e.name ++ c!"\"`")]) := by
    refine Lines.flatMap fun a ha => ?_
    have := Lines.one (a := c!"\t" ++ goName a.name ++ c!"\t" ++ ((if a.plural then c!"[]" else []) ++ rawType tree a.type) ++
        c!"\t" ++ (c!"`xml:\"" ++ a.name ++ c!"\"`")) (by
      intro hm
      rw [List.mem_append, List.mem_append, List.mem_append] at hm
      rcases hm with ((hm | hm) | hm) | hm
      · revert hm; simp [gname '\n' (by decide) (by decide) (h.elName a ha)]
      · exact ptype _ '\n' (by decide) (by decide) (by decide) (by decide) (h.elType a ha) hm
      · revert hm; decide
      · revert hm; simp [nn '\n' (by decide) (h.elName a ha)])
    simpa [goElemLine, rawType, goPlural] using this
  have hbt : ∀ x ∈ notInTypes, Sym x → x ∉ c!"*interface{}" → x ∉ genGoFieldType v.base :=
    fun x hx hy hb => goType_absent hy hb (h.base x hx)
  have hba : Lines (goBaseLine v.base) (if v.base = [] then [] else if isGoBuiltInType v.base then
      [c!"\t" ++ c!"Value" ++ c!"\t" ++ genGoFieldType v.base ++ c!"\t" ++ (c!"`xml:\"" ++ c!",chardata" ++ c!"\"`")]
      else [c!"\t" ++ genGoFieldType v.base]) := by
    unfold goBaseLine
    by_cases hb : v.base = []
    · rw [if_neg (by simpa using hb), if_pos hb]; exact Lines.nil
    · rw [if_pos hb, if_neg hb]
      split
      · have := Lines.one (a := c!"\t" ++ c!"Value" ++ c!"\t" ++ genGoFieldType v.base ++ c!"\t" ++
          (c!"`xml:\"" ++ c!",chardata" ++ c!"\"`")) (by simp [hbt '\n' (by decide) (by decide) (by decide)])
        simpa using this
      · exact Lines.one (by simp [hbt '\n' (by decide) (by decide) (by decide)])
  have hall := (((((hcl.append (Lines.one (a := c!"type " ++ fn ++ c!" struct {") (by simp [hfn]))).append hx).append
    hag).append hat).append hgr).append (hel.append hba) c!"}\n"
  have htext : (C15.goLang tree).text (.complex v) fn =
      ((((((genFieldComment fn v.doc c!"//" ++ (c!"type " ++ fn ++ c!" struct {" ++ c!"\n")) ++ goXMLNameLine fn v.name) ++
        v.attributeGroup.flatMap (goAttrGroupLine tree)) ++ v.attributes.flatMap (goAttrLine tree)) ++
        v.groups.flatMap (goGroupLine tree)) ++ (v.elements.flatMap (goElemLine tree) ++ goBaseLine v.base)) ++ c!"}\n" := by
    simp only [C15.goLang, goDecl, goComplexContent, List.append_assoc]
    rfl
  unfold read
  rw [htext, hall]
  simp only [List.filterMap_append]
  rw [untabbed hcl', filterMap_lines (r := fun a => ⟨goName a.name, rawType tree a.ref, none⟩),
    filterMap_lines (r := fun a => ⟨goName a.name ++ c!"Attr", rawType tree a.type,
      some (a.name, if a.optional then [c!"attr", c!"omitempty"] else [c!"attr"])⟩),
    filterMap_lines (r := fun g => ⟨goName g.name, (if g.plural then c!"[]" else []) ++ rawType tree g.ref, none⟩),
    filterMap_lines (r := fun e => ⟨goName e.name, (if e.plural then c!"[]" else []) ++ rawType tree e.type, some (e.name, [])⟩)]
  · have e1 : ([c!"type " ++ fn ++ c!" struct {"].filterMap readLine) = [] := by
      simp [readLine]
    have e2 : (splitOn '\n' c!"}\n").filterMap readLine = [] := by decide
    have e3 : (if fn ≠ v.name then [c!"\tXMLName\txml.Name\t`xml:\"" ++ v.name ++ c!"\"`"] else []).filterMap readLine =
        if fn ≠ v.name then [⟨c!"XMLName", c!"xml.Name", some (v.name, [])⟩] else [] := by
      split
      · have := readLine3 (n := c!"XMLName") (t := c!"xml.Name") (g := c!"`xml:\"" ++ v.name ++ c!"\"`") (by decide)
          (by decide) (by simp [nn '\t' (by decide) h.name])
        rw [tag1 (nn ',' (by decide) h.name)] at this
        simp only [List.filterMap_cons, List.filterMap_nil]
        have e : c!"\tXMLName\txml.Name\t`xml:\"" ++ v.name ++ c!"\"`" =
          c!"\t" ++ c!"XMLName" ++ c!"\t" ++ c!"xml.Name" ++ c!"\t" ++ (c!"`xml:\"" ++ v.name ++ c!"\"`") := by simp
        rw [e, this]
        rfl
      · rfl
    have e4 : (if v.base = [] then [] else if isGoBuiltInType v.base then
      [c!"\t" ++ c!"Value" ++ c!"\t" ++ genGoFieldType v.base ++ c!"\t" ++ (c!"`xml:\"" ++ c!",chardata" ++ c!"\"`")]
      else [c!"\t" ++ genGoFieldType v.base]).filterMap readLine = (if v.base = [] then [] else if isGoBuiltInType v.base then
        [⟨c!"Value", genGoFieldType v.base, some ([], [c!"chardata"])⟩] else [⟨[], genGoFieldType v.base, none⟩]) := by
      split
      · rfl
      · split
        · have := readLine3 (n := c!"Value") (t := genGoFieldType v.base) (g := c!"`xml:\"" ++ c!",chardata" ++ c!"\"`")
            (by decide) (hbt '\t' (by decide) (by decide) (by decide)) (by decide)
          rw [readTag_eq c!",chardata" [] [c!"chardata"] (by decide)] at this
          simp only [List.filterMap_cons, List.filterMap_nil, this]
          rfl
        · have : readLine (c!"\t" ++ genGoFieldType v.base) = some ⟨[], genGoFieldType v.base, none⟩ := by
            simp only [List.singleton_append, readLine]
            rw [splitOn_of_not_mem (hbt '\t' (by decide) (by decide) (by decide))]
            rfl
          simp only [List.filterMap_cons, List.filterMap_nil, this]
    rw [e1, e2, e3, e4]
    simp only [raw, List.nil_append, List.append_nil, List.append_assoc]
  · intro e he
    rw [readLine3 (gname '\t' (by decide) (by decide) (h.elName e he))
      (ptype _ '\t' (by decide) (by decide) (by decide) (by decide) (h.elType e he))
      (by simp [nn '\t' (by decide) (h.elName e he)]), tag1 (nn ',' (by decide) (h.elName e he))]
    rfl
  · intro g hg
    exact readLine2 (gname '\t' (by decide) (by decide) (h.grName g hg))
      (ptype _ '\t' (by decide) (by decide) (by decide) (by decide) (h.grType g hg))
  · intro a ha
    have ht : splitOn ',' (a.name ++ c!",attr" ++ (if a.optional then c!",omitempty" else [])) =
        a.name :: (if a.optional then [c!"attr", c!"omitempty"] else [c!"attr"]) := by
      rw [List.append_assoc]
      have : c!",attr" ++ (if a.optional then c!",omitempty" else []) =
          ',' :: (c!"attr" ++ (if a.optional then c!",omitempty" else [])) := rfl
      rw [this, splitOn_append_sep (nn ',' (by decide) (h.atName a ha))]
      congr 1
      cases a.optional <;> decide
    rw [readLine3, readTag_eq _ _ _ ht]
    · rfl
    · intro hm
      rcases List.mem_append.1 hm with hm | hm
      · exact gname '\t' (by decide) (by decide) (h.atName a ha) hm
      · revert hm; decide
    · exact gtype '\t' (by decide) (by decide) (by decide) (h.atType a ha)
    · intro hm
      rw [List.mem_append, List.mem_append, List.mem_append, List.mem_append] at hm
      rcases hm with (hm | ((hm | hm) | hm)) | hm
      · revert hm; decide
      · exact nn '\t' (by decide) (h.atName a ha) hm
      · revert hm; decide
      · cases ho : a.optional <;> rw [ho] at hm <;> revert hm <;> decide
      · revert hm; decide
  · intro a ha
    exact readLine2 (gname '\t' (by decide) (by decide) (h.agName a ha))
      (gtype '\t' (by decide) (by decide) (by decide) (h.agType a ha))

/-- The target type of a schema type name. -/
def typeOf (tree : Tree) (s : Str) : Str := Names.goType goBuildinType (Names.meaning tree s)

/-- The fields a complex type must have. -/
def expected (tree : Tree) (fn : Str) (v : ComplexType) : List Field :=
  (if fn ≠ v.name then [⟨c!"XMLName", c!"xml.Name", some (v.name, [])⟩] else []) ++
  v.attributeGroup.map (fun a => ⟨Names.strict a.name, typeOf tree a.ref, none⟩) ++
  v.attributes.map (fun a => ⟨Names.strict a.name ++ c!"Attr", typeOf tree a.type,
    some (a.name, if a.optional then [c!"attr", c!"omitempty"] else [c!"attr"])⟩) ++
  v.groups.map (fun g => ⟨Names.strict g.name, (if g.plural then c!"[]" else []) ++ typeOf tree g.ref, none⟩) ++
  v.elements.map (fun e => ⟨Names.strict e.name, (if e.plural then c!"[]" else []) ++ typeOf tree e.type, some (e.name, [])⟩) ++
  (if v.base = [] then [] else if v.base ∈ goBuildinType then [⟨c!"Value", Names.goType goBuildinType v.base, some ([], [c!"chardata"])⟩]
    else [⟨[], Names.goType goBuildinType v.base, none⟩])

theorem expected_raw [UniLaws] (tree : Tree) (fn : Str) (v : ComplexType) : expected tree fn v = raw tree fn v := by
  simp only [expected, raw, typeOf, rawType, Names.go_name, Names.go_type, Names.meaning_eq, isGoBuiltInType, List.contains_iff_mem]

/-- C17, for every name the struct may get and every documentation. -/
theorem read_complex [UniLaws] (tree : Tree) (fn : Str) (v : ComplexType) (hfn : '\n' ∉ fn) (h : Readable tree v) :
    read ((C15.goLang tree).text (.complex v) fn) = expected tree fn v := by
  rw [expected_raw]
  exact read_raw tree fn v hfn h

/-- C17, in the generated file: the body is the declarations of `named` (see C15), and each complex type among them reads
back. -/
theorem in_file [UniLaws] (tree : Tree) :
    (goGen tree).field = (Decl.named (C15.goLang tree) [] (Decl.declared (C15.goLang tree) (Decl.nodes tree))).flatMap
      (fun x => (C15.goLang tree).text x.1 x.2) ∧
    ∀ x ∈ Decl.named (C15.goLang tree) [] (Decl.declared (C15.goLang tree) (Decl.nodes tree)), ∀ v, x.1 = .complex v →
      Readable tree v → read ((C15.goLang tree).text x.1 x.2) = expected tree x.2 v := by
  refine ⟨?_, ?_⟩
  · rw [C15.go, Decl.render_named]
  · intro x hx v hv h
    have hn : '\n' ∉ x.2 := Decl.named_absent (by decide) hx (by
      rw [hv]; exact goName_absent (by decide) (h.name _ (by decide)))
    rw [hv]
    exact read_complex tree x.2 v hn h

/-- A complex type with everything. -/
def sample : ComplexType :=
  { name := c!"my-type", doc := c!"two\nlines", base := c!"string"
    attributes := [{ name := c!"id", type := c!"string" }, { name := c!"opt", type := c!"int", optional := true }]
    elements := [{ name := c!"item", type := c!"tns:Item", plural := true }]
    groups := [{ name := c!"g", ref := c!"G" }]
    attributeGroup := [{ name := c!"ag", ref := c!"AG" }] }

/-- `sample` is readable, and this is what is read. -/
example : Readable [] sample := by
  constructor <;> decide

example : @expected asciiUni [] c!"Mytype" sample =
    [⟨c!"XMLName", c!"xml.Name", some (c!"my-type", [])⟩, ⟨c!"Ag", c!"*AG", none⟩,
     ⟨c!"IdAttr", c!"string", some (c!"id", [c!"attr"])⟩, ⟨c!"OptAttr", c!"int", some (c!"opt", [c!"attr", c!"omitempty"])⟩,
     ⟨c!"G", c!"*G", none⟩, ⟨c!"Item", c!"[]*Item", some (c!"item", [])⟩,
     ⟨c!"Value", c!"string", some ([], [c!"chardata"])⟩] := by decide +kernel

end Xgen.C17
