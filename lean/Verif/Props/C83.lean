import Verif.Props.C59

/-! # C83: the choice of namespace prefixes

A schema author may call the name space of XML Schema `xs` or `xsd`, and the target name space `tns` or nothing at all.  In a project of
one file the choice is immaterial for the values of type, base, itemType and memberTypes.  It is not for `ref` (the prefix becomes a part
of the name, see C18), nor in projects of several files, where all files share one table of prefixes. -/

namespace Xgen.C83
open Core C40 C57 C59

/-! ## Specification -/

/-- Names separated by blanks. -/
def blanks : List Str → Str
  | [] => []
  | [a] => a
  | a :: b :: l => a ++ ' ' :: blanks (b :: l)

/-- The attributes whose value is the name of a type. -/
def typeAttrs : List Str := [c!"type", c!"base", c!"itemType"]

/-- An attribute without the prefixes in front of the types it names. -/
def unprefix (a : Attr) : Attr :=
  { a with value :=
      if a.local ∈ typeAttrs then Names.localPart a.value
      else if a.local = c!"memberTypes" then blanks ((splitOn ' ' a.value).map Names.localPart)
      else a.value }

/-- The contents of a simple type without prefixes. -/
def unprefixBody : SimpleBody → SimpleBody
  | .restriction as fs => .restriction (as.map unprefix) fs
  | .list as => .list (as.map unprefix)
  | .union as => .union (as.map unprefix)

/-- Contents without prefixes. -/
def unprefixContent : Content → Content
  | .nil => .nil
  | .elem as k => .elem (as.map unprefix) (unprefixContent k)
  | .anon as cas b k => .anon (as.map unprefix) (cas.map unprefix) (unprefixContent b) (unprefixContent k)
  | .elemAnon as ras fs k => .elemAnon (as.map unprefix) (ras.map unprefix) fs (unprefixContent k)
  | .choice as b k => .choice (as.map unprefix) (unprefixContent b) (unprefixContent k)
  | .group as k => .group (as.map unprefix) (unprefixContent k)
  | .attrGroup as k => .attrGroup (as.map unprefix) (unprefixContent k)
  | .attribute as k => .attribute (as.map unprefix) (unprefixContent k)
  | .attrAnon as b k => .attrAnon (as.map unprefix) (unprefixBody b) (unprefixContent k)
  | .ext as b k => .ext (as.map unprefix) (unprefixContent b) (unprefixContent k)
  | .restr as fs b k => .restr (as.map unprefix) fs (unprefixContent b) (unprefixContent k)

/-- A declaration without prefixes. -/
def unprefixDecl : Decl → Decl
  | .simple as b => .simple (as.map unprefix) (unprefixBody b)
  | .complex as b => .complex (as.map unprefix) (unprefixContent b)
  | .element as => .element (as.map unprefix)
  | .anon as cas b => .anon (as.map unprefix) (cas.map unprefix) (unprefixContent b)
  | .elemAnon as ras fs => .elemAnon (as.map unprefix) (ras.map unprefix) fs
  | .group as b => .group (as.map unprefix) (unprefixContent b)
  | .attrGroup as b => .attrGroup (as.map unprefix) (unprefixContent b)
  | .attribute as => .attribute (as.map unprefix)
  | .attrAnon as ras fs => .attrAnon (as.map unprefix) (ras.map unprefix) fs

/-- Two schemas with the same declarations, but for the prefixes in front of the types they name. -/
def Respelled (ds ds' : List Decl) : Prop := ds.map unprefixDecl = ds'.map unprefixDecl

/-! ## Proof -/

theorem blanks_split (l : List Str) (hl : l ≠ []) (h : ∀ x ∈ l, ' ' ∉ x) : splitOn ' ' (blanks l) = l := by
  induction l with
  | nil => exact absurd rfl hl
  | cons a l ih =>
    cases l with
    | nil => exact splitOn_of_not_mem (h a (by simp))
    | cons b l => rw [blanks, splitOn_append_sep (h a (by simp)), ih (by simp) (fun x hx => h x (by simp [hx]))]

theorem mem_localPart {c : Char} {v : Str} (h : c ∈ Names.localPart v) : c ∈ v := by
  unfold Names.localPart at h
  split at h
  · exact (List.dropWhile_suffix _).subset (List.mem_of_mem_tail h)
  · exact h

theorem find_unprefix (as : List Attr) (n : Str) : (as.map unprefix).find? (fun a => a.local = n) = (as.find? fun a => a.local = n).map unprefix := by
  induction as with
  | nil => rfl
  | cons a as ih =>
    rw [List.map_cons, List.find?_cons, List.find?_cons, ih]
    rw [show (unprefix a).local = a.local from rfl]
    cases decide (a.local = n) <;> rfl

theorem attr_other (as : List Attr) {n : Str} (h1 : n ∉ typeAttrs) (h2 : n ≠ c!"memberTypes") : attr? (as.map unprefix) n = attr? as n := by
  unfold attr?
  rw [find_unprefix]
  cases e : as.find? (fun a => a.local = n) with
  | none => rfl
  | some a =>
    have hn : a.local = n := by simpa using List.find?_some e
    simp only [Option.map_some, unprefix, hn, h1, h2, if_false]

theorem attr_type (as : List Attr) {n : Str} (h : n ∈ typeAttrs) : attr? (as.map unprefix) n = (attr? as n).map Names.localPart := by
  unfold attr?
  rw [find_unprefix]
  cases e : as.find? (fun a => a.local = n) with
  | none => rfl
  | some a =>
    have hn : a.local = n := by simpa using List.find?_some e
    simp only [Option.map_some, unprefix, hn, h, if_true]

theorem attr_members (as : List Attr) : attr? (as.map unprefix) c!"memberTypes" =
    (attr? as c!"memberTypes").map fun v => blanks ((splitOn ' ' v).map Names.localPart) := by
  unfold attr?
  rw [find_unprefix]
  cases e : as.find? (fun a => a.local = c!"memberTypes") with
  | none => rfl
  | some a =>
    have hn : a.local = c!"memberTypes" := by simpa using List.find?_some e
    have h : c!"memberTypes" ∉ typeAttrs := by decide
    simp only [Option.map_some, unprefix, hn, h, if_true, if_false]

theorem ref_same (as : List Attr) : attr? (as.map unprefix) c!"ref" = attr? as c!"ref" := attr_other as (by decide) (by decide)
theorem name_same (as : List Attr) : nameOf (as.map unprefix) = nameOf as := by
  unfold nameOf
  rw [ref_same, attr_other as (n := c!"name") (by decide) (by decide)]
theorem repeated_same (as : List Attr) : repeated (as.map unprefix) = repeated as := by
  unfold repeated
  rw [attr_other as (n := c!"maxOccurs") (by decide) (by decide)]

/-- The meaning of a type does not depend on its prefix. -/
def Blunt (ty : Str → Str) : Prop := ∀ v, ty (Names.localPart v) = ty v

section
variable {ty : Str → Str} (hty : Blunt ty)
include hty

theorem element_same (p : Bool) (as : List Attr) : elementOf ty p (as.map unprefix) = elementOf ty p as := by
  unfold elementOf
  rw [name_same, ref_same, repeated_same, attr_type as (n := c!"type") (by decide), attr_other as (n := c!"unbounded") (by decide) (by decide)]
  cases attr? as c!"ref" with
  | some r => rfl
  | none =>
    cases attr? as c!"type" with
    | none => rfl
    | some t => simp only [Option.map_some, Option.none_or, hty t]

theorem base_same (ras : List Attr) : ((attr? (ras.map unprefix) c!"base").map fun t => ty (ty t)) = (attr? ras c!"base").map fun t => ty (ty t) := by
  rw [attr_type ras (by decide), Option.map_map]
  cases attr? ras c!"base" with
  | none => rfl
  | some t => simp only [Option.map_some, Function.comp_apply, hty t]

theorem elemAnon_same (p : Bool) (as ras : List Attr) : elemAnonOf ty p (as.map unprefix) (ras.map unprefix) = elemAnonOf ty p as ras := by
  unfold elemAnonOf inlineType
  rw [element_same hty, base_same hty]

theorem attribute_same (as : List Attr) : attributeOf ty (as.map unprefix) = attributeOf ty as := by
  unfold attributeOf
  rw [name_same, ref_same, attr_type as (n := c!"type") (by decide), attr_other as (n := c!"use") (by decide) (by decide)]
  cases attr? as c!"ref" with
  | some r => rfl
  | none =>
    cases attr? as c!"type" with
    | none => rfl
    | some t => simp only [Option.map_some, Option.none_or, hty t]

theorem item_same (las : List Attr) : (attr? (las.map unprefix) c!"itemType").map ty = (attr? las c!"itemType").map ty := by
  rw [attr_type las (by decide), Option.map_map]
  cases attr? las c!"itemType" with
  | none => rfl
  | some t => simp only [Option.map_some, Function.comp_apply, hty t]

theorem attrAnon_same (as : List Attr) (b : SimpleBody) : attrAnonOf ty (as.map unprefix) (unprefixBody b) = attrAnonOf ty as b := by
  unfold attrAnonOf
  rw [attribute_same hty]
  cases b with
  | restriction ras fs => simp only [unprefixBody, base_same hty]
  | list las => simp only [unprefixBody, item_same hty]
  | union uas => rfl

omit hty in
theorem attrGroup_same (as : List Attr) : attrGroupOf ty (as.map unprefix) = attrGroupOf ty as := by
  unfold attrGroupOf
  rw [name_same, ref_same]

omit hty in
theorem group_same (p : Bool) (as : List Attr) : groupOf ty p (as.map unprefix) = groupOf ty p as := by
  unfold groupOf
  rw [name_same, ref_same, attr_other as (n := c!"maxOccurs") (by decide) (by decide)]

theorem elements_same (b : Content) : ∀ p, elements ty p (unprefixContent b) = elements ty p b := by
  induction b <;> intro p <;> simp only [unprefixContent, elements, element_same hty, elemAnon_same hty, repeated_same, *]

omit hty in
theorem groups_same (b : Content) : ∀ p, groups ty p (unprefixContent b) = groups ty p b := by
  induction b <;> intro p <;> simp only [unprefixContent, groups, group_same, repeated_same, *]

theorem attributes_same (b : Content) : attributes ty (unprefixContent b) = attributes ty b := by
  induction b <;> simp_all [unprefixContent, attributes, attribute_same, attrAnon_same]

omit hty in
theorem attrGroups_same (b : Content) : attrGroups ty (unprefixContent b) = attrGroups ty b := by
  induction b <;> simp_all [unprefixContent, attrGroups, attrGroup_same]

theorem bases_same (b : Content) : bases ty (unprefixContent b) = bases ty b := by
  induction b with
  | ext as b k ihb ihk => rw [unprefixContent, bases, bases, base_same hty, ihb, ihk]
  | _ => simp_all [unprefixContent, bases]

theorem complex_same (p : Bool) (n : Str) (b : Content) : complexOf ty p n (unprefixContent b) = complexOf ty p n b := by
  unfold complexOf extend
  rw [elements_same hty, groups_same, attributes_same hty, attrGroups_same, bases_same hty]

theorem nested_same (b : Content) : ∀ p, nested ty p (unprefixContent b) = nested ty p b := by
  induction b <;> intro p <;> simp only [unprefixContent, nested, complex_same hty, repeated_same, name_same, *]

omit hty in
theorem localPart_twice (v : Str) : Names.localPart (Names.localPart v) = Names.localPart v := by
  rw [← Names.localPart_eq, ← Names.localPart_eq, C02.trim_idem]

theorem simple_same (as : List Attr) (b : SimpleBody) : simpleOf ty (as.map unprefix) (unprefixBody b) = simpleOf ty as b := by
  cases b with
  | restriction ras fs => simp only [unprefixBody, simpleOf, name_same, base_same hty]
  | list las => simp only [unprefixBody, simpleOf, name_same, item_same hty]
  | union uas =>
    simp only [unprefixBody, simpleOf, name_same, attr_members]
    cases attr? uas c!"memberTypes" with
    | none => rfl
    | some v =>
      have h : splitOn ' ' (blanks ((splitOn ' ' v).map Names.localPart)) = (splitOn ' ' v).map Names.localPart := by
        refine blanks_split _ (by simpa using splitOn_ne_nil ' ' v) fun x hx => ?_
        obtain ⟨y, hy, rfl⟩ := List.mem_map.1 hx
        exact fun hm => not_mem_of_mem_splitOn hy (mem_localPart hm)
      simp only [Option.map_some, Option.getD_some, h, List.foldl_map, localPart_twice, hty _]

theorem nodes_same (d : Decl) : (unprefixDecl d).nodes ty = d.nodes ty := by
  cases d with
  | simple as b => simp only [unprefixDecl, Core.Decl.nodes, simple_same hty]
  | complex as b => simp only [unprefixDecl, Core.Decl.nodes, nested_same hty, complex_same hty, name_same]
  | element as => simp only [unprefixDecl, Core.Decl.nodes, element_same hty]
  | anon as cas b => simp only [unprefixDecl, Core.Decl.nodes, nested_same hty, complex_same hty, name_same, element_same hty]
  | elemAnon as ras fs => simp only [unprefixDecl, Core.Decl.nodes, elemAnon_same hty]
  | group as b => simp only [unprefixDecl, Core.Decl.nodes, group_same, elements_same hty, groups_same]
  | attrGroup as b => simp only [unprefixDecl, Core.Decl.nodes, attrGroups_same, attrGroup_same, attributes_same hty]
  | «attribute» as => simp only [unprefixDecl, Core.Decl.nodes, attribute_same hty]
  | attrAnon as ras fs =>
    have := attrAnon_same hty as (.restriction ras fs)
    rw [unprefixBody] at this
    simp only [unprefixDecl, Core.Decl.nodes, this]

end

theorem tree_unprefix {ref : Tree → Str → Str} (h : ∀ t, Blunt (ref t)) (ds : List Decl) : ∀ t,
    treeOf ref t (ds.map unprefixDecl) = treeOf ref t ds := by
  induction ds with
  | nil => exact fun _ => rfl
  | cons d ds ih =>
    intro t
    rw [List.map_cons, treeOf, treeOf, ih, nodes_same (h t)]

theorem typeRef_blunt (lang : Str) (extract : Bool) (t : Tree) : Blunt (typeRef lang extract t) := by
  intro v
  unfold typeRef
  rw [localPart_twice]

/-- The translation does not depend on the prefixes. -/
theorem tree_respelled (lang : Str) (extract : Bool) {ds ds' : List Decl} (h : Respelled ds ds') :
    treeOf (typeRef lang extract) [] ds = treeOf (typeRef lang extract) [] ds' := by
  rw [← tree_unprefix (typeRef_blunt lang extract), ← tree_unprefix (typeRef_blunt lang extract) ds', h]

/-! ## C83 -/

variable [Uni] [UniLaws]

/-- C83 for one file without documentation: the same tree, and so the same file.  Missing: references (`ref_not`) and several files
(`shared_prefixes_not`), for which it is false. -/
theorem same_tree_partial (W W' : World) (cfg : Cfg) {toks toks' : List Token} (hf : W.fs.get? cfg.filePath = some (.file toks))
    (hf' : W'.fs.get? cfg.filePath = some (.file toks')) (hn : C32.NamesOk toks) (hn' : C32.NamesOk toks') {as as' : List Attr}
    {ds ds' : List Decl} (h : Respelled ds ds') (ht : skeleton toks = skeleton (schemaTokens as ds))
    (ht' : skeleton toks' = skeleton (schemaTokens as' ds')) (sh : Shared) (ha : Alone W cfg sh) (ha' : Alone W' cfg sh)
    (hd : Regular (typeRef cfg.lang cfg.extract) [] ds) (hd' : Regular (typeRef cfg.lang cfg.extract) [] ds') :
    ∃ t s s', Like (beginParse cfg sh) s ∧ Like (beginParse cfg sh) s' ∧ Parse W cfg sh = finish W cfg t s ∧
      Parse W' cfg sh = finish W' cfg t s' := by
  obtain ⟨s, h1, h2⟩ := schema_tree W cfg toks hf hn as ds ht sh ha hd
  obtain ⟨s', h3, h4⟩ := schema_tree W' cfg toks' hf' hn' as' ds' ht' sh ha' hd'
  exact ⟨_, s, s', h1, h3, h2, by rw [h4, tree_respelled _ _ h]⟩

/-- C83 for documents with documentation anywhere: trees that differ in documentation only. -/
theorem same_up_to_documentation_partial {W W' : World} {cfg : Cfg} {sh sh' : Shared} {ds ds' : List Decl} {toks toks' : List Token}
    (hd : Document W cfg sh ds toks) (hd' : Document W' cfg sh' ds' toks') (h : Respelled ds ds') :
    ∃ t t' s s', bare t = bare t' ∧ s.outputs = sh.outputs ∧ s'.outputs = sh'.outputs ∧ Parse W cfg sh = finish W cfg t s ∧
      Parse W' cfg sh' = finish W' cfg t' s' := by
  obtain ⟨t, s, h1, h2, -, h3⟩ := hd.tree
  obtain ⟨t', s', k1, k2, -, k3⟩ := hd'.tree
  exact ⟨t, t', s, s', by rw [h2, k2, tree_respelled _ _ h], h1, k1, h3, k3⟩

/-! ## Example -/

section
open Ex

/-- A schema with two prefixes to choose. -/
def spelt (x t : String) : List Token :=
  [on "schema" [("xmlns:" ++ x, "http://www.w3.org/2001/XMLSchema"), ("xmlns:" ++ t, "urn:u")]] ++
  [on "simpleType" [("name", "Size")], on "restriction" [("base", x ++ ":int")]] ++ leaf "minInclusive" [("value", "1")] ++
  [off "restriction", off "simpleType"] ++
  [on "simpleType" [("name", "Any")]] ++ leaf "union" [("memberTypes", t ++ ":Size " ++ x ++ ":string")] ++ [off "simpleType"] ++
  [on "complexType" [("name", "Car")], on "sequence" []] ++ leaf "element" [("name", "size"), ("type", t ++ ":Size")] ++ [off "sequence"] ++
  leaf "attribute" [("name", "id"), ("type", x ++ ":ID")] ++ [off "complexType", off "schema"]

/-- Its declarations. -/
def speltDecls (x t : String) : List Decl :=
  let a (l : List (String × String)) : List Attr := l.map fun x => { «local» := x.1.toList, value := x.2.toList }
  [ .simple (a [("name", "Size")]) (.restriction (a [("base", x ++ ":int")]) [⟨c!"minInclusive", a [("value", "1")]⟩]),
    .simple (a [("name", "Any")]) (.union (a [("memberTypes", t ++ ":Size " ++ x ++ ":string")])),
    .complex (a [("name", "Car")]) (.elem (a [("name", "size"), ("type", t ++ ":Size")])
      (.attribute (a [("name", "id"), ("type", x ++ ":ID")]) .nil)) ]

/-- Its root tag. -/
def speltRoot (x t : String) : List Attr :=
  [{ space := c!"xmlns", «local» := x.toList, value := c!"http://www.w3.org/2001/XMLSchema" },
   { space := c!"xmlns", «local» := t.toList, value := c!"urn:u" }]

/-- The configuration of the example. -/
def speltCfg : Cfg := { filePath := c!"a.xsd", outputDir := c!"out", lang := c!"Go" }

omit [Uni] [UniLaws] in
theorem spelt_respelled : Respelled (speltDecls "xs" "tns") (speltDecls "xsd" "u") := by
  unfold Respelled
  rfl

omit [Uni] [UniLaws] in
/-- The same file is written for either choice of prefixes. -/
theorem spelt_same : ∃ t s s', Like (beginParse speltCfg {}) s ∧ Like (beginParse speltCfg {}) s' ∧
    @Parse asciiUni (world [("a.xsd", spelt "xs" "tns")]) speltCfg {} = @finish asciiUni (world [("a.xsd", spelt "xs" "tns")]) speltCfg t s ∧
    @Parse asciiUni (world [("a.xsd", spelt "xsd" "u")]) speltCfg {} = @finish asciiUni (world [("a.xsd", spelt "xsd" "u")]) speltCfg t s' :=
  @same_tree_partial asciiUni asciiUniLaws (world [("a.xsd", spelt "xs" "tns")]) (world [("a.xsd", spelt "xsd" "u")]) speltCfg _ _ rfl rfl
    (by decide +kernel) (by decide +kernel) (speltRoot "xs" "tns") (speltRoot "xsd" "u") _ _ (@spelt_respelled) (by decide +kernel)
    (by decide +kernel) {} (.inr ⟨rfl, rfl, by decide, rfl⟩) (.inr ⟨rfl, rfl, by decide, rfl⟩) (by decide +kernel) (by decide +kernel)

omit [Uni] [UniLaws] in
example : @Document asciiUni (world [("a.xsd", spelt "xsd" "u")]) speltCfg {} (speltDecls "xsd" "u") (spelt "xsd" "u") :=
  @Document.mk asciiUni _ _ _ _ _ rfl (by decide +kernel) ⟨speltRoot "xsd" "u", by decide +kernel⟩ (by decide +kernel)
    (.inr ⟨rfl, rfl, by decide, rfl⟩) (by decide +kernel) rfl rfl fun _ => rfl

example : treeOf (typeRef c!"Go" false) [] (speltDecls "xs" "tns") =
    [ some (.simple { name := c!"Size", base := c!"int" }),
      some (.simple { name := c!"Any", union := true, memberTypes := [(c!"Size", c!"int"), (c!"string", c!"string")] }),
      some (.complex { name := c!"Car", elements := [{ name := c!"size", type := c!"int" }]
                       attributes := [{ name := c!"id", type := c!"string", optional := true }] }) ] := by decide +kernel

/-! ## The limits -/

/-- A schema with a reference. -/
def referring (t : String) : List Token :=
  [on "schema" [("xmlns:xs", "http://www.w3.org/2001/XMLSchema"), ("xmlns:" ++ t, "urn:u")]] ++
  leaf "element" [("name", "size"), ("type", "xs:int")] ++
  [on "complexType" [("name", "Car")], on "sequence" []] ++ leaf "element" [("ref", t ++ ":size")] ++
  [off "sequence", off "complexType", off "schema"]

/-- The contents of the files written. -/
def written (o : Out Shared Tree) : List Str := o.state.outputs.map (·.2)

omit [Uni] [UniLaws] in
/-- The prefix of a reference shows in the generated file. -/
theorem ref_not : written (Ex.parse (world [("a.xsd", referring "t")]) "a.xsd" "Go") ≠ written (Ex.parse (world [("a.xsd", referring "u")]) "a.xsd" "Go") ∧
    c!"\tTSize\tint\t`xml:\"t:size\"`" ∈ splitOn '\n' (written (Ex.parse (world [("a.xsd", referring "t")]) "a.xsd" "Go")).flatten ∧
    c!"\tUSize\tint\t`xml:\"u:size\"`" ∈ splitOn '\n' (written (Ex.parse (world [("a.xsd", referring "u")]) "a.xsd" "Go")).flatten := by
  decide +kernel

/-- A schema that uses two types of an imported name space. -/
def importer : List Token :=
  [on "schema" [("xmlns:xs", "http://www.w3.org/2001/XMLSchema"), ("xmlns:a", "urn:one")]] ++
  leaf "import" [("namespace", "urn:one"), ("schemaLocation", "one.xsd")] ++
  [on "complexType" [("name", "Car")], on "sequence" []] ++ leaf "element" [("name", "first"), ("type", "a:T")] ++
  leaf "element" [("name", "second"), ("type", "a:S")] ++ [off "sequence", off "complexType", off "schema"]

/-- The imported schema, which declares a prefix for a third name space, without using it. -/
def imported (p : String) : List Token :=
  [on "schema" [("xmlns:xs", "http://www.w3.org/2001/XMLSchema"), ("xmlns:" ++ p, "urn:two")]] ++
  [on "simpleType" [("name", "T")], on "restriction" [("base", "xs:string")]] ++ leaf "length" [("value", "1")] ++ [off "restriction", off "simpleType"] ++
  [on "simpleType" [("name", "S")], on "restriction" [("base", "xs:int")]] ++ leaf "minInclusive" [("value", "1")] ++
  [off "restriction", off "simpleType", off "schema"]

/-- The project. -/
def project (p : String) : World := world [("m.xsd", importer), ("one.xsd", imported p)]

omit [Uni] [UniLaws] in
/-- C83 fails for projects of several files: the prefixes of an imported file replace those of the importing file.  With the prefix `b`
in the imported file both types are found; with the prefix `a`, which the importing file uses for another name space, the second is not. -/
theorem shared_prefixes_not :
    written (Ex.parse (project "a") "m.xsd" "Go") ≠ written (Ex.parse (project "b") "m.xsd" "Go") ∧
    c!"\tSecond\tint\t`xml:\"second\"`" ∈ splitOn '\n' (written (Ex.parse (project "b") "m.xsd" "Go")).flatten ∧
    c!"\tSecond\t*S\t`xml:\"second\"`" ∈ splitOn '\n' (written (Ex.parse (project "a") "m.xsd" "Go")).flatten ∧
    c!"\tFirst\tstring\t`xml:\"first\"`" ∈ splitOn '\n' (written (Ex.parse (project "a") "m.xsd" "Go")).flatten := by
  decide +kernel

end

end Xgen.C83
