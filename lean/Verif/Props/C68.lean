import Verif.Props.C51
import Verif.Props.C59

/-! # C68: elements with anonymous simple types

`<element name="size"><simpleType><restriction base="xs:int"> … </restriction></simpleType></element>` declares an element of a
type that restricts int.  The parser gives it the type int when the restriction has a facet, at the top level and inside
named complex types; the rest of the schema is then read as if the element were an ordinary one, unless something is affected by
what such elements leave on the stacks of the parser (`Core.Safe`).  In the other places, and with other simple types, the
property fails; the last section has the witnesses. -/

namespace Xgen.C68
open Core C40
variable [Uni] [UniLaws]

/-! ## The type -/

/-- Types of the target languages are not renamed when they are looked up again - except in Java, where anyURI becomes QName, and
QName becomes String. -/
theorem builtin_again {lang v b : Str} (hl : lang ∈ C41.langs) (h : getBuildInTypeByLang v lang = some b)
    (hj : ¬ (lang = c!"Java" ∧ b = c!"QName")) : (getBuildInTypeByLang (Names.localPart b) lang).getD b = b ∧ Names.localPart b = b := by
  obtain ⟨e, he, ht⟩ := C06.column h
  have key : ∀ l ∈ C41.langs, ∀ e ∈ buildInTypes, (e.2[langIndex l]?).all (fun b => (l = c!"Java" ∧ b = c!"QName") ∨
      ((getBuildInTypeByLang (Names.localPart b) l).getD b = b ∧ Names.localPart b = b)) = true := by decide +kernel
  have := key lang hl e he
  rw [ht] at this
  simp only [Option.all_some, decide_eq_true_eq] at this
  exact this.resolve_left hj

/-- An element that restricts a built-in type has this type, unless a declaration has taken the name of the type in the target
language. -/
theorem restricts_builtin {lang : Str} {extract : Bool} {t : Tree} {ras : List Attr} {v b : Str} (hl : lang ∈ C41.langs)
    (hv : attr? ras c!"base" = some v) (h : getBuildInTypeByLang (Names.localPart v) lang = some b)
    (hj : ¬ (lang = c!"Java" ∧ b = c!"QName")) (hn : ∀ n ∈ t, ∀ u, C07.declares n ≠ some (b, u)) :
    inlineType (typeRef lang extract t) ras = b := by
  have h1 : typeRef lang extract t v = b := by unfold typeRef; rw [h]
  obtain ⟨h3, h4⟩ := builtin_again hl h hj
  have h2 : typeRef lang extract t b = b := by
    unfold typeRef
    cases e : getBuildInTypeByLang (Names.localPart b) lang with
    | some c => rw [e] at h3; exact h3
    | none =>
      rw [h4]
      have : (t.filterMap C07.declares).find? (fun d => d.1 = b) = none := by
        rw [List.find?_eq_none]
        rintro ⟨a, u⟩ hm ha
        simp only [decide_eq_true_eq] at ha
        obtain ⟨n, hn', e⟩ := List.mem_filterMap.1 hm
        exact hn n hn' u (by rw [e, ha])
      rw [this]
  unfold inlineType
  rw [hv, Option.map_some, Option.getD_some, h1, h2, h2]

omit [Uni] [UniLaws] in
/-- An element that restricts a type declared before has the type this one stands for, if that is not looked up further. -/
theorem restricts_declared {lang : Str} {extract : Bool} {t : Tree} {ras : List Attr} {v b : Str}
    (hv : attr? ras c!"base" = some v) (h : typeRef lang extract t v = b) (hb : typeRef lang extract t b = b) :
    inlineType (typeRef lang extract t) ras = b := by
  unfold inlineType
  rw [hv, Option.map_some, Option.getD_some, h, hb, hb]

/-! ## Its place -/

omit [Uni] [UniLaws] in
theorem treeOf_append (ref : Tree → Str → Str) (pre post : List Decl) (t : Tree) :
    treeOf ref t (pre ++ post) = treeOf ref (treeOf ref t pre) post := by
  induction pre generalizing t with
  | nil => rfl
  | cons d ds ih => exact ih _

omit [Uni] [UniLaws] in
theorem treeOf_prefix (ref : Tree → Str → Str) (ds : List Decl) (t : Tree) : ∃ r, treeOf ref t ds = t ++ r := by
  induction ds generalizing t with
  | nil => exact ⟨[], (List.append_nil t).symm⟩
  | cons d ds ih =>
    obtain ⟨r, h⟩ := ih (t ++ (d.nodes (ref t)).map some)
    exact ⟨_, by rw [treeOf, h, List.append_assoc]⟩

/-- The elements with anonymous restrictions declared directly in contents: whether a choice around them repeats, their tag, and that of
the restriction. -/
def inlines : Bool → Content → List (Bool × List Attr × List Attr)
  | _, .nil => []
  | p, .elem _ k => inlines p k
  | p, .anon _ _ _ k => inlines p k
  | p, .elemAnon as ras _ k => (p, as, ras) :: inlines p k
  | p, .choice as b k => inlines (repeated as || p) b ++ inlines p k
  | p, .group _ k => inlines p k
  | p, .attrGroup _ k => inlines p k
  | p, .attribute _ k => inlines p k
  | p, .attrAnon _ _ k => inlines p k
  | p, .ext _ b k => inlines p b ++ inlines p k
  | p, .restr _ _ b k => inlines p b ++ inlines p k

omit [Uni] [UniLaws] in
theorem inlines_elements (ty : Str → Str) (b : Content) : ∀ p, ∀ x ∈ inlines p b, elemAnonOf ty x.1 x.2.1 x.2.2 ∈ elements ty p b := by
  induction b with
  | nil => intro p x hx; cases hx
  | elem as k ih => intro p x hx; exact List.mem_cons_of_mem _ (ih p x hx)
  | anon as cas b k ihb ih => intro p x hx; exact List.mem_cons_of_mem _ (ih p x hx)
  | elemAnon as ras fs k ih =>
    intro p x hx
    rcases List.mem_cons.1 hx with rfl | hx
    · exact List.mem_cons_self
    · exact List.mem_cons_of_mem _ (ih p x hx)
  | group as k ih => exact ih
  | attrGroup as k ih => exact ih
  | «attribute» as k ih => exact ih
  | attrAnon as b k ih => exact ih
  | choice as b k ihb ih =>
    intro p x hx
    exact List.mem_append.2 ((List.mem_append.1 hx).imp (ihb _ x) (ih p x))
  | ext as b k ihb ih =>
    intro p x hx
    exact List.mem_append.2 ((List.mem_append.1 hx).imp (ihb _ x) (ih p x))
  | restr as fs b k ihb ih =>
    intro p x hx
    exact List.mem_append.2 ((List.mem_append.1 hx).imp (ihb _ x) (ih p x))

/-- A name and a type occur among elements. -/
def Has (n t : Str) (es : List Element) : Prop := ∃ e ∈ es, e.name = n ∧ e.type = t

omit [Uni] [UniLaws] in
theorem has_add (e : Element) (es : List Element) : Has e.name e.type (addElement e es) := by
  induction es with
  | nil => exact ⟨e, List.mem_cons_self, rfl, rfl⟩
  | cons x es ih =>
    unfold addElement
    split
    · rename_i h
      split
      · rename_i h2
        exact ⟨_, List.mem_cons_self, h, h2⟩
      · exact ⟨e, by simp, rfl, rfl⟩
    · obtain ⟨y, hy, h⟩ := ih
      exact ⟨y, List.mem_cons_of_mem _ hy, h⟩

omit [Uni] [UniLaws] in
theorem Has.add {n t : Str} {es : List Element} (h : Has n t es) (e : Element) : Has n t (addElement e es) := by
  induction es with
  | nil => obtain ⟨x, hx, _⟩ := h; cases hx
  | cons x es ih =>
    obtain ⟨y, hy, h1, h2⟩ := h
    unfold addElement
    split
    · split
      · rcases List.mem_cons.1 hy with rfl | hy
        · exact ⟨_, List.mem_cons_self, h1, h2⟩
        · exact ⟨y, List.mem_cons_of_mem _ hy, h1, h2⟩
      · exact ⟨y, List.mem_append_left _ hy, h1, h2⟩
    · rcases List.mem_cons.1 hy with rfl | hy
      · exact ⟨_, List.mem_cons_self, h1, h2⟩
      · obtain ⟨z, hz, h⟩ := ih ⟨y, hy, h1, h2⟩
        exact ⟨z, List.mem_cons_of_mem _ hz, h⟩

omit [Uni] [UniLaws] in
theorem has_fold (l es : List Element) (e : Element) (h : e ∈ l ∨ Has e.name e.type es) :
    Has e.name e.type (l.foldl (fun es e => addElement e es) es) := by
  induction l generalizing es with
  | nil => exact h.resolve_left (by simp)
  | cons x l ih =>
    refine ih _ ?_
    rcases h with h | h
    · rcases List.mem_cons.1 h with rfl | h
      · exact .inr (has_add _ _)
      · exact .inl h
    · exact .inr (h.add x)

/-! ## The property -/

/-- C68 at the top level: `Parse` of a document with a regular schema yields the components of the declarations before the element,
then the element with its name and the type it restricts, then the components of the declarations after it. -/
theorem top_partial (W : World) (cfg : Cfg) (toks : List Token) (hf : W.fs.get? cfg.filePath = some (.file toks))
    (hn : C32.NamesOk toks) (root : List Attr) (pre post : List Decl) (as ras : List Attr) (fs : List Facet)
    (ht : skeleton toks = skeleton (schemaTokens root (pre ++ .elemAnon as ras fs :: post))) (sh : Shared) (ha : Alone W cfg sh)
    (hd : Regular (typeRef cfg.lang cfg.extract) [] (pre ++ .elemAnon as ras fs :: post))
    (hl : cfg.lang ∈ C41.langs) (v b : Str) (hv : attr? ras c!"base" = some v)
    (hb : getBuildInTypeByLang (Names.localPart v) cfg.lang = some b) (hj : ¬ (cfg.lang = c!"Java" ∧ b = c!"QName"))
    (hc : ∀ n ∈ treeOf (typeRef cfg.lang cfg.extract) [] pre, ∀ u, C07.declares n ≠ some (b, u)) :
    ∃ e rest sh', e.name = nameOf as ∧ e.type = b ∧ e.doc = [] ∧
      Parse W cfg sh = finish W cfg (treeOf (typeRef cfg.lang cfg.extract) [] pre ++ some (.elem e) :: rest) sh' := by
  obtain ⟨sh', _, h⟩ := schema_tree W cfg toks hf hn root _ ht sh ha hd
  obtain ⟨r, hr⟩ := treeOf_prefix (typeRef cfg.lang cfg.extract) post (treeOf (typeRef cfg.lang cfg.extract) [] pre ++
    ((Decl.elemAnon as ras fs).nodes (typeRef cfg.lang cfg.extract (treeOf (typeRef cfg.lang cfg.extract) [] pre))).map some)
  refine ⟨elemAnonOf (typeRef cfg.lang cfg.extract (treeOf (typeRef cfg.lang cfg.extract) [] pre)) false as ras, r, sh', rfl,
    restricts_builtin hl hv hb hj hc, rfl, ?_⟩
  rw [h, treeOf_append, treeOf, hr, List.append_assoc]
  rfl

/-- C68 inside a complex type: after the components of the declarations before it, and the anonymous types inside it, comes the
complex type, and among its elements is the one in question with its name and the type it restricts. -/
theorem member_partial (W : World) (cfg : Cfg) (toks : List Token) (hf : W.fs.get? cfg.filePath = some (.file toks))
    (hn : C32.NamesOk toks) (root : List Attr) (pre post : List Decl) (cas : List Attr) (body : Content)
    (ht : skeleton toks = skeleton (schemaTokens root (pre ++ .complex cas body :: post))) (sh : Shared) (ha : Alone W cfg sh)
    (hd : Regular (typeRef cfg.lang cfg.extract) [] (pre ++ .complex cas body :: post)) (p : Bool) (as ras : List Attr)
    (hm : (p, as, ras) ∈ inlines false body)
    (hl : cfg.lang ∈ C41.langs) (v b : Str) (hv : attr? ras c!"base" = some v)
    (hb : getBuildInTypeByLang (Names.localPart v) cfg.lang = some b) (hj : ¬ (cfg.lang = c!"Java" ∧ b = c!"QName"))
    (hc : ∀ n ∈ treeOf (typeRef cfg.lang cfg.extract) [] pre, ∀ u, C07.declares n ≠ some (b, u)) :
    ∃ inner c rest sh', c.name = nameOf cas ∧ (∃ e ∈ c.elements, e.name = nameOf as ∧ e.type = b) ∧
      inner.length = (C59.anonymous body).length ∧
      Parse W cfg sh = finish W cfg (treeOf (typeRef cfg.lang cfg.extract) [] pre ++ inner ++ some (.complex c) :: rest) sh' := by
  obtain ⟨sh', _, h⟩ := schema_tree W cfg toks hf hn root _ ht sh ha hd
  generalize ht0 : treeOf (typeRef cfg.lang cfg.extract) [] pre = t0 at hc ⊢
  obtain ⟨r, hr⟩ := treeOf_prefix (typeRef cfg.lang cfg.extract) post
    (t0 ++ ((Decl.complex cas body).nodes (typeRef cfg.lang cfg.extract t0)).map some)
  refine ⟨((nested (typeRef cfg.lang cfg.extract t0) false body).map Node.complex).map some,
    complexOf (typeRef cfg.lang cfg.extract t0) false (nameOf cas) body, r, sh', rfl,
    ?_, ?_, ?_⟩
  · have := has_fold (elements (typeRef cfg.lang cfg.extract t0) false body) [] _ (.inl (inlines_elements _ body false _ hm))
    rwa [show (elemAnonOf (typeRef cfg.lang cfg.extract t0) p as ras).type = b from restricts_builtin hl hv hb hj hc] at this
  · rw [← C59.nested_names (typeRef cfg.lang cfg.extract t0) body false]
    simp
  · rw [h, treeOf_append, ht0, treeOf, hr]
    simp [Core.Decl.nodes]

/-! ## Example -/

open Ex in
/-- An element with a simple type between other declarations, and one inside a complex type. -/
def document : List Token :=
  [on "schema" [("xmlns:xs", "http://www.w3.org/2001/XMLSchema")]] ++
  [on "complexType" [("name", "Box")], on "sequence" []] ++ leaf "element" [("name", "color"), ("type", "xs:string")] ++
  [on "element" [("name", "weight"), ("maxOccurs", "3")], on "simpleType" [], on "restriction" [("base", "xs:decimal")]] ++
  leaf "minInclusive" [("value", "0")] ++ [off "restriction", off "simpleType", off "element", off "sequence", off "complexType"] ++
  [on "element" [("name", "size")], on "simpleType" [], on "restriction" [("base", "xs:int")]] ++
  leaf "maxInclusive" [("value", "3")] ++ [off "restriction", off "simpleType", off "element"] ++
  leaf "element" [("name", "box"), ("type", "Box")] ++ [off "schema"]

/-- An attribute of a tag. -/
def a (n v : Str) : Attr := { «local» := n, value := v }

/-- Its declarations. -/
def declarations : List Decl :=
  [.complex [a c!"name" c!"Box"] (.elem [a c!"name" c!"color", a c!"type" c!"xs:string"]
     (.elemAnon [a c!"name" c!"weight", a c!"maxOccurs" c!"3"] [a c!"base" c!"xs:decimal"]
       [⟨c!"minInclusive", [a c!"value" c!"0"]⟩] .nil)),
   .elemAnon [a c!"name" c!"size"] [a c!"base" c!"xs:int"] [⟨c!"maxInclusive", [a c!"value" c!"3"]⟩],
   .element [a c!"name" c!"box", a c!"type" c!"Box"]]

example : @skeleton asciiUni document =
    @skeleton asciiUni (schemaTokens [⟨c!"xmlns", c!"xs", c!"http://www.w3.org/2001/XMLSchema"⟩] declarations) := by decide +kernel
example : Regular (typeRef c!"Go" false) [] declarations := by decide +kernel
example : declarations.head?.map (fun d => match d with | .complex _ b => (inlines false b).map (fun x => nameOf x.2.1) | _ => []) =
    some [c!"weight"] := by decide +kernel
example : getBuildInTypeByLang (Names.localPart c!"xs:decimal") c!"Go" = some c!"float64" := by decide +kernel

/-- What became of the components of a document. -/
def tree (toks : List Token) (lang : String := "Go") : Option Tree :=
  match Ex.parse (Ex.world [("a.xsd", toks)]) "a.xsd" lang with
  | .ok t _ => some t
  | _ => none

example : tree document = some
    [some (.complex { name := c!"Box", elements := [{ name := c!"color", type := c!"string" },
       { name := c!"weight", type := c!"float64", plural := true }] }),
     some (.elem { name := c!"size", type := c!"int" }), some (.elem { name := c!"box", type := c!"Box" })] := by decide +kernel

/-! ## What goes wrong -/

section
open Ex

/-- A schema. -/
def schema (x : List Token) : List Token := [on "schema" [("xmlns:xs", "http://www.w3.org/2001/XMLSchema")]] ++ x ++ [off "schema"]

/-- An element `size` with an anonymous simple type. -/
def size (x : List Token) : List Token := [on "element" [("name", "size")], on "simpleType"] ++ x ++ [off "simpleType", off "element"]

/-- A restriction. -/
def restricted (base : String) (x : List Token) : List Token := [on "restriction" [("base", base)]] ++ x ++ [off "restriction"]

/-- An ordinary element. -/
def color : List Token := leaf "element" [("name", "color"), ("type", "xs:string")]

/-- A facet. -/
def facet : List Token := leaf "maxInclusive" [("value", "3")]

/-- Without facets the element keeps its own name as type, and there is a simple type with the name of the base. -/
theorem no_facets : tree (schema (size (restricted "xs:int" []))) = some
    [some (.simple { name := c!"xs:int", base := c!"int" }), some (.elem { name := c!"size", type := c!"size" })] := by decide +kernel

/-- The same for lists and unions, with a nameless simple type. -/
theorem lists_and_unions :
    tree (schema (size (leaf "list" [("itemType", "xs:int")]))) = some
      [some (.simple { base := c!"int", list := true }), some (.elem { name := c!"size", type := c!"size" })] ∧
    tree (schema (size (leaf "union" [("memberTypes", "xs:int xs:string")]))) = some
      [some (.simple { union := true, memberTypes := [(c!"int", c!"int"), (c!"string", c!"string")] }),
       some (.elem { name := c!"size", type := c!"size" })] := by decide +kernel

/-- Inside a complex type a restriction without facets ends the type: the following element is outside, and the tree has a hole. -/
theorem type_cut_short : tree (schema ([on "complexType" [("name", "Box")]] ++ size (restricted "xs:int" []) ++ color ++ [off "complexType"])) = some
    [some (.complex { name := c!"Box", elements := [{ name := c!"size", type := c!"size" }] }),
     some (.elem { name := c!"size", type := c!"size" }), some (.elem { name := c!"color", type := c!"string" }), none] := by decide +kernel

/-- Inside a group: the group is lost with its elements, and the element stands alone. -/
theorem group_lost : tree (schema ([on "group" [("name", "Parts")]] ++ size (restricted "xs:int" facet) ++ color ++ [off "group"])) = some
    [some (.elem { name := c!"size", type := c!"int" })] := by decide +kernel

/-- Inside an element with an anonymous complex type: the outer element is lost, and the inner one takes its place. -/
theorem outer_lost : tree (schema ([on "element" [("name", "box")], on "complexType"] ++ size (restricted "xs:int" facet) ++ color ++
      [off "complexType", off "element"])) = some
    [some (.complex { name := c!"box", elements := [{ name := c!"size", type := c!"int" }, { name := c!"color", type := c!"string" }] }),
     some (.elem { name := c!"size", type := c!"int" })] := by decide +kernel

/-- A restriction declared later is lost, and the element gets its type. -/
theorem later_lost : tree (schema (size (restricted "xs:int" facet) ++ [on "simpleType" [("name", "Code")]] ++ restricted "xs:string" facet ++
      [off "simpleType"])) = some [some (.elem { name := c!"size", type := c!"string" })] := by decide +kernel

/-- A list declared later gets the enumeration values of the element. -/
theorem values_leak : tree (schema (size (restricted "xs:int" (leaf "enumeration" [("value", "3")])) ++ [on "simpleType" [("name", "Codes")]] ++
      leaf "list" [("itemType", "xs:string")] ++ [off "simpleType"])) = some
    [some (.elem { name := c!"size", type := c!"int" }),
     some (.simple { name := c!"Codes", base := c!"string", list := true, enum := [c!"3"] })] := by decide +kernel

/-- The elements of a group declared later bring the element into the tree a second time. -/
theorem element_twice : tree (schema (size (restricted "xs:int" facet) ++ [on "group" [("name", "Parts")]] ++ color ++ [off "group"])) = some
    [some (.elem { name := c!"size", type := c!"int" }), some (.elem { name := c!"size", type := c!"int" }),
     some (.group { name := c!"Parts", elements := [{ name := c!"color", type := c!"string" }] })] := by decide +kernel

/-- In Java, anyURI is QName for an ordinary element, and String for an element that restricts it: the type is looked up several
times. -/
theorem java_anyURI : tree (schema (leaf "element" [("name", "home"), ("type", "xs:anyURI")] ++ size (restricted "xs:anyURI" facet))) "Java" = some
    [some (.elem { name := c!"home", type := c!"QName" }), some (.elem { name := c!"size", type := c!"String" })] := by decide +kernel

end

end Xgen.C68
