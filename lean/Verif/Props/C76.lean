import Verif.Props.C71

/-! # C76: Java files import what they use

A Java class that is neither in `java.lang` nor declared in the file has to be imported.  Read line by line, a generated Java
file uses annotations and list types; all of these are imported, whatever the schema says.  The one class for which there
is no import is `QName`, the target type of `anyURI`. -/

namespace Xgen.C76
open Decl
open C58 (Legible)

/-! ## What a line uses -/

/-- Letters of class names. -/
def letter (c : Char) : Bool := c.isAlpha

/-- The classes in `@Name(Other.CONSTANT)`: the annotation and the class of the constant. -/
def annotations (l : Str) : List Str :=
  let name := l.takeWhile letter
  let inside := (l.drop (name.length + 1)).takeWhile letter
  name :: if ((l.drop (name.length + 1)).drop inside.length).head? = some '.' then [inside] else []

/-- The classes in a type that have to be imported: lists and qualified names. -/
def inType (t : Str) : List Str :=
  (if c!"List<".isPrefixOf t then [c!"List"] else []) ++
    (if t = c!"QName" ∨ t = c!"List<QName>" then [c!"QName"] else [])

/-- The imported classes that a line of a Java file uses: an annotation, inside or outside of a class, or a member. -/
def uses : Str → List Str
  | '@' :: l => annotations l
  | '\t' :: '@' :: l => annotations l
  | '\t' :: l => if c!"protected ".isPrefixOf l then inType ((splitLast ' ' (l.drop 10)).1) else []
  | _ => []

/-- The class that an import line names. -/
def imported (l : Str) : Option Str :=
  if c!"import ".isPrefixOf l then some (splitLast '.' l.dropLast).2 else none

/-- The classes that a file uses and that it imports. -/
def used (text : Str) : List Str := (splitOn '\n' text).flatMap uses

/-- The classes that a file imports. -/
def imports (text : Str) : List Str := (splitOn '\n' text).filterMap imported

example : uses c!"@XmlAccessorType(XmlAccessType.FIELD)" = [c!"XmlAccessorType", c!"XmlAccessType"] := by decide
example : uses c!"\t@XmlElement(required = true, name = \"a.b\")" = [c!"XmlElement"] := by decide
example : uses c!"\t@XmlValue" = [c!"XmlValue"] := by decide
example : uses c!"\tprotected List<QName> a;" = [c!"List", c!"QName"] := by decide
example : imported c!"import java.util.List;" = some c!"List" := by decide

/-! ## Proof -/

/-- The classes that the imports provide. -/
def provided : List Str :=
  [c!"ArrayList", c!"List", c!"XmlAccessType", c!"XmlAccessorType", c!"XmlAttribute", c!"XmlElement", c!"XmlSchemaType",
   c!"XmlType", c!"XmlValue"]

/-- Complete lines that use nothing else. -/
def Fine (s : Str) : Prop := ∃ ls, Lines s ls ∧ ∀ l ∈ ls, ∀ c ∈ uses l, c ∈ provided ∨ c = c!"QName"

theorem Fine.nil : Fine [] := ⟨[], Lines.nil, fun l hl => by cases hl⟩

theorem Fine.append {a b : Str} (ha : Fine a) (hb : Fine b) : Fine (a ++ b) := by
  obtain ⟨as, h1, h2⟩ := ha
  obtain ⟨bs, h3, h4⟩ := hb
  exact ⟨as ++ bs, h1.append h3, fun l hl => (List.mem_append.1 hl).elim (h2 l) (h4 l)⟩

theorem Fine.flatMap {α : Type} {f : α → Str} : ∀ {l : List α}, (∀ a ∈ l, Fine (f a)) → Fine (l.flatMap f)
  | [], _ => Fine.nil
  | a :: l, h => by
    rw [List.flatMap_cons]
    exact (h a (by simp)).append (Fine.flatMap fun x hx => h x (by simp [hx]))

theorem Fine.line {a : Str} (h : '\n' ∉ a) (hu : ∀ c ∈ uses a, c ∈ provided ∨ c = c!"QName") : Fine (a ++ c!"\n") :=
  ⟨[a], Lines.one h, fun l hl => by rw [List.mem_singleton.1 hl]; exact hu⟩

theorem Fine.comment {fn doc : Str} (h : '\n' ∉ fn) : Fine (genFieldComment fn doc c!"//") := by
  obtain ⟨ls, h1, h2⟩ := C55.comment_heads fn doc h
  refine ⟨ls, h1, fun l hl => ?_⟩
  rcases h2 l hl with e | e | e
  · cases l with
    | nil => intro c hc; cases hc
    | cons x l => cases e
  · cases l with
    | nil => cases e
    | cons x l => cases e; intro c hc; cases hc
  · cases l with
    | nil => cases e
    | cons x l => cases e; intro c hc; cases hc

/-- A member line, whatever its type. -/
theorem Fine.member {t : Str} (h : '\n' ∉ t) : Fine (c!"\tprotected " ++ t ++ c!"\n") := by
  refine Fine.line (by simp [h]) ?_
  have e : uses (c!"\tprotected " ++ t) = inType (splitLast ' ' t).1 := by
    have : uses (c!"\tprotected " ++ t) =
        if c!"protected ".isPrefixOf (c!"protected " ++ t) then inType ((splitLast ' ' ((c!"protected " ++ t).drop 10)).1) else [] := rfl
    rw [this, if_pos (by simp [List.isPrefixOf])]
    rfl
  rw [e]
  unfold inType
  intro c hc
  rcases List.mem_append.1 hc with hc | hc
  · split at hc
    · rw [List.mem_singleton.1 hc]; exact .inl (by decide)
    · cases hc
  · split at hc
    · rw [List.mem_singleton.1 hc]; exact .inr rfl
    · cases hc

/-- A line that starts like an annotation of known classes. -/
theorem Fine.annotated {p t : Str} (hp : '\n' ∉ p) (h : '\n' ∉ t)
    (hu : ∀ c ∈ uses (p ++ t), c ∈ provided ∨ c = c!"QName") : Fine (p ++ t ++ c!"\n") := Fine.line (by simp [hp, h]) hu

/-- The end of a class. -/
theorem Fine.close : Fine c!"}\n" := Fine.line (a := c!"}") (by decide) (by decide)

theorem xmlAttribute (t : Str) : ∀ c ∈ uses (c!"\t@XmlAttribute(name = \"" ++ t), c ∈ provided ∨ c = c!"QName" := by
  have e : uses (c!"\t@XmlAttribute(name = \"" ++ t) = [c!"XmlAttribute"] := by rfl
  rw [e]; decide

theorem xmlElement (t : Str) : ∀ c ∈ uses (c!"\t@XmlElement(required = true" ++ t), c ∈ provided ∨ c = c!"QName" := by
  have e : uses (c!"\t@XmlElement(required = true" ++ t) = [c!"XmlElement"] := by rfl
  rw [e]; decide

theorem outside {kind : Str} (hk : kind = c!"XmlAttribute" ∨ kind = c!"XmlElement") (t : Str) :
    ∀ c ∈ uses (c!"@" ++ kind ++ c!"(required = true, name = \"" ++ t), c ∈ provided ∨ c = c!"QName" := by
  rcases hk with rfl | rfl
  · have e : uses (c!"@" ++ c!"XmlAttribute" ++ c!"(required = true, name = \"" ++ t) = [c!"XmlAttribute"] := by rfl
    rw [e]; decide
  · have e : uses (c!"@" ++ c!"XmlElement" ++ c!"(required = true, name = \"" ++ t) = [c!"XmlElement"] := by rfl
    rw [e]; decide

variable [Uni]

theorem Fine.head {fn t : Str} (hfn : '\n' ∉ fn) (h : '\n' ∉ t) : Fine (c!"public class " ++ fn ++ t ++ c!"\n") :=
  Fine.line (by simp [hfn, h]) fun c hc => by cases hc

theorem Fine.wrapper {kind name fn content : Str} (hk : kind = c!"XmlAttribute" ∨ kind = c!"XmlElement") (hn : '\n' ∉ name)
    (hfn : '\n' ∉ fn) (hc : Fine content) : Fine (javaWrapper kind name fn content) := by
  have hkn : '\n' ∉ kind := by rcases hk with rfl | rfl <;> decide
  have h1 : Fine (c!"@XmlAccessorType(XmlAccessType.FIELD)" ++ c!"\n") := Fine.line (by decide) (by decide)
  have h2 : Fine (c!"@" ++ kind ++ c!"(required = true, name = \"" ++ (name ++ c!"\")") ++ c!"\n") :=
    Fine.line (by simp [hkn, hn]) (outside hk _)
  have := (((h1.append h2).append (Fine.head hfn (t := c!" {") (by decide))).append hc).append Fine.close
  simpa [javaWrapper] using this

variable [UniLaws]
open C56 (Sound resolved membered in_complex in_group in_attrGroup in_simple)
open C56.Java (name_nl type_nl plural_nl)

theorem members {tree : Tree} (hs : Sound tree) {ms : List (Str × Str)} (h : ∀ m ∈ ms, '\n' ∉ m.1 ∧ '\n' ∉ m.2) :
    Fine (ms.flatMap (javaMemberLine tree)) := Fine.flatMap fun m hm => by
  obtain ⟨h1, h2⟩ := h m hm
  have := (Fine.annotated (p := c!"\t@XmlElement(required = true") (t := c!")") (by decide) (by decide) (xmlElement _)).append
    (Fine.member (t := genJavaFieldType (memberType tree m) ++ c!" " ++ javaName m.1 ++ c!";")
      (by simp [name_nl h1, type_nl (membered h1 h2 hs)]))
  simpa [javaMemberLine] using this

theorem attrGroups {tree : Tree} (hs : Sound tree) {gs : List AttributeGroup} (h : ∀ a ∈ gs, '\n' ∉ a.name ∧ '\n' ∉ a.ref) :
    Fine (gs.flatMap (javaAttrGroupLine tree)) := Fine.flatMap fun m hm => by
  obtain ⟨h1, h2⟩ := h m hm
  have := (Fine.annotated (p := c!"\t@XmlElement(required = true") (t := c!")") (by decide) (by decide) (xmlElement _)).append
    (Fine.member (t := genJavaFieldType (resolveIn tree m.ref) ++ c!" " ++ javaName m.name ++ c!";")
      (by simp [name_nl h1, type_nl (resolved h2 hs)]))
  simpa [javaAttrGroupLine] using this

theorem attrs {tree : Tree} (hs : Sound tree) {gs : List Attribute} (h : ∀ a ∈ gs, '\n' ∉ a.name ∧ '\n' ∉ a.type) :
    Fine (gs.flatMap (javaAttrLine tree)) := Fine.flatMap fun m hm => by
  obtain ⟨h1, h2⟩ := h m hm
  have hr : '\n' ∉ (if m.optional then ([] : Str) else c!", required = true") := by split <;> decide
  have := (Fine.annotated (p := c!"\t@XmlAttribute(name = \"")
      (t := m.name ++ c!"\"" ++ (if m.optional then [] else c!", required = true") ++ c!")") (by decide) (by simp [h1, hr]) (xmlAttribute _)).append
    (Fine.member (t := genJavaFieldType (resolveIn tree m.type) ++ c!" " ++ javaName m.name ++ c!"Attr;")
      (by simp [name_nl h1, type_nl (resolved h2 hs)]))
  simpa [javaAttrLine] using this

theorem groupAttrs {tree : Tree} (hs : Sound tree) {gs : List Attribute} (h : ∀ a ∈ gs, '\n' ∉ a.name ∧ '\n' ∉ a.type) :
    Fine (gs.flatMap (javaAttrGroupAttrLine tree)) := Fine.flatMap fun m hm => by
  obtain ⟨h1, h2⟩ := h m hm
  have hr : '\n' ∉ (if m.optional then ([] : Str) else c!", required = true") := by split <;> decide
  have := (Fine.annotated (p := c!"\t@XmlAttribute(name = \"")
      (t := m.name ++ c!"\"" ++ (if m.optional then [] else c!", required = true") ++ c!")") (by decide) (by simp [h1, hr]) (xmlAttribute _)).append
    (Fine.member (t := genJavaFieldType (resolveIn tree m.type) ++ c!"Attr " ++ javaName m.name ++ c!";")
      (by simp [name_nl h1, type_nl (resolved h2 hs)]))
  simpa [javaAttrGroupAttrLine] using this

theorem groups {tree : Tree} (hs : Sound tree) {gs : List GroupRef} (h : ∀ a ∈ gs, '\n' ∉ a.name ∧ '\n' ∉ a.ref) :
    Fine (gs.flatMap (javaGroupLine tree)) := Fine.flatMap fun m hm => by
  obtain ⟨h1, h2⟩ := h m hm
  have := Fine.member (t := javaPlural m.plural (genJavaFieldType (resolveIn tree m.ref)) ++ c!" " ++ javaName m.name ++ c!";")
      (by simp [name_nl h1, plural_nl _ (type_nl (resolved h2 hs))])
  simpa [javaGroupLine] using this

theorem elems {tree : Tree} (hs : Sound tree) {gs : List Element} (h : ∀ a ∈ gs, '\n' ∉ a.name ∧ '\n' ∉ a.type) :
    Fine (gs.flatMap (javaElemLine tree)) := Fine.flatMap fun m hm => by
  obtain ⟨h1, h2⟩ := h m hm
  have := (Fine.annotated (p := c!"\t@XmlElement(required = true") (t := c!", name = \"" ++ m.name ++ c!"\")") (by decide)
      (by simp [h1]) (xmlElement _)).append
    (Fine.member (t := javaPlural m.plural (genJavaFieldType (resolveIn tree m.type)) ++ c!" " ++ javaName m.name ++ c!";")
      (by simp [name_nl h1, plural_nl _ (type_nl (resolved h2 hs))]))
  simpa [javaElemLine] using this

theorem value {tree : Tree} (hs : Sound tree) {base : Str} (h : '\n' ∉ base) : Fine (javaValueLine tree base) := by
  unfold javaValueLine
  split
  · have := (Fine.line (a := c!"\t@XmlValue") (by decide) (by decide)).append
      (Fine.member (t := genJavaFieldType (resolveIn tree base) ++ c!" value;") (by simp [type_nl (resolved h hs)]))
    simpa using this
  · exact Fine.nil

theorem text_fine {tree : Tree} (hs : Sound tree) {n : Node Element} (hn : n ∈ nodes tree) {fn : Str} (hfn : '\n' ∉ fn) :
    Fine ((C15.javaLang tree).text n fn) := by
  have hstr := (hs n hn).1
  have nl : Fine c!"\n" := Fine.line (a := []) (by decide) (fun c hc => by cases hc)
  cases n with
  | simple v =>
    obtain ⟨h0, hb, hm, -⟩ := in_simple hstr
    have hb := type_nl (resolved hb hs)
    simp only [C15.javaLang]
    by_cases h1 : v.list = true
    · rw [if_pos h1]
      refine nl.append (Fine.wrapper (.inl rfl) h0 hfn ?_)
      have := Fine.member (t := c!"List<" ++ genJavaFieldType (resolveIn tree v.base) ++ c!"> " ++ javaName v.name ++ c!";")
        (by simp [name_nl h0, hb])
      simpa using this
    · rw [if_neg h1]
      split
      · have := ((Fine.comment (doc := v.doc) hfn).append (Fine.head hfn (t := c!" {") (by decide))).append ((members hs hm).append Fine.close)
        simpa [javaDecl] using this
      · refine (Fine.comment hfn).append (Fine.wrapper (.inl rfl) h0 hfn ?_)
        have := Fine.member (t := genJavaFieldType (resolveIn tree v.base) ++ c!" " ++ javaName v.name ++ c!";")
          (by simp [name_nl h0, hb])
        simpa using this
  | attr v =>
    have h0 := hstr v.name (by simp [C56.strings])
    have hb := plural_nl v.plural (type_nl (resolved (hstr v.type (by simp [C56.strings])) hs))
    refine nl.append (Fine.wrapper (.inl rfl) h0 hfn ?_)
    have := Fine.member (t := javaPlural v.plural (genJavaFieldType (resolveIn tree v.type)) ++ c!" " ++ javaName v.name ++ c!";")
      (by simp [name_nl h0, hb])
    simpa using this
  | elem v =>
    have h0 := hstr v.name (by simp [C56.strings])
    have hb := plural_nl v.plural (type_nl (resolved (hstr v.type (by simp [C56.strings])) hs))
    refine nl.append (Fine.wrapper (.inr rfl) h0 hfn ?_)
    have := Fine.member (t := javaPlural v.plural (genJavaFieldType (resolveIn tree v.type)) ++ c!" " ++ javaName v.name ++ c!";")
      (by simp [name_nl h0, hb])
    simpa using this
  | complex v =>
    obtain ⟨h0, hb, ha, he, hg, hag⟩ := in_complex hstr
    have hx : '\n' ∉ javaExtends tree v.base := by
      unfold javaExtends
      split
      · simp [type_nl (resolved hb hs)]
      · simp
    have := ((Fine.comment (doc := v.doc) hfn).append (Fine.head hfn (t := javaExtends tree v.base ++ c!" {") (by simp [hx]))).append
      (((((attrGroups hs hag).append (attrs hs ha)).append (groups hs hg)).append (elems hs he)).append ((value hs hb).append Fine.close))
    simpa [C15.javaLang, javaComplexContent] using this
  | group v =>
    obtain ⟨h0, he, hg⟩ := in_group hstr
    have := ((Fine.comment (doc := v.doc) hfn).append (Fine.head hfn (t := c!" {") (by decide))).append
      (((elems hs he).append (groups hs hg)).append Fine.close)
    simpa [C15.javaLang, javaDecl] using this
  | attrGroup v =>
    obtain ⟨h0, ha⟩ := in_attrGroup hstr
    have := ((Fine.comment (doc := v.doc) hfn).append (Fine.head hfn (t := c!" {") (by decide))).append
      ((groupAttrs hs ha).append Fine.close)
    simpa [C15.javaLang, javaDecl] using this

omit [Uni] [UniLaws] in
theorem header_lines : Lines (c!"\n" ++ javaImports ++ c!"\n") (splitOn '\n' (c!"\n" ++ javaImports)) := by
  intro b
  rw [show c!"\n" ++ javaImports ++ c!"\n" ++ b = (c!"\n" ++ javaImports) ++ '\n' :: b by simp, splitOn_append]

/-- C76: every class that a generated Java file uses is imported, apart from `QName`.  (Missing: `QName`, see
`qname_missing`.) -/
theorem file_partial (pkg : Str) (tree : Tree) (hp : '\n' ∉ pkg) (hs : Sound tree) :
    ∀ c ∈ used (javaSource pkg tree), c ≠ c!"QName" → c ∈ imports (javaSource pkg tree) := by
  have hpk : '\n' ∉ packageName pkg := by
    unfold packageName
    split
    · decide
    · exact hp
  have l1 := (((Lines.one (a := copyright) (by decide)).append (Lines.one (a := []) (by decide))).append
    (Lines.one (a := c!"package " ++ packageName pkg ++ c!";") (by simp [hpk]))).append header_lines
  have e : javaSource pkg tree = (copyright ++ c!"\n" ++ ([] ++ c!"\n") ++ (c!"package " ++ packageName pkg ++ c!";" ++ c!"\n") ++
      (c!"\n" ++ javaImports ++ c!"\n")) ++ (javaGen tree).field := by simp [javaSource]
  have hf : Fine (javaGen tree).field := by
    rw [C15.java, render_named]
    refine Fine.flatMap fun x hx => ?_
    have hn := C56.mem_nodes hx
    refine text_fine hs hn (named_absent (by decide) hx ?_)
    exact cName_absent (by decide) ((hs _ hn).2 _ (by decide))
  obtain ⟨ls, h1, h2⟩ := hf
  have hsplit : splitOn '\n' (javaSource pkg tree) = ([copyright] ++ [[]] ++ [c!"package " ++ packageName pkg ++ c!";"] ++
      splitOn '\n' (c!"\n" ++ javaImports)) ++ (ls ++ [[]]) := by
    have := h1 []
    rw [List.append_nil] at this
    rw [e, l1, this]
    rfl
  intro c hc hq
  have hprov : c ∈ provided := by
    unfold used at hc
    rw [hsplit] at hc
    obtain ⟨l, hl, hcl⟩ := List.mem_flatMap.1 hc
    simp only [List.append_assoc, List.mem_append, List.mem_singleton] at hl
    rcases hl with rfl | rfl | rfl | hl | hl | rfl
    · exact absurd hcl (by rw [show uses copyright = [] by decide]; simp)
    · cases hcl
    · cases hcl
    · exact absurd hcl (by rw [(by decide +kernel : ∀ l ∈ splitOn '\n' (c!"\n" ++ javaImports), uses l = []) l hl]; simp)
    · exact (h2 l hl c hcl).resolve_right hq
    · cases hcl
  unfold imports
  rw [hsplit, List.filterMap_append, List.filterMap_append]
  refine List.mem_append_left _ (List.mem_append_right _ ?_)
  exact (by decide +kernel : ∀ c ∈ provided, c ∈ (splitOn '\n' (c!"\n" ++ javaImports)).filterMap imported) c hprov

/-- C76 for documents.  (Missing: `QName`, see `qname_missing`.) -/
theorem java_partial {W : World} {cfg : Cfg} {sh : Shared} {ds : List Core.Decl} {toks : List Token} (h : C59.Document W cfg sh ds toks)
    (hl : cfg.lang = c!"Java") (hp : '\n' ∉ cfg.package) : ∃ t sh' text, Parse W cfg sh = .ok t sh' ∧
    sh'.outputs = sh.outputs ++ [(C24.documentedPath cfg c!".java", text)] ∧
    ∀ c ∈ used text, c ≠ c!"QName" → c ∈ imports text := by
  obtain ⟨t, sh', h1, h2, h3, h4⟩ := h.tree
  obtain ⟨sh'', h5, h6⟩ := h.write (t := t) (sh' := sh') (ext := c!".java") (text := javaSource cfg.package t) (by
    rw [generate, hl, C24.title_lang (by decide)]; rfl)
  exact ⟨t, sh'', _, h4.trans h5, by rw [h6, h1], file_partial _ _ hp h3.sound⟩

/-! ## Examples -/

/-- The classes used by the file generated from the sample schema. -/
theorem example_used : ∀ c ∈ [c!"XmlAccessorType", c!"XmlAccessType", c!"XmlAttribute", c!"XmlElement", c!"XmlValue", c!"List"],
    c ∈ used (C71.file c!"Java" C71.schema) := by decide +kernel

/-- C76 is false as it stands: an element of type `anyURI` uses `QName`, which no import names and no class of the file. -/
theorem qname_missing : let text := C71.file c!"Java" [.element (C70.a [("name", "home"), ("type", "xs:anyURI")])]
    c!"QName" ∈ used text ∧ c!"QName" ∉ imports text ∧ C56.Java.names text = [c!"Home"] := by decide +kernel

end Xgen.C76
