import Verif.Props.C24
import Verif.Props.C40
import Verif.Props.C58

/-! # C59: from the document to the generated file

A document whose tags are those of a regular core schema (C40), with any text, white space, comments and transparent tags in it, is
translated into a file that reads (C58) as the declarations of that schema. -/

namespace Xgen.C59
open Core C40 Decl
open C57 (bare noDocNode)
open C31 (noDocE noDocS noDocA noDocC noDocG noDocAG)
open C58 (namesIn typesIn valuesIn Legible isUnion)
variable [Uni]

/-! ## Which documents -/

/-- The attributes that hold names. -/
def nameAttrs : List Str := [c!"name", c!"ref", c!"type", c!"base", c!"itemType"]

/-- The XML attributes of a tag are spelled as XSD demands: names contain no quotes, brackets, separators or white space, lists of
names no such characters besides blanks, enumeration values no line breaks. -/
def Spelled (as : List Attr) : Prop :=
  (∀ k ∈ nameAttrs, ∀ v, attr? as k = some v → Clean notInNames v) ∧
  (∀ v, attr? as c!"memberTypes" = some v → ∀ c ∈ notInNames, c ≠ ' ' → c ∉ v) ∧
  (∀ v, attr? as c!"value" = some v → '\n' ∉ v)

/-- The same for all tags that matter, by name. -/
def tags : List Str :=
  [c!"element", c!"complexType", c!"choice", c!"group", c!"attributeGroup", c!"attribute", c!"simpleType", c!"restriction",
   c!"extension", c!"list", c!"union", c!"enumeration"]

/-- All tags of a document are well spelled. -/
def AllSpelled (toks : List Token) : Prop := ∀ n ∈ tags, ∀ as, Token.start n as ∈ toks → Spelled as

/-! ## The tree is legible -/

section
variable {ty : Str → Str}

/-- Type references turn legible names into legible types. -/
def TypesOk (ty : Str → Str) : Prop := ∀ v, Clean notInTypes v → Clean notInTypes (ty v)

omit [Uni] in
theorem weaken {v : Str} (h : Clean notInNames v) : Clean notInTypes v :=
  fun c hc => h c ((by decide : ∀ c ∈ notInTypes, c ∈ notInNames) c hc)

omit [Uni] in
theorem nil_clean (bad : List Char) : Clean bad [] := fun _ _ h => by cases h

omit [Uni] in
theorem Spelled.name {as : List Attr} (h : Spelled as) : Clean notInNames (nameOf as) := by
  unfold nameOf
  cases h1 : attr? as c!"ref" with
  | some v => exact h.1 _ (by decide) v h1
  | none =>
    cases h2 : attr? as c!"name" with
    | some v => exact h.1 _ (by decide) v h2
    | none => exact nil_clean _

omit [Uni] in
theorem Spelled.via {as : List Attr} (h : Spelled as) {k : Str} (hk : k ∈ nameAttrs) {f : Str → Str}
    (hf : ∀ v, Clean notInTypes v → Clean notInTypes (f v)) : Clean notInTypes (((attr? as k).map f).getD []) := by
  cases e : attr? as k with
  | none => exact nil_clean _
  | some v => exact hf v (weaken (h.1 _ hk v e))

omit [Uni] in
theorem Spelled.refOrType {as : List Attr} (h : Spelled as) {t : Str} (ht : (attr? as c!"ref").or (attr? as c!"type") = some t) :
    Clean notInTypes t := by
  cases e : attr? as c!"ref" with
  | some v =>
    rw [e] at ht
    injection ht with ht
    subst ht
    exact weaken (h.1 _ (by decide) _ e)
  | none =>
    rw [e] at ht
    exact weaken (h.1 _ (by decide) _ ht)

/-- Name and type of a component are legible. -/
def Fine (name type : Str) : Prop := Clean notInNames name ∧ Clean notInTypes type

omit [Uni] in
theorem element_fine (hty : TypesOk ty) {as : List Attr} (h : Spelled as) (p : Bool) :
    Fine (elementOf ty p as).name (elementOf ty p as).type := by
  refine ⟨h.name, ?_⟩
  show Clean notInTypes (match (attr? as c!"ref").or (attr? as c!"type") with | some t => ty t | none => ty (nameOf as))
  cases e : (attr? as c!"ref").or (attr? as c!"type") with
  | none => exact hty _ (weaken h.name)
  | some t => exact hty _ (h.refOrType e)

omit [Uni] in
theorem elemAnon_fine (hty : TypesOk ty) {as ras : List Attr} (h : Spelled as) (hb : Spelled ras) (p : Bool) :
    Fine (elemAnonOf ty p as ras).name (elemAnonOf ty p as ras).type :=
  ⟨h.name, hty _ (hb.via (k := c!"base") (by decide) fun v hv => hty _ (hty _ hv))⟩

omit [Uni] in
theorem attribute_fine (hty : TypesOk ty) {as : List Attr} (h : Spelled as) : Fine (attributeOf ty as).name (attributeOf ty as).type := by
  refine ⟨h.name, ?_⟩
  show Clean notInTypes ((((attr? as c!"ref").or (attr? as c!"type")).map ty).getD [])
  cases e : (attr? as c!"ref").or (attr? as c!"type") with
  | none => exact nil_clean _
  | some t => exact hty _ (h.refOrType e)

/-- The tags of the content of a simple type. -/
def bodyAttrs : SimpleBody → List Attr
  | .restriction as _ => as
  | .list as => as
  | .union as => as

omit [Uni] in
theorem attrAnon_fine (hty : TypesOk ty) {as : List Attr} (h : Spelled as) {b : SimpleBody} (hb : Spelled (bodyAttrs b)) :
    Fine (attrAnonOf ty as b).name (attrAnonOf ty as b).type := by
  refine ⟨h.name, ?_⟩
  cases b with
  | restriction ras fs => exact hty _ (hb.via (k := c!"base") (by decide) fun v hv => hty _ (hty _ hv))
  | list las => exact hb.via (k := c!"itemType") (by decide) hty
  | union uas => exact nil_clean _

omit [Uni] in
theorem attrGroup_fine (hty : TypesOk ty) {as : List Attr} (h : Spelled as) : Fine (attrGroupOf ty as).name (attrGroupOf ty as).ref :=
  ⟨h.name, h.via (k := c!"ref") (by decide) hty⟩

omit [Uni] in
theorem group_fine (hty : TypesOk ty) {as : List Attr} (h : Spelled as) (p : Bool) : Fine (groupOf ty p as).name (groupOf ty p as).ref :=
  ⟨h.name, h.via (k := c!"ref") (by decide) hty⟩

omit [Uni] in
theorem spelled_tag {n : Str} (hn : n ∈ tags) {as : List Attr} {inner k : List Token} (h : AllSpelled (tag n as inner ++ k)) :
    Spelled as ∧ AllSpelled inner ∧ AllSpelled k := by
  refine ⟨h n hn as (by simp [tag]), fun m hm bs hb => h m hm bs ?_, fun m hm bs hb => h m hm bs ?_⟩
  · simp [tag, hb]
  · simp [hb]

omit [Uni] in
theorem spelled_body {b : SimpleBody} (h : AllSpelled b.tokens) : Spelled (bodyAttrs b) := by
  cases b with
  | restriction as fs => exact h c!"restriction" (by decide) as (by simp [SimpleBody.tokens, tag])
  | list as => exact h c!"list" (by decide) as (by simp [SimpleBody.tokens, tag])
  | union as => exact h c!"union" (by decide) as (by simp [SimpleBody.tokens, tag])

omit [Uni] in
theorem spelled_simple {as : List Attr} {b : SimpleBody} {k : List Token} (h : AllSpelled (tag c!"simpleType" as b.tokens ++ k)) :
    AllSpelled b.tokens := (spelled_tag (by decide) h).2.1

omit [Uni] in
theorem spelled_append {a b : List Token} (h : AllSpelled (a ++ b)) : AllSpelled a ∧ AllSpelled b :=
  ⟨fun m hm bs hb => h m hm bs (List.mem_append_left _ hb), fun m hm bs hb => h m hm bs (List.mem_append_right _ hb)⟩

/-- What is to be shown of contents. -/
structure ContentOk (ty : Str → Str) (b : Content) : Prop where
  elements : ∀ p, ∀ e ∈ elements ty p b, Fine e.name e.type
  groups : ∀ p, ∀ g ∈ groups ty p b, Fine g.name g.ref
  attributes : ∀ a ∈ attributes ty b, Fine a.name a.type
  attrGroups : ∀ a ∈ attrGroups ty b, Fine a.name a.ref ∧ a.attributes = []
  bases : ∀ t ∈ bases ty b, Clean notInTypes t

omit [Uni] in
theorem content_ok (hty : TypesOk ty) (b : Content) (h : AllSpelled b.tokens) : ContentOk ty b := by
  induction b with
  | nil => constructor <;> simp [elements, groups, attributes, attrGroups, bases]
  | elem as k ih =>
    obtain ⟨h1, -, h2⟩ := spelled_tag (by decide) h
    have I := ih h2
    exact ⟨fun p e he => (List.mem_cons.1 he).elim (fun e' => e' ▸ element_fine hty h1 p) (I.elements p e), I.groups, I.attributes,
      I.attrGroups, I.bases⟩
  | anon as cas b k ihb ih =>
    obtain ⟨h1, h3, h2⟩ := spelled_tag (by decide) h
    have I := ih h2
    exact ⟨fun p e he => (List.mem_cons.1 he).elim (fun e' => e' ▸ element_fine hty h1 p) (I.elements p e), I.groups, I.attributes,
      I.attrGroups, I.bases⟩
  | elemAnon as ras fs k ih =>
    obtain ⟨h1, h3, h2⟩ := spelled_tag (by decide) h
    have hb := spelled_body (b := .restriction ras fs) (spelled_simple (k := []) (by rw [List.append_nil]; exact h3))
    have I := ih h2
    exact ⟨fun p e he => (List.mem_cons.1 he).elim (fun e' => e' ▸ elemAnon_fine hty h1 hb p) (I.elements p e), I.groups, I.attributes,
      I.attrGroups, I.bases⟩
  | choice as b k ihb ih =>
    obtain ⟨h1, h3, h2⟩ := spelled_tag (by decide) h
    have I := ih h2
    have B := ihb h3
    exact ⟨fun p e he => (List.mem_append.1 he).elim (B.elements _ e) (I.elements p e),
      fun p e he => (List.mem_append.1 he).elim (B.groups _ e) (I.groups p e),
      fun e he => (List.mem_append.1 he).elim (B.attributes e) (I.attributes e),
      fun e he => (List.mem_append.1 he).elim (B.attrGroups e) (I.attrGroups e),
      fun e he => (List.mem_append.1 he).elim (B.bases e) (I.bases e)⟩
  | group as k ih =>
    obtain ⟨h1, -, h2⟩ := spelled_tag (by decide) h
    have I := ih h2
    exact ⟨I.elements, fun p e he => (List.mem_cons.1 he).elim (fun e' => e' ▸ group_fine hty h1 p) (I.groups p e), I.attributes,
      I.attrGroups, I.bases⟩
  | attrGroup as k ih =>
    obtain ⟨h1, -, h2⟩ := spelled_tag (by decide) h
    have I := ih h2
    exact ⟨I.elements, I.groups, I.attributes,
      fun e he => (List.mem_cons.1 he).elim (fun e' => e' ▸ ⟨attrGroup_fine hty h1, rfl⟩) (I.attrGroups e), I.bases⟩
  | «attribute» as k ih =>
    obtain ⟨h1, -, h2⟩ := spelled_tag (by decide) h
    have I := ih h2
    exact ⟨I.elements, I.groups, fun e he => (List.mem_cons.1 he).elim (fun e' => e' ▸ attribute_fine hty h1) (I.attributes e),
      I.attrGroups, I.bases⟩
  | attrAnon as b k ih =>
    obtain ⟨h1, h3, h2⟩ := spelled_tag (by decide) h
    have hb := spelled_body (spelled_simple (k := []) (by rw [List.append_nil]; exact h3))
    have I := ih h2
    exact ⟨I.elements, I.groups, fun e he => (List.mem_cons.1 he).elim (fun e' => e' ▸ attrAnon_fine hty h1 hb) (I.attributes e),
      I.attrGroups, I.bases⟩
  | ext as b k ihb ih =>
    obtain ⟨h1, h3, h2⟩ := spelled_tag (by decide) h
    have I := ih h2
    have B := ihb h3
    refine ⟨fun p e he => (List.mem_append.1 he).elim (B.elements _ e) (I.elements p e),
      fun p e he => (List.mem_append.1 he).elim (B.groups _ e) (I.groups p e),
      fun e he => (List.mem_append.1 he).elim (B.attributes e) (I.attributes e),
      fun e he => (List.mem_append.1 he).elim (B.attrGroups e) (I.attrGroups e), fun e he => ?_⟩
    rcases List.mem_append.1 he with he | he
    · rcases List.mem_append.1 he with he | he
      · cases hb : attr? as c!"base" with
        | none => rw [hb] at he; cases he
        | some t =>
          rw [hb] at he
          rw [List.mem_singleton.1 he]
          exact hty _ (hty _ (weaken (h1.1 _ (by decide) t hb)))
      · exact B.bases e he
    · exact I.bases e he
  | restr as fs b k ihb ih =>
    obtain ⟨h1, h3, h2⟩ := spelled_tag (by decide) h
    have I := ih h2
    have B := ihb (spelled_append h3).2
    exact ⟨fun p e he => (List.mem_append.1 he).elim (B.elements _ e) (I.elements p e),
      fun p e he => (List.mem_append.1 he).elim (B.groups _ e) (I.groups p e),
      fun e he => (List.mem_append.1 he).elim (B.attributes e) (I.attributes e),
      fun e he => (List.mem_append.1 he).elim (B.attrGroups e) (I.attrGroups e),
      fun e he => (List.mem_append.1 he).elim (B.bases e) (I.bases e)⟩

/-- A legible component. -/
def NodeOk (n : Node Element) : Prop :=
  (∀ s ∈ namesIn n, Clean notInNames s) ∧ (∀ s ∈ typesIn n, Clean notInTypes s) ∧ ∀ s ∈ valuesIn n, '\n' ∉ s

omit [Uni] in
theorem addElement_mem (e : Element) (es : List Element) : ∀ x ∈ addElement e es, ∃ y ∈ e :: es, x.name = y.name ∧ x.type = y.type := by
  induction es with
  | nil => intro x hx; exact ⟨x, hx, rfl, rfl⟩
  | cons a as ih =>
    intro x hx
    unfold addElement at hx
    split at hx
    · split at hx
      · rcases List.mem_cons.1 hx with rfl | hx
        · exact ⟨a, by simp, rfl, rfl⟩
        · exact ⟨x, by simp [hx], rfl, rfl⟩
      · refine ⟨x, ?_, rfl, rfl⟩
        simp only [List.cons_append, List.mem_cons, List.mem_append, List.not_mem_nil, or_false] at hx ⊢
        rcases hx with h | h | h <;> simp [h]
    · rcases List.mem_cons.1 hx with rfl | hx
      · exact ⟨x, by simp, rfl, rfl⟩
      · obtain ⟨y, hy, h⟩ := ih x hx
        refine ⟨y, ?_, h⟩
        rcases List.mem_cons.1 hy with h | h <;> simp [h]

omit [Uni] in
theorem addElements_fine (xs : List Element) : ∀ es : List Element, (∀ e ∈ es, Fine e.name e.type) → (∀ e ∈ xs, Fine e.name e.type) →
    ∀ e ∈ xs.foldl (fun es e => addElement e es) es, Fine e.name e.type := by
  induction xs with
  | nil => intro es h _; exact h
  | cons x xs ih =>
    intro es h1 h2
    refine ih _ (fun e he => ?_) fun e he => h2 e (by simp [he])
    obtain ⟨y, hy, h3, h4⟩ := addElement_mem x es e he
    rw [h3, h4]
    rcases List.mem_cons.1 hy with rfl | hy
    · exact h2 y (by simp)
    · exact h1 y hy

omit [Uni] in
theorem addGroups_fine (xs : List GroupRef) : ∀ es : List GroupRef, (∀ e ∈ es, Fine e.name e.ref) → (∀ e ∈ xs, Fine e.name e.ref) →
    ∀ e ∈ xs.foldl (fun gs g => addGroup g gs) es, Fine e.name e.ref := by
  induction xs with
  | nil => intro es h _; exact h
  | cons x xs ih =>
    intro es h1 h2
    refine ih _ (fun e he => ?_) fun e he => h2 e (by simp [he])
    have he : e ∈ addGroup x es := he
    unfold addGroup at he
    split at he
    · exact h1 e he
    · rcases List.mem_append.1 he with he | he
      · exact h1 e he
      · rw [List.mem_singleton.1 he]; exact h2 x (by simp)

omit [Uni] in
theorem complex_ok {b : Content} (hb : ContentOk ty b) (p : Bool) {name : Str} (hn : Clean notInNames name) :
    NodeOk (.complex (complexOf ty p name b)) := by
  have he := addElements_fine (elements ty p b) [] (by simp) (hb.elements p)
  have hg := addGroups_fine (groups ty p b) [] (by simp) (hb.groups p)
  have hbase : Clean notInTypes ((bases ty b).getLast?.getD []) := by
    cases e : (bases ty b).getLast? with
    | none => exact nil_clean _
    | some t => exact hb.bases t (List.mem_of_getLast? e)
  refine ⟨fun s hs => ?_, fun s hs => ?_, by simp [valuesIn]⟩
  · simp only [namesIn, complexOf, extend, List.nil_append, List.mem_cons, List.mem_append, List.mem_map] at hs
    rcases hs with rfl | ((⟨a, ha, rfl⟩ | ⟨a, ha, rfl⟩) | ⟨a, ha, rfl⟩) | ⟨a, ha, rfl⟩
    · exact hn
    · exact (hb.attributes a ha).1
    · exact (he a ha).1
    · exact (hg a ha).1
    · exact (hb.attrGroups a ha).1.1
  · simp only [typesIn, complexOf, extend, List.nil_append, List.mem_cons, List.mem_append, List.mem_map] at hs
    rcases hs with rfl | ((⟨a, ha, rfl⟩ | ⟨a, ha, rfl⟩) | ⟨a, ha, rfl⟩) | ⟨a, ha, rfl⟩
    · exact hbase
    · exact (hb.attributes a ha).2
    · exact (he a ha).2
    · exact (hg a ha).2
    · exact (hb.attrGroups a ha).1.2

omit [Uni] in
theorem nested_ok (hty : TypesOk ty) (b : Content) (h : AllSpelled b.tokens) (p : Bool) :
    ∀ c ∈ nested ty p b, NodeOk (.complex c) := by
  induction b generalizing p with
  | nil => simp [nested]
  | elem as k ih => exact ih (spelled_tag (by decide) h).2.2 p
  | elemAnon as ras fs k ih => exact ih (spelled_tag (by decide) h).2.2 p
  | group as k ih => exact ih (spelled_tag (by decide) h).2.2 p
  | attrGroup as k ih => exact ih (spelled_tag (by decide) h).2.2 p
  | «attribute» as k ih => exact ih (spelled_tag (by decide) h).2.2 p
  | attrAnon as b k ih => exact ih (spelled_tag (by decide) h).2.2 p
  | choice as b k ihb ih =>
    obtain ⟨h1, h3, h2⟩ := spelled_tag (by decide) h
    exact fun c hc => (List.mem_append.1 hc).elim (ihb h3 _ c) (ih h2 p c)
  | ext as b k ihb ih =>
    obtain ⟨h1, h3, h2⟩ := spelled_tag (by decide) h
    exact fun c hc => (List.mem_append.1 hc).elim (ihb h3 _ c) (ih h2 p c)
  | restr as fs b k ihb ih =>
    obtain ⟨h1, h3, h2⟩ := spelled_tag (by decide) h
    exact fun c hc => (List.mem_append.1 hc).elim (ihb (spelled_append h3).2 _ c) (ih h2 p c)
  | anon as cas b k ihb ih =>
    obtain ⟨h1, h3, h2⟩ := spelled_tag (by decide) h
    have h4 : AllSpelled b.tokens := (spelled_tag (n := c!"complexType") (k := []) (by decide) (by rw [List.append_nil]; exact h3)).2.1
    intro c hc
    rcases List.mem_append.1 hc with hc | hc
    · rcases List.mem_append.1 hc with hc | hc
      · exact ihb h4 p c hc
      · rw [List.mem_singleton.1 hc]
        exact complex_ok (content_ok hty b h4) p h1.name
    · exact ih h2 p c hc

omit [Uni] in
theorem mem_set {α : Type} {m : GoMap α} {k : Str} {v : α} {x : Str × α} (h : x ∈ m.set k v) : x = (k, v) ∨ x ∈ m := by
  induction m with
  | nil => exact .inl (List.mem_singleton.1 h)
  | cons y m ih =>
    unfold GoMap.set at h
    split at h
    · rename_i e
      rcases List.mem_cons.1 h with h | h
      · exact .inl (by rw [h, e])
      · exact .inr (List.mem_cons_of_mem _ h)
    · rcases List.mem_cons.1 h with h | h
      · exact .inr (by rw [h]; exact List.mem_cons_self)
      · exact (ih h).imp id (List.mem_cons_of_mem _)

omit [Uni] in
theorem mem_of_mem_splitOn {sep : Char} {s p : Str} {c : Char} (h : p ∈ splitOn sep s) (hc : c ∈ p) : c ∈ s := by
  have : c ∈ (splitOn sep s).flatten := List.mem_flatten.2 ⟨p, h, hc⟩
  rw [flatten_splitOn] at this
  exact (List.mem_filter.1 this).1

omit [Uni] in
theorem members_ok (hty : TypesOk ty) (l : List Str) (hl : ∀ t ∈ l, Clean notInNames t) : ∀ m : GoMap Str,
    (∀ x ∈ m, Fine x.1 x.2) → ∀ x ∈ l.foldl (fun m t => m.set (Names.localPart t) (ty t)) m, Fine x.1 x.2 := by
  induction l with
  | nil => intro m h; exact h
  | cons t l ih =>
    intro m h
    refine ih (fun s hs => hl s (by simp [hs])) _ fun x hx => ?_
    have ht := hl t (by simp)
    rcases mem_set hx with rfl | hx
    · exact ⟨fun c hc => by rw [← Names.localPart_eq]; exact trimNSPrefix_absent (ht c hc), hty _ (weaken ht)⟩
    · exact h x hx

omit [Uni] in
theorem simple_ok (hty : TypesOk ty) {as : List Attr} (h : Spelled as) {b : SimpleBody} (hb : AllSpelled b.tokens) :
    NodeOk (.simple (simpleOf ty as b)) := by
  have hb' := spelled_body hb
  cases b with
  | restriction ras fs =>
    refine ⟨?_, ?_, fun s hs => ?_⟩
    · intro s hs
      simp only [namesIn, simpleOf, List.map_nil, List.mem_singleton] at hs
      rw [hs]; exact h.name
    · intro s hs
      simp only [typesIn, simpleOf, List.map_nil, List.mem_singleton] at hs
      rw [hs]
      exact hb'.via (k := c!"base") (by decide) fun v hv => hty _ (hty _ hv)
    · simp only [valuesIn, simpleOf, List.mem_flatMap] at hs
      obtain ⟨f, hf, hs⟩ := hs
      split at hs
      · rename_i e
        have : Spelled f.as := hb c!"enumeration" (by decide) f.as (by
          rw [← e]
          simp only [SimpleBody.tokens, tag, facetTokens, List.mem_cons, List.mem_append, List.mem_flatMap]
          exact .inr (.inl ⟨f, hf, .inl rfl⟩))
        exact this.2.2 s (by simpa using hs)
      · cases hs
  | list las =>
    refine ⟨?_, ?_, by simp [valuesIn, simpleOf]⟩
    · intro s hs
      simp only [namesIn, simpleOf, List.map_nil, List.mem_singleton] at hs
      rw [hs]; exact h.name
    · intro s hs
      simp only [typesIn, simpleOf, List.map_nil, List.mem_singleton] at hs
      rw [hs]
      exact hb'.via (k := c!"itemType") (by decide) hty
  | union uas =>
    have hm := members_ok hty (((attr? uas c!"memberTypes").map fun v => splitOn ' ' v).getD []) (fun t ht => by
      cases e : attr? uas c!"memberTypes" with
      | none => rw [e] at ht; cases ht
      | some v =>
        rw [e] at ht
        have ht : t ∈ splitOn ' ' v := ht
        intro c hc hct
        by_cases hc' : c = ' '
        · subst hc'; exact not_mem_of_mem_splitOn ht hct
        · exact hb'.2.1 v e c hc hc' (mem_of_mem_splitOn ht hct)) [] (by simp)
    refine ⟨?_, ?_, by simp [valuesIn, simpleOf]⟩
    · intro s hs
      simp only [namesIn, simpleOf, List.mem_cons, List.mem_map] at hs
      rcases hs with rfl | ⟨x, hx, rfl⟩
      · exact h.name
      · exact (hm x hx).1
    · intro s hs
      simp only [typesIn, simpleOf, List.mem_cons, List.mem_map] at hs
      rcases hs with rfl | ⟨x, hx, rfl⟩
      · exact nil_clean _
      · exact (hm x hx).2

omit [Uni] in
theorem decl_ok (hty : TypesOk ty) (d : Decl) (h : AllSpelled d.tokens) : ∀ n ∈ d.nodes ty, NodeOk n := by
  have open_ : ∀ {n as inner}, n ∈ tags → AllSpelled (tag n as inner) → Spelled as ∧ AllSpelled inner := fun hn h =>
    have := spelled_tag (k := []) hn (by rw [List.append_nil]; exact h)
    ⟨this.1, this.2.1⟩
  have elem_ok : ∀ {as}, Spelled as → NodeOk (.elem (elementOf ty false as)) := fun h => by
    have := element_fine hty h false
    refine ⟨?_, ?_, by simp [valuesIn]⟩ <;> simp only [namesIn, typesIn, List.mem_singleton] <;> rintro s rfl
    · exact this.1
    · exact this.2
  intro n hn
  cases d with
  | simple as b =>
    obtain ⟨h1, h2⟩ := open_ (by decide) h
    rw [List.mem_singleton.1 hn]
    exact simple_ok hty h1 h2
  | complex as b =>
    obtain ⟨h1, h2⟩ := open_ (by decide) h
    rcases List.mem_append.1 hn with hn | hn
    · obtain ⟨c, hc, rfl⟩ := List.mem_map.1 hn
      exact nested_ok hty b h2 false c hc
    · rw [List.mem_singleton.1 hn]
      exact complex_ok (content_ok hty b h2) false h1.name
  | element as =>
    rw [List.mem_singleton.1 hn]
    exact elem_ok (open_ (by decide) h).1
  | elemAnon as ras fs =>
    obtain ⟨h1, h2⟩ := open_ (by decide) h
    obtain ⟨-, h3⟩ := open_ (by decide) h2
    have := elemAnon_fine hty h1 (open_ (by decide) h3).1 false
    rw [List.mem_singleton.1 hn]
    refine ⟨?_, ?_, by simp [valuesIn]⟩ <;> simp only [namesIn, typesIn, List.mem_singleton] <;> rintro s rfl
    · exact this.1
    · exact this.2
  | anon as cas b =>
    obtain ⟨h1, h2⟩ := open_ (by decide) h
    obtain ⟨-, h3⟩ := open_ (by decide) h2
    rcases List.mem_append.1 hn with hn | hn
    · obtain ⟨c, hc, rfl⟩ := List.mem_map.1 hn
      exact nested_ok hty b h3 false c hc
    · rcases List.mem_cons.1 hn with rfl | hn
      · exact complex_ok (content_ok hty b h3) false h1.name
      · rw [List.mem_singleton.1 hn]; exact elem_ok h1
  | group as b =>
    obtain ⟨h1, h2⟩ := open_ (by decide) h
    have B := content_ok hty b h2
    rw [List.mem_singleton.1 hn]
    refine ⟨fun s hs => ?_, fun s hs => ?_, by simp [valuesIn]⟩
    · simp only [namesIn, List.mem_cons, List.mem_append, List.mem_map] at hs
      rcases hs with rfl | ⟨a, ha, rfl⟩ | ⟨a, ha, rfl⟩
      · exact h1.name
      · exact (B.elements _ a ha).1
      · exact (B.groups _ a ha).1
    · simp only [typesIn, List.mem_append, List.mem_map] at hs
      rcases hs with ⟨a, ha, rfl⟩ | ⟨a, ha, rfl⟩
      · exact (B.elements _ a ha).2
      · exact (B.groups _ a ha).2
  | attrGroup as b =>
    obtain ⟨h1, h2⟩ := open_ (by decide) h
    have B := content_ok hty b h2
    rcases List.mem_append.1 hn with hn | hn
    · obtain ⟨a, ha, rfl⟩ := List.mem_map.1 hn
      obtain ⟨k1, k2⟩ := B.attrGroups a ha
      refine ⟨fun s hs => ?_, fun s hs => ?_, by simp [valuesIn]⟩
      · simp only [namesIn, k2, List.map_nil, List.mem_singleton] at hs
        rw [hs]; exact k1.1
      · simp only [typesIn, k2, List.map_nil, List.not_mem_nil] at hs
    · rw [List.mem_singleton.1 hn]
      refine ⟨fun s hs => ?_, fun s hs => ?_, by simp [valuesIn]⟩
      · simp only [namesIn, List.mem_cons, List.mem_map] at hs
        rcases hs with rfl | ⟨a, ha, rfl⟩
        · exact h1.name
        · exact (B.attributes a ha).1
      · simp only [typesIn, List.mem_map] at hs
        obtain ⟨a, ha, rfl⟩ := hs
        exact (B.attributes a ha).2
  | «attribute» as =>
    have := attribute_fine hty (open_ (by decide) h).1
    rw [List.mem_singleton.1 hn]
    refine ⟨?_, ?_, by simp [valuesIn]⟩ <;> simp only [namesIn, typesIn, List.mem_singleton] <;> rintro s rfl
    · exact this.1
    · exact this.2
  | attrAnon as ras fs =>
    obtain ⟨h1, h2⟩ := open_ (by decide) h
    obtain ⟨-, h3⟩ := open_ (by decide) h2
    have := attrAnon_fine hty h1 (b := .restriction ras fs) (open_ (by decide) h3).1
    rw [List.mem_singleton.1 hn]
    refine ⟨?_, ?_, by simp [valuesIn]⟩ <;> simp only [namesIn, typesIn, List.mem_singleton] <;> rintro s rfl
    · exact this.1
    · exact this.2

end

/-! ## Type references -/

omit [Uni] in
theorem typeRef_ok (lang : Str) (extract : Bool) {t : Tree} (ht : ∀ r ∈ treeTypes t, Clean notInTypes r) : TypesOk (typeRef lang extract t) := by
  intro v hv
  have hname : Clean notInTypes (trimNSPrefix v) := fun c hc => trimNSPrefix_absent (hv c hc)
  unfold typeRef
  rw [← Names.localPart_eq]
  cases hb : getBuildInTypeByLang (trimNSPrefix v) lang with
  | some b =>
    unfold getBuildInTypeByLang getBuildInTypeByLang? at hb
    cases hr : buildInTypes.get? (trimNSPrefix v) with
    | none => rw [hr] at hb; cases hb
    | some row =>
      rw [hr] at hb
      dsimp only at hb
      cases hi : row[langIndex lang]? with
      | none => rw [hi] at hb; cases hb
      | some s =>
        rw [hi] at hb
        injection hb with e
        subst e
        have h1 := GoMap.mem_of_get? hr
        exact (by decide +kernel : ∀ x ∈ buildInTypes, ∀ s ∈ x.2, Clean notInTypes s) _ h1 _ (List.mem_of_getElem? hi)
  | none =>
    dsimp only
    cases hf : (t.filterMap C07.declares).find? (fun d => d.1 = trimNSPrefix v) with
    | none => exact hname
    | some d =>
      dsimp only
      split
      · exact hname
      · have := List.mem_of_find?_eq_some hf
        obtain ⟨n, hn, hd⟩ := List.mem_filterMap.1 this
        refine ht _ (List.mem_filterMap.2 ⟨n, hn, ?_⟩)
        cases n with
        | none => cases hd
        | some n =>
          cases n with
          | simple w =>
            simp only [C07.declares] at hd
            split at hd
            · cases hd
            · injection hd with e; subst e; rfl
          | attr w => injection hd with e; subst e; rfl
          | elem w => injection hd with e; subst e; rfl
          | complex w => cases hd
          | group w => cases hd
          | attrGroup w => cases hd

omit [Uni] in
theorem tree_legible (lang : Str) (extract : Bool) (ds : List Decl) : ∀ t, Legible t → AllSpelled (ds.flatMap Decl.tokens) →
    Legible (treeOf (typeRef lang extract) t ds) := by
  induction ds with
  | nil => intro t h _; exact h
  | cons d ds ih =>
    intro t h hs
    rw [List.flatMap_cons] at hs
    refine ih _ ?_ (spelled_append hs).2
    intro n hn
    rw [Xgen.Decl.nodes, List.filterMap_append, List.mem_append] at hn
    rcases hn with hn | hn
    · exact h n hn
    · rw [List.filterMap_map] at hn
      exact decl_ok (typeRef_ok lang extract h.types) d (spelled_append hs).1 n (by simpa using hn)

/-! ## Documentation does not matter -/

omit [Uni] in
theorem filterMap_same {α β : Type} {f g : α → Option β} (h : ∀ x, f x = g x) {l : List α} : l.filterMap f = l.filterMap g := by
  rw [show f = g from funext h]

omit [Uni] in
theorem nodes_bare (t : Tree) : nodes (bare t) = (nodes t).map (noDocNode noDocE) := by
  unfold bare Xgen.Decl.nodes
  rw [List.filterMap_map, List.map_filterMap]
  refine filterMap_same fun n => ?_
  cases n <;> rfl

omit [Uni] in
theorem name_bare (n : Node Element) : nodeName (noDocNode noDocE n) = nodeName n := by cases n <;> rfl

omit [Uni] in
theorem declares_bare (t : Tree) : (bare t).filterMap C07.declares = t.filterMap C07.declares := by
  unfold bare
  rw [List.filterMap_map]
  refine filterMap_same fun n => ?_
  cases n with
  | none => rfl
  | some n => cases n <;> rfl

omit [Uni] in
theorem meaning_bare (t : Tree) : Names.meaning (bare t) = Names.meaning t := by
  funext s; simp only [Names.meaning, declares_bare]

omit [Uni] in
theorem memberMeaning_bare (t : Tree) : C55.memberMeaning (bare t) = C55.memberMeaning t := by
  funext s; simp only [C55.memberMeaning, declares_bare]

omit [Uni] in
theorem firsts_map {free : Node Element → Bool} {f : Node Element → Node Element} (h1 : ∀ n, free (f n) = free n)
    (h2 : ∀ n, nodeName (f n) = nodeName n) (ns : List (Node Element)) : C56.firsts free (ns.map f) = (C56.firsts free ns).map f := by
  induction ns with
  | nil => rfl
  | cons n ns ih =>
    rw [List.map_cons, C56.firsts, C56.firsts, h1, ih, List.map_cons, h2]
    congr 1
    split
    · rfl
    · rw [List.filter_map]
      congr 1
      apply List.filter_congr
      intro m _
      simp [h1, h2]

omit [Uni] in
theorem finals_map {base : Node Element → Str} {numbered : Node Element → Bool} {f : Node Element → Node Element}
    (h1 : ∀ n, base (f n) = base n) (h2 : ∀ n, numbered (f n) = numbered n) (ns : List (Node Element)) :
    ∀ used, C56.finals base numbered used (ns.map f) = C56.finals base numbered used ns := by
  induction ns with
  | nil => intro used; rfl
  | cons n ns ih => intro used; rw [List.map_cons, C56.finals, C56.finals, h1, h2, ih, ih]

omit [Uni] in
theorem declarations_bare {γ : Type} {base : Node Element → Str} {numbered free : Node Element → Bool} {g : Tree → Str → Node Element → γ}
    (h1 : ∀ n, base (noDocNode noDocE n) = base n) (h2 : ∀ n, numbered (noDocNode noDocE n) = numbered n)
    (h3 : ∀ n, free (noDocNode noDocE n) = free n) (t : Tree) (h4 : ∀ fn n, g (bare t) fn (noDocNode noDocE n) = g t fn n) :
    ((C58.declarations base numbered free (bare t)).map fun x => g (bare t) x.2 x.1) =
      (C58.declarations base numbered free t).map fun x => g t x.2 x.1 := by
  unfold C58.declarations
  rw [nodes_bare, firsts_map h3 name_bare, finals_map h1 h2]
  generalize C56.firsts free (nodes t) = ns
  generalize C56.finals base numbered [] ns = fs
  rw [List.zip_map_left, List.map_map]
  apply List.map_congr_left
  intro x _
  exact h4 x.2 x.1

/-- An order of member types. -/
abbrev Ord := List (Str × Str) → List (Str × Str)

/-- The declarations of a tree in Go: head line and fields. -/
def goDecls (order : Ord) (t : Tree) : List (Str × List C17.Field) :=
  (C58.declarations C58.Go.base C58.Go.numbered (fun _ => false) t).map fun x => (C58.Go.head t x.2 x.1, C58.Go.fields order t x.2 x.1)

/-- The declarations of a tree in C: head line, members and declared names. -/
def cDecls (order : Ord) (t : Tree) : List (Str × List C48.C.Member × List Str) :=
  (C58.declarations C58.C.base C56.C.counted (fun _ => false) t).map fun x =>
    (C58.C.head t x.1, C58.C.members order t x.1, [C58.C.nameOf x.1 x.2])

/-- The declarations of a tree in Java: head line and members. -/
def javaDecls (order : Ord) (t : Tree) : List (Str × List C48.Java.Member) :=
  (C58.declarations C58.Java.base (fun _ => true) (fun _ => false) t).map fun x => (C58.Java.head t x.2 x.1, C58.Java.members order t x.1)

/-- The declarations of a tree in Rust: head line and members. -/
def rustDecls (order : Ord) (t : Tree) : List (Str × List C48.Rust.Member) :=
  (C58.declarations C56.Rust.baseName C58.Rust.numbered (fun _ => false) t).map fun x =>
    (c!"pub struct " ++ x.2 ++ c!" {", C58.Rust.members order t x.1)

/-- The declarations of a tree in TypeScript: head line and body. -/
def tsDecls (order : Ord) (t : Tree) : List (Str × C58.TS.Body) :=
  (C58.declarations C58.TS.base (fun _ => true) C15.isEnum t).map fun x => (C58.TS.head t x.2 x.1, C58.TS.members order t x.1)

theorem go_bare (order : Ord) (t : Tree) : goDecls order (bare t) = goDecls order t := by
  refine declarations_bare (g := fun t fn n => (C58.Go.head t fn n, C58.Go.fields order t fn n)) (fun n => by cases n <;> rfl)
    (fun n => by cases n <;> rfl) (fun n => rfl) t fun fn n => ?_
  have h : C17.typeOf (bare t) = C17.typeOf t := by funext s; simp only [C17.typeOf, meaning_bare]
  cases n <;> simp [noDocNode, C58.Go.head, C58.Go.fields, C17.expected, C54.Go.group, h, memberMeaning_bare, noDocE, noDocS, noDocA, noDocC,
    noDocG, noDocAG, isUnion, C54.withAttrs, Function.comp_def] <;> (intros; rfl)

theorem c_bare (order : Ord) (t : Tree) : cDecls order (bare t) = cDecls order t := by
  refine declarations_bare (g := fun t fn n => (C58.C.head t n, C58.C.members order t n, [C58.C.nameOf n fn])) (fun n => by cases n <;> rfl)
    (fun n => by cases n <;> rfl) (fun n => rfl) t fun fn n => ?_
  have h : C48.C.typeOf (bare t) = C48.C.typeOf t := by funext s; simp only [C48.C.typeOf, meaning_bare]
  cases n <;> simp [noDocNode, C58.C.head, C58.C.members, C48.C.expected, C54.C.group, h, memberMeaning_bare, noDocE, noDocS, noDocA, noDocC,
    noDocG, noDocAG, isUnion, C54.withAttrs, Function.comp_def, C58.C.nameOf, C56.isStruct, C58.C.base, nodeName] <;> (intros; rfl)

theorem java_bare (order : Ord) (t : Tree) : javaDecls order (bare t) = javaDecls order t := by
  refine declarations_bare (g := fun t fn n => (C58.Java.head t fn n, C58.Java.members order t n)) (fun n => by cases n <;> rfl)
    (fun n => by cases n <;> rfl) (fun n => rfl) t fun fn n => ?_
  have h : C48.Java.typeOf (bare t) = C48.Java.typeOf t := by funext s; simp only [C48.Java.typeOf, meaning_bare]
  cases n <;> simp [noDocNode, C58.Java.head, C58.Java.members, C48.Java.expected, C48.Java.header, C54.Java.group, C54.Java.attrs, h,
    memberMeaning_bare, noDocE, noDocS, noDocA, noDocC, noDocG, noDocAG, isUnion, Function.comp_def] <;> (intros; rfl)

theorem rust_bare (order : Ord) (t : Tree) : rustDecls order (bare t) = rustDecls order t := by
  refine declarations_bare (g := fun t fn n => (c!"pub struct " ++ fn ++ c!" {", C58.Rust.members order t n)) (fun n => by cases n <;> rfl)
    (fun n => by cases n <;> rfl) (fun n => rfl) t fun fn n => ?_
  have h : C48.Rust.typeOf (bare t) = C48.Rust.typeOf t := by funext s; simp only [C48.Rust.typeOf, meaning_bare]
  cases n <;> simp [noDocNode, C58.Rust.members, C48.Rust.expected, C54.Rust.group, C54.Rust.attrs, h,
    memberMeaning_bare, noDocE, noDocS, noDocA, noDocC, noDocG, noDocAG, isUnion, Function.comp_def] <;> (intros; rfl)

theorem ts_bare (order : Ord) (t : Tree) : tsDecls order (bare t) = tsDecls order t := by
  refine declarations_bare (g := fun t fn n => (C58.TS.head t fn n, C58.TS.members order t n)) (fun n => by cases n <;> rfl)
    (fun n => by cases n <;> rfl) (fun n => by cases n <;> rfl) t fun fn n => ?_
  have h : C48.TS.typeOf (bare t) = C48.TS.typeOf t := by funext s p; simp only [C48.TS.typeOf, meaning_bare]
  cases n <;> simp [noDocNode, C58.TS.head, C58.TS.synonym, C58.TS.members, C48.TS.expected, C48.TS.header, C54.TS.group, h, C49.expected,
    memberMeaning_bare, noDocE, noDocS, noDocA, noDocC, noDocG, noDocAG, isUnion, C54.withAttrs, Function.comp_def] <;> (intros; rfl)

omit [Uni] in
theorem legible_bare (t : Tree) : Legible (bare t) ↔ Legible t := by
  have h1 : ∀ n, namesIn (noDocNode noDocE n) = namesIn n := fun n => by
    cases n <;> simp [noDocNode, namesIn, noDocE, noDocS, noDocA, noDocC, noDocG, noDocAG, Function.comp_def]
  have h2 : ∀ n, typesIn (noDocNode noDocE n) = typesIn n := fun n => by
    cases n <;> simp [noDocNode, typesIn, noDocE, noDocS, noDocA, noDocC, noDocG, noDocAG, Function.comp_def]
  have h3 : ∀ n, valuesIn (noDocNode noDocE n) = valuesIn n := fun n => by
    cases n <;> simp [noDocNode, valuesIn, noDocS]
  unfold Legible
  rw [nodes_bare]
  simp only [List.mem_map, forall_exists_index, and_imp, forall_apply_eq_imp_iff₂, h1, h2, h3]

omit [Uni] in
theorem legible_alike {t t' : Tree} (h : bare t = bare t') (hl : Legible t') : Legible t := by
  rw [← legible_bare, h, legible_bare]; exact hl

/-! ## The document -/

variable [UniLaws]

theorem tags_kept {n : Str} (hn : n ∈ tags) (as : List Attr) : C32.transparent (.start n as) = false := by
  have hA : ∀ c : Char, c.toNat < 128 → Uni.upper c = asciiUpper c := fun c h => UniLaws.upper_ascii _ h
  simp only [tags, List.mem_cons, List.not_mem_nil, or_false] at hn
  rcases hn with rfl | rfl | rfl | rfl | rfl | rfl | rfl | rfl | rfl | rfl | rfl | rfl <;>
    simp only [C32.transparent, makeFirstUpperCase, toTitle] <;> rw [hA _ (by decide)] <;> decide

/-- The spelling of the document is that of the schema. -/
theorem schema_spelled {toks : List Token} {as : List Attr} {ds : List Decl} (ht : skeleton (C57.noText toks) = skeleton (schemaTokens as ds))
    (hs : AllSpelled toks) : AllSpelled (ds.flatMap Decl.tokens) := by
  intro n hn bs hb
  have h1 : Token.start n bs ∈ skeleton (schemaTokens as ds) := by
    unfold skeleton C32.strip
    refine List.mem_filter.2 ⟨List.mem_filter.2 ⟨?_, rfl⟩, ?_⟩
    · unfold schemaTokens tag
      exact List.mem_cons_of_mem _ (List.mem_append_left _ hb)
    · rw [tags_kept hn]; rfl
  rw [← ht] at h1
  unfold skeleton C32.strip C57.noText at h1
  exact hs n hn bs (List.mem_filter.1 (List.mem_filter.1 (List.mem_filter.1 h1).1).1).1

/-- A document of a regular core schema at the path of a configuration, and a file system in which the output can be written. -/
structure Document (W : World) (cfg : Cfg) (sh : Shared) (ds : List Decl) (toks : List Token) : Prop where
  file : W.fs.get? cfg.filePath = some (.file toks)
  names : C32.NamesOk toks
  tags : ∃ as, skeleton (C57.noText toks) = skeleton (schemaTokens as ds)
  spelled : AllSpelled toks
  alone : Alone W cfg sh
  regular : Regular (typeRef cfg.lang false) [] ds
  writes : cfg.extract = false
  dir : W.mkdirOk (pathDir (pathJoin cfg.outputDir (trimPrefix cfg.filePath cfg.inputDir))) = true
  create : ∀ ext, W.createOk (C24.documentedPath cfg ext) = true

theorem Document.tree {W : World} {cfg : Cfg} {sh : Shared} {ds : List Decl} {toks : List Token} (h : Document W cfg sh ds toks) :
    ∃ t sh', sh'.outputs = sh.outputs ∧ bare t = bare (treeOf (typeRef cfg.lang false) [] ds) ∧ Legible t ∧
      Parse W cfg sh = finish W cfg t sh' := by
  obtain ⟨as, ht⟩ := h.tags
  obtain ⟨t, sh', ⟨ns, k, e⟩, h2, h3⟩ := documented_tree W cfg toks h.file h.names as ds ht sh h.alone (by rw [h.writes]; exact h.regular)
  rw [h.writes] at h2
  refine ⟨t, sh', ?_, h2, legible_alike h2 (tree_legible _ _ ds [] (fun n hn => by cases hn) (schema_spelled ht h.spelled)), h3⟩
  rw [e]
  unfold beginParse
  rw [if_neg (by rw [h.writes]; decide)]
  rfl

/-- Writing one file. -/
theorem Document.write {W : World} {cfg : Cfg} {sh : Shared} {ds : List Decl} {toks : List Token} (h : Document W cfg sh ds toks)
    {t : Tree} {sh' : Shared} {ext text : Str} (hg : generate W cfg.lang cfg.package (outputPath cfg) t =
      writeFile W (fileWithExtension (outputPath cfg) ext) text) :
    ∃ sh'', finish W cfg t sh' = .ok t sh'' ∧ sh''.outputs = sh'.outputs ++ [(C24.documentedPath cfg ext, text)] := by
  unfold finish
  dsimp only
  rw [if_neg (by rw [h.writes]; decide), if_pos (show W.mkdirOk (pathDir (outputPath cfg)) = true from h.dir), hg]
  unfold writeFile
  rw [if_pos (show W.createOk (fileWithExtension (outputPath cfg) ext) = true from h.create ext)]
  exact ⟨_, rfl, rfl⟩

variable {W : World} {cfg : Cfg} {sh : Shared} {ds : List Decl} {toks : List Token}

/-- C59, C: one header file is written, and it reads as the declarations of the schema. -/
theorem c (h : Document W cfg sh ds toks) (hl : cfg.lang = c!"C") : ∃ t sh' text order, Parse W cfg sh = .ok t sh' ∧
    sh'.outputs = sh.outputs ++ [(C24.documentedPath cfg c!".h", text)] ∧ C58.Order order ∧
    C58.C.declsOf text = cDecls order (treeOf (typeRef c!"C" false) [] ds) := by
  obtain ⟨t, sh', h1, h2, h3, h4⟩ := h.tree
  obtain ⟨order, ho, hr⟩ := C58.C.file t h3
  obtain ⟨sh'', h5, h6⟩ := h.write (t := t) (sh' := sh') (ext := c!".h") (text := cSource t) (by
    rw [generate, hl, C24.title_lang (by decide)]; rfl)
  refine ⟨t, sh'', _, order, h4.trans h5, by rw [h6, h1], ho, hr.trans ?_⟩
  show cDecls order t = _
  rw [← c_bare, h2, c_bare, hl]

/-- C59, Java. -/
theorem java (h : Document W cfg sh ds toks) (hl : cfg.lang = c!"Java") (hp : '\n' ∉ cfg.package) :
    ∃ t sh' text order, Parse W cfg sh = .ok t sh' ∧
    sh'.outputs = sh.outputs ++ [(C24.documentedPath cfg c!".java", text)] ∧ C58.Order order ∧
    C58.Java.declsOf text = javaDecls order (treeOf (typeRef c!"Java" false) [] ds) := by
  obtain ⟨t, sh', h1, h2, h3, h4⟩ := h.tree
  obtain ⟨order, ho, hr⟩ := C58.Java.file cfg.package t hp h3
  obtain ⟨sh'', h5, h6⟩ := h.write (t := t) (sh' := sh') (ext := c!".java") (text := javaSource cfg.package t) (by
    rw [generate, hl, C24.title_lang (by decide)]; rfl)
  refine ⟨t, sh'', _, order, h4.trans h5, by rw [h6, h1], ho, hr.trans ?_⟩
  show javaDecls order t = _
  rw [← java_bare, h2, java_bare, hl]

/-- C59, Rust. -/
theorem rust (h : Document W cfg sh ds toks) (hl : cfg.lang = c!"Rust") : ∃ t sh' text order, Parse W cfg sh = .ok t sh' ∧
    sh'.outputs = sh.outputs ++ [(C24.documentedPath cfg c!".rs", text)] ∧ C58.Order order ∧
    C58.Rust.declsOf text = rustDecls order (treeOf (typeRef c!"Rust" false) [] ds) := by
  obtain ⟨t, sh', h1, h2, h3, h4⟩ := h.tree
  obtain ⟨order, ho, hr⟩ := C58.Rust.file t h3
  obtain ⟨sh'', h5, h6⟩ := h.write (t := t) (sh' := sh') (ext := c!".rs") (text := rustSource t) (by
    rw [generate, hl, C24.title_lang (by decide)]; rfl)
  refine ⟨t, sh'', _, order, h4.trans h5, by rw [h6, h1], ho, hr.trans ?_⟩
  show rustDecls order t = _
  rw [← rust_bare, h2, rust_bare, hl]

/-- C59, Go: a source that reads as the declarations of the schema is handed to the formatter.  What the formatter makes of it is
written; if it fails, the parse fails. -/
theorem go (h : Document W cfg sh ds toks) (hl : cfg.lang = c!"Go") (hp : '\n' ∉ cfg.package) :
    ∃ source order, C58.Order order ∧ C58.Go.declsOf source = goDecls order (treeOf (typeRef c!"Go" false) [] ds) ∧
    (∀ text, W.gofmt source = some text → ∃ t sh', Parse W cfg sh = .ok t sh' ∧
      sh'.outputs = sh.outputs ++ [(C24.documentedPath cfg c!".go", text)]) ∧
    (W.gofmt source = none → ∃ sh', Parse W cfg sh = .err .gofmt sh') := by
  obtain ⟨t, sh', h1, h2, h3, h4⟩ := h.tree
  obtain ⟨order, ho, hr⟩ := C58.Go.file cfg.package t hp h3
  have hg : generate W cfg.lang cfg.package (outputPath cfg) t = writeGo W (outputPath cfg) cfg.package t := by
    rw [generate, hl, C24.title_lang (by decide)]; rfl
  refine ⟨goSource cfg.package t, order, ho, hr.trans ?_, fun text ht => ?_, fun ht => ?_⟩
  · show goDecls order t = _
    rw [← go_bare, h2, go_bare, hl]
  · obtain ⟨sh'', h5, h6⟩ := h.write (t := t) (sh' := sh') (ext := c!".go") (text := text) (by
      rw [hg]; funext s; unfold writeGo; rw [ht])
    exact ⟨t, sh'', h4.trans h5, by rw [h6, h1]⟩
  · rw [h4]
    unfold finish
    dsimp only
    rw [if_neg (by rw [h.writes]; decide), if_pos (show W.mkdirOk (pathDir (outputPath cfg)) = true from h.dir), hg]
    unfold writeGo writeFile
    rw [ht]
    dsimp only
    rw [show fileWithExtension (outputPath cfg) c!".go" = C24.documentedPath cfg c!".go" from rfl, if_pos (h.create _)]
    exact ⟨_, rfl⟩

/-- The enumeration values of a document can be read (see C49). -/
def ValuesOk (toks : List Token) : Prop := ∀ as, Token.start c!"enumeration" as ∈ toks → ∀ v, attr? as c!"value" = some v → C49.Plain v

/-- Enumeration values that can be read, and not in lists. -/
def EnumOk (n : Node Element) : Prop := (∀ s ∈ valuesIn n, C49.Plain s) ∧ C15.isEnumList n = false

omit [Uni] [UniLaws] in
theorem decl_enums (ty : Str → Str) (d : Decl) (h : ValuesOk d.tokens) : ∀ n ∈ d.nodes ty, EnumOk n := by
  have hc : ∀ {cs : List ComplexType}, ∀ n ∈ cs.map Node.complex, EnumOk n := fun n hn => by
    obtain ⟨c, -, rfl⟩ := List.mem_map.1 hn
    exact ⟨by simp [valuesIn], rfl⟩
  intro n hn
  cases d with
  | simple as b =>
    rw [List.mem_singleton.1 hn]
    cases b with
    | restriction ras fs =>
      refine ⟨fun s hs => ?_, rfl⟩
      simp only [valuesIn, simpleOf, List.mem_flatMap] at hs
      obtain ⟨f, hf, hs⟩ := hs
      split at hs
      · rename_i e
        refine h f.as ?_ s (by simpa using hs)
        rw [← e]
        simp only [Decl.tokens, SimpleBody.tokens, tag, facetTokens, List.mem_cons, List.mem_append, List.mem_flatMap]
        exact .inr (.inl (.inr (.inl ⟨f, hf, .inl rfl⟩)))
      · cases hs
    | list las => exact ⟨by simp [valuesIn, simpleOf], rfl⟩
    | union uas => exact ⟨by simp [valuesIn, simpleOf], rfl⟩
  | complex as b =>
    rcases List.mem_append.1 hn with hn | hn
    · exact hc n hn
    · rw [List.mem_singleton.1 hn]; exact ⟨by simp [valuesIn], rfl⟩
  | element as => rw [List.mem_singleton.1 hn]; exact ⟨by simp [valuesIn], rfl⟩
  | elemAnon as ras fs => rw [List.mem_singleton.1 hn]; exact ⟨by simp [valuesIn], rfl⟩
  | anon as cas b =>
    rcases List.mem_append.1 hn with hn | hn
    · exact hc n hn
    · rcases List.mem_cons.1 hn with rfl | hn
      · exact ⟨by simp [valuesIn], rfl⟩
      · rw [List.mem_singleton.1 hn]; exact ⟨by simp [valuesIn], rfl⟩
  | group as b => rw [List.mem_singleton.1 hn]; exact ⟨by simp [valuesIn], rfl⟩
  | attrGroup as b =>
    rcases List.mem_append.1 hn with hn | hn
    · obtain ⟨a, -, rfl⟩ := List.mem_map.1 hn
      exact ⟨by simp [valuesIn], rfl⟩
    · rw [List.mem_singleton.1 hn]; exact ⟨by simp [valuesIn], rfl⟩
  | «attribute» as => rw [List.mem_singleton.1 hn]; exact ⟨by simp [valuesIn], rfl⟩
  | attrAnon as ras fs => rw [List.mem_singleton.1 hn]; exact ⟨by simp [valuesIn], rfl⟩

omit [Uni] [UniLaws] in
theorem tree_enums (ref : Tree → Str → Str) (ds : List Decl) : ∀ t, (∀ n ∈ Xgen.Decl.nodes t, EnumOk n) → ValuesOk (ds.flatMap Decl.tokens) →
    ∀ n ∈ Xgen.Decl.nodes (treeOf ref t ds), EnumOk n := by
  induction ds with
  | nil => intro t h _; exact h
  | cons d ds ih =>
    intro t h hs
    rw [List.flatMap_cons] at hs
    refine ih _ ?_ fun as ha => hs as (List.mem_append_right _ ha)
    intro n hn
    rw [Xgen.Decl.nodes, List.filterMap_append, List.mem_append] at hn
    rcases hn with hn | hn
    · exact h n hn
    · rw [List.filterMap_map] at hn
      exact decl_enums (ref t) d (fun as ha => hs as (List.mem_append_left _ ha)) n (by simpa using hn)

omit [Uni] [UniLaws] in
theorem enums_alike {t t' : Tree} (h : bare t = bare t') (hl : ∀ n ∈ Xgen.Decl.nodes t', EnumOk n) : ∀ n ∈ Xgen.Decl.nodes t, EnumOk n := by
  have h3 : ∀ n, EnumOk (noDocNode noDocE n) ↔ EnumOk n := fun n => by cases n <;> rfl
  have h4 : ∀ n ∈ Xgen.Decl.nodes (bare t'), EnumOk n := by
    intro n hn
    rw [nodes_bare] at hn
    obtain ⟨m, hm, rfl⟩ := List.mem_map.1 hn
    exact (h3 m).2 (hl m hm)
  intro n hn
  rw [← h, nodes_bare] at h4
  exact (h3 n).1 (h4 _ (List.mem_map_of_mem hn))

theorem document_enums (h : Document W cfg sh ds toks) (hv : ValuesOk toks) {t : Tree} (h2 : bare t = bare (treeOf (typeRef cfg.lang false) [] ds)) :
    ∀ n ∈ Xgen.Decl.nodes t, EnumOk n := by
  refine enums_alike h2 (tree_enums _ ds [] (fun n hn => by cases hn) fun bs hb => hv bs ?_)
  obtain ⟨as, ht⟩ := h.tags
  have h1 : Token.start c!"enumeration" bs ∈ skeleton (schemaTokens as ds) := by
    unfold skeleton C32.strip
    refine List.mem_filter.2 ⟨List.mem_filter.2 ⟨?_, rfl⟩, ?_⟩
    · unfold schemaTokens tag
      exact List.mem_cons_of_mem _ (List.mem_append_left _ hb)
    · rw [tags_kept (by decide)]; rfl
  rw [← ht] at h1
  unfold skeleton C32.strip C57.noText at h1
  exact (List.mem_filter.1 (List.mem_filter.1 (List.mem_filter.1 h1).1).1).1

/-- C59, TypeScript.  (Missing: enumeration values with quotes, equal signs or backslashes, see C49.) -/
theorem ts_partial (h : Document W cfg sh ds toks) (hv : ValuesOk toks) (hl : cfg.lang = c!"TypeScript") :
    ∃ t sh' text order, Parse W cfg sh = .ok t sh' ∧
    sh'.outputs = sh.outputs ++ [(C24.documentedPath cfg c!".ts", text)] ∧ C58.Order order ∧
    C58.TS.declsOf text = tsDecls order (treeOf (typeRef c!"TypeScript" false) [] ds) := by
  obtain ⟨t, sh', h1, h2, h3, h4⟩ := h.tree
  have he := document_enums h hv h2
  obtain ⟨order, ho, hr⟩ := C58.TS.file_partial t h3 (fun n hn => (he n hn).1) (.of_none fun n hn => (he n hn).2)
  obtain ⟨sh'', h5, h6⟩ := h.write (t := t) (sh' := sh') (ext := c!".ts") (text := tsSource t) (by
    rw [generate, hl, C24.title_lang (by decide)]; rfl)
  refine ⟨t, sh'', _, order, h4.trans h5, by rw [h6, h1], ho, hr.trans ?_⟩
  show tsDecls order t = _
  rw [← ts_bare, h2, ts_bare, hl]

/-! ## Nothing is left out -/

/-- The names of the anonymous types inside contents. -/
def anonymous : Content → List Str
  | .nil => []
  | .elem _ k => anonymous k
  | .elemAnon _ _ _ k => anonymous k
  | .anon as _ b k => anonymous b ++ nameOf as :: anonymous k
  | .choice _ b k => anonymous b ++ anonymous k
  | .group _ k => anonymous k
  | .attrGroup _ k => anonymous k
  | .attribute _ k => anonymous k
  | .attrAnon _ _ k => anonymous k
  | .ext _ b k => anonymous b ++ anonymous k
  | .restr _ _ b k => anonymous b ++ anonymous k

/-- The names a declaration introduces. -/
def introduces : Decl → List Str
  | .simple as _ => [nameOf as]
  | .complex as b => anonymous b ++ [nameOf as]
  | .element as => [nameOf as]
  | .elemAnon as _ _ => [nameOf as]
  | .anon as _ b => anonymous b ++ [nameOf as]
  | .group as _ => [nameOf as]
  | .attrGroup as _ => [nameOf as]
  | .attribute as => [nameOf as]
  | .attrAnon as _ _ => [nameOf as]

omit [Uni] [UniLaws] in
theorem nested_names (ty : Str → Str) (b : Content) : ∀ p, (nested ty p b).map (·.name) = anonymous b := by
  induction b with
  | nil => intro p; rfl
  | anon as cas b k ihb ih => intro p; simp [nested, anonymous, ihb, ih, complexOf, extend]
  | choice as b k ihb ih => intro p; simp [nested, anonymous, ihb, ih]
  | ext as b k ihb ih => intro p; simp [nested, anonymous, ihb, ih]
  | restr as fs b k ihb ih => intro p; simp [nested, anonymous, ihb, ih]
  | elem as k ih => exact ih
  | elemAnon as ras fs k ih => exact ih
  | group as k ih => exact ih
  | attrGroup as k ih => exact ih
  | «attribute» as k ih => exact ih
  | attrAnon as b k ih => exact ih

omit [Uni] [UniLaws] in
theorem introduced (ty : Str → Str) (d : Decl) {s : Str} (hs : s ∈ introduces d) : ∃ n ∈ d.nodes ty, nodeName n = s := by
  have hc : ∀ {b : Content}, s ∈ anonymous b → ∃ n ∈ (nested ty false b).map Node.complex, nodeName n = s := fun {b} h => by
    rw [← nested_names ty b false] at h
    obtain ⟨c, hc, rfl⟩ := List.mem_map.1 h
    exact ⟨_, List.mem_map_of_mem hc, rfl⟩
  cases d with
  | complex as b =>
    rcases List.mem_append.1 hs with h | h
    · obtain ⟨n, hn, e⟩ := hc h
      exact ⟨n, List.mem_append_left _ hn, e⟩
    · rw [List.mem_singleton.1 h]
      exact ⟨_, List.mem_append_right _ (List.mem_singleton.2 rfl), rfl⟩
  | anon as cas b =>
    rcases List.mem_append.1 hs with h | h
    · obtain ⟨n, hn, e⟩ := hc h
      exact ⟨n, List.mem_append_left _ hn, e⟩
    · rw [List.mem_singleton.1 h]
      exact ⟨_, List.mem_append_right _ List.mem_cons_self, rfl⟩
  | attrGroup as b =>
    rw [List.mem_singleton.1 hs]
    exact ⟨_, List.mem_append_right _ (List.mem_singleton.2 rfl), rfl⟩
  | simple as b =>
    rw [List.mem_singleton.1 hs]
    exact ⟨_, List.mem_singleton.2 rfl, by cases b <;> rfl⟩
  | _ =>
    rw [List.mem_singleton.1 hs]
    exact ⟨_, List.mem_singleton.2 rfl, rfl⟩

omit [Uni] [UniLaws] in
theorem tree_grows (ref : Tree → Str → Str) (ds : List Decl) : ∀ t n, n ∈ t → n ∈ treeOf ref t ds := by
  induction ds with
  | nil => intro t n h; exact h
  | cons d ds ih => intro t n h; exact ih _ n (List.mem_append_left _ h)

omit [Uni] [UniLaws] in
/-- Every name a declaration introduces is the name of a component. -/
theorem all_introduced (ref : Tree → Str → Str) (ds : List Decl) : ∀ t, ∀ d ∈ ds, ∀ s ∈ introduces d,
    ∃ n ∈ Xgen.Decl.nodes (treeOf ref t ds), nodeName n = s := by
  induction ds with
  | nil => intro t d hd; cases hd
  | cons d ds ih =>
    intro t d' hd s hs
    rcases List.mem_cons.1 hd with rfl | hd
    · obtain ⟨n, hn, e⟩ := introduced (ref t) d' hs
      refine ⟨n, List.mem_filterMap.2 ⟨some n, tree_grows ref ds _ _ (List.mem_append_right _ (List.mem_map_of_mem hn)), rfl⟩, e⟩
    · exact ih _ d' hd s hs

omit [Uni] [UniLaws] in
theorem mem_firsts (free : Node Element → Bool) (ns : List (Node Element)) : ∀ n ∈ ns, ∃ m ∈ C56.firsts free ns, nodeName m = nodeName n := by
  induction ns with
  | nil => intro n hn; cases hn
  | cons a ns ih =>
    intro n hn
    rw [C56.firsts]
    by_cases h : nodeName a = nodeName n
    · exact ⟨a, List.mem_cons_self, h⟩
    · obtain ⟨m, hm, e⟩ := ih n ((List.mem_cons.1 hn).resolve_left fun e => h (by rw [e]))
      refine ⟨m, List.mem_cons_of_mem _ ?_, e⟩
      split
      · exact hm
      · refine List.mem_filter.2 ⟨hm, ?_⟩
        have : nodeName n ≠ nodeName a := fun h' => h h'.symm
        simp [e, this]

omit [Uni] [UniLaws] in
/-- Every name introduced by the schema is declared: in each language, one of the declarations is of a component of that name. -/
theorem covered (ref : Tree → Str → Str) (base : Node Element → Str) (numbered free : Node Element → Bool) {d : Decl} (hd : d ∈ ds)
    {s : Str} (hs : s ∈ introduces d) : ∃ x ∈ C58.declarations base numbered free (treeOf ref [] ds), nodeName x.1 = s := by
  obtain ⟨n, hn, e⟩ := all_introduced ref ds [] d hd s hs
  obtain ⟨m, hm, e'⟩ := mem_firsts free _ n hn
  unfold C58.declarations
  generalize C56.firsts free (Xgen.Decl.nodes (treeOf ref [] ds)) = ns at hm
  have hlen : ∀ (ns : List (Node Element)) used, (C56.finals base numbered used ns).length = ns.length := by
    intro ns
    induction ns with
    | nil => intro used; rfl
    | cons a ns ih => intro used; rw [C56.finals]; split <;> simp [ih]
  have hz : (ns.zip (C56.finals base numbered [] ns)).map (·.1) = ns := by
    rw [← List.unzip_fst, List.unzip_zip (hlen ns []).symm]
  rw [← hz] at hm
  obtain ⟨x, hx, rfl⟩ := List.mem_map.1 hm
  exact ⟨x, hx, e'.trans e⟩

/-! ## Example -/

instance (as : List Attr) : Decidable (Spelled as) :=
  decidable_of_iff ((∀ k ∈ nameAttrs, (attr? as k).all fun v => decide (Clean notInNames v)) ∧
    ((attr? as c!"memberTypes").all fun v => decide (∀ c ∈ notInNames, c ≠ ' ' → c ∉ v)) = true ∧
    ((attr? as c!"value").all fun v => decide ('\n' ∉ v)) = true) (by
      unfold Spelled
      simp only [Option.all_eq_true, decide_eq_true_eq])

/-- Decides a property of all start tags. -/
def decStarts (P : Str → List Attr → Prop) [∀ n as, Decidable (P n as)] (toks : List Token) :
    Decidable (∀ n as, Token.start n as ∈ toks → P n as) :=
  decidable_of_iff ((toks.all fun t => match t with | .start n as => decide (P n as) | _ => true) = true) (by
    rw [List.all_eq_true]
    constructor
    · intro h n as ha
      exact of_decide_eq_true (h _ ha)
    · intro h t ht
      cases t with
      | start n as => exact decide_eq_true (h n as ht)
      | _ => rfl)

instance (toks : List Token) : Decidable (AllSpelled toks) :=
  @decidable_of_iff _ _ ⟨fun h n hn as ha => h n as ha hn, fun h n as ha hn => h n hn as ha⟩ (decStarts (fun n as => n ∈ tags → Spelled as) toks)

instance (toks : List Token) : Decidable (C32.NamesOk toks) := decStarts (fun n _ => n ≠ []) toks

instance (toks : List Token) : Decidable (ValuesOk toks) :=
  @decidable_of_iff _ _ ⟨fun h as ha v hv => by
      have := h _ as ha rfl
      rw [hv] at this
      simpa using this,
    fun h n as ha => by
      rintro rfl
      cases e : attr? as c!"value" with
      | none => rfl
      | some v => simpa using h as ha v e⟩
    (decStarts (fun n as => n = c!"enumeration" → (attr? as c!"value").all (fun v => decide (C49.Plain v)) = true) toks)

/-- The annotated document of C40 in a file system. -/
def doc (lang : Str) : Cfg := { filePath := c!"a.xsd", outputDir := c!"out", lang := lang }

omit [Uni] [UniLaws] in
theorem doc_ok (lang : Str) (h : lang ∈ C24.extensions.map (·.1)) :
    @Document asciiUni (Ex.world [("a.xsd", C40.annotated)]) (doc lang) {} C40.declarations C40.annotated := by
  refine @Document.mk asciiUni _ _ _ _ _ rfl (by decide +kernel) ⟨C40.root, by decide +kernel⟩ (by decide +kernel)
    (.inr ⟨rfl, rfl, by decide, rfl⟩) ?_ rfl rfl fun _ => rfl
  simp only [C24.extensions, List.map_cons, List.map_nil, List.mem_cons, List.not_mem_nil, or_false] at h
  rcases h with rfl | rfl | rfl | rfl | rfl <;> decide +kernel

omit [Uni] [UniLaws] in
example : ValuesOk C40.annotated := by decide +kernel

example : (@Parse asciiUni (Ex.world [("a.xsd", C40.annotated)]) (doc c!"Java") {}).state.outputs.map (·.1) = [c!"out/a.xsd.java"] := by
  decide +kernel

example : @javaDecls asciiUni toSortedPairs (treeOf (typeRef c!"Java" false) [] C40.declarations) =
    [(c!"public class Color {", [⟨none, c!"String", c!"Color"⟩]),
     (c!"public class Car {", [⟨some c!"@XmlElement(required = true, name = \"paint\")", c!"String", c!"Paint"⟩])] := by decide +kernel

end Xgen.C59
