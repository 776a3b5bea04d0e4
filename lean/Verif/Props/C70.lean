import Verif.Props.C41
import Verif.Props.C67

/-! # C70: the order of declarations does not matter

XSD gives the order of the top-level declarations of a schema no meaning.  The parser resolves a type reference with what has
been declared so far, and the generators resolve once more with the whole tree.  Here: if simple types, attributes and elements
stand before the simple types, attributes, elements and extensions that are made from them - their uses as types of members may
stand anywhere - then any two orders give files with the same declarations, in another order. -/

namespace Xgen.C70
open Core C40 Decl
open C58 (isUnion)
open C67 (names)

/-! ## Specification -/

/-- The elements and attributes among the components a reference is resolved with. -/
def items : Decl → List Str
  | .element as => [nameOf as]
  | .anon as _ _ => [nameOf as]
  | .elemAnon as _ _ => [nameOf as]
  | .attribute as => [nameOf as]
  | .attrAnon as _ _ => [nameOf as]
  | _ => []

/-- The names references are resolved with: those of restrictions, elements and attributes. -/
def valued : Decl → List Str
  | .simple as (.restriction _ _) => [nameOf as]
  | d => items d

/-- The bases of extensions. -/
def extensions : Content → List Str
  | .nil => []
  | .elem _ k => extensions k
  | .anon _ _ b k => extensions b ++ extensions k
  | .elemAnon _ _ _ k => extensions k
  | .choice _ b k => extensions b ++ extensions k
  | .group _ k => extensions k
  | .attrGroup _ k => extensions k
  | .attribute _ k => extensions k
  | .attrAnon _ _ k => extensions k
  | .ext as b k => (attr? as c!"base").toList ++ extensions b ++ extensions k
  | .restr _ _ b k => extensions b ++ extensions k

/-- The bases of anonymous restrictions. -/
def inlineBases : Content → List Str
  | .nil => []
  | .elem _ k => inlineBases k
  | .anon _ _ b k => inlineBases b ++ inlineBases k
  | .elemAnon _ ras _ k => (attr? ras c!"base").toList ++ inlineBases k
  | .choice _ b k => inlineBases b ++ inlineBases k
  | .group _ k => inlineBases k
  | .attrGroup _ k => inlineBases k
  | .attribute _ k => inlineBases k
  | .attrAnon _ (.restriction ras _) k => (attr? ras c!"base").toList ++ inlineBases k
  | .attrAnon _ _ k => inlineBases k
  | .ext _ b k => inlineBases b ++ inlineBases k
  | .restr _ _ b k => inlineBases b ++ inlineBases k

/-- The contents of a declaration. -/
def content : Decl → Content
  | .complex _ b => b
  | .anon _ _ b => b
  | .group _ b => b
  | .attrGroup _ b => b
  | _ => .nil

/-- The references a declaration is made from. -/
def needs : Decl → List Str
  | .simple _ (.restriction ras _) => (attr? ras c!"base").toList
  | .simple _ (.union uas) => ((attr? uas c!"memberTypes").map fun v => splitOn ' ' v).getD []
  | .simple _ (.list _) => []
  | .element as => ((attr? as c!"ref").or (attr? as c!"type")).toList
  | .elemAnon _ ras _ => (attr? ras c!"base").toList
  | .attribute as => ((attr? as c!"ref").or (attr? as c!"type")).toList
  | .attrAnon _ ras _ => (attr? ras c!"base").toList
  | .anon as _ b => ((attr? as c!"ref").or (attr? as c!"type")).toList ++ extensions b
  | d => extensions (content d)

/-- What says the type of an element. -/
inductive Source where
  | own
  | ref (v : Str)
  | inline (base : Option Str)
deriving DecidableEq

/-- The type of an element with a type or reference, or of its own. -/
def sourceOf (as : List Attr) : Source :=
  match (attr? as c!"ref").or (attr? as c!"type") with
  | some v => .ref v
  | none => .own

/-- The elements of contents with the sources of their types. -/
def sources : Content → List (Str × Source)
  | .nil => []
  | .elem as k => (nameOf as, sourceOf as) :: sources k
  | .anon as _ _ k => (nameOf as, sourceOf as) :: sources k
  | .elemAnon as ras _ k => (nameOf as, .inline (attr? ras c!"base")) :: sources k
  | .choice _ b k => sources b ++ sources k
  | .group _ k => sources k
  | .attrGroup _ k => sources k
  | .attribute _ k => sources k
  | .attrAnon _ _ k => sources k
  | .ext _ b k => sources b ++ sources k
  | .restr _ _ b k => sources b ++ sources k

/-- Elements of the same name have the same type. -/
def OneType (l : List (Str × Source)) : Prop := ∀ x ∈ l, ∀ y ∈ l, x.1 = y.1 → x.2 = y.2

/-- Elements of the same name have the same type, in every complex type. -/
def Consistent : Content → Prop
  | .nil => True
  | .elem _ k => Consistent k
  | .anon _ _ b k => OneType (sources b) ∧ Consistent b ∧ Consistent k
  | .elemAnon _ _ _ k => Consistent k
  | .choice _ b k => Consistent b ∧ Consistent k
  | .group _ k => Consistent k
  | .attrGroup _ k => Consistent k
  | .attribute _ k => Consistent k
  | .attrAnon _ _ k => Consistent k
  | .ext _ b k => Consistent b ∧ Consistent k
  | .restr _ _ b k => Consistent b ∧ Consistent k

/-- A restriction has a base, an attribute has a type. -/
def Based : Decl → Prop
  | .simple _ (.restriction ras _) => (attr? ras c!"base").isSome
  | .attribute as => ((attr? as c!"ref").or (attr? as c!"type")).isSome
  | .elemAnon _ ras _ => (attr? ras c!"base").isSome
  | .attrAnon _ ras _ => (attr? ras c!"base").isSome
  | _ => True

/-- What is demanded of the declarations, in whatever order. -/
structure Orderly (lang : Str) (ds : List Decl) : Prop where
  /-- different declarations have different names -/
  apart : ds.Pairwise fun d d' => ∀ n ∈ names d, n ∉ names d'
  /-- none is without name, or has a prefix -/
  plain : ∀ d ∈ ds, ∀ n ∈ valued d, n ≠ [] ∧ Names.localPart n = n
  /-- none is named like a target type -/
  targets : ∀ d ∈ ds, ∀ n ∈ valued d, ∀ k, getBuildInTypeByLang k lang ≠ some n
  /-- elements of the same name have the same type -/
  oneType : ∀ d ∈ ds, OneType (sources (content d)) ∧ Consistent (content d)
  /-- bases of anonymous restrictions are types -/
  types : ∀ d ∈ ds, ∀ v ∈ inlineBases (content d), Names.localPart v ≠ [] ∧ ∀ d' ∈ ds, Names.localPart v ∉ items d'
  /-- nothing is without type, no reference is empty -/
  based : ∀ d ∈ ds, Based d ∧ ∀ v ∈ needs d, Names.localPart v ≠ []

/-- What a declaration is made from stands before it. -/
def Early (lang : Str) : List Decl → Prop
  | [] => True
  | d :: ds => (∀ v ∈ needs d, getBuildInTypeByLang (Names.localPart v) lang = none → ∀ d' ∈ d :: ds, Names.localPart v ∉ valued d') ∧
      Early lang ds

/-! ## Contents under two meanings of references -/

/-- An element whose type is replaced by what it means. -/
def normE (m : Str → Str) (e : Element) : Element := { e with type := m e.type }
/-- An attribute. -/
def normA (m : Str → Str) (a : Attribute) : Attribute := { a with type := m a.type }
/-- A reference to a group. -/
def normG (m : Str → Str) (g : GroupRef) : GroupRef := { g with ref := m g.ref }
/-- An attribute group. -/
def normAG (m : Str → Str) (a : AttributeGroup) : AttributeGroup := { a with ref := m a.ref, attributes := a.attributes.map (normA m) }
/-- A complex type; its base is kept. -/
def normC (m : Str → Str) (c : ComplexType) : ComplexType :=
  { c with elements := c.elements.map (normE m), attributes := c.attributes.map (normA m), groups := c.groups.map (normG m)
           attributeGroup := c.attributeGroup.map (normAG m) }
/-- A component. -/
def norm (m : Str → Str) : Node Element → Node Element
  | .simple v => .simple { v with base := m v.base }
  | .attr v => .attr (normA m v)
  | .elem v => .elem (normE m v)
  | .complex v => .complex (normC m v)
  | .group v => .group { v with elements := v.elements.map (normE m), groups := v.groups.map (normG m), ref := m v.ref }
  | .attrGroup v => .attrGroup (normAG m v)

section
variable {m ty ty' : Str → Str} (hc : ∀ v, m (ty v) = m (ty' v))
include hc

theorem norm_elementOf (p : Bool) (as : List Attr) : normE m (elementOf ty p as) = normE m (elementOf ty' p as) := by
  unfold normE elementOf
  simp only [Element.mk.injEq, true_and, and_true]
  cases (attr? as c!"ref").or (attr? as c!"type") <;> exact hc _

theorem norm_inline {ras : List Attr} (h : ∀ v ∈ (attr? ras c!"base").toList, m (ty (ty (ty v))) = m (ty' (ty' (ty' v)))) :
    m (inlineType ty ras) = m (inlineType ty' ras) := by
  unfold inlineType
  cases e : attr? ras c!"base" with
  | none => exact hc _
  | some v => exact h v (by rw [e]; simp)

theorem norm_attributeOf (as : List Attr) : normA m (attributeOf ty as) = normA m (attributeOf ty' as) := by
  unfold normA attributeOf
  simp only [Attribute.mk.injEq, true_and, and_true]
  cases (attr? as c!"ref").or (attr? as c!"type") with
  | none => rfl
  | some v => exact hc _

theorem norm_attrAnonOf (as : List Attr) (b : SimpleBody)
    (h : ∀ v ∈ inlineBases (.attrAnon as b .nil), m (ty (ty (ty v))) = m (ty' (ty' (ty' v)))) :
    normA m (attrAnonOf ty as b) = normA m (attrAnonOf ty' as b) := by
  unfold normA attrAnonOf attributeOf
  simp only [Attribute.mk.injEq, true_and, and_true]
  cases b with
  | restriction ras fs => exact norm_inline hc fun v hv => h v (by simp only [inlineBases]; simpa using hv)
  | list las =>
    dsimp only
    cases attr? las c!"itemType" with
    | none => rfl
    | some v => exact hc _
  | union uas => rfl

theorem norm_attrGroupOf (as : List Attr) : normAG m (attrGroupOf ty as) = normAG m (attrGroupOf ty' as) := by
  unfold normAG attrGroupOf
  simp only [AttributeGroup.mk.injEq, true_and, and_true]
  cases attr? as c!"ref" with
  | none => rfl
  | some v => exact hc _

theorem norm_groupOf (p : Bool) (as : List Attr) : normG m (groupOf ty p as) = normG m (groupOf ty' p as) := by
  unfold normG groupOf
  simp only [GroupRef.mk.injEq, true_and]
  cases attr? as c!"ref" with
  | none => rfl
  | some v => exact hc _

theorem norm_groups (b : Content) : ∀ p, (groups ty p b).map (normG m) = (groups ty' p b).map (normG m) := by
  induction b with
  | nil => intro p; rfl
  | group as k ih => intro p; simp only [groups, List.map_cons, ih, norm_groupOf hc]
  | choice as b k ihb ih => intro p; simp only [groups, List.map_append, ihb, ih]
  | ext as b k ihb ih => intro p; simp only [groups, List.map_append, ihb, ih]
  | restr as fs b k ihb ih => intro p; simp only [groups, List.map_append, ihb, ih]
  | elem as k ih => exact ih
  | anon as cas b k _ ih => exact ih
  | elemAnon as ras fs k ih => exact ih
  | attrGroup as k ih => exact ih
  | «attribute» as k ih => exact ih
  | attrAnon as b k ih => exact ih

theorem norm_attrGroups (b : Content) : (attrGroups ty b).map (normAG m) = (attrGroups ty' b).map (normAG m) := by
  induction b with
  | nil => rfl
  | attrGroup as k ih => simp only [attrGroups, List.map_cons, ih, norm_attrGroupOf hc]
  | choice as b k ihb ih => simp only [attrGroups, List.map_append, ihb, ih]
  | ext as b k ihb ih => simp only [attrGroups, List.map_append, ihb, ih]
  | restr as fs b k ihb ih => simp only [attrGroups, List.map_append, ihb, ih]
  | elem as k ih => exact ih
  | anon as cas b k _ ih => exact ih
  | elemAnon as ras fs k ih => exact ih
  | group as k ih => exact ih
  | «attribute» as k ih => exact ih
  | attrAnon as b k ih => exact ih

theorem norm_elements (b : Content) (h : ∀ v ∈ inlineBases b, m (ty (ty (ty v))) = m (ty' (ty' (ty' v)))) :
    ∀ p, (elements ty p b).map (normE m) = (elements ty' p b).map (normE m) := by
  induction b with
  | nil => intro p; rfl
  | elem as k ih => intro p; simp only [elements, List.map_cons, ih h, norm_elementOf hc]
  | anon as cas b k _ ih =>
    intro p
    simp only [elements, List.map_cons, ih fun v hv => h v (by simp [inlineBases, hv]), norm_elementOf hc]
  | elemAnon as ras fs k ih =>
    intro p
    have e : normE m (elemAnonOf ty p as ras) = normE m (elemAnonOf ty' p as ras) := by
      unfold elemAnonOf normE elementOf
      simp only [Element.mk.injEq, true_and, and_true]
      exact norm_inline hc fun v hv => h v (by simp only [inlineBases, List.mem_append]; exact .inl hv)
    simp only [elements, List.map_cons, ih fun v hv => h v (by simp [inlineBases, hv]), e]
  | choice as b k ihb ih =>
    intro p
    simp only [elements, List.map_append, ih fun v hv => h v (by simp [inlineBases, hv]), ihb fun v hv => h v (by simp [inlineBases, hv])]
  | ext as b k ihb ih =>
    intro p
    simp only [elements, List.map_append, ih fun v hv => h v (by simp [inlineBases, hv]), ihb fun v hv => h v (by simp [inlineBases, hv])]
  | restr as fs b k ihb ih =>
    intro p
    simp only [elements, List.map_append, ih fun v hv => h v (by simp [inlineBases, hv]), ihb fun v hv => h v (by simp [inlineBases, hv])]
  | group as k ih => exact ih h
  | attrGroup as k ih => exact ih h
  | «attribute» as k ih => exact ih h
  | attrAnon as b k ih => exact ih fun v hv => h v (by cases b <;> simp [inlineBases, hv])

theorem norm_attributes (b : Content) (h : ∀ v ∈ inlineBases b, m (ty (ty (ty v))) = m (ty' (ty' (ty' v)))) :
    (attributes ty b).map (normA m) = (attributes ty' b).map (normA m) := by
  induction b with
  | nil => rfl
  | «attribute» as k ih => simp only [attributes, List.map_cons, ih h, norm_attributeOf hc]
  | attrAnon as b k ih =>
    simp only [attributes, List.map_cons, ih fun v hv => h v (by cases b <;> simp [inlineBases, hv])]
    rw [norm_attrAnonOf hc as b fun v hv => h v ?_]
    cases b with
    | restriction ras fs => simp only [inlineBases, List.append_nil, List.mem_append] at hv ⊢; exact .inl hv
    | list las => simp [inlineBases] at hv
    | union uas => simp [inlineBases] at hv
  | choice as b k ihb ih =>
    simp only [attributes, List.map_append, ih fun v hv => h v (by simp [inlineBases, hv]), ihb fun v hv => h v (by simp [inlineBases, hv])]
  | ext as b k ihb ih =>
    simp only [attributes, List.map_append, ih fun v hv => h v (by simp [inlineBases, hv]), ihb fun v hv => h v (by simp [inlineBases, hv])]
  | restr as fs b k ihb ih =>
    simp only [attributes, List.map_append, ih fun v hv => h v (by simp [inlineBases, hv]), ihb fun v hv => h v (by simp [inlineBases, hv])]
  | elem as k ih => exact ih h
  | anon as cas b k _ ih => exact ih fun v hv => h v (by simp [inlineBases, hv])
  | elemAnon as ras fs k ih => exact ih fun v hv => h v (by simp [inlineBases, hv])
  | group as k ih => exact ih h
  | attrGroup as k ih => exact ih h

omit hc

theorem same_bases (b : Content) (h : ∀ v ∈ extensions b, ty (ty v) = ty' (ty' v)) : bases ty b = bases ty' b := by
  induction b with
  | nil => rfl
  | ext as b k ihb ih =>
    simp only [bases, ihb fun v hv => h v (by simp [extensions, hv]), ih fun v hv => h v (by simp [extensions, hv])]
    cases e : attr? as c!"base" with
    | none => rfl
    | some v => simp only [Option.map_some, h v (by simp [extensions, e])]
  | choice as b k ihb ih => simp only [bases, ihb fun v hv => h v (by simp [extensions, hv]), ih fun v hv => h v (by simp [extensions, hv])]
  | restr as fs b k ihb ih => simp only [bases, ihb fun v hv => h v (by simp [extensions, hv]), ih fun v hv => h v (by simp [extensions, hv])]
  | anon as cas b k _ ih => exact ih fun v hv => h v (by simp [extensions, hv])
  | elem as k ih => exact ih h
  | elemAnon as ras fs k ih => exact ih h
  | group as k ih => exact ih h
  | attrGroup as k ih => exact ih h
  | «attribute» as k ih => exact ih h
  | attrAnon as b k ih => exact ih h

/-! ### Repeated elements -/

/-- Adds an element: a second one of the same name makes the first one plural. -/
def merge (e : Element) : List Element → List Element
  | [] => [e]
  | x :: xs => if x.name = e.name then { x with plural := x.plural || e.plural } :: xs else x :: merge e xs

/-- The type a source stands for. -/
def Source.type (ty : Str → Str) (n : Str) : Source → Str
  | .own => ty n
  | .ref v => ty v
  | .inline b => ty ((b.map fun t => ty (ty t)).getD [])

theorem elements_sources (ty : Str → Str) (b : Content) : ∀ p,
    (elements ty p b).map (fun e => (e.name, e.type)) = (sources b).map fun x => (x.1, x.2.type ty x.1) := by
  have hs : ∀ p as, ((elementOf ty p as).name, (elementOf ty p as).type) = (nameOf as, (sourceOf as).type ty (nameOf as)) := by
    intro p as
    unfold elementOf sourceOf Source.type
    cases (attr? as c!"ref").or (attr? as c!"type") <;> rfl
  induction b with
  | nil => intro p; rfl
  | elem as k ih => intro p; simp only [elements, sources, List.map_cons, ih, hs]
  | anon as cas b k _ ih => intro p; simp only [elements, sources, List.map_cons, ih, hs]
  | elemAnon as ras fs k ih => intro p; simp only [elements, sources, List.map_cons, ih]; rfl
  | choice as b k ihb ih => intro p; simp only [elements, sources, List.map_append, ihb, ih]
  | ext as b k ihb ih => intro p; simp only [elements, sources, List.map_append, ihb, ih]
  | restr as fs b k ihb ih => intro p; simp only [elements, sources, List.map_append, ihb, ih]
  | group as k ih => exact ih
  | attrGroup as k ih => exact ih
  | «attribute» as k ih => exact ih
  | attrAnon as b k ih => exact ih

theorem elements_oneType (ty : Str → Str) {b : Content} (h : OneType (sources b)) (p : Bool) :
    ∀ x ∈ elements ty p b, ∀ y ∈ elements ty p b, x.name = y.name → x.type = y.type := by
  intro x hx y hy hn
  have hx' : (x.name, x.type) ∈ (sources b).map fun x => (x.1, x.2.type ty x.1) := by
    rw [← elements_sources ty b p]; exact List.mem_map.2 ⟨x, hx, rfl⟩
  have hy' : (y.name, y.type) ∈ (sources b).map fun x => (x.1, x.2.type ty x.1) := by
    rw [← elements_sources ty b p]; exact List.mem_map.2 ⟨y, hy, rfl⟩
  obtain ⟨a, ha, ea⟩ := List.mem_map.1 hx'
  obtain ⟨c, hc, ec⟩ := List.mem_map.1 hy'
  simp only [Prod.mk.injEq] at ea ec
  have h1 : a.1 = c.1 := by rw [ea.1, ec.1, hn]
  rw [← ea.2, ← ec.2, h a ha c hc h1, h1]

theorem addElement_merge (e : Element) (es : List Element) (h : ∀ x ∈ es, x.name = e.name → x.type = e.type) :
    addElement e es = merge e es := by
  induction es with
  | nil => rfl
  | cons x xs ih =>
    simp only [addElement, merge]
    split
    · rename_i hn
      rw [if_pos (h x (by simp) hn)]
    · rw [ih fun y hy => h y (by simp [hy])]

theorem merge_types (e : Element) (es : List Element) : ∀ x ∈ merge e es, ∃ y ∈ e :: es, x.name = y.name ∧ x.type = y.type := by
  induction es with
  | nil => intro x hx; exact ⟨x, hx, rfl, rfl⟩
  | cons a xs ih =>
    intro x hx
    simp only [merge] at hx
    split at hx
    · rcases List.mem_cons.1 hx with rfl | hx
      · exact ⟨a, by simp, rfl, rfl⟩
      · exact ⟨x, by simp [hx], rfl, rfl⟩
    · rcases List.mem_cons.1 hx with rfl | hx
      · exact ⟨x, by simp, rfl, rfl⟩
      · obtain ⟨y, hy, h⟩ := ih x hx
        refine ⟨y, ?_, h⟩
        rcases List.mem_cons.1 hy with rfl | hy <;> simp [*]

theorem fold_merge (es : List Element) : ∀ acc : List Element,
    (∀ x ∈ acc ++ es, ∀ y ∈ acc ++ es, x.name = y.name → x.type = y.type) →
    es.foldl (fun l e => addElement e l) acc = es.foldl (fun l e => merge e l) acc := by
  induction es with
  | nil => intro acc _; rfl
  | cons e es ih =>
    intro acc h
    rw [List.foldl_cons, List.foldl_cons, addElement_merge e acc fun x hx => h x (by simp [hx]) e (by simp)]
    refine ih _ fun x hx y hy hn => ?_
    have lift : ∀ z ∈ merge e acc ++ es, ∃ w ∈ acc ++ e :: es, z.name = w.name ∧ z.type = w.type := by
      intro z hz
      rcases List.mem_append.1 hz with hz | hz
      · obtain ⟨w, hw, h⟩ := merge_types e acc z hz
        refine ⟨w, ?_, h⟩
        rcases List.mem_cons.1 hw with rfl | hw <;> simp [*]
      · exact ⟨z, by simp [hz], rfl, rfl⟩
    obtain ⟨x', hx', ex⟩ := lift x hx
    obtain ⟨y', hy', ey⟩ := lift y hy
    rw [ex.2, ey.2]
    exact h x' hx' y' hy' (by rw [← ex.1, ← ey.1, hn])

theorem norm_merge (m : Str → Str) (e : Element) (es : List Element) : (merge e es).map (normE m) = merge (normE m e) (es.map (normE m)) := by
  induction es with
  | nil => rfl
  | cons x xs ih =>
    simp only [merge, List.map_cons]
    by_cases h : x.name = e.name
    · rw [if_pos h, if_pos (show (normE m x).name = (normE m e).name from h)]; rfl
    · rw [if_neg h, if_neg (show ¬ (normE m x).name = (normE m e).name from h), List.map_cons, ih]

theorem norm_fold (m : Str → Str) (es : List Element) : ∀ acc : List Element,
    (es.foldl (fun l e => merge e l) acc).map (normE m) = (es.map (normE m)).foldl (fun l e => merge e l) (acc.map (normE m)) := by
  induction es with
  | nil => intro acc; rfl
  | cons e es ih => intro acc; rw [List.foldl_cons, ih, norm_merge, List.map_cons, List.foldl_cons]

theorem norm_addGroups (m : Str → Str) (gs : List GroupRef) : ∀ acc : List GroupRef,
    (gs.foldl (fun l g => addGroup g l) acc).map (normG m) = (gs.map (normG m)).foldl (fun l g => addGroup g l) (acc.map (normG m)) := by
  induction gs with
  | nil => intro acc; rfl
  | cons g gs ih =>
    intro acc
    rw [List.foldl_cons, ih, List.map_cons, List.foldl_cons]
    congr 1
    unfold addGroup
    have : ((acc.map (normG m)).any fun x => x.name = (normG m g).name) = acc.any fun x => x.name = g.name := by
      rw [List.any_map]; rfl
    rw [this]
    split
    · rfl
    · rw [List.map_append]; rfl

/-- Two meanings of references under which contents look the same. -/
structure CloseOn (m ty ty' : Str → Str) (b : Content) : Prop where
  all : ∀ v, m (ty v) = m (ty' v)
  inline : ∀ v ∈ inlineBases b, m (ty (ty (ty v))) = m (ty' (ty' (ty' v)))
  ext : ∀ v ∈ extensions b, ty (ty v) = ty' (ty' v)

theorem norm_complexOf {b : Content} (h : CloseOn m ty ty' b) (ho : OneType (sources b)) (p : Bool) (name : Str) :
    normC m (complexOf ty p name b) = normC m (complexOf ty' p name b) := by
  have he : ((elements ty p b).foldl (fun es e => addElement e es) []).map (normE m) =
      ((elements ty' p b).foldl (fun es e => addElement e es) []).map (normE m) := by
    rw [fold_merge _ _ (by simpa using elements_oneType ty ho p), fold_merge _ _ (by simpa using elements_oneType ty' ho p),
      norm_fold, norm_fold, norm_elements h.all b h.inline]
  unfold complexOf extend normC
  simp only [ComplexType.mk.injEq, true_and, List.nil_append]
  refine ⟨by rw [same_bases b h.ext], he, norm_attributes h.all b h.inline, ?_, norm_attrGroups h.all b⟩
  rw [norm_addGroups, norm_addGroups, norm_groups h.all]

theorem norm_nested (b : Content) (h : CloseOn m ty ty' b) (hc : Consistent b) :
    ∀ p, (nested ty p b).map (normC m) = (nested ty' p b).map (normC m) := by
  induction b with
  | nil => intro p; rfl
  | anon as cas b k ihb ih =>
    intro p
    have hb : CloseOn m ty ty' b := ⟨h.all, fun v hv => h.inline v (by simp [inlineBases, hv]), fun v hv => h.ext v (by simp [extensions, hv])⟩
    have hk : CloseOn m ty ty' k := ⟨h.all, fun v hv => h.inline v (by simp [inlineBases, hv]), fun v hv => h.ext v (by simp [extensions, hv])⟩
    simp only [nested, List.map_append, ihb hb hc.2.1, ih hk hc.2.2, List.map_cons, List.map_nil, norm_complexOf hb hc.1]
  | choice as b k ihb ih =>
    intro p
    have hb : CloseOn m ty ty' b := ⟨h.all, fun v hv => h.inline v (by simp [inlineBases, hv]), fun v hv => h.ext v (by simp [extensions, hv])⟩
    have hk : CloseOn m ty ty' k := ⟨h.all, fun v hv => h.inline v (by simp [inlineBases, hv]), fun v hv => h.ext v (by simp [extensions, hv])⟩
    simp only [nested, List.map_append, ihb hb hc.1, ih hk hc.2]
  | ext as b k ihb ih =>
    intro p
    have hb : CloseOn m ty ty' b := ⟨h.all, fun v hv => h.inline v (by simp [inlineBases, hv]), fun v hv => h.ext v (by simp [extensions, hv])⟩
    have hk : CloseOn m ty ty' k := ⟨h.all, fun v hv => h.inline v (by simp [inlineBases, hv]), fun v hv => h.ext v (by simp [extensions, hv])⟩
    simp only [nested, List.map_append, ihb hb hc.1, ih hk hc.2]
  | restr as fs b k ihb ih =>
    intro p
    have hb : CloseOn m ty ty' b := ⟨h.all, fun v hv => h.inline v (by simp [inlineBases, hv]), fun v hv => h.ext v (by simp [extensions, hv])⟩
    have hk : CloseOn m ty ty' k := ⟨h.all, fun v hv => h.inline v (by simp [inlineBases, hv]), fun v hv => h.ext v (by simp [extensions, hv])⟩
    simp only [nested, List.map_append, ihb hb hc.1, ih hk hc.2]
  | elem as k ih => exact ih ⟨h.all, h.inline, h.ext⟩ hc
  | elemAnon as ras fs k ih => exact ih ⟨h.all, fun v hv => h.inline v (by simp [inlineBases, hv]), h.ext⟩ hc
  | group as k ih => exact ih ⟨h.all, h.inline, h.ext⟩ hc
  | attrGroup as k ih => exact ih ⟨h.all, h.inline, h.ext⟩ hc
  | «attribute» as k ih => exact ih ⟨h.all, h.inline, h.ext⟩ hc
  | attrAnon as b k ih => exact ih ⟨h.all, fun v hv => h.inline v (by cases b <;> simp [inlineBases, hv]), h.ext⟩ hc

/-- References a declaration is made from mean the same, however often they are looked up. -/
def Firm (ty ty' : Str → Str) (v : Str) : Prop := ty v = ty' v ∧ ty (ty v) = ty' (ty' v) ∧ ty (ty (ty v)) = ty' (ty' (ty' v))

theorem norm_nodes {d : Decl} (h : CloseOn m ty ty' (content d)) (ho : OneType (sources (content d))) (hc : Consistent (content d))
    (hn : ∀ v ∈ needs d, Firm ty ty' v) : (d.nodes ty).map (norm m) = (d.nodes ty').map (norm m) := by
  have hcs : ∀ {b b' : List ComplexType}, b.map (normC m) = b'.map (normC m) →
      (b.map Node.complex).map (norm m) = (b'.map Node.complex).map (norm m) := by
    intro b b' e
    have : ∀ l : List ComplexType, (l.map Node.complex).map (norm m) = (l.map (normC m)).map Node.complex := fun l => by
      simp only [List.map_map]; rfl
    rw [this, this, e]
  cases d with
  | simple as b =>
    simp only [Core.Decl.nodes, List.map_cons, List.map_nil, norm, List.cons.injEq, Node.simple.injEq, and_true]
    cases b with
    | restriction ras fs =>
      simp only [simpleOf, SimpleType.mk.injEq, true_and, and_true]
      cases e : attr? ras c!"base" with
      | none => rfl
      | some v => rw [Option.map_some, Option.map_some, (hn v (by simp [needs, e])).2.1]
    | list las =>
      simp only [simpleOf, SimpleType.mk.injEq, true_and, and_true]
      cases e : attr? las c!"itemType" with
      | none => rfl
      | some v => exact h.all _
    | union uas =>
      simp only [simpleOf, SimpleType.mk.injEq, true_and, and_true]
      have : ∀ l : List Str, (∀ v ∈ l, ty v = ty' v) → ∀ acc : GoMap Str,
          l.foldl (fun m t => m.set (Names.localPart t) (ty t)) acc = l.foldl (fun m t => m.set (Names.localPart t) (ty' t)) acc := by
        intro l
        induction l with
        | nil => intro _ acc; rfl
        | cons a l ih =>
          intro hl acc
          rw [List.foldl_cons, List.foldl_cons, hl a (by simp)]
          exact ih (fun v hv => hl v (by simp [hv])) _
      exact this _ (fun v hv => (hn v hv).1) _
  | complex as b =>
    simp only [Core.Decl.nodes, List.map_append, List.map_cons, List.map_nil, hcs (norm_nested b h hc false)]
    rw [show norm m (.complex (complexOf ty false (nameOf as) b)) = norm m (.complex (complexOf ty' false (nameOf as) b)) from
      congrArg Node.complex (norm_complexOf h ho false _)]
  | element as => exact congrArg (fun e => [Node.elem e]) (norm_elementOf h.all false as)
  | anon as cas b =>
    simp only [Core.Decl.nodes, List.map_append, List.map_cons, List.map_nil, hcs (norm_nested b h hc false)]
    rw [show norm m (.complex (complexOf ty false (nameOf as) b)) = norm m (.complex (complexOf ty' false (nameOf as) b)) from
      congrArg Node.complex (norm_complexOf h ho false _),
      show norm m (.elem (elementOf ty false as)) = norm m (.elem (elementOf ty' false as)) from congrArg Node.elem (norm_elementOf h.all false as)]
  | elemAnon as ras fs =>
    refine congrArg (fun e => [Node.elem e]) ?_
    unfold elemAnonOf normE elementOf
    simp only [Element.mk.injEq, true_and, and_true]
    exact norm_inline h.all fun v hv => by rw [(hn v hv).2.2]
  | group as b =>
    refine congrArg (fun g => [Node.group g]) ?_
    have hg := norm_groupOf h.all false as
    unfold normG groupOf at hg
    simp only [GroupRef.mk.injEq, true_and] at hg
    simp only [groupOf, Group.mk.injEq, true_and, norm_elements h.all b h.inline, norm_groups h.all b]
    exact hg
  | attrGroup as b =>
    have e : ∀ l : List AttributeGroup, (l.map Node.attrGroup).map (norm m) = (l.map (normAG m)).map Node.attrGroup := fun l => by
      simp only [List.map_map]; rfl
    simp only [Core.Decl.nodes, List.map_append, e, norm_attrGroups h.all b, List.map_cons, List.map_nil]
    congr 2
    refine congrArg Node.attrGroup ?_
    have hg := norm_attrGroupOf h.all as
    unfold normAG attrGroupOf at hg ⊢
    simp only [AttributeGroup.mk.injEq, true_and, norm_attributes h.all b h.inline, and_true] at hg ⊢
    exact hg
  | «attribute» as => exact congrArg (fun e => [Node.attr e]) (norm_attributeOf h.all as)
  | attrAnon as ras fs =>
    refine congrArg (fun e => [Node.attr e]) (norm_attrAnonOf h.all as _ fun v hv => ?_)
    have : v ∈ needs (.attrAnon as ras fs) := by simp only [inlineBases, List.append_nil] at hv; exact hv
    rw [(hn v this).2.2]

end

/-! ## References under two orders

A declaration enters the name (`origin`), with the reference its type comes from and how often that is looked up. -/

/-- The looking up of references among names with types. -/
def look (lang : Str) (D : List (Str × Str)) (v : Str) : Str :=
  match getBuildInTypeByLang (Names.localPart v) lang with
  | some b => b
  | none =>
    match D.find? (fun d => d.1 = Names.localPart v) with
    | some d => if d.2 = [] then Names.localPart v else d.2
    | none => Names.localPart v

/-- The looking up of the generators. -/
def mean (D : List (Str × Str)) (v : Str) : Str :=
  match D.find? (fun d => d.1 = Names.localPart v) with
  | some d => d.2
  | none => Names.localPart v

/-- Looking up three times at most. -/
def times (f : Str → Str) : Nat → Str → Str
  | 0, v => v
  | k + 1, v => f (times f k v)

/-- Name, reference, number of lookups. -/
abbrev Origin := Str × Str × Nat

/-- The names with types, looking up in those before. -/
def build (lang : Str) : List (Str × Str) → List Origin → List (Str × Str)
  | D, [] => D
  | D, o :: os => build lang (D ++ [(o.1, times (look lang D) o.2.2 o.2.1)]) os

/-- The references of `os` lead to names before, as `N` lists all names. -/
def Before (lang : Str) : List Origin → Prop
  | [] => True
  | o :: os => (getBuildInTypeByLang (Names.localPart o.2.1) lang = none → (o.2.1 = o.1 ∧ o.2.2 = 1) ∨ Names.localPart o.2.1 ∉ (o :: os).map (·.1)) ∧
      Before lang os

/-- What is demanded of names and references. -/
structure Good (lang : Str) (os : List Origin) : Prop where
  nodup : (os.map (·.1)).Nodup
  plain : ∀ o ∈ os, Names.localPart o.1 = o.1
  targets : ∀ o ∈ os, ∀ k, getBuildInTypeByLang k lang ≠ some o.1
  ne : ∀ o ∈ os, Names.localPart o.2.1 ≠ []
  pos : ∀ o ∈ os, 0 < o.2.2

/-- A type that is not to be looked up in the schema. -/
structure Settled (lang : Str) (N : List Str) (D : List (Str × Str)) (x : Str) : Prop where
  ne : x ≠ []
  plain : Names.localPart x = x
  out : (x, x) ∈ D ∨ x ∉ N
  table : getBuildInTypeByLang x lang = none ∨ ∃ k, getBuildInTypeByLang k lang = some x

theorem local_idem (v : Str) : Names.localPart (Names.localPart v) = Names.localPart v := by
  rw [← Names.localPart_eq, ← Names.localPart_eq, C02.trim_idem]

theorem table_mem {k lang b : Str} (h : getBuildInTypeByLang k lang = some b) : ∃ x ∈ buildInTypes, x.2[langIndex lang]? = some b := by
  unfold getBuildInTypeByLang getBuildInTypeByLang? at h
  cases hr : buildInTypes.get? k with
  | none => rw [hr] at h; cases h
  | some row =>
    rw [hr] at h
    dsimp only at h
    cases hi : row[langIndex lang]? with
    | none => rw [hi] at h; cases h
    | some s =>
      rw [hi] at h
      injection h with e
      subst e
      exact ⟨_, GoMap.mem_of_get? hr, hi⟩

/-- Target types are not empty and have no prefix. -/
theorem table_plain {k lang b : Str} (h : getBuildInTypeByLang k lang = some b) : b ≠ [] ∧ Names.localPart b = b := by
  obtain ⟨x, hx, hb⟩ := table_mem h
  exact (by decide +kernel : ∀ x ∈ buildInTypes, ∀ s ∈ x.2, s ≠ [] ∧ Names.localPart s = s) x hx b (List.mem_of_getElem? hb)

/-- Looking up a target type twice is enough. -/
theorem table_twice {k lang a b : Str} (hl : lang ∈ C41.langs) (h : getBuildInTypeByLang k lang = some a)
    (h2 : getBuildInTypeByLang a lang = some b) : getBuildInTypeByLang b lang = none ∨ getBuildInTypeByLang b lang = some b := by
  by_cases hx : lang = c!"Java" ∧ a = c!"anyURI"
  · exfalso
    obtain ⟨rfl, rfl⟩ := hx
    obtain ⟨x, hx, hb⟩ := table_mem h
    exact (by decide +kernel : ∀ x ∈ buildInTypes, x.2[langIndex c!"Java"]? ≠ some c!"anyURI") x hx hb
  · exact C41.twice_partial hl h2 hx

section
variable {lang : Str}

theorem look_hit {D : List (Str × Str)} {v : Str} {d : Str × Str} (hb : getBuildInTypeByLang (Names.localPart v) lang = none)
    (hd : D.find? (fun d => d.1 = Names.localPart v) = some d) (hn : d.2 ≠ []) : look lang D v = d.2 := by
  simp only [look, hb, hd, if_neg hn]

theorem look_miss {D : List (Str × Str)} {v : Str} (hb : getBuildInTypeByLang (Names.localPart v) lang = none)
    (hd : D.find? (fun d => d.1 = Names.localPart v) = none) : look lang D v = Names.localPart v := by
  simp only [look, hb, hd]

theorem look_table {D : List (Str × Str)} {v b : Str} (hb : getBuildInTypeByLang (Names.localPart v) lang = some b) : look lang D v = b := by
  simp only [look, hb]

theorem find_none {D : List (Str × Str)} {n : Str} (h : n ∉ D.map (·.1)) : D.find? (fun d => d.1 = n) = none := by
  rw [List.find?_eq_none]
  intro d hd e
  exact h (List.mem_map.2 ⟨d, hd, by simpa using e⟩)

theorem find_mem {D : List (Str × Str)} (hn : (D.map (·.1)).Nodup) {d : Str × Str} (hd : d ∈ D) : D.find? (fun x => x.1 = d.1) = some d := by
  induction D with
  | nil => cases hd
  | cons x D ih =>
    rw [List.find?_cons]
    rw [List.map_cons, List.nodup_cons] at hn
    rcases List.mem_cons.1 hd with rfl | hd
    · simp
    · have : x.1 ≠ d.1 := fun e => hn.1 (List.mem_map.2 ⟨d, hd, e.symm⟩)
      simp only [this, decide_false]
      exact ih hn.2 hd

/-- Looking up a settled type, with some of the names or all. -/
theorem look_settled {N : List Str} {D D' : List (Str × Str)} {x : Str} (h : Settled lang N D x) (hD : (D.map (·.1)).Nodup)
    (hs : ∀ d ∈ D', d ∈ D) (hN : ∀ d ∈ D', d.1 ∈ N) : look lang D' x = (getBuildInTypeByLang x lang).getD x := by
  cases hb : getBuildInTypeByLang x lang with
  | some b => rw [look_table (by rw [h.plain]; exact hb)]; rfl
  | none =>
    rw [Option.getD_none]
    cases hd : D'.find? (fun d => d.1 = Names.localPart x) with
    | none => rw [look_miss (by rw [h.plain]; exact hb) hd, h.plain]
    | some d =>
      have h1 := List.mem_of_find?_eq_some hd
      have h2 : d.1 = x := by simpa [h.plain] using List.find?_some hd
      rcases h.out with h3 | h3
      · have e1 := find_mem hD (hs d h1)
        have e2 := find_mem hD h3
        rw [h2] at e1
        rw [e1] at e2
        injection e2 with e2
        rw [look_hit (by rw [h.plain]; exact hb) hd (by rw [e2]; exact h.ne), e2]
      · exact absurd (h2 ▸ hN d h1) h3

theorem settled_table {N : List Str} {D : List (Str × Str)} (hN : ∀ n ∈ N, ∀ k, getBuildInTypeByLang k lang ≠ some n) {k b : Str}
    (h : getBuildInTypeByLang k lang = some b) : Settled lang N D b :=
  ⟨(table_plain h).1, (table_plain h).2, .inr fun hm => hN b hm k h, .inr ⟨k, h⟩⟩

theorem settled_next {N : List Str} {D : List (Str × Str)} (hN : ∀ n ∈ N, ∀ k, getBuildInTypeByLang k lang ≠ some n) {x : Str}
    (h : Settled lang N D x) : Settled lang N D ((getBuildInTypeByLang x lang).getD x) := by
  cases hb : getBuildInTypeByLang x lang with
  | none => exact h
  | some b => exact settled_table hN hb

/-- The looking up of the generators ends at settled types. -/
theorem mean_settled {N : List Str} {D : List (Str × Str)} {x : Str} (h : Settled lang N D x) (hD : (D.map (·.1)).Nodup)
    (hN : ∀ d ∈ D, d.1 ∈ N) : mean D x = x := by
  unfold mean
  rw [h.plain]
  cases hd : D.find? (fun d => d.1 = x) with
  | none => rfl
  | some d =>
    have h1 := List.mem_of_find?_eq_some hd
    have h2 : d.1 = x := by simpa using List.find?_some hd
    rcases h.out with h3 | h3
    · have e1 := find_mem hD h1
      have e2 := find_mem hD h3
      rw [h2] at e1
      rw [e1] at e2
      injection e2 with e2
      show d.2 = x
      rw [e2]
    · exact absurd (h2 ▸ hN d h1) h3

/-- The number of lookups after which nothing changes. -/
def tableTimes (lang : Str) : Nat → Str → Str
  | 0, x => x
  | k + 1, x => (getBuildInTypeByLang (tableTimes lang k x) lang).getD (tableTimes lang k x)

theorem settled_times {N : List Str} {D : List (Str × Str)} (hN : ∀ n ∈ N, ∀ k, getBuildInTypeByLang k lang ≠ some n) {x : Str}
    (h : Settled lang N D x) (k : Nat) : Settled lang N D (tableTimes lang k x) := by
  induction k with
  | zero => exact h
  | succ k ih => exact settled_next hN ih

theorem times_succ (f : Str → Str) (k : Nat) (v : Str) : times f (k + 1) v = times f k (f v) := by
  induction k with
  | zero => rfl
  | succ k ih => exact congrArg f ih

theorem times_settled {N : List Str} {D D' : List (Str × Str)} (hN : ∀ n ∈ N, ∀ k, getBuildInTypeByLang k lang ≠ some n) {x : Str}
    (h : Settled lang N D x) (hD : (D.map (·.1)).Nodup) (hs : ∀ d ∈ D', d ∈ D) (hN' : ∀ d ∈ D', d.1 ∈ N) (k : Nat) :
    times (look lang D') k x = tableTimes lang k x := by
  induction k with
  | zero => rfl
  | succ k ih => rw [times, ih, tableTimes, look_settled (settled_times hN h k) hD hs hN']

theorem names_build (D : List (Str × Str)) (os : List Origin) : (build lang D os).map (·.1) = D.map (·.1) ++ os.map (·.1) := by
  induction os generalizing D with
  | nil => simp [build]
  | cons o os ih => rw [build, ih]; simp

theorem prefix_build (D : List (Str × Str)) (os : List Origin) : D <+: build lang D os := by
  induction os generalizing D with
  | nil => exact List.prefix_refl _
  | cons o os ih => exact (List.prefix_append _ _).trans (ih _)

theorem Settled.mono {N : List Str} {D D' : List (Str × Str)} {x : Str} (h : Settled lang N D x) (hs : ∀ d ∈ D, d ∈ D') : Settled lang N D' x :=
  ⟨h.ne, h.plain, h.out.imp (hs _) id, h.table⟩

/-- The first lookup of a reference: settled, or the name itself. -/
theorem first_settled {N : List Str} {D : List (Str × Str)} (hN : ∀ n ∈ N, ∀ k, getBuildInTypeByLang k lang ≠ some n)
    (hset : ∀ d ∈ D, Settled lang N D d.2) {v : Str} (hne : Names.localPart v ≠ [])
    (hv : getBuildInTypeByLang (Names.localPart v) lang = none → Names.localPart v ∉ D.map (·.1) → Names.localPart v ∉ N) :
    Settled lang N D (look lang D v) := by
  cases hb : getBuildInTypeByLang (Names.localPart v) lang with
  | some b => rw [look_table hb]; exact settled_table hN hb
  | none =>
    cases hd : D.find? (fun d => d.1 = Names.localPart v) with
    | some d =>
      have h1 := hset d (List.mem_of_find?_eq_some hd)
      rw [look_hit hb hd h1.ne]; exact h1
    | none =>
      rw [look_miss hb hd]
      refine ⟨hne, local_idem v, .inr (hv hb fun hm => ?_), .inl hb⟩
      obtain ⟨d, h1, h2⟩ := List.mem_map.1 hm
      have := List.find?_eq_none.1 hd d h1
      simp [h2] at this

/-- All types entered are settled. -/
theorem build_settled {N : List Str} (hN : ∀ n ∈ N, ∀ k, getBuildInTypeByLang k lang ≠ some n) (os : List Origin) :
    ∀ D : List (Str × Str), N = D.map (·.1) ++ os.map (·.1) → N.Nodup → (∀ d ∈ D, Settled lang N D d.2) → Before lang os →
    (∀ o ∈ os, Names.localPart o.1 = o.1 ∧ Names.localPart o.2.1 ≠ [] ∧ 0 < o.2.2) →
    ∀ d ∈ build lang D os, Settled lang N (build lang D os) d.2 := by
  induction os with
  | nil => intro D _ _ hset _ _; exact hset
  | cons o os ih =>
    intro D hD hnd hset hbef hgood
    obtain ⟨h1, h2, h3⟩ := hgood o (by simp)
    have hDn : (D.map (·.1)).Nodup := by rw [hD] at hnd; exact (List.nodup_append.1 hnd).1
    have hDN : ∀ d ∈ D, d.1 ∈ N := fun d hd => by rw [hD]; exact List.mem_append_left _ (List.mem_map.2 ⟨d, hd, rfl⟩)
    rw [build]
    refine ih _ (by rw [hD]; simp) hnd ?_ hbef.2 fun o' ho' => hgood o' (by simp [ho'])
    intro d hd
    rcases List.mem_append.1 hd with hd | hd
    · exact (hset d hd).mono fun d hd => by simp [hd]
    · rw [List.mem_singleton.1 hd]
      show Settled lang N _ (times (look lang D) o.2.2 o.2.1)
      by_cases hown : getBuildInTypeByLang (Names.localPart o.2.1) lang = none ∧ (o.2.1 = o.1 ∧ o.2.2 = 1)
      · obtain ⟨hb, e1, e2⟩ := hown
        have hmiss : D.find? (fun d => d.1 = Names.localPart o.2.1) = none := by
          apply find_none
          rw [e1, h1]
          intro hm
          rw [hD, List.map_cons] at hnd
          exact (List.nodup_append.1 hnd).2.2 _ hm _ (by simp) rfl
        have hv : times (look lang D) o.2.2 o.2.1 = o.1 := by
          rw [e2]
          show look lang D o.2.1 = _
          rw [look_miss hb hmiss, e1, h1]
        rw [hv]
        rw [e1, h1] at hb h2
        exact ⟨h2, h1, .inl (by simp), .inl hb⟩
      · have hfirst : Settled lang N D (look lang D o.2.1) := by
          refine first_settled hN hset h2 fun hb hm => ?_
          rcases hbef.1 hb with h | h
          · exact absurd ⟨hb, h⟩ hown
          · rw [hD, List.mem_append]
            exact fun h' => h'.elim hm h
        obtain ⟨k, hk⟩ : ∃ k, o.2.2 = k + 1 := ⟨o.2.2 - 1, by omega⟩
        rw [hk, times_succ, times_settled hN hfirst hDn (fun d hd => hd) hDN]
        exact (settled_times hN hfirst k).mono fun d hd => by simp [hd]

/-- Everything known of the complete list. -/
structure Final (lang : Str) (os : List Origin) (D : List (Str × Str)) : Prop where
  names : D.map (·.1) = os.map (·.1)
  nodup : (D.map (·.1)).Nodup
  settled : ∀ d ∈ D, Settled lang (D.map (·.1)) D d.2
  targets : ∀ n ∈ D.map (·.1), ∀ k, getBuildInTypeByLang k lang ≠ some n

theorem build_final {os : List Origin} (hg : Good lang os) (hb : Before lang os) : Final lang os (build lang [] os) := by
  have hn : (build lang [] os).map (·.1) = os.map (·.1) := by rw [names_build]; rfl
  have ht : ∀ n ∈ os.map (·.1), ∀ k, getBuildInTypeByLang k lang ≠ some n := by
    intro n hm
    obtain ⟨o, ho, rfl⟩ := List.mem_map.1 hm
    exact hg.targets o ho
  refine ⟨hn, hn ▸ hg.nodup, ?_, hn ▸ ht⟩
  rw [hn]
  exact build_settled ht os [] (by simp) hg.nodup (by simp) hb fun o ho => ⟨hg.plain o ho, hg.ne o ho, hg.pos o ho⟩

theorem final_look {os : List Origin} {D : List (Str × Str)} (hf : Final lang os D) {v : Str} (hne : Names.localPart v ≠ []) :
    Settled lang (D.map (·.1)) D (look lang D v) :=
  first_settled hf.targets hf.settled hne fun _ h => h

theorem mean_mean {os : List Origin} {D : List (Str × Str)} (hf : Final lang os D) (v : Str) : mean D (mean D v) = mean D v := by
  have hN : ∀ d ∈ D, d.1 ∈ D.map (·.1) := fun d hd => List.mem_map.2 ⟨d, hd, rfl⟩
  cases hd : D.find? (fun d => d.1 = Names.localPart v) with
  | some d =>
    have : mean D v = d.2 := by simp only [mean, hd]
    rw [this, mean_settled (hf.settled d (List.mem_of_find?_eq_some hd)) hf.nodup hN]
  | none =>
    have : mean D v = Names.localPart v := by simp only [mean, hd]
    rw [this]
    simp only [mean, local_idem, hd]

theorem find_prefix {D D' : List (Str × Str)} (hp : D <+: D') {n : Str} {d : Str × Str} (h : D.find? (fun d => d.1 = n) = some d) :
    D'.find? (fun d => d.1 = n) = some d := by
  obtain ⟨r, rfl⟩ := hp
  rw [List.find?_append, h]; rfl

/-- Looking up early or late means the same to the generators. -/
theorem weak {os : List Origin} {D D' : List (Str × Str)} (hf : Final lang os D) (hp : D' <+: D) (v : Str) :
    mean D (look lang D' v) = mean D (look lang D v) := by
  have hN : ∀ d ∈ D, d.1 ∈ D.map (·.1) := fun d hd => List.mem_map.2 ⟨d, hd, rfl⟩
  cases hb : getBuildInTypeByLang (Names.localPart v) lang with
  | some b => rw [look_table hb, look_table hb]
  | none =>
    cases hd : D'.find? (fun d => d.1 = Names.localPart v) with
    | some d =>
      have h1 := find_prefix hp hd
      have h2 := (hf.settled d (List.mem_of_find?_eq_some h1)).ne
      rw [look_hit hb hd h2, look_hit hb h1 h2]
    | none =>
      rw [look_miss hb hd]
      cases hd' : D.find? (fun d => d.1 = Names.localPart v) with
      | none => rw [look_miss hb hd']
      | some d =>
        have h1 := hf.settled d (List.mem_of_find?_eq_some hd')
        rw [look_hit hb hd' h1.ne, mean_settled h1 hf.nodup hN]
        simp only [mean, local_idem, hd']

/-- References to what stands before, or nowhere. -/
theorem firm {os : List Origin} {D D' : List (Str × Str)} (hf : Final lang os D) (hp : D' <+: D) {v : Str} (hne : Names.localPart v ≠ [])
    (hv : getBuildInTypeByLang (Names.localPart v) lang = none → Names.localPart v ∈ D'.map (·.1) ∨ Names.localPart v ∉ D.map (·.1)) (k : Nat) :
    times (look lang D') (k + 1) v = tableTimes lang k (look lang D v) ∧ times (look lang D) (k + 1) v = tableTimes lang k (look lang D v) := by
  have hN : ∀ d ∈ D, d.1 ∈ D.map (·.1) := fun d hd => List.mem_map.2 ⟨d, hd, rfl⟩
  have hs : ∀ d ∈ D', d ∈ D := fun d hd => hp.subset hd
  have e : look lang D' v = look lang D v := by
    cases hb : getBuildInTypeByLang (Names.localPart v) lang with
    | some b => rw [look_table hb, look_table hb]
    | none =>
      cases hd : D'.find? (fun d => d.1 = Names.localPart v) with
      | some d =>
        have h1 := find_prefix hp hd
        have h2 := (hf.settled d (List.mem_of_find?_eq_some h1)).ne
        rw [look_hit hb hd h2, look_hit hb h1 h2]
      | none =>
        rcases hv hb with h | h
        · obtain ⟨d, h1, h2⟩ := List.mem_map.1 h
          have := List.find?_eq_none.1 hd d h1
          simp [h2] at this
        · rw [look_miss hb hd, look_miss hb (find_none h)]
  have hl := final_look hf hne
  rw [times_succ, times_succ, e, times_settled hf.targets hl hf.nodup hs (fun d hd => hN d (hs d hd)),
    times_settled hf.targets hl hf.nodup (fun d hd => hd) hN]
  exact ⟨rfl, rfl⟩

/-- A reference to the name itself. -/
def own (lang : Str) (o : Origin) : Bool := getBuildInTypeByLang (Names.localPart o.2.1) lang = none ∧ o.2.1 = o.1 ∧ o.2.2 = 1

/-- The type of a name, looking up in the complete list. -/
def value (lang : Str) (D : List (Str × Str)) (o : Origin) : Str := if own lang o then o.1 else times (look lang D) o.2.2 o.2.1

/-- It does not matter to the types of names that the later names are not yet known. -/
theorem build_values {os0 : List Origin} {D : List (Str × Str)} (hf : Final lang os0 D) (os : List Origin) : ∀ D0 : List (Str × Str),
    build lang D0 os = D → Before lang os → (∀ o ∈ os, Names.localPart o.1 = o.1 ∧ Names.localPart o.2.1 ≠ [] ∧ 0 < o.2.2) →
    D = D0 ++ os.map fun o => (o.1, value lang D o) := by
  induction os with
  | nil => intro D0 h _ _; rw [← h]; simp [build]
  | cons o os ih =>
    intro D0 h hbef hgood
    obtain ⟨h1, h2, h3⟩ := hgood o (by simp)
    have hpre : D0 <+: D := by rw [← h]; exact prefix_build _ _
    have hnames : D.map (·.1) = D0.map (·.1) ++ (o :: os).map (·.1) := by rw [← h, names_build]
    have e : times (look lang D0) o.2.2 o.2.1 = value lang D o := by
      unfold value
      by_cases hown : own lang o = true
      · rw [if_pos hown]
        simp only [own, decide_eq_true_eq] at hown
        obtain ⟨hb, e1, e2⟩ := hown
        have hmiss : D0.find? (fun d => d.1 = Names.localPart o.2.1) = none := by
          apply find_none
          rw [e1, h1]
          intro hm
          have hnd := hf.nodup
          rw [hnames] at hnd
          exact (List.nodup_append.1 hnd).2.2 _ hm _ (by simp) rfl
        rw [e2]
        show look lang D0 o.2.1 = _
        rw [look_miss hb hmiss, e1, h1]
      · rw [if_neg hown]
        simp only [own, decide_eq_true_eq] at hown
        obtain ⟨k, hk⟩ : ∃ k, o.2.2 = k + 1 := ⟨o.2.2 - 1, by omega⟩
        rw [hk]
        have := firm hf hpre h2 (fun hb => ?_) k
        · rw [this.1, this.2]
        · rcases hbef.1 hb with h | h
          · exact absurd ⟨hb, h⟩ hown
          · rw [hnames, List.mem_append]
            by_cases hm : Names.localPart o.2.1 ∈ D0.map (·.1)
            · exact .inl hm
            · exact .inr fun h' => h'.elim hm h
    rw [build, e] at h
    have := ih _ h hbef.2 fun o' ho' => hgood o' (by simp [ho'])
    rw [List.append_assoc] at this
    exact this

theorem final_values {os : List Origin} (hg : Good lang os) (hb : Before lang os) :
    build lang [] os = os.map fun o => (o.1, value lang (build lang [] os) o) :=
  build_values (build_final hg hb) os [] rfl hb fun o ho => ⟨hg.plain o ho, hg.ne o ho, hg.pos o ho⟩

/-- Anonymous restrictions of types. -/
theorem inline {os : List Origin} {D D' : List (Str × Str)} (hl : lang ∈ C41.langs) (hf : Final lang os D)
    (hv : D = os.map fun o => (o.1, value lang D o)) (hg : ∀ o ∈ os, Names.localPart o.2.1 ≠ [])
    (hp : D' <+: D) {v : Str} (hne : Names.localPart v ≠ []) (hk : ∀ o ∈ os, o.1 = Names.localPart v → o.2.2 = 2) :
    mean D (times (look lang D') 3 v) = mean D (times (look lang D) 3 v) := by
  have hN : ∀ d ∈ D, d.1 ∈ D.map (·.1) := fun d hd => List.mem_map.2 ⟨d, hd, rfl⟩
  by_cases hm : getBuildInTypeByLang (Names.localPart v) lang = none → Names.localPart v ∈ D'.map (·.1) ∨ Names.localPart v ∉ D.map (·.1)
  · rw [(firm hf hp hne hm 2).1, (firm hf hp hne hm 2).2]
  · simp only [Classical.not_imp, not_or, Classical.not_not] at hm
    obtain ⟨hb, hm1, hm2⟩ := hm
    obtain ⟨d, hd, hdn⟩ := List.mem_map.1 hm2
    have hb' : getBuildInTypeByLang (Names.localPart (Names.localPart v)) lang = none := by rw [local_idem]; exact hb
    have h1 : look lang D' v = Names.localPart v := look_miss hb (find_none hm1)
    have h2 : look lang D' (Names.localPart v) = Names.localPart v := by
      rw [look_miss hb' (by rw [local_idem]; exact find_none hm1), local_idem]
    have h3 : times (look lang D') 3 v = Names.localPart v := by
      show look lang D' (look lang D' (look lang D' v)) = _
      rw [h1, h2, h2]
    have hfind : D.find? (fun d => d.1 = Names.localPart v) = some d := hdn ▸ find_mem hf.nodup hd
    have hset := hf.settled d hd
    have h4 : look lang D v = d.2 := look_hit hb hfind hset.ne
    -- the type was looked up twice
    have h5 : (getBuildInTypeByLang d.2 lang).getD d.2 = d.2 := by
      rw [hv] at hd
      obtain ⟨o, ho, rfl⟩ := List.mem_map.1 hd
      have hk2 := hk o ho hdn
      have hown : own lang o = false := by simp [own, hk2]
      simp only [value, hown, hk2, Bool.false_eq_true, if_false]
      have hfm := firm hf (List.prefix_refl D) (hg o ho) (fun _ => Classical.em _) 1
      rw [hfm.2]
      have hx := final_look hf (hg o ho)
      show (getBuildInTypeByLang ((getBuildInTypeByLang _ lang).getD _) lang).getD _ = (getBuildInTypeByLang _ lang).getD _
      cases hb1 : getBuildInTypeByLang (look lang D o.2.1) lang with
      | none => simp only [tableTimes, hb1, Option.getD_none]
      | some b =>
        rcases hx.table with h | ⟨k, h⟩
        · rw [h] at hb1; cases hb1
        · simp only [tableTimes, hb1, Option.getD_some]
          rcases table_twice hl h hb1 with h | h <;> rw [h] <;> rfl
    have h6 : look lang D d.2 = d.2 := by rw [look_settled hset hf.nodup (fun d hd => hd) hN, h5]
    have h7 : times (look lang D) 3 v = d.2 := by
      show look lang D (look lang D (look lang D v)) = _
      rw [h4, h6, h6]
    rw [h3, h7, mean_settled hset hf.nodup hN]
    simp only [mean, local_idem, hfind]

/-- In another order the names have the same types. -/
theorem same_types {os os' : List Origin} (hg : Good lang os) (hb : Before lang os) (hg' : Good lang os') (hb' : Before lang os')
    (hp : os.Perm os') (n : Str) :
    (build lang [] os).find? (fun d => d.1 = n) = (build lang [] os').find? (fun d => d.1 = n) := by
  have hf := build_final hg hb
  have hf' := build_final hg' hb'
  have hv := final_values hg hb
  have hv' := final_values hg' hb'
  revert hf hf' hv hv'
  generalize build lang [] os = D
  generalize build lang [] os' = D'
  intro hf hf' hv hv'
  have hnn : ∀ n, n ∈ D.map (·.1) ↔ n ∈ D'.map (·.1) := fun n => by rw [hf.names, hf'.names]; exact (hp.map _).mem_iff
  have look_eq : ∀ v, (getBuildInTypeByLang (Names.localPart v) lang = none →
      D.find? (fun d => d.1 = Names.localPart v) = D'.find? (fun d => d.1 = Names.localPart v)) → look lang D v = look lang D' v := by
    intro v h
    unfold look
    cases hb : getBuildInTypeByLang (Names.localPart v) lang with
    | some b => rfl
    | none => simp only [h hb]
  have find_val : ∀ o ∈ os, D.find? (fun d => d.1 = o.1) = some (o.1, value lang D o) ∧
      D'.find? (fun d => d.1 = o.1) = some (o.1, value lang D' o) := by
    intro o ho
    have h1 : (o.1, value lang D o) ∈ D := by
      have := List.mem_map_of_mem (f := fun o => (o.1, value lang D o)) ho
      rwa [← hv] at this
    have h2 : (o.1, value lang D' o) ∈ D' := by
      have := List.mem_map_of_mem (f := fun o => (o.1, value lang D' o)) (hp.mem_iff.1 ho)
      rwa [← hv'] at this
    exact ⟨find_mem hf.nodup h1, find_mem hf'.nodup h2⟩
  have key : ∀ post pre : List Origin, pre ++ post = os → Before lang post →
      (∀ o ∈ pre, D.find? (fun d => d.1 = o.1) = D'.find? (fun d => d.1 = o.1)) →
      ∀ o ∈ os, D.find? (fun d => d.1 = o.1) = D'.find? (fun d => d.1 = o.1) := by
    intro post
    induction post with
    | nil => intro pre e _ h o ho; rw [← e, List.append_nil] at ho; exact h o ho
    | cons o post ih =>
      intro pre e hbef h
      refine ih (pre ++ [o]) (by rw [← e]; simp) hbef.2 fun x hx => ?_
      rcases List.mem_append.1 hx with hx | hx
      · exact h x hx
      · rw [List.mem_singleton.1 hx]
        have ho : o ∈ os := by rw [← e]; simp
        rw [(find_val o ho).1, (find_val o ho).2]
        congr 2
        unfold value
        by_cases hown : own lang o = true
        · rw [if_pos hown, if_pos hown]
        · rw [if_neg hown, if_neg hown]
          simp only [own, decide_eq_true_eq] at hown
          obtain ⟨k, hk⟩ : ∃ k, o.2.2 = k + 1 := ⟨o.2.2 - 1, by have := hg.pos o ho; omega⟩
          rw [hk, (firm hf (List.prefix_refl D) (hg.ne o ho) (fun _ => Classical.em _) k).2,
            (firm hf' (List.prefix_refl D') (hg.ne o ho) (fun _ => Classical.em _) k).2, look_eq _ fun hb => ?_]
          rcases hbef.1 hb with h' | h'
          · exact absurd ⟨hb, h'⟩ hown
          · by_cases hm : Names.localPart o.2.1 ∈ pre.map (·.1)
            · obtain ⟨x, hx, hxn⟩ := List.mem_map.1 hm
              rw [← hxn]; exact h x hx
            · have : Names.localPart o.2.1 ∉ D.map (·.1) := by
                rw [hf.names, ← e, List.map_append, List.mem_append]
                exact fun h2 => h2.elim hm h'
              rw [find_none this, find_none fun h2 => this ((hnn _).2 h2)]
  by_cases hm : n ∈ os.map (·.1)
  · obtain ⟨o, ho, rfl⟩ := List.mem_map.1 hm
    exact key os [] rfl hb (by simp) o ho
  · rw [find_none (by rw [hf.names]; exact hm), find_none (by rw [← hnn, hf.names]; exact hm)]

end

/-! ## Declarations and references -/

/-- What a declaration enters. -/
def origin : Decl → Option Origin
  | .simple as (.restriction ras _) => some (nameOf as, (attr? ras c!"base").getD [], 2)
  | .element as => some (nameOf as, ((attr? as c!"ref").or (attr? as c!"type")).getD (nameOf as), 1)
  | .anon as _ _ => some (nameOf as, ((attr? as c!"ref").or (attr? as c!"type")).getD (nameOf as), 1)
  | .elemAnon as ras _ => some (nameOf as, (attr? ras c!"base").getD [], 3)
  | .attribute as => some (nameOf as, ((attr? as c!"ref").or (attr? as c!"type")).getD [], 1)
  | .attrAnon as ras _ => some (nameOf as, (attr? ras c!"base").getD [], 3)
  | _ => none

theorem origin_valued (d : Decl) : valued d = (origin d).toList.map (·.1) := by
  cases d with
  | simple as b => cases b <;> rfl
  | _ => rfl

theorem no_entries {α : Type} (f : α → Node Element) (hf : ∀ a, C07.declares (some (f a)) = none) (l : List α) :
    ((l.map f).map some).filterMap C07.declares = [] := by
  induction l with
  | nil => rfl
  | cons a l ih => rw [List.map_cons, List.map_cons, List.filterMap_cons, hf a]; exact ih

theorem entries (ty : Str → Str) {d : Decl} (hb : Based d) :
    ((d.nodes ty).map some).filterMap C07.declares = (origin d).toList.map fun o => (o.1, times ty o.2.2 o.2.1) := by
  have hc := no_entries Node.complex fun _ => rfl
  have ha := no_entries Node.attrGroup fun _ => rfl
  have he : ∀ as : List Attr, (elementOf ty false as).type = ty (((attr? as c!"ref").or (attr? as c!"type")).getD (nameOf as)) := by
    intro as
    unfold elementOf
    cases (attr? as c!"ref").or (attr? as c!"type") <;> rfl
  cases d with
  | simple as b =>
    cases b with
    | restriction ras fs =>
      cases e : attr? ras c!"base" with
      | none => simp only [Based] at hb; rw [e] at hb; cases hb
      | some v => simp [Core.Decl.nodes, simpleOf, C07.declares, origin, e, times]
    | list las => rfl
    | union uas => rfl
  | complex as b => rw [Core.Decl.nodes, List.map_append, List.filterMap_append, hc]; rfl
  | element as =>
    simp only [Core.Decl.nodes, List.map_cons, List.map_nil, List.filterMap_cons, C07.declares, List.filterMap_nil, origin, Option.toList_some, he]
    rfl
  | anon as cas b =>
    rw [Core.Decl.nodes, List.map_append, List.filterMap_append, hc]
    simp only [List.map_cons, List.map_nil, List.filterMap_cons, C07.declares, List.filterMap_nil, origin, Option.toList_some, he]
    rfl
  | elemAnon as ras fs =>
    cases e : attr? ras c!"base" with
    | none => simp only [Based] at hb; rw [e] at hb; cases hb
    | some v => simp [Core.Decl.nodes, elemAnonOf, elementOf, inlineType, C07.declares, origin, e, times]
  | group as b => rfl
  | attrGroup as b => rw [Core.Decl.nodes, List.map_append, List.filterMap_append, ha]; rfl
  | «attribute» as =>
    cases e : (attr? as c!"ref").or (attr? as c!"type") with
    | none => simp only [Based] at hb; rw [e] at hb; cases hb
    | some v => simp only [Core.Decl.nodes, attributeOf, C07.declares, origin, e, times, List.map_cons, List.map_nil, List.filterMap_cons,
        List.filterMap_nil, Option.toList_some, Option.map_some, Option.getD_some]
  | attrAnon as ras fs =>
    cases e : attr? ras c!"base" with
    | none => simp only [Based] at hb; rw [e] at hb; cases hb
    | some v => simp [Core.Decl.nodes, attrAnonOf, attributeOf, C07.declares, origin, e, times]

/-- The names with types of a tree. -/
def entriesOf (t : Tree) : List (Str × Str) := t.filterMap C07.declares

theorem ref_look (lang : Str) (t : Tree) : typeRef lang false t = look lang (entriesOf t) := by
  funext v
  unfold typeRef look entriesOf
  cases getBuildInTypeByLang (Names.localPart v) lang with
  | some b => rfl
  | none =>
    dsimp only
    cases (t.filterMap C07.declares).find? (fun d => d.1 = Names.localPart v) with
    | none => rfl
    | some d => simp

theorem meaning_mean (t : Tree) : Names.meaning t = mean (entriesOf t) := rfl

theorem tree_build (lang : Str) (ds : List Decl) (hb : ∀ d ∈ ds, Based d) : ∀ t,
    entriesOf (treeOf (typeRef lang false) t ds) = build lang (entriesOf t) (ds.filterMap origin) := by
  induction ds with
  | nil => intro t; rfl
  | cons d ds ih =>
    intro t
    rw [treeOf, ih fun d' hd' => hb d' (by simp [hd'])]
    have : entriesOf (t ++ (d.nodes (typeRef lang false t)).map some) =
        entriesOf t ++ (origin d).toList.map fun o => (o.1, times (look lang (entriesOf t)) o.2.2 o.2.1) := by
      unfold entriesOf
      rw [List.filterMap_append, entries _ (hb d (by simp)), ref_look]; rfl
    rw [this, List.filterMap_cons]
    cases origin d with
    | none => simp
    | some o => rfl

/-- The references of a declaration lead to what it is made from, or to itself. -/
theorem origin_needs {d : Decl} {o : Origin} (ho : origin d = some o) (hb : Based d) :
    o.2.1 ∈ needs d ∨ (o.2.1 = o.1 ∧ o.2.2 = 1) := by
  cases d with
  | simple as b =>
    cases b with
    | restriction ras fs =>
      injection ho with ho
      subst ho
      cases e : attr? ras c!"base" with
      | none => simp only [Based] at hb; rw [e] at hb; cases hb
      | some v => left; simp [needs, e]
    | list las => cases ho
    | union uas => cases ho
  | element as =>
    injection ho with ho
    subst ho
    cases e : (attr? as c!"ref").or (attr? as c!"type") with
    | none => right; simp [e]
    | some v => left; simp only [needs, e]; simp
  | anon as cas b =>
    injection ho with ho
    subst ho
    cases e : (attr? as c!"ref").or (attr? as c!"type") with
    | none => right; simp [e]
    | some v => left; simp only [needs, e]; simp
  | elemAnon as ras fs =>
    injection ho with ho
    subst ho
    cases e : attr? ras c!"base" with
    | none => simp only [Based] at hb; rw [e] at hb; cases hb
    | some v => left; simp [needs, e]
  | «attribute» as =>
    injection ho with ho
    subst ho
    cases e : (attr? as c!"ref").or (attr? as c!"type") with
    | none => simp only [Based] at hb; rw [e] at hb; cases hb
    | some v => left; simp only [needs, e]; simp
  | attrAnon as ras fs =>
    injection ho with ho
    subst ho
    cases e : attr? ras c!"base" with
    | none => simp only [Based] at hb; rw [e] at hb; cases hb
    | some v => left; simp [needs, e]
  | complex as b => cases ho
  | group as b => cases ho
  | attrGroup as b => cases ho

theorem origin_names {d : Decl} {o : Origin} (ho : origin d = some o) : o.1 ∈ names d ∧ o.1 ∈ valued d ∧ 0 < o.2.2 := by
  have hv : o.1 ∈ valued d := by rw [origin_valued, ho]; simp
  refine ⟨?_, hv, ?_⟩
  · cases d with
    | simple as b => cases b <;> cases ho; simp [names, Core.Decl.nodes, simpleOf, nodeName]
    | anon as cas b => cases ho; simp [names, Core.Decl.nodes, nodeName, complexOf, extend]
    | element as => cases ho; exact List.mem_singleton_self _
    | elemAnon as ras fs => cases ho; exact List.mem_singleton_self _
    | «attribute» as => cases ho; exact List.mem_singleton_self _
    | attrAnon as ras fs => cases ho; exact List.mem_singleton_self _
    | complex as b => cases ho
    | group as b => cases ho
    | attrGroup as b => cases ho
  · cases d with
    | simple as b => cases b <;> cases ho; exact Nat.succ_pos _
    | complex as b => cases ho
    | group as b => cases ho
    | attrGroup as b => cases ho
    | _ => cases ho; exact Nat.succ_pos _

theorem Orderly.good {lang : Str} {ds : List Decl} (h : Orderly lang ds) : Good lang (ds.filterMap origin) := by
  have mem : ∀ o ∈ ds.filterMap origin, ∃ d ∈ ds, origin d = some o := fun o ho => List.mem_filterMap.1 ho
  refine ⟨?_, fun o ho => ?_, fun o ho => ?_, fun o ho => ?_, fun o ho => ?_⟩
  · have := h.apart
    clear h mem
    induction ds with
    | nil => exact List.nodup_nil
    | cons d ds ih =>
      rw [List.pairwise_cons] at this
      rw [List.filterMap_cons]
      cases ho : origin d with
      | none => exact ih this.2
      | some o =>
        rw [List.map_cons, List.nodup_cons]
        refine ⟨fun hm => ?_, ih this.2⟩
        obtain ⟨x, hx, hxn⟩ := List.mem_map.1 hm
        obtain ⟨d', hd', hx'⟩ := List.mem_filterMap.1 hx
        exact this.1 d' hd' _ (origin_names ho).1 (hxn ▸ (origin_names hx').1)
  · obtain ⟨d, hd, hod⟩ := mem o ho
    exact (h.plain d hd _ (origin_names hod).2.1).2
  · obtain ⟨d, hd, hod⟩ := mem o ho
    exact h.targets d hd _ (origin_names hod).2.1
  · obtain ⟨d, hd, hod⟩ := mem o ho
    rcases origin_needs hod (h.based d hd).1 with hn | hn
    · exact (h.based d hd).2 _ hn
    · have := h.plain d hd _ (origin_names hod).2.1
      rw [hn.1, this.2]; exact this.1
  · obtain ⟨d, hd, hod⟩ := mem o ho
    exact (origin_names hod).2.2

theorem Early.before {lang : Str} {ds : List Decl} (h : Early lang ds) (hb : ∀ d ∈ ds, Based d) : Before lang (ds.filterMap origin) := by
  induction ds with
  | nil => trivial
  | cons d ds ih =>
    have I := ih h.2 fun d' hd' => hb d' (by simp [hd'])
    rw [List.filterMap_cons]
    cases ho : origin d with
    | none => exact I
    | some o =>
      refine ⟨fun hbt => ?_, I⟩
      rcases origin_needs ho (hb d (by simp)) with hn | hn
      · right
        intro hm
        rcases List.mem_cons.1 hm with hm | hm
        · exact h.1 _ hn hbt d (by simp) (hm ▸ (origin_names ho).2.1)
        · obtain ⟨x, hx, hxn⟩ := List.mem_map.1 hm
          obtain ⟨d', hd', hx'⟩ := List.mem_filterMap.1 hx
          exact h.1 _ hn hbt d' (by simp [hd']) (hxn ▸ (origin_names hx').2.1)
      · exact .inl hn

theorem Orderly.perm {lang : Str} {ds ds' : List Decl} (h : Orderly lang ds) (hp : ds.Perm ds') : Orderly lang ds' := by
  have hm : ∀ d, d ∈ ds' → d ∈ ds := fun d => hp.mem_iff.2
  refine ⟨hp.pairwise h.apart fun h' n hn hn' => h' n hn' hn, fun d hd => h.plain d (hm d hd), fun d hd => h.targets d (hm d hd),
    fun d hd => h.oneType d (hm d hd), fun d hd v hv => ?_, fun d hd => h.based d (hm d hd)⟩
  have := h.types d (hm d hd) v hv
  exact ⟨this.1, fun d' hd' => this.2 d' (hm d' hd')⟩

/-- The components of the declarations as generators see them: with all references to the complete tree. -/
theorem nodes_norm {lang : Str} (hl : lang ∈ C41.langs) {ds : List Decl} (h : Orderly lang ds) (he : Early lang ds) {T : Tree}
    (hT : treeOf (typeRef lang false) [] ds = T) :
    (nodes T).map (norm (Names.meaning T)) = ds.flatMap fun d => (d.nodes (typeRef lang false T)).map (norm (Names.meaning T)) := by
  have hbased : ∀ d ∈ ds, Based d := fun d hd => (h.based d hd).1
  have hD : entriesOf T = build lang [] (ds.filterMap origin) := by rw [← hT, tree_build lang ds hbased]; rfl
  have hg := h.good
  have hbef := he.before hbased
  have hf : Final lang (ds.filterMap origin) (entriesOf T) := hD ▸ build_final hg hbef
  have hv : entriesOf T = (ds.filterMap origin).map fun o => (o.1, value lang (entriesOf T) o) := by
    have := final_values hg hbef; rw [← hD] at this; exact this
  have hvalued : ∀ n, n ∈ (entriesOf T).map (·.1) ↔ ∃ d ∈ ds, n ∈ valued d := by
    intro n
    rw [hf.names]
    constructor
    · intro hm
      obtain ⟨o, ho, rfl⟩ := List.mem_map.1 hm
      obtain ⟨d, hd, hod⟩ := List.mem_filterMap.1 ho
      exact ⟨d, hd, (origin_names hod).2.1⟩
    · rintro ⟨d, hd, hn⟩
      rw [origin_valued] at hn
      cases ho : origin d with
      | none => rw [ho] at hn; cases hn
      | some o =>
        rw [ho] at hn
        exact List.mem_map.2 ⟨o, List.mem_filterMap.2 ⟨d, hd, ho⟩, (by simpa using hn : n = o.1).symm⟩
  have key : ∀ post pre t, pre ++ post = ds → treeOf (typeRef lang false) t post = T → Early lang post →
      (∀ n ∈ (entriesOf T).map (·.1), n ∈ (entriesOf t).map (·.1) ∨ ∃ d ∈ post, n ∈ valued d) →
      (nodes T).map (norm (Names.meaning T)) =
        (nodes t).map (norm (Names.meaning T)) ++ post.flatMap fun d => (d.nodes (typeRef lang false T)).map (norm (Names.meaning T)) := by
    intro post
    induction post with
    | nil => intro pre t _ ht _ _; rw [← ht]; simp [treeOf]
    | cons d post ih =>
      intro pre t hds ht hearly hcover
      have hd : d ∈ ds := by rw [← hds]; simp
      have hpre : entriesOf t <+: entriesOf T := by
        rw [← ht, tree_build lang _ fun d' hd' => hbased d' (by rw [← hds]; simp only [List.mem_append]; exact .inr hd')]
        exact prefix_build _ _
      have hfirm : ∀ v ∈ needs d, ∀ k, times (typeRef lang false t) (k + 1) v = times (typeRef lang false T) (k + 1) v := by
        intro v hv k
        rw [ref_look, ref_look]
        have := firm hf hpre ((h.based d hd).2 v hv) (fun hbt => ?_) k
        · rw [this.1, this.2]
        · by_cases hm : Names.localPart v ∈ (entriesOf T).map (·.1)
          · rcases hcover _ hm with h1 | ⟨d', hd', h1⟩
            · exact .inl h1
            · exact absurd h1 (hearly.1 v hv hbt d' hd')
          · exact .inr hm
      have hclose : CloseOn (Names.meaning T) (typeRef lang false t) (typeRef lang false T) (content d) := by
        refine ⟨fun v => ?_, fun v hv' => ?_, fun v hv' => ?_⟩
        · rw [ref_look, ref_look, meaning_mean]; exact weak hf hpre v
        · rw [ref_look, ref_look, meaning_mean]
          refine inline hl hf hv hg.ne hpre (h.types d hd v hv').1 fun o ho hn => ?_
          obtain ⟨d', hd', hod⟩ := List.mem_filterMap.1 ho
          have h1 := (h.types d hd v hv').2 d' hd'
          rw [← hn] at h1
          cases d' with
          | simple as b => cases b <;> cases hod; rfl
          | complex as b => cases hod
          | group as b => cases hod
          | attrGroup as b => cases hod
          | _ => injection hod with hod; subst hod; simp [items] at h1
        · have : v ∈ needs d := by
            cases d with
            | complex as b => exact hv'
            | anon as cas b => simp only [needs, List.mem_append]; exact .inr hv'
            | group as b => exact hv'
            | attrGroup as b => exact hv'
            | _ => simp [content, extensions] at hv'
          exact hfirm v this 1
      have hn := norm_nodes hclose (h.oneType d hd).1 (h.oneType d hd).2 fun v hv' => ⟨hfirm v hv' 0, hfirm v hv' 1, hfirm v hv' 2⟩
      rw [treeOf] at ht
      rw [ih (pre ++ [d]) _ (by rw [← hds]; simp) ht hearly.2 fun n hm => ?_]
      · rw [Xgen.Decl.nodes, List.filterMap_append, List.map_append, List.append_assoc, List.flatMap_cons]
        congr 2
        rw [show ((d.nodes (typeRef lang false t)).map some).filterMap id = d.nodes (typeRef lang false t) from by
          rw [List.filterMap_map]; simp, hn]
      · rcases hcover n hm with h1 | ⟨d', hd', h1⟩
        · left
          unfold entriesOf at h1 ⊢
          rw [List.filterMap_append, List.map_append, List.mem_append]; exact .inl h1
        · rcases List.mem_cons.1 hd' with rfl | hd'
          · left
            unfold entriesOf
            rw [List.filterMap_append, List.map_append, List.mem_append, entries _ (hbased _ hd), List.map_map]
            right
            rw [origin_valued] at h1
            exact h1
          · exact .inr ⟨d', hd', h1⟩
  have := key ds [] [] rfl hT he fun n hm => .inr ((hvalued n).1 hm)
  rw [this]
  rfl

/-! ## Which components are declared under which names -/

theorem firsts_sub (free : Node Element → Bool) (ns : List (Node Element)) : ∀ n ∈ C56.firsts free ns, n ∈ ns := by
  induction ns with
  | nil => intro n hn; exact hn
  | cons a ns ih =>
    intro n hn
    rw [C56.firsts] at hn
    rcases List.mem_cons.1 hn with rfl | hn
    · simp
    · split at hn
      · exact List.mem_cons_of_mem _ (ih n hn)
      · exact List.mem_cons_of_mem _ (ih n (List.mem_filter.1 hn).1)

theorem firsts_append (free : Node Element → Bool) (a b : List (Node Element)) (h : ∀ x ∈ a, ∀ y ∈ b, nodeName x ≠ nodeName y) :
    C56.firsts free (a ++ b) = C56.firsts free a ++ C56.firsts free b := by
  induction a with
  | nil => rfl
  | cons x a ih =>
    rw [List.cons_append, C56.firsts, C56.firsts, ih fun y hy => h y (by simp [hy]), List.cons_append]
    congr 1
    split
    · rfl
    · rw [List.filter_append]
      congr 1
      apply List.filter_eq_self.2
      intro y hy
      have := h x (by simp) y (firsts_sub free b y hy)
      simp [this.symm]

theorem firsts_blocks (free : Node Element → Bool) (f : Decl → List (Node Element)) (ds : List Decl)
    (h : ds.Pairwise fun d d' => ∀ x ∈ f d, ∀ y ∈ f d', nodeName x ≠ nodeName y) :
    C56.firsts free (ds.flatMap f) = ds.flatMap fun d => C56.firsts free (f d) := by
  induction ds with
  | nil => rfl
  | cons d ds ih =>
    rw [List.pairwise_cons] at h
    rw [List.flatMap_cons, List.flatMap_cons, firsts_append free _ _ fun x hx y hy => ?_, ih h.2]
    obtain ⟨d', hd', hy⟩ := List.mem_flatMap.1 hy
    exact h.1 d' hd' x hx y hy

theorem finals_nodup (base : Node Element → Str) (numbered : Node Element → Bool) (ns : List (Node Element)) :
    ∀ used : List Str, (ns.map base).Nodup → (∀ n ∈ ns, base n ∉ used) → C56.finals base numbered used ns = ns.map base := by
  induction ns with
  | nil => intro used _ _; rfl
  | cons n ns ih =>
    intro used hn hu
    rw [List.map_cons, List.nodup_cons] at hn
    have hstep : ∀ n' ∈ ns, base n' ∉ base n :: used := by
      intro n' hn'
      rw [List.mem_cons, not_or]
      exact ⟨fun e => hn.1 (e ▸ List.mem_map_of_mem hn'), hu n' (by simp [hn'])⟩
    rw [C56.finals, ih _ hn.2 hstep, ih _ hn.2 fun n' hn' => hu n' (by simp [hn']), List.count_eq_zero_of_not_mem (hu n (by simp)), List.map_cons]
    simp [C14.numbered]

theorem norm_name (m : Str → Str) (n : Node Element) : nodeName (norm m n) = nodeName n := by cases n <;> rfl

/-- The declared components get different target names. -/
def Distinguished (base : Node Element → Str) (free : Node Element → Bool) (t : Tree) : Prop :=
  ((C56.firsts free (nodes t)).map base).Nodup

/-- What generators say of components, in whatever order these are declared. -/
theorem declarations_perm {γ : Type} {base : Node Element → Str} {numbered free : Node Element → Bool} {out : Tree → Str → Node Element → γ}
    (hb : ∀ m n, base (norm m n) = base n) (hfree : ∀ m n, free (norm m n) = free n)
    (hout : ∀ T T' : Tree, Names.meaning T' = Names.meaning T → C55.memberMeaning T' = C55.memberMeaning T → ∀ fn n, out T' fn n = out T fn n)
    (hnorm : ∀ T : Tree, (∀ x, Names.meaning T (Names.meaning T x) = Names.meaning T x) → ∀ fn n,
      out T fn (norm (Names.meaning T) n) = out T fn n)
    {lang : Str} (hl : lang ∈ C41.langs) {ds ds' : List Decl} (hp : ds.Perm ds') (h : Orderly lang ds) (he : Early lang ds) (he' : Early lang ds')
    (hd : Distinguished base free (treeOf (typeRef lang false) [] ds)) :
    ((C58.declarations base numbered free (treeOf (typeRef lang false) [] ds)).map
        fun x => out (treeOf (typeRef lang false) [] ds) x.2 x.1).Perm
      ((C58.declarations base numbered free (treeOf (typeRef lang false) [] ds')).map
        fun x => out (treeOf (typeRef lang false) [] ds') x.2 x.1) := by
  have h' := h.perm hp
  have h1 := nodes_norm hl h he rfl
  have h2 := nodes_norm hl h' he' rfl
  have hb1 : ∀ d ∈ ds, Based d := fun d hd => (h.based d hd).1
  have hb2 : ∀ d ∈ ds', Based d := fun d hd => (h'.based d hd).1
  have hD1 : entriesOf (treeOf (typeRef lang false) [] ds) = build lang [] (ds.filterMap origin) := tree_build lang ds hb1 []
  have hD2 : entriesOf (treeOf (typeRef lang false) [] ds') = build lang [] (ds'.filterMap origin) := tree_build lang ds' hb2 []
  revert h1 h2 hD1 hD2 hd
  generalize treeOf (typeRef lang false) [] ds = T
  generalize treeOf (typeRef lang false) [] ds' = T'
  intro hd h1 h2 hD1 hD2
  have hfind : ∀ n, (entriesOf T').find? (fun d => d.1 = n) = (entriesOf T).find? (fun d => d.1 = n) := fun n => by
    rw [hD1, hD2]
    exact (same_types h.good (he.before hb1) h'.good (he'.before hb2) (hp.filterMap _) n).symm
  have hm : Names.meaning T' = Names.meaning T := by
    funext v
    show (match (entriesOf T').find? _ with | some d => d.2 | none => _) = _
    rw [hfind]; rfl
  have hmm : C55.memberMeaning T' = C55.memberMeaning T := by
    funext x
    show (if _ then _ else match (entriesOf T').find? _ with | some d => d.2 | none => _) = _
    rw [hfind]; rfl
  have hr : typeRef lang false T' = typeRef lang false T := by
    rw [ref_look, ref_look]
    funext v
    unfold look
    rw [hfind]
  have hidem : ∀ x, Names.meaning T (Names.meaning T x) = Names.meaning T x := by
    have hf : Final lang (ds.filterMap origin) (entriesOf T) := hD1 ▸ build_final h.good (he.before hb1)
    exact mean_mean hf
  rw [hm, hr] at h2
  -- the components as generators see them
  have hblocks : ∀ {ds : List Decl}, Orderly lang ds → ds.Pairwise fun d d' =>
      ∀ x ∈ (d.nodes (typeRef lang false T)).map (norm (Names.meaning T)), ∀ y ∈ (d'.nodes (typeRef lang false T)).map (norm (Names.meaning T)),
        nodeName x ≠ nodeName y := by
    intro ds h
    refine h.apart.imp fun {d d'} hdd x hx y hy e => ?_
    obtain ⟨x', hx', rfl⟩ := List.mem_map.1 hx
    obtain ⟨y', hy', rfl⟩ := List.mem_map.1 hy
    rw [norm_name, norm_name] at e
    refine hdd (nodeName x') ?_ ?_
    · rw [← C67.nodes_names (typeRef lang false T)]; exact List.mem_map_of_mem hx'
    · rw [e, ← C67.nodes_names (typeRef lang false T)]; exact List.mem_map_of_mem hy'
  have hf1 : (C56.firsts free (nodes T)).map (norm (Names.meaning T)) =
      ds.flatMap fun d => C56.firsts free ((d.nodes (typeRef lang false T)).map (norm (Names.meaning T))) := by
    rw [← C59.firsts_map (hfree _) (norm_name _), h1, firsts_blocks _ _ _ (hblocks h)]
  have hf2 : (C56.firsts free (nodes T')).map (norm (Names.meaning T)) =
      ds'.flatMap fun d => C56.firsts free ((d.nodes (typeRef lang false T)).map (norm (Names.meaning T))) := by
    rw [← C59.firsts_map (hfree _) (norm_name _), h2, firsts_blocks _ _ _ (hblocks h')]
  have hperm : ((C56.firsts free (nodes T)).map (norm (Names.meaning T))).Perm ((C56.firsts free (nodes T')).map (norm (Names.meaning T))) := by
    rw [hf1, hf2]; exact hp.flatMap_right _
  have hbase : ∀ l : List (Node Element), (l.map (norm (Names.meaning T))).map base = l.map base := fun l => by
    rw [List.map_map]; exact List.map_congr_left fun n _ => hb _ n
  have hd' : ((C56.firsts free (nodes T')).map base).Nodup := by
    have := (hperm.map base).nodup_iff.1 (by rw [hbase]; exact hd)
    rwa [hbase] at this
  have zip_self : ∀ l : List (Node Element), (l.zip (l.map base)) = l.map fun n => (n, base n) := fun l => by
    induction l with
    | nil => rfl
    | cons a l ih => rw [List.map_cons, List.zip_cons_cons, ih, List.map_cons]
  have print : ∀ {t : Tree}, ((C56.firsts free (nodes t)).map base).Nodup → (∀ fn n, out t fn n = out T fn n) →
      (C58.declarations base numbered free t).map (fun x => out t x.2 x.1) =
        ((C56.firsts free (nodes t)).map (norm (Names.meaning T))).map fun n => out T (base n) n := by
    intro t hn ho
    unfold C58.declarations
    rw [finals_nodup base numbered _ [] hn (by simp), zip_self, List.map_map, List.map_map]
    refine List.map_congr_left fun n _ => ?_
    show out t (base n) n = out T (base (norm (Names.meaning T) n)) (norm (Names.meaning T) n)
    rw [ho, hb, hnorm T hidem]
  rw [print hd fun _ _ => rfl, print hd' (hout T T' hm hmm)]
  exact hperm.map _

/-! ## The languages -/

section
variable [Uni]
open C59 (goDecls cDecls javaDecls rustDecls tsDecls Ord Document ValuesOk)

variable {ds ds' : List Decl} (order : Ord)

theorem go_decls (hp : ds.Perm ds') (h : Orderly c!"Go" ds) (he : Early c!"Go" ds) (he' : Early c!"Go" ds')
    (hd : Distinguished C58.Go.base (fun _ => false) (treeOf (typeRef c!"Go" false) [] ds)) :
    (goDecls order (treeOf (typeRef c!"Go" false) [] ds)).Perm (goDecls order (treeOf (typeRef c!"Go" false) [] ds')) := by
  refine declarations_perm (out := fun t fn n => (C58.Go.head t fn n, C58.Go.fields order t fn n)) (fun m n => by cases n <;> rfl)
    (fun m n => rfl) (fun T T' hm hmm fn n => ?_) (fun T hi fn n => ?_) (by decide) hp h he he' hd
  · have ht : C17.typeOf T' = C17.typeOf T := by funext s; simp only [C17.typeOf, hm]
    cases n <;> simp only [C58.Go.head, C58.Go.fields, C17.expected, C54.Go.group, ht, hmm]
  · have ht : ∀ x, C17.typeOf T (Names.meaning T x) = C17.typeOf T x := fun x => by simp only [C17.typeOf, hi]
    cases n <;> simp [norm, normE, normA, normC, normG, normAG, C58.Go.head, C58.Go.fields, C17.expected, C54.Go.group, ht, isUnion,
      C54.withAttrs, Function.comp_def] <;> (intros; rfl)

theorem c_decls (hp : ds.Perm ds') (h : Orderly c!"C" ds) (he : Early c!"C" ds) (he' : Early c!"C" ds')
    (hd : Distinguished C58.C.base (fun _ => false) (treeOf (typeRef c!"C" false) [] ds)) :
    (cDecls order (treeOf (typeRef c!"C" false) [] ds)).Perm (cDecls order (treeOf (typeRef c!"C" false) [] ds')) := by
  refine declarations_perm (out := fun t fn n => (C58.C.head t n, C58.C.members order t n, [C58.C.nameOf n fn])) (fun m n => by cases n <;> rfl)
    (fun m n => rfl) (fun T T' hm hmm fn n => ?_) (fun T hi fn n => ?_) (by decide) hp h he he' hd
  · have ht : C48.C.typeOf T' = C48.C.typeOf T := by funext s; simp only [C48.C.typeOf, hm]
    cases n <;> simp only [C58.C.head, C58.C.members, C48.C.expected, C54.C.group, ht, hmm]
  · have ht : ∀ x, C48.C.typeOf T (Names.meaning T x) = C48.C.typeOf T x := fun x => by simp only [C48.C.typeOf, hi]
    cases n <;> simp [norm, normE, normA, normC, normG, normAG, C58.C.head, C58.C.members, C48.C.expected, C54.C.group, ht, isUnion,
      C54.withAttrs, Function.comp_def, C58.C.nameOf, C56.isStruct, C58.C.base, nodeName] <;> (intros; rfl)

theorem java_decls (hp : ds.Perm ds') (h : Orderly c!"Java" ds) (he : Early c!"Java" ds) (he' : Early c!"Java" ds')
    (hd : Distinguished C58.Java.base (fun _ => false) (treeOf (typeRef c!"Java" false) [] ds)) :
    (javaDecls order (treeOf (typeRef c!"Java" false) [] ds)).Perm (javaDecls order (treeOf (typeRef c!"Java" false) [] ds')) := by
  refine declarations_perm (out := fun t fn n => (C58.Java.head t fn n, C58.Java.members order t n)) (fun m n => by cases n <;> rfl)
    (fun m n => rfl) (fun T T' hm hmm fn n => ?_) (fun T hi fn n => ?_) (by decide) hp h he he' hd
  · have ht : C48.Java.typeOf T' = C48.Java.typeOf T := by funext s; simp only [C48.Java.typeOf, hm]
    cases n <;> simp only [C58.Java.head, C58.Java.members, C48.Java.expected, C48.Java.header, C54.Java.group, C54.Java.attrs, ht, hmm]
  · have ht : ∀ x, C48.Java.typeOf T (Names.meaning T x) = C48.Java.typeOf T x := fun x => by simp only [C48.Java.typeOf, hi]
    cases n <;> simp [norm, normE, normA, normC, normG, normAG, C58.Java.head, C58.Java.members, C48.Java.expected, C48.Java.header, C54.Java.group,
      C54.Java.attrs, ht, isUnion, Function.comp_def] <;> (intros; rfl)

theorem rust_decls (hp : ds.Perm ds') (h : Orderly c!"Rust" ds) (he : Early c!"Rust" ds) (he' : Early c!"Rust" ds')
    (hd : Distinguished C56.Rust.baseName (fun _ => false) (treeOf (typeRef c!"Rust" false) [] ds)) :
    (rustDecls order (treeOf (typeRef c!"Rust" false) [] ds)).Perm (rustDecls order (treeOf (typeRef c!"Rust" false) [] ds')) := by
  refine declarations_perm (out := fun t fn n => (c!"pub struct " ++ fn ++ c!" {", C58.Rust.members order t n)) (fun m n => by cases n <;> rfl)
    (fun m n => rfl) (fun T T' hm hmm fn n => ?_) (fun T hi fn n => ?_) (by decide) hp h he he' hd
  · have ht : C48.Rust.typeOf T' = C48.Rust.typeOf T := by funext s; simp only [C48.Rust.typeOf, hm]
    cases n <;> simp only [C58.Rust.members, C48.Rust.expected, C54.Rust.group, C54.Rust.attrs, ht, hmm]
  · have ht : ∀ x, C48.Rust.typeOf T (Names.meaning T x) = C48.Rust.typeOf T x := fun x => by simp only [C48.Rust.typeOf, hi]
    cases n <;> simp [norm, normE, normA, normC, normG, normAG, C58.Rust.members, C48.Rust.expected, C54.Rust.group, C54.Rust.attrs, ht, isUnion,
      Function.comp_def] <;> (intros; rfl)

theorem ts_decls (hp : ds.Perm ds') (h : Orderly c!"TypeScript" ds) (he : Early c!"TypeScript" ds) (he' : Early c!"TypeScript" ds')
    (hd : Distinguished C58.TS.base C15.isEnum (treeOf (typeRef c!"TypeScript" false) [] ds)) :
    (tsDecls order (treeOf (typeRef c!"TypeScript" false) [] ds)).Perm (tsDecls order (treeOf (typeRef c!"TypeScript" false) [] ds')) := by
  refine declarations_perm (out := fun t fn n => (C58.TS.head t fn n, C58.TS.members order t n)) (fun m n => by cases n <;> rfl)
    (fun m n => by cases n <;> rfl) (fun T T' hm hmm fn n => ?_) (fun T hi fn n => ?_) (by decide) hp h he he' hd
  · have ht : C48.TS.typeOf T' = C48.TS.typeOf T := by funext s p; simp only [C48.TS.typeOf, hm]
    cases n <;> simp only [C58.TS.head, C58.TS.synonym, C58.TS.members, C48.TS.expected, C48.TS.header, C54.TS.group, ht, hmm, C49.expected]
  · have ht : ∀ x p, C48.TS.typeOf T (Names.meaning T x) p = C48.TS.typeOf T x p := fun x p => by simp only [C48.TS.typeOf, hi]
    cases n <;> simp [norm, normE, normA, normC, normG, normAG, C58.TS.head, C58.TS.synonym, C58.TS.members, C48.TS.expected, C48.TS.header,
      C54.TS.group, ht, isUnion, C54.withAttrs, Function.comp_def, C49.expected] <;> (intros; rfl)

/-! ## Files -/

variable [UniLaws]

omit [Uni] [UniLaws] in
/-- There is only one order of member types. -/
theorem order_sorted {order : Ord} (h : C58.Order order) : order = toSortedPairs :=
  funext fun l => C08.order_independent l l _ (List.Perm.refl _) (h l).1 (h l).2

variable {W W' : World} {cfg cfg' : Cfg} {sh sh' : Shared} {toks toks' : List Token}

/-- C70, C.  Two documents with the same declarations in another order give files with the same declarations in another order.  Missing: orders in
which something is used before its declaration other than as type of a member (`chain`, `extension_late`, `union_late`), declarations or targets
of the same name (`same_name`, `numbers`), and orders outside the regular ones of C40
(`stale`). -/
theorem c_partial (h : Document W cfg sh ds toks) (h' : Document W' cfg' sh' ds' toks') (hl : cfg.lang = c!"C") (hl' : cfg'.lang = c!"C")
    (hperm : ds.Perm ds') (ho : Orderly c!"C" ds) (he : Early c!"C" ds) (he' : Early c!"C" ds')
    (hd : Distinguished C58.C.base (fun _ => false) (treeOf (typeRef c!"C" false) [] ds)) :
    ∃ t s text t' s' text', Parse W cfg sh = .ok t s ∧ s.outputs = sh.outputs ++ [(C24.documentedPath cfg c!".h", text)] ∧
      Parse W' cfg' sh' = .ok t' s' ∧ s'.outputs = sh'.outputs ++ [(C24.documentedPath cfg' c!".h", text')] ∧
      (C58.C.declsOf text).Perm (C58.C.declsOf text') := by
  obtain ⟨t, s, text, o, h1, h2, h3, h4⟩ := C59.c h hl
  obtain ⟨t', s', text', o', h1', h2', h3', h4'⟩ := C59.c h' hl'
  refine ⟨t, s, text, t', s', text', h1, h2, h1', h2', ?_⟩
  rw [h4, h4', order_sorted h3, order_sorted h3']
  exact c_decls _ hperm ho he he' hd

/-- C70, Java. -/
theorem java_partial (h : Document W cfg sh ds toks) (h' : Document W' cfg' sh' ds' toks') (hl : cfg.lang = c!"Java") (hl' : cfg'.lang = c!"Java") (hp : '\n' ∉ cfg.package) (hp' : '\n' ∉ cfg'.package)
    (hperm : ds.Perm ds') (ho : Orderly c!"Java" ds) (he : Early c!"Java" ds) (he' : Early c!"Java" ds')
    (hd : Distinguished C58.Java.base (fun _ => false) (treeOf (typeRef c!"Java" false) [] ds)) :
    ∃ t s text t' s' text', Parse W cfg sh = .ok t s ∧ s.outputs = sh.outputs ++ [(C24.documentedPath cfg c!".java", text)] ∧
      Parse W' cfg' sh' = .ok t' s' ∧ s'.outputs = sh'.outputs ++ [(C24.documentedPath cfg' c!".java", text')] ∧
      (C58.Java.declsOf text).Perm (C58.Java.declsOf text') := by
  obtain ⟨t, s, text, o, h1, h2, h3, h4⟩ := C59.java h hl hp
  obtain ⟨t', s', text', o', h1', h2', h3', h4'⟩ := C59.java h' hl' hp'
  refine ⟨t, s, text, t', s', text', h1, h2, h1', h2', ?_⟩
  rw [h4, h4', order_sorted h3, order_sorted h3']
  exact java_decls _ hperm ho he he' hd

/-- C70, Rust. -/
theorem rust_partial (h : Document W cfg sh ds toks) (h' : Document W' cfg' sh' ds' toks') (hl : cfg.lang = c!"Rust") (hl' : cfg'.lang = c!"Rust")
    (hperm : ds.Perm ds') (ho : Orderly c!"Rust" ds) (he : Early c!"Rust" ds) (he' : Early c!"Rust" ds')
    (hd : Distinguished C56.Rust.baseName (fun _ => false) (treeOf (typeRef c!"Rust" false) [] ds)) :
    ∃ t s text t' s' text', Parse W cfg sh = .ok t s ∧ s.outputs = sh.outputs ++ [(C24.documentedPath cfg c!".rs", text)] ∧
      Parse W' cfg' sh' = .ok t' s' ∧ s'.outputs = sh'.outputs ++ [(C24.documentedPath cfg' c!".rs", text')] ∧
      (C58.Rust.declsOf text).Perm (C58.Rust.declsOf text') := by
  obtain ⟨t, s, text, o, h1, h2, h3, h4⟩ := C59.rust h hl
  obtain ⟨t', s', text', o', h1', h2', h3', h4'⟩ := C59.rust h' hl'
  refine ⟨t, s, text, t', s', text', h1, h2, h1', h2', ?_⟩
  rw [h4, h4', order_sorted h3, order_sorted h3']
  exact rust_decls _ hperm ho he he' hd

/-- C70, TypeScript. -/
theorem ts_partial (h : Document W cfg sh ds toks) (h' : Document W' cfg' sh' ds' toks') (hl : cfg.lang = c!"TypeScript") (hl' : cfg'.lang = c!"TypeScript") (hv : ValuesOk toks) (hv' : ValuesOk toks')
    (hperm : ds.Perm ds') (ho : Orderly c!"TypeScript" ds) (he : Early c!"TypeScript" ds) (he' : Early c!"TypeScript" ds')
    (hd : Distinguished C58.TS.base C15.isEnum (treeOf (typeRef c!"TypeScript" false) [] ds)) :
    ∃ t s text t' s' text', Parse W cfg sh = .ok t s ∧ s.outputs = sh.outputs ++ [(C24.documentedPath cfg c!".ts", text)] ∧
      Parse W' cfg' sh' = .ok t' s' ∧ s'.outputs = sh'.outputs ++ [(C24.documentedPath cfg' c!".ts", text')] ∧
      (C58.TS.declsOf text).Perm (C58.TS.declsOf text') := by
  obtain ⟨t, s, text, o, h1, h2, h3, h4⟩ := C59.ts_partial h hv hl
  obtain ⟨t', s', text', o', h1', h2', h3', h4'⟩ := C59.ts_partial h' hv' hl'
  refine ⟨t, s, text, t', s', text', h1, h2, h1', h2', ?_⟩
  rw [h4, h4', order_sorted h3, order_sorted h3']
  exact ts_decls _ hperm ho he he' hd

/-- C70, Go: of the sources handed to the formatter. -/
theorem go_partial (h : Document W cfg sh ds toks) (h' : Document W' cfg' sh' ds' toks') (hl : cfg.lang = c!"Go") (hl' : cfg'.lang = c!"Go")
    (hp : '\n' ∉ cfg.package) (hp' : '\n' ∉ cfg'.package)
    (hperm : ds.Perm ds') (ho : Orderly c!"Go" ds) (he : Early c!"Go" ds) (he' : Early c!"Go" ds')
    (hd : Distinguished C58.Go.base (fun _ => false) (treeOf (typeRef c!"Go" false) [] ds)) :
    ∃ source source', (C58.Go.declsOf source).Perm (C58.Go.declsOf source') ∧
      (∀ text, W.gofmt source = some text → ∃ t s, Parse W cfg sh = .ok t s ∧
        s.outputs = sh.outputs ++ [(C24.documentedPath cfg c!".go", text)]) ∧
      (∀ text, W'.gofmt source' = some text → ∃ t s, Parse W' cfg' sh' = .ok t s ∧
        s.outputs = sh'.outputs ++ [(C24.documentedPath cfg' c!".go", text)]) := by
  obtain ⟨src, o, h1, h2, h3, -⟩ := C59.go h hl hp
  obtain ⟨src', o', h1', h2', h3', -⟩ := C59.go h' hl' hp'
  refine ⟨src, src', ?_, h3, h3'⟩
  rw [h2, h2', order_sorted h1, order_sorted h1']
  exact go_decls _ hperm ho he he' hd

end

/-! ## Example -/

instance (l : List (Str × Source)) : Decidable (OneType l) := by unfold OneType; infer_instance

/-- Decides `Consistent`. -/
def decConsistent : (b : Content) → Decidable (Consistent b)
  | .nil => .isTrue trivial
  | .elem _ k => decConsistent k
  | .anon _ _ b k => @instDecidableAnd _ _ inferInstance (@instDecidableAnd _ _ (decConsistent b) (decConsistent k))
  | .elemAnon _ _ _ k => decConsistent k
  | .choice _ b k => @instDecidableAnd _ _ (decConsistent b) (decConsistent k)
  | .group _ k => decConsistent k
  | .attrGroup _ k => decConsistent k
  | .attribute _ k => decConsistent k
  | .attrAnon _ _ k => decConsistent k
  | .ext _ b k => @instDecidableAnd _ _ (decConsistent b) (decConsistent k)
  | .restr _ _ b k => @instDecidableAnd _ _ (decConsistent b) (decConsistent k)

instance (b : Content) : Decidable (Consistent b) := decConsistent b

instance (d : Decl) : Decidable (Based d) := by
  cases d with
  | simple as b => cases b <;> unfold Based <;> infer_instance
  | _ => unfold Based; infer_instance

/-- Decides `Early`. -/
def decEarly (lang : Str) : (ds : List Decl) → Decidable (Early lang ds)
  | [] => .isTrue trivial
  | _ :: ds => @instDecidableAnd _ _ inferInstance (decEarly lang ds)

instance (lang : Str) (ds : List Decl) : Decidable (Early lang ds) := decEarly lang ds

instance (base : Node Element → Str) (free : Node Element → Bool) (t : Tree) : Decidable (Distinguished base free t) := by
  unfold Distinguished; infer_instance

/-- The rows of the table suffice. -/
theorem Orderly.of_rows {lang : Str} {ds : List Decl} (h1 : ds.Pairwise fun d d' => ∀ n ∈ names d, n ∉ names d')
    (h2 : ∀ d ∈ ds, ∀ n ∈ valued d, n ≠ [] ∧ Names.localPart n = n)
    (h3 : ∀ d ∈ ds, ∀ n ∈ valued d, ∀ r ∈ buildInTypes, r.2[langIndex lang]? ≠ some n)
    (h4 : ∀ d ∈ ds, OneType (sources (content d)) ∧ Consistent (content d))
    (h5 : ∀ d ∈ ds, ∀ v ∈ inlineBases (content d), Names.localPart v ≠ [] ∧ ∀ d' ∈ ds, Names.localPart v ∉ items d')
    (h6 : ∀ d ∈ ds, Based d ∧ ∀ v ∈ needs d, Names.localPart v ≠ []) : Orderly lang ds :=
  ⟨h1, h2, fun d hd n hn k hk => by
    obtain ⟨r, hr, e⟩ := table_mem hk
    exact h3 d hd n hn r hr e, h4, h5, h6⟩

/-- Attributes. -/
def a (l : List (String × String)) : List Attr := l.map fun x => { «local» := x.1.toList, value := x.2.toList }

/-- A simple type. -/
def base : Decl := .simple (a [("name", "B")]) (.restriction (a [("base", "xs:string")]) [])
/-- A simple type made from it. -/
def derived : Decl := .simple (a [("name", "A")]) (.restriction (a [("base", "B")]) [⟨c!"enumeration", a [("value", "x")]⟩])
/-- An element with that type. -/
def element : Decl := .element (a [("name", "e"), ("type", "A")])
/-- An attribute. -/
def attrib : Decl := .attribute (a [("name", "at"), ("type", "B")])
/-- Uses of all of them in members. -/
def uses : Decl := .complex (a [("name", "T")]) (.elem (a [("name", "x"), ("type", "A")]) (.elem (a [("ref", "e"), ("maxOccurs", "unbounded")])
  (.elem (a [("name", "late"), ("type", "S")]) (.attribute (a [("ref", "at")])
  (.attrAnon (a [("name", "size")]) (.restriction (a [("base", "B")]) [⟨c!"maxLength", a [("value", "3")]⟩]) .nil)))))
/-- An extension. -/
def extension : Decl := .complex (a [("name", "S")]) (.ext (a [("base", "B")]) (.attribute (a [("name", "y"), ("type", "A")]) .nil) .nil)
/-- A union. -/
def union : Decl := .simple (a [("name", "U")]) (.union (a [("memberTypes", "A B")]))
/-- A list. -/
def list : Decl := .simple (a [("name", "L")]) (.list (a [("itemType", "A")]))

/-- One order. -/
def order1 : List Decl := [base, derived, element, attrib, uses, extension, union, list]
/-- Another order: uses in members and lists come first. -/
def order2 : List Decl := [uses, list, base, extension, attrib, derived, union, element]

deriving instance DecidableEq for Facet, SimpleBody, Content, Decl

theorem same : order1.Perm order2 := by decide +kernel

theorem orderly (lang : Str) (h : lang ∈ C41.langs) : Orderly lang order1 ∧ Early lang order1 ∧ Early lang order2 := by
  simp only [C41.langs, List.mem_cons, List.not_mem_nil, or_false] at h
  rcases h with rfl | rfl | rfl | rfl | rfl <;>
    exact ⟨.of_rows (by decide +kernel) (by decide +kernel) (by decide +kernel) (by decide +kernel) (by decide +kernel) (by decide +kernel),
      by decide +kernel, by decide +kernel⟩

example : Distinguished (@C58.Go.base asciiUni) (fun _ => false) (treeOf (typeRef c!"Go" false) [] order1) := by decide +kernel
example : Distinguished (@C58.C.base asciiUni) (fun _ => false) (treeOf (typeRef c!"C" false) [] order1) := by decide +kernel
example : Distinguished (@C58.Java.base asciiUni) (fun _ => false) (treeOf (typeRef c!"Java" false) [] order1) := by decide +kernel
example : Distinguished (@C56.Rust.baseName asciiUni) (fun _ => false) (treeOf (typeRef c!"Rust" false) [] order1) := by decide +kernel
example : Distinguished (@C58.TS.base asciiUni) C15.isEnum (treeOf (typeRef c!"TypeScript" false) [] order1) := by decide +kernel

/-- The documents. -/
theorem documents (lang : Str) (h : lang ∈ C24.extensions.map (·.1)) (ds : List Decl) (hds : ds = order1 ∨ ds = order2) :
    @C59.Document asciiUni (Ex.world [("a.xsd", schemaTokens C40.root ds)]) (C59.doc lang) {} ds (schemaTokens C40.root ds) := by
  have hr : Regular (typeRef lang false) [] order1 ∧ Regular (typeRef lang false) [] order2 := by
    simp only [C24.extensions, List.map_cons, List.map_nil, List.mem_cons, List.not_mem_nil, or_false] at h
    rcases h with rfl | rfl | rfl | rfl | rfl <;> exact ⟨by decide +kernel, by decide +kernel⟩
  rcases hds with rfl | rfl
  · exact @C59.Document.mk asciiUni _ _ _ _ _ rfl (by decide +kernel) ⟨C40.root, by decide +kernel⟩ (by decide +kernel)
      (.inr ⟨rfl, rfl, by decide, rfl⟩) hr.1 rfl rfl fun _ => rfl
  · exact @C59.Document.mk asciiUni _ _ _ _ _ rfl (by decide +kernel) ⟨C40.root, by decide +kernel⟩ (by decide +kernel)
      (.inr ⟨rfl, rfl, by decide, rfl⟩) hr.2 rfl rfl fun _ => rfl

example : C59.ValuesOk (schemaTokens C40.root order1) ∧ C59.ValuesOk (schemaTokens C40.root order2) := by decide +kernel

/-- The declarations in the Go file of a schema. -/
def goFile (ds : List Decl) : List (Str × List C17.Field) :=
  (@Parse asciiUni (Ex.world [("a.xsd", schemaTokens C40.root ds)]) (C59.doc c!"Go") {}).state.outputs.flatMap fun x => C58.Go.declsOf x.2

/-- The order of the files is another one. -/
example : (goFile order2).map (·.1) =
    [c!"type T struct {", c!"type L []string", c!"type B string", c!"type S struct {", c!"type At\tstring", c!"type A string",
     c!"type U struct {", c!"type E\tstring"] := by decide +kernel

/-! ## Where the order matters -/

/-- A member whose type is made from a later one. -/
theorem chain : let user : Decl := .complex (a [("name", "T")]) (.elem (a [("name", "x"), ("type", "A")]) .nil)
    goFile [base, derived, user] = [(c!"type B string", []), (c!"type A string", []),
      (c!"type T struct {", [⟨c!"X", c!"string", some (c!"x", [])⟩])] ∧
    goFile [user, derived, base] = [(c!"type T struct {", [⟨c!"X", c!"*B", some (c!"x", [])⟩]),
      (c!"type A string", []), (c!"type B string", [])] := by decide +kernel

/-- After an anonymous restriction of an element (see C68), a simple type with an enumeration is not declared at all. -/
theorem stale : let user : Decl := .complex (a [("name", "T")]) (.elemAnon (a [("name", "x")]) (a [("base", "xs:int")])
      [⟨c!"maxInclusive", a [("value", "3")]⟩] .nil)
    (goFile [base, derived, user]).map (·.1) = [c!"type B string", c!"type A string", c!"type T struct {"] ∧
    (goFile [user, base, derived]).map (·.1) = [c!"type T struct {", c!"type B string"] := by decide +kernel

/-- An extension of a later type: the type is embedded. -/
theorem extension_late : ¬ (goFile [base, extension]).Perm (goFile [extension, base]) := by decide +kernel

/-- A union of later types. -/
theorem union_late : ¬ (goFile [base, derived, union]).Perm (goFile [union, base, derived]) := by decide +kernel

/-- Declarations of the same name: the first one is declared. -/
theorem same_name : goFile [base, .complex (a [("name", "B")]) .nil] = [(c!"type B string", [])] ∧
    goFile [.complex (a [("name", "B")]) .nil, base] = [(c!"type B struct {", [])] := by decide +kernel

/-- Names with the same target: the second one gets the number. -/
theorem numbers : (goFile [.complex (a [("name", "ab")]) .nil, .simple (a [("name", "Ab")]) (.list (a [("itemType", "xs:int")]))]).map (·.1) =
      [c!"type Ab struct {", c!"type Ab2 []int"] ∧
    (goFile [.simple (a [("name", "Ab")]) (.list (a [("itemType", "xs:int")])), .complex (a [("name", "ab")]) .nil]).map (·.1) =
      [c!"type Ab []int", c!"type Ab2 struct {"] := by decide +kernel

end Xgen.C70
