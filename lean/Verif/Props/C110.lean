import Verif.Props.C59

/-! # C110: the files generated for different languages declare the same

Apart from types, the tree of a core schema is a function of the schema alone: neither the language nor what other schemas
declare has any influence on it, provided that elements of one name in one content model have one type, as XSD demands
("Element Declarations Consistent").  So the files for the five languages declare the same components with the same members. -/

namespace Xgen.C110
open Core C40
open C59 (Document)

/-! ## Specification -/

/-- An element without its type. -/
def eraseE (e : Element) : Element := { e with type := [] }
/-- An attribute without its type. -/
def eraseA (a : Attribute) : Attribute := { a with type := [] }
/-- A reference to a group without its target. -/
def eraseR (g : GroupRef) : GroupRef := { g with ref := [] }
/-- An attribute group without types. -/
def eraseAG (a : AttributeGroup) : AttributeGroup := { a with ref := [], attributes := a.attributes.map eraseA }
/-- A group without types. -/
def eraseG (g : Group) : Group := { g with ref := [], elements := g.elements.map eraseE, groups := g.groups.map eraseR }
/-- A complex type without types. -/
def eraseC (c : ComplexType) : ComplexType :=
  { c with base := [], elements := c.elements.map eraseE, attributes := c.attributes.map eraseA, groups := c.groups.map eraseR,
           attributeGroup := c.attributeGroup.map eraseAG }
/-- A simple type without types: the members of a union keep their names. -/
def eraseS (s : SimpleType) : SimpleType := { s with base := [], memberTypes := s.memberTypes.map fun m => (m.1, []) }

/-- A component without types. -/
def erase : Node Element → Node Element
  | .simple v => .simple (eraseS v)
  | .attr v => .attr (eraseA v)
  | .elem v => .elem (eraseE v)
  | .complex v => .complex (eraseC v)
  | .group v => .group (eraseG v)
  | .attrGroup v => .attrGroup (eraseAG v)

/-- A tree without types. -/
def outline (t : Tree) : Tree := t.map (Option.map erase)

/-- How a schema gives the type of an element: by a name, or by a restriction of a type on the spot. -/
inductive Written where
  | name (t : Str)
  | restriction (base : Option Str)
deriving DecidableEq

/-- The elements of a content model, with their types as written. -/
def occurrences : Content → List (Str × Written)
  | .nil => []
  | .elem as k => (nameOf as, .name (((attr? as c!"ref").or (attr? as c!"type")).getD (nameOf as))) :: occurrences k
  | .anon as _ _ k => (nameOf as, .name (((attr? as c!"ref").or (attr? as c!"type")).getD (nameOf as))) :: occurrences k
  | .elemAnon as ras _ k => (nameOf as, .restriction (attr? ras c!"base")) :: occurrences k
  | .choice _ b k => occurrences b ++ occurrences k
  | .group _ k => occurrences k
  | .attrGroup _ k => occurrences k
  | .attribute _ k => occurrences k
  | .attrAnon _ _ k => occurrences k
  | .ext _ b k => occurrences b ++ occurrences k
  | .restr _ _ b k => occurrences b ++ occurrences k

/-- Elements of one name have one type. -/
def Consistent (b : Content) : Prop := ∀ x ∈ occurrences b, ∀ y ∈ occurrences b, x.1 = y.1 → x.2 = y.2

instance (b : Content) : Decidable (Consistent b) := by unfold Consistent; infer_instance

/-- The content models of all anonymous types in a content model. -/
def inner : Content → List Content
  | .nil => []
  | .elem _ k => inner k
  | .anon _ _ b k => b :: inner b ++ inner k
  | .elemAnon _ _ _ k => inner k
  | .choice _ b k => inner b ++ inner k
  | .group _ k => inner k
  | .attrGroup _ k => inner k
  | .attribute _ k => inner k
  | .attrAnon _ _ k => inner k
  | .ext _ b k => inner b ++ inner k
  | .restr _ _ b k => inner b ++ inner k

/-- The content models of the complex types of a declaration. -/
def models : Decl → List Content
  | .complex _ b => b :: inner b
  | .anon _ _ b => b :: inner b
  | _ => []

/-- XSD's rule "Element Declarations Consistent", for all complex types of a schema. -/
def ElementsConsistent (ds : List Decl) : Prop := ∀ d ∈ ds, ∀ b ∈ models d, Consistent b

instance (ds : List Decl) : Decidable (ElementsConsistent ds) := by unfold ElementsConsistent; infer_instance

/-- What a schema declares, without types: a function of the schema alone. -/
def declared (ds : List Decl) : Tree := treeOf (fun _ _ => []) [] ds

/-! ## The outline of contents -/

/-- No types at all. -/
abbrev none' : Str → Str := fun _ => []

section
variable {ty : Str → Str}

/-- The type of an element. -/
def Written.type (ty : Str → Str) : Written → Str
  | .name t => ty t
  | .restriction b => ty ((b.map fun t => ty (ty t)).getD [])

theorem erase_element (p : Bool) (as : List Attr) : eraseE (elementOf ty p as) = elementOf none' p as := by
  unfold eraseE elementOf
  cases (attr? as c!"ref").or (attr? as c!"type") <;> rfl

theorem element_type (p : Bool) (as : List Attr) :
    (elementOf ty p as).type = Written.type ty (.name (((attr? as c!"ref").or (attr? as c!"type")).getD (nameOf as))) := by
  unfold elementOf Written.type
  cases (attr? as c!"ref").or (attr? as c!"type") <;> rfl

theorem erase_elements (b : Content) : ∀ p, (elements ty p b).map eraseE = elements none' p b := by
  induction b with
  | nil => intro p; rfl
  | elem as k ih => intro p; rw [elements, elements, List.map_cons, ih, erase_element]
  | anon as cas b k ihb ih => intro p; rw [elements, elements, List.map_cons, ih, erase_element]
  | elemAnon as ras fs k ih => intro p; rw [elements, elements, List.map_cons, ih]; rfl
  | choice as b k ihb ih => intro p; rw [elements, elements, List.map_append, ihb, ih]
  | group as k ih => exact ih
  | attrGroup as k ih => exact ih
  | «attribute» as k ih => exact ih
  | attrAnon as b k ih => exact ih
  | ext as b k ihb ih => intro p; rw [elements, elements, List.map_append, ihb, ih]
  | restr as fs b k ihb ih => intro p; rw [elements, elements, List.map_append, ihb, ih]

theorem elements_written (b : Content) : ∀ p, ∀ e ∈ elements ty p b, ∃ w, (e.name, w) ∈ occurrences b ∧ e.type = w.type ty := by
  have hc : ∀ {e e' : Element} {l : List Element} {w : Written} {os : List (Str × Written)}, e ∈ e' :: l → e'.type = w.type ty →
      (∀ e ∈ l, ∃ w, (e.name, w) ∈ os ∧ e.type = w.type ty) → ∃ v, (e.name, v) ∈ (e'.name, w) :: os ∧ e.type = v.type ty := by
    intro e e' l w os he h1 h2
    rcases List.mem_cons.1 he with rfl | he
    · exact ⟨w, List.mem_cons_self, h1⟩
    · obtain ⟨v, h3, h4⟩ := h2 e he
      exact ⟨v, List.mem_cons_of_mem _ h3, h4⟩
  have ha : ∀ {e : Element} {l l' : List Element} {os os' : List (Str × Written)}, e ∈ l ++ l' →
      (∀ e ∈ l, ∃ w, (e.name, w) ∈ os ∧ e.type = w.type ty) → (∀ e ∈ l', ∃ w, (e.name, w) ∈ os' ∧ e.type = w.type ty) →
      ∃ v, (e.name, v) ∈ os ++ os' ∧ e.type = v.type ty := by
    intro e l l' os os' he h1 h2
    rcases List.mem_append.1 he with he | he
    · obtain ⟨v, h3, h4⟩ := h1 e he
      exact ⟨v, List.mem_append_left _ h3, h4⟩
    · obtain ⟨v, h3, h4⟩ := h2 e he
      exact ⟨v, List.mem_append_right _ h3, h4⟩
  induction b with
  | nil => intro p e he; cases he
  | elem as k ih => intro p e he; exact hc he (element_type p as) (ih p)
  | anon as cas b k ihb ih => intro p e he; exact hc he (element_type p as) (ih p)
  | elemAnon as ras fs k ih => intro p e he; exact hc (w := .restriction (attr? ras c!"base")) he rfl (ih p)
  | choice as b k ihb ih => intro p e he; exact ha he (ihb _) (ih p)
  | group as k ih => exact ih
  | attrGroup as k ih => exact ih
  | «attribute» as k ih => exact ih
  | attrAnon as b k ih => exact ih
  | ext as b k ihb ih => intro p e he; exact ha he (ihb p) (ih p)
  | restr as fs b k ihb ih => intro p e he; exact ha he (ihb p) (ih p)

theorem erase_addElement {e : Element} {es : List Element} (h : ∀ x ∈ es, x.name = e.name → x.type = e.type) :
    (addElement e es).map eraseE = addElement (eraseE e) (es.map eraseE) := by
  induction es with
  | nil => rfl
  | cons x xs ih =>
    rw [List.map_cons, addElement, addElement]
    by_cases hn : x.name = e.name
    · rw [if_pos hn, if_pos (h x List.mem_cons_self hn), if_pos (show (eraseE x).name = (eraseE e).name from hn),
        if_pos (show (eraseE x).type = (eraseE e).type from rfl)]
      rfl
    · rw [if_neg hn, if_neg (show ¬ (eraseE x).name = (eraseE e).name from hn), List.map_cons,
        ih fun y hy => h y (List.mem_cons_of_mem _ hy)]

/-- Merging does not depend on types if they are consistent. -/
theorem erase_merge {Q : Str → Str → Prop} (hQ : ∀ n t t', Q n t → Q n t' → t = t') (xs : List Element) : ∀ es : List Element,
    (∀ e ∈ es, Q e.name e.type) → (∀ e ∈ xs, Q e.name e.type) →
    (xs.foldl (fun es e => addElement e es) es).map eraseE = (xs.map eraseE).foldl (fun es e => addElement e es) (es.map eraseE) := by
  induction xs with
  | nil => intro es _ _; rfl
  | cons x xs ih =>
    intro es h1 h2
    rw [List.foldl_cons, ih, List.map_cons, List.foldl_cons, erase_addElement]
    · intro y hy e
      refine hQ y.name _ _ (h1 y hy) ?_
      rw [e]
      exact h2 x List.mem_cons_self
    · intro e he
      obtain ⟨y, hy, h3, h4⟩ := C59.addElement_mem x es e he
      rw [h3, h4]
      rcases List.mem_cons.1 hy with rfl | hy
      · exact h2 y List.mem_cons_self
      · exact h1 y hy
    · exact fun e he => h2 e (List.mem_cons_of_mem _ he)

theorem erase_attributes (b : Content) : (attributes ty b).map eraseA = attributes none' b := by
  have h1 : ∀ as, eraseA (attributeOf ty as) = attributeOf none' as := by
    intro as
    unfold eraseA attributeOf
    cases (attr? as c!"ref").or (attr? as c!"type") <;> rfl
  have h2 : ∀ as b, eraseA (attrAnonOf ty as b) = attrAnonOf none' as b := by
    intro as b
    cases b with
    | restriction ras fs => rfl
    | list las => unfold eraseA attrAnonOf; dsimp only; cases attr? las c!"itemType" <;> rfl
    | union uas => rfl
  induction b with
  | nil => rfl
  | elem as k ih => exact ih
  | anon as cas b k ihb ih => exact ih
  | elemAnon as ras fs k ih => exact ih
  | choice as b k ihb ih => rw [attributes, attributes, List.map_append, ihb, ih]
  | group as k ih => exact ih
  | attrGroup as k ih => exact ih
  | «attribute» as k ih => rw [attributes, attributes, List.map_cons, ih, h1]
  | attrAnon as b k ih => rw [attributes, attributes, List.map_cons, ih, h2]
  | ext as b k ihb ih => rw [attributes, attributes, List.map_append, ihb, ih]
  | restr as fs b k ihb ih => rw [attributes, attributes, List.map_append, ihb, ih]

theorem map_nil' (o : Option Str) : (o.map none').getD [] = [] := by cases o <;> rfl

theorem erase_group (p : Bool) (as : List Attr) : eraseR (groupOf ty p as) = groupOf none' p as := by
  unfold eraseR groupOf
  rw [map_nil']

theorem erase_groups (b : Content) : ∀ p, (groups ty p b).map eraseR = groups none' p b := by
  induction b with
  | nil => intro p; rfl
  | elem as k ih => exact ih
  | anon as cas b k ihb ih => exact ih
  | elemAnon as ras fs k ih => exact ih
  | choice as b k ihb ih => intro p; rw [groups, groups, List.map_append, ihb, ih]
  | group as k ih => intro p; rw [groups, groups, List.map_cons, ih, erase_group]
  | attrGroup as k ih => exact ih
  | «attribute» as k ih => exact ih
  | attrAnon as b k ih => exact ih
  | ext as b k ihb ih => intro p; rw [groups, groups, List.map_append, ihb, ih]
  | restr as fs b k ihb ih => intro p; rw [groups, groups, List.map_append, ihb, ih]

theorem erase_attrGroup (as : List Attr) : eraseAG (attrGroupOf ty as) = attrGroupOf none' as := by
  unfold eraseAG attrGroupOf
  rw [map_nil']
  rfl

theorem erase_attrGroups (b : Content) : (attrGroups ty b).map eraseAG = attrGroups none' b := by
  induction b with
  | nil => rfl
  | elem as k ih => exact ih
  | anon as cas b k ihb ih => exact ih
  | elemAnon as ras fs k ih => exact ih
  | choice as b k ihb ih => rw [attrGroups, attrGroups, List.map_append, ihb, ih]
  | group as k ih => exact ih
  | attrGroup as k ih => rw [attrGroups, attrGroups, List.map_cons, ih, erase_attrGroup]
  | «attribute» as k ih => exact ih
  | attrAnon as b k ih => exact ih
  | ext as b k ihb ih => rw [attrGroups, attrGroups, List.map_append, ihb, ih]
  | restr as fs b k ihb ih => rw [attrGroups, attrGroups, List.map_append, ihb, ih]

theorem erase_addGroups (xs : List GroupRef) : ∀ gs : List GroupRef,
    (xs.foldl (fun gs g => addGroup g gs) gs).map eraseR = (xs.map eraseR).foldl (fun gs g => addGroup g gs) (gs.map eraseR) := by
  induction xs with
  | nil => intro gs; rfl
  | cons x xs ih =>
    intro gs
    rw [List.foldl_cons, ih, List.map_cons, List.foldl_cons]
    congr 1
    unfold addGroup
    rw [List.any_map]
    show List.map eraseR (if (gs.any fun g => decide (g.name = x.name)) = true then gs else gs ++ [x]) =
      if (gs.any fun g => decide (g.name = x.name)) = true then gs.map eraseR else gs.map eraseR ++ [eraseR x]
    split
    · rfl
    · rw [List.map_append]; rfl

theorem no_bases (b : Content) : ∀ t ∈ bases none' b, t = [] := by
  induction b with
  | nil => intro t h; cases h
  | elem as k ih => exact ih
  | anon as cas b k ihb ih => exact ih
  | elemAnon as ras fs k ih => exact ih
  | choice as b k ihb ih => intro t h; exact (List.mem_append.1 h).elim (ihb t) (ih t)
  | group as k ih => exact ih
  | attrGroup as k ih => exact ih
  | «attribute» as k ih => exact ih
  | attrAnon as b k ih => exact ih
  | ext as b k ihb ih =>
    intro t h
    rcases List.mem_append.1 h with h | h
    · rcases List.mem_append.1 h with h | h
      · cases e : attr? as c!"base" with
        | none => rw [e] at h; cases h
        | some s => rw [e] at h; exact List.mem_singleton.1 h
      · exact ihb t h
    · exact ih t h
  | restr as fs b k ihb ih => intro t h; exact (List.mem_append.1 h).elim (ihb t) (ih t)

theorem erase_complex {b : Content} (h : Consistent b) (p : Bool) (name : Str) :
    eraseC (complexOf ty p name b) = complexOf none' p name b := by
  have hb : (bases none' b).getLast?.getD [] = [] := by
    cases e : (bases none' b).getLast? with
    | none => rfl
    | some t => exact no_bases b t (List.mem_of_getLast? e)
  have he := erase_merge (Q := fun n t => ∃ w, (n, w) ∈ occurrences b ∧ t = w.type ty)
    (fun n t t' ⟨w, h1, h2⟩ ⟨w', h3, h4⟩ => by rw [h2, h4, show w = w' from h _ h1 _ h3 rfl]) (elements ty p b) [] (fun e he => by cases he)
    (fun e he => elements_written b p e he)
  unfold eraseC complexOf extend
  rw [hb, he, erase_elements, erase_addGroups, erase_groups]
  simp only [List.nil_append, List.map_nil, erase_attributes, erase_attrGroups]

theorem erase_nested (b : Content) : ∀ p, (∀ c ∈ inner b, Consistent c) → (nested ty p b).map eraseC = nested none' p b := by
  induction b with
  | nil => intro p _; rfl
  | elem as k ih => exact ih
  | anon as cas b k ihb ih =>
    intro p h
    have h1 : Consistent b := h b (by simp [inner])
    have h2 : ∀ c ∈ inner b, Consistent c := fun c hc => h c (by simp [inner, hc])
    have h3 : ∀ c ∈ inner k, Consistent c := fun c hc => h c (by simp [inner, hc])
    rw [nested, nested, List.map_append, List.map_append, ihb p h2, ih p h3, List.map_singleton, erase_complex h1]
  | elemAnon as ras fs k ih => exact ih
  | choice as b k ihb ih =>
    intro p h
    rw [nested, nested, List.map_append, ihb _ fun c hc => h c (List.mem_append_left _ hc),
      ih p fun c hc => h c (List.mem_append_right _ hc)]
  | group as k ih => exact ih
  | attrGroup as k ih => exact ih
  | «attribute» as k ih => exact ih
  | attrAnon as b k ih => exact ih
  | ext as b k ihb ih =>
    intro p h
    rw [nested, nested, List.map_append, ihb _ fun c hc => h c (List.mem_append_left _ hc),
      ih p fun c hc => h c (List.mem_append_right _ hc)]
  | restr as fs b k ihb ih =>
    intro p h
    rw [nested, nested, List.map_append, ihb _ fun c hc => h c (List.mem_append_left _ hc),
      ih p fun c hc => h c (List.mem_append_right _ hc)]

/-! ## The outline of declarations -/

theorem set_erase (m : GoMap Str) (k v : Str) :
    (m.set k v).map (fun x => (x.1, ([] : Str))) = GoMap.set (m.map fun x => (x.1, ([] : Str))) k [] := by
  induction m with
  | nil => rfl
  | cons x m ih =>
    rw [List.map_cons, GoMap.set, GoMap.set]
    by_cases h : x.1 = k
    · rw [if_pos h, if_pos h]; rfl
    · rw [if_neg h, if_neg h, List.map_cons, ih]

theorem members_erase (l : List Str) : ∀ m : GoMap Str,
    (l.foldl (fun m t => m.set (Names.localPart t) (ty t)) m).map (fun x => (x.1, ([] : Str))) =
      l.foldl (fun m t => GoMap.set m (Names.localPart t) []) (m.map fun x => (x.1, ([] : Str))) := by
  induction l with
  | nil => intro m; rfl
  | cons t l ih => intro m; rw [List.foldl_cons, List.foldl_cons, ih, set_erase]

theorem erase_simple (as : List Attr) (b : SimpleBody) : eraseS (simpleOf ty as b) = simpleOf none' as b := by
  cases b with
  | restriction ras fs => unfold eraseS simpleOf; dsimp only; cases attr? ras c!"base" <;> rfl
  | list las => unfold eraseS simpleOf; dsimp only; cases attr? las c!"itemType" <;> rfl
  | union uas => unfold eraseS simpleOf; dsimp only; rw [members_erase]; rfl

/-- The components of a declaration, without types. -/
theorem erase_nodes (d : Decl) (h : ∀ b ∈ models d, Consistent b) : (d.nodes ty).map erase = d.nodes none' := by
  have hn : ∀ cs : List ComplexType, (cs.map Node.complex).map erase = (cs.map eraseC).map Node.complex := by
    intro cs; rw [List.map_map, List.map_map]; rfl
  cases d with
  | simple as b => exact congrArg (fun x => [Node.simple x]) (erase_simple as b)
  | complex as b =>
    have h1 := h b List.mem_cons_self
    have h2 := erase_nested (ty := ty) b false fun c hc => h c (List.mem_cons_of_mem _ hc)
    rw [Core.Decl.nodes, Core.Decl.nodes, List.map_append, hn, h2, List.map_singleton]
    exact congrArg (fun x => _ ++ [Node.complex x]) (erase_complex h1 _ _)
  | element as => exact congrArg (fun x => [Node.elem x]) (erase_element false as)
  | anon as cas b =>
    have h1 := h b List.mem_cons_self
    have h2 := erase_nested (ty := ty) b false fun c hc => h c (List.mem_cons_of_mem _ hc)
    rw [Core.Decl.nodes, Core.Decl.nodes, List.map_append, hn, h2, List.map_cons, List.map_singleton]
    rw [show erase (.complex (complexOf ty false (nameOf as) b)) = .complex (complexOf none' false (nameOf as) b) from
      congrArg Node.complex (erase_complex h1 _ _), show erase (.elem (elementOf ty false as)) = .elem (elementOf none' false as) from
      congrArg Node.elem (erase_element false as)]
  | elemAnon as ras fs => rfl
  | group as b =>
    rw [Core.Decl.nodes, Core.Decl.nodes]
    rw [List.map_singleton, erase, eraseG, erase_elements, erase_groups]
    show [Node.group { name := _, plural := _, ref := [], elements := _, groups := _ }] = _
    rw [show (groupOf none' false as).ref = [] from map_nil' _]
    rfl
  | attrGroup as b =>
    rw [Core.Decl.nodes, Core.Decl.nodes, List.map_append, List.map_map, List.map_singleton]
    have h1 : (attrGroups ty b).map (erase ∘ Node.attrGroup) = ((attrGroups ty b).map eraseAG).map Node.attrGroup := by
      rw [List.map_map]; rfl
    rw [h1, erase_attrGroups]
    refine congrArg (fun x => _ ++ [Node.attrGroup x]) ?_
    unfold eraseAG
    dsimp only
    rw [erase_attributes]
    unfold attrGroupOf
    rw [map_nil']
  | «attribute» as =>
    have := erase_attributes (ty := ty) (.attribute as .nil)
    simp only [attributes, List.map_cons, List.map_nil] at this
    exact congrArg (List.map Node.attr) this
  | attrAnon as ras fs => rfl

end

/-- The tree of a schema, without types, is a function of the schema: neither the meaning of type references nor what is declared
before matters. -/
theorem outline_tree (ref : Tree → Str → Str) (ds : List Decl) (h : ElementsConsistent ds) : ∀ t,
    outline (treeOf ref t ds) = treeOf (fun _ _ => []) (outline t) ds := by
  induction ds with
  | nil => intro t; rfl
  | cons d ds ih =>
    intro t
    rw [treeOf, treeOf, ih fun d' hd => h d' (List.mem_cons_of_mem _ hd)]
    congr 1
    unfold outline
    rw [List.map_append, List.map_map, ← erase_nodes (ty := ref t) d (h d List.mem_cons_self), List.map_map]
    rfl

/-! ## The generated files -/

/-- Two lists of the same length, related place by place. -/
def Aligned {α β : Type} (R : α → β → Prop) : List α → List β → Prop
  | [], [] => True
  | a :: as, b :: bs => R a b ∧ Aligned R as bs
  | _, _ => False

/-- The names of the members of a declaration, in a language that spells a name as `f` does, gives attributes a suffix, and may or may
not give a member to simple types, attributes and elements. -/
def memberNames (f : Str → Str) (attr attrInGroup : Str) (own : Bool) : Node Element → List Str
  | .simple v => if C58.isUnion v then v.memberTypes.map fun m => f m.1 else if own then [f v.name] else []
  | .attr v => if own then [f v.name] else []
  | .elem v => if own then [f v.name] else []
  | .complex v => v.attributeGroup.map (fun a => f a.name) ++ v.attributes.map (fun a => f a.name ++ attr) ++
      v.groups.map (fun g => f g.name) ++ v.elements.map (fun e => f e.name)
  | .group v => v.elements.map (fun e => f e.name) ++ v.groups.map (fun g => f g.name)
  | .attrGroup v => v.attributes.map (fun a => f a.name ++ attrInGroup)

/-- The names `ms` are those expected, in any order, and at most `k` further ones out of a given set (for base types and the
name of the XML element). -/
def Carries (ms expected : List Str) (k : Nat) (further : Str → Prop) : Prop :=
  ∃ extra, ms.Perm (expected ++ extra) ∧ extra.length ≤ k ∧ ∀ x ∈ extra, further x

theorem Carries.same {ms expected : List Str} {k : Nat} {further : Str → Prop} (h : ms.Perm expected) : Carries ms expected k further :=
  ⟨[], by rw [List.append_nil]; exact h, Nat.zero_le _, fun x hx => by cases hx⟩

theorem aligned_zip {γ : Type} {g : Str → Node Element → γ} {R : γ → Node Element × Str → Prop} (hR : ∀ n fn, R (g fn n) (erase n, fn))
    (ns : List (Node Element)) : ∀ fs : List Str, Aligned R ((ns.zip fs).map fun x => g x.2 x.1) ((ns.map erase).zip fs) := by
  induction ns with
  | nil => intro fs; exact trivial
  | cons n ns ih =>
    intro fs
    cases fs with
    | nil => exact trivial
    | cons f fs => exact ⟨hR n f, ih fs⟩

theorem name_erase (n : Node Element) : Decl.nodeName (erase n) = Decl.nodeName n := by cases n <;> rfl

theorem nodes_outline (t : Tree) : Xgen.Decl.nodes (outline t) = (Xgen.Decl.nodes t).map erase := by
  unfold outline Xgen.Decl.nodes
  rw [List.filterMap_map, List.map_filterMap]
  refine C59.filterMap_same fun n => ?_
  cases n <;> rfl

theorem aligned {γ : Type} {base : Node Element → Str} {numbered free : Node Element → Bool} {g : Str → Node Element → γ}
    {R : γ → Node Element × Str → Prop} (h1 : ∀ n, base (erase n) = base n) (h2 : ∀ n, numbered (erase n) = numbered n)
    (h3 : ∀ n, free (erase n) = free n) (hR : ∀ n fn, R (g fn n) (erase n, fn)) (t : Tree) :
    Aligned R ((C58.declarations base numbered free t).map fun x => g x.2 x.1) (C58.declarations base numbered free (outline t)) := by
  unfold C58.declarations
  rw [nodes_outline, C59.firsts_map h3 name_erase, C59.finals_map h1 h2]
  exact aligned_zip hR _ _

theorem union_erase (v : SimpleType) : C58.isUnion (eraseS v) = C58.isUnion v := by
  unfold C58.isUnion eraseS
  simp

section
variable [Uni] [UniLaws]

omit [Uni] [UniLaws] in
theorem ordered {order : List (Str × Str) → List (Str × Str)} (ho : C58.Order order) (f : Str → Str) (m : List (Str × Str)) :
    ((order m).map fun x => f x.1).Perm (m.map fun x => f x.1) := (ho m).1.map _

/-- A declaration in C: name and members. -/
def InC (d : Str × List C48.C.Member × List Str) (x : Node Element × Str) : Prop :=
  d.2.2 = [C58.C.nameOf x.1 x.2] ∧ Carries (d.2.1.map (·.name)) (memberNames Names.plain c!"Attr" c!"Attr" false x.1) 0 fun _ => False

/-- A declaration in Java: name and members; a built-in base type is a member of its own. -/
def InJava (d : Str × List C48.Java.Member) (x : Node Element × Str) : Prop :=
  c!"public class " ++ x.2 ++ c!" " <+: d.1 ∧
    Carries (d.2.map (·.name)) (memberNames Names.plain c!"Attr" [] true x.1) 1 fun n => n = c!"value"

/-- A declaration in Rust: name and members; a base type is a member of its own. -/
def InRust (d : Str × List C48.Rust.Member) (x : Node Element × Str) : Prop :=
  d.1 = c!"pub struct " ++ x.2 ++ c!" {" ∧
    Carries (d.2.map (·.name)) (memberNames (Names.rustMember rustKeywords) [] [] true x.1) 1 fun _ => True

/-- The members of a class in TypeScript. -/
def classMembers : C58.TS.Body → List Str
  | .class ms => ms.map (·.name)
  | .enum _ => []

/-- A declaration in TypeScript: name and members; a built-in base type is a member of its own. -/
def InTS (d : Str × C58.TS.Body) (x : Node Element × Str) : Prop :=
  C56.TS.keyword x.1 ++ x.2 ++ c!" " <+: d.1 ∧
    Carries (classMembers d.2) (memberNames Names.plain c!"Attr" c!"Attr" false x.1) 1 fun n => n = c!"Value"

/-- A declaration in Go: name and members; the name of the XML element and the base type are members of their own (an embedded type has
no name). -/
def InGo (d : Str × List C17.Field) (x : Node Element × Str) : Prop :=
  c!"type " ++ x.2 <+: d.1 ∧
    Carries (d.2.map (·.name)) (memberNames Names.strict c!"Attr" c!"Attr" false x.1) 2 fun n => n ∈ [c!"XMLName", c!"Value", []]

omit [UniLaws] in
theorem c_aligned {order : C59.Ord} (ho : C58.Order order) (t : Tree) :
    Aligned InC (C59.cDecls order t) (C58.declarations C58.C.base C56.C.counted (fun _ => false) (outline t)) := by
  refine aligned (g := fun fn n => (C58.C.head t n, C58.C.members order t n, [C58.C.nameOf n fn]))
    (fun n => by cases n <;> rfl) (fun n => by cases n <;> simp [C56.C.counted, C56.isStruct, erase, eraseS]) (fun _ => rfl) (fun n fn => ⟨?_, ?_⟩) t
  · cases n <;> simp [C58.C.nameOf, C56.isStruct, erase, eraseS, C58.C.base, Decl.nodeName] <;> rfl
  · refine .same ?_
    cases n with
    | simple v =>
      simp only [erase, memberNames, C58.C.members, union_erase]
      split
      · simp only [List.map_map, Function.comp_def, eraseS]
        exact ordered ho Names.plain _
      · simp
    | attr v => simp [erase, memberNames, C58.C.members]
    | elem v => simp [erase, memberNames, C58.C.members]
    | complex v => simp [erase, eraseC, eraseA, eraseE, eraseR, eraseAG, memberNames, C58.C.members, C48.C.expected, Function.comp_def]
    | group v => simp [erase, eraseG, eraseE, eraseR, memberNames, C58.C.members, C54.C.group, Function.comp_def]
    | attrGroup v => simp [erase, eraseAG, eraseA, memberNames, C58.C.members, C48.C.expected, C54.withAttrs, Function.comp_def]

theorem java_aligned {order : C59.Ord} (ho : C58.Order order) (t : Tree) :
    Aligned InJava (C59.javaDecls order t) (C58.declarations C58.Java.base (fun _ => true) (fun _ => false) (outline t)) := by
  refine aligned (g := fun fn n => (C58.Java.head t fn n, C58.Java.members order t n))
    (fun n => by cases n <;> rfl) (fun _ => rfl) (fun _ => rfl) (fun n fn => ⟨?_, ?_⟩) t
  · dsimp only
    rw [C58.Java.head_eq, List.append_assoc, List.append_assoc]
    refine (List.prefix_append_right_inj _).2 ((List.prefix_append_right_inj _).2 ?_)
    obtain ⟨r, e⟩ := C56.Java.rest_form t n
    rw [e]
    exact ⟨r, rfl⟩
  · cases n with
    | simple v =>
      refine .same ?_
      simp only [erase, memberNames, C58.Java.members, union_erase]
      by_cases hl : v.list = true
      · have : C58.isUnion v = false := by simp [C58.isUnion, hl]
        simp [hl, this, eraseS]
      · by_cases hu : C58.isUnion v = true
        · simp only [hl, hu, Bool.false_eq_true, if_false, if_true, List.map_map, Function.comp_def, eraseS]
          exact ordered ho Names.plain _
        · simp [hl, hu, eraseS]
    | attr v => exact .same (by simp [erase, eraseA, memberNames, C58.Java.members])
    | elem v => exact .same (by simp [erase, eraseE, memberNames, C58.Java.members])
    | complex v =>
      refine ⟨if v.base ≠ [] && decide (v.base ∈ javaBuildInType) then [c!"value"] else [], ?_, ?_, ?_⟩
      · have : ∀ b : Bool, ∀ m : C48.Java.Member, (if b = true then [m] else []).map (·.name) = if b = true then [m.name] else [] := by
          intro b m; cases b <;> rfl
        simp only [erase, eraseC, eraseA, eraseE, eraseR, eraseAG, memberNames, C58.Java.members, C48.Java.expected, Function.comp_def,
          List.map_append, List.map_map, this]
        exact .refl _
      · split <;> simp
      · split <;> simp
    | group v => exact .same (by simp [erase, eraseG, eraseE, eraseR, memberNames, C58.Java.members, C54.Java.group, Function.comp_def])
    | attrGroup v => exact .same (by simp [erase, eraseAG, eraseA, memberNames, C58.Java.members, C54.Java.attrs, Function.comp_def])

omit [UniLaws] in
theorem rust_aligned {order : C59.Ord} (ho : C58.Order order) (t : Tree) :
    Aligned InRust (C59.rustDecls order t) (C58.declarations C56.Rust.baseName C58.Rust.numbered (fun _ => false) (outline t)) := by
  refine aligned (g := fun fn n => (c!"pub struct " ++ fn ++ c!" {", C58.Rust.members order t n))
    (fun n => by cases n <;> rfl) (fun n => by cases n <;> rfl) (fun _ => rfl) (fun n fn => ⟨rfl, ?_⟩) t
  cases n with
  | simple v =>
    refine .same ?_
    simp only [erase, memberNames, C58.Rust.members, union_erase]
    by_cases hl : v.list = true
    · have : C58.isUnion v = false := by simp [C58.isUnion, hl]
      simp [hl, this, eraseS]
    · by_cases hu : C58.isUnion v = true
      · simp only [hl, hu, Bool.false_eq_true, if_false, if_true, List.map_map, Function.comp_def, eraseS]
        exact ordered ho (Names.rustMember rustKeywords) _
      · simp [hl, hu, eraseS]
  | attr v => exact .same (by simp [erase, eraseA, memberNames, C58.Rust.members])
  | elem v => exact .same (by simp [erase, eraseE, memberNames, C58.Rust.members])
  | complex v =>
    refine ⟨(if v.base = [] then [] else if v.base ∈ rustBuildinType then [c!"value"]
      else [Names.rustMember rustKeywords (C48.Rust.typeOf t v.base)]), ?_, ?_, fun _ _ => trivial⟩
    · simp only [erase, eraseC, eraseA, eraseE, eraseR, eraseAG, memberNames, C58.Rust.members, C48.Rust.expected, Function.comp_def,
        List.map_append, List.map_map, List.append_nil]
      by_cases h1 : v.base = []
      · simp [h1]
      · by_cases h2 : v.base ∈ rustBuildinType <;> simp [h1, h2]
    · split
      · simp
      · split <;> simp
  | group v => exact .same (by simp [erase, eraseG, eraseE, eraseR, memberNames, C58.Rust.members, C54.Rust.group, Function.comp_def])
  | attrGroup v => exact .same (by simp [erase, eraseAG, eraseA, memberNames, C58.Rust.members, C54.Rust.attrs, Function.comp_def])

theorem ts_aligned {order : C59.Ord} (ho : C58.Order order) (t : Tree) :
    Aligned InTS (C59.tsDecls order t) (C58.declarations C58.TS.base (fun _ => true) C15.isEnum (outline t)) := by
  refine aligned (g := fun fn n => (C58.TS.head t fn n, C58.TS.members order t n))
    (fun n => by cases n <;> rfl) (fun _ => rfl) (fun n => by cases n <;> simp [C15.isEnum, erase, eraseS]) (fun n fn => ⟨?_, ?_⟩) t
  · dsimp only
    have hk : C56.TS.keyword (erase n) = C56.TS.keyword n := by cases n <;> simp [C56.TS.keyword, erase, eraseS]
    rw [C58.TS.head_eq, hk, List.append_assoc, List.append_assoc]
    refine (List.prefix_append_right_inj _).2 ((List.prefix_append_right_inj _).2 ?_)
    obtain ⟨r, e⟩ := C56.TS.rest_form t n
    rw [e]
    exact ⟨r, rfl⟩
  · cases n with
    | simple v =>
      refine .same ?_
      simp only [erase, memberNames, C58.TS.members, union_erase]
      by_cases hl : v.list = true
      · have : C58.isUnion v = false := by simp [C58.isUnion, hl]
        simp [hl, this, classMembers]
      · by_cases hu : C58.isUnion v = true
        · simp only [hl, hu, Bool.false_eq_true, if_false, if_true, classMembers, List.map_map, Function.comp_def, eraseS]
          exact ordered ho Names.plain _
        · by_cases he : v.enum = [] <;> simp [hl, hu, he, classMembers]
    | attr v => exact .same (by simp [erase, memberNames, C58.TS.members, classMembers])
    | elem v => exact .same (by simp [erase, memberNames, C58.TS.members, classMembers])
    | complex v =>
      refine ⟨if v.base ≠ [] && decide (v.base ∈ typeScriptBuildInType) then [c!"Value"] else [], ?_, ?_, ?_⟩
      · have : ∀ b : Bool, ∀ m : C48.TS.Member, (if b = true then [m] else []).map (·.name) = if b = true then [m.name] else [] := by
          intro b m; cases b <;> rfl
        simp only [erase, eraseC, eraseA, eraseE, eraseR, eraseAG, memberNames, C58.TS.members, C48.TS.expected, Function.comp_def,
          List.map_append, List.map_map, this, classMembers]
        exact .refl _
      · split <;> simp
      · split <;> simp
    | group v => exact .same (by simp [erase, eraseG, eraseE, eraseR, memberNames, C58.TS.members, C54.TS.group, classMembers, Function.comp_def])
    | attrGroup v =>
      exact .same (by simp [erase, eraseAG, eraseA, memberNames, C58.TS.members, C48.TS.expected, C54.withAttrs, classMembers, Function.comp_def])

omit [Uni] [UniLaws] in
theorem xmlName_perm {c : Prop} [Decidable c] {f : C17.Field} {l l' : List Str} {ms : List C17.Field} (h : (ms.map (·.name)) = l ++ l')
    (hf : f.name = c!"XMLName") (h1 : l'.length ≤ 1) (h2 : ∀ x ∈ l', x ∈ [c!"Value", []]) :
    Carries (((if c then [f] else []) ++ ms).map (·.name)) l 2 fun n => n ∈ [c!"XMLName", c!"Value", []] := by
  refine ⟨(if c then [c!"XMLName"] else []) ++ l', ?_, ?_, fun x hx => ?_⟩
  · rw [List.map_append, h]
    split
    · rw [List.map_singleton, hf]
      exact List.perm_append_comm_assoc _ _ _
    · exact .refl _
  · rw [List.length_append]
    split <;> simp <;> omega
  · rcases List.mem_append.1 hx with hx | hx
    · split at hx
      · rw [List.mem_singleton.1 hx]; simp
      · cases hx
    · exact List.mem_cons_of_mem _ (h2 x hx)

theorem go_aligned {order : C59.Ord} (ho : C58.Order order) (t : Tree) :
    Aligned InGo (C59.goDecls order t) (C58.declarations C58.Go.base C58.Go.numbered (fun _ => false) (outline t)) := by
  refine aligned (g := fun fn n => (C58.Go.head t fn n, C58.Go.fields order t fn n))
    (fun n => by cases n <;> rfl) (fun n => by cases n <;> rfl) (fun _ => rfl) (fun n fn => ⟨?_, ?_⟩) t
  · dsimp only
    rw [C58.Go.head_eq]
    exact List.prefix_append _ _
  · cases n with
    | simple v =>
      simp only [erase, memberNames, C58.Go.fields, union_erase]
      split
      · simp only [eraseS, List.map_map, Function.comp_def]
        obtain ⟨extra, h1, h2, h3⟩ := xmlName_perm (c := fn ≠ v.name) (f := ⟨c!"XMLName", c!"xml.Name", some (v.name, [])⟩)
          (ms := (order v.memberTypes).map fun m => ⟨Names.strict m.1, Names.goType goBuildinType (C55.memberMeaning t m), none⟩)
          (l := (order v.memberTypes).map fun m => Names.strict m.1) (l' := []) (by simp [Function.comp_def]) rfl (by simp) (by simp)
        exact ⟨extra, h1.trans ((ordered ho Names.strict _).append_right _), h2, h3⟩
      · exact .same (by simp)
    | attr v => exact .same (by simp [erase, memberNames, C58.Go.fields])
    | elem v => exact .same (by simp [erase, memberNames, C58.Go.fields])
    | complex v =>
      simp only [C58.Go.fields, C17.expected, List.append_assoc]
      refine xmlName_perm (l' := if v.base = [] then [] else if v.base ∈ goBuildinType then [c!"Value"] else [[]]) ?_ rfl ?_ ?_
      · simp only [erase, eraseC, eraseA, eraseE, eraseR, eraseAG, memberNames, Function.comp_def, List.map_append, List.map_map, List.append_assoc]
        by_cases h1 : v.base = []
        · simp [h1]
        · by_cases h2 : v.base ∈ goBuildinType <;> simp [h1, h2]
      · split
        · simp
        · split <;> simp
      · split
        · simp
        · split <;> simp
    | group v =>
      simp only [C58.Go.fields, C54.Go.group, List.append_assoc]
      refine xmlName_perm (l' := []) ?_ rfl (by simp) (by simp)
      simp [erase, eraseG, eraseE, eraseR, memberNames, Function.comp_def]
    | attrGroup v =>
      simp only [C58.Go.fields, C17.expected, List.append_assoc]
      refine xmlName_perm (l' := []) ?_ rfl (by simp) (by simp)
      simp [erase, eraseAG, eraseA, memberNames, C54.withAttrs, Function.comp_def]

/-! ## C110 -/

variable {W : World} {cfg : Cfg} {sh : Shared} {ds : List Decl} {toks : List Token}

/-- C110 for trees: two parses of documents of one schema, whatever the languages and the files around them, give trees that differ in types and
documentation only. -/
theorem same_outline {W' : World} {cfg' : Cfg} {sh' : Shared} {toks' : List Token} (h : Document W cfg sh ds toks)
    (h' : Document W' cfg' sh' ds toks') (hc : ElementsConsistent ds) : ∃ t s t' s', Parse W cfg sh = finish W cfg t s ∧
    Parse W' cfg' sh' = finish W' cfg' t' s' ∧ outline (C57.bare t) = outline (C57.bare t') := by
  have hcomm : ∀ t, outline (C57.bare t) = C57.bare (outline t) := by
    intro t
    unfold outline C57.bare
    rw [List.map_map, List.map_map]
    apply List.map_congr_left
    intro n _
    cases n with
    | none => rfl
    | some n =>
      cases n <;> simp [erase, C57.noDocNode, eraseE, eraseA, eraseR, eraseAG, eraseG, eraseC, eraseS, C31.noDocE, C31.noDocS, C31.noDocA,
        C31.noDocC, C31.noDocG, C31.noDocAG, Function.comp_def]
  obtain ⟨t, s, -, h2, -, h4⟩ := h.tree
  obtain ⟨t', s', -, h2', -, h4'⟩ := h'.tree
  refine ⟨t, s, t', s', h4, h4', ?_⟩
  rw [h2, h2', hcomm, hcomm, outline_tree _ ds hc, outline_tree _ ds hc]

/-- C110, C: the file declares what the schema declares. -/
theorem c (h : Document W cfg sh ds toks) (hc : ElementsConsistent ds) (hl : cfg.lang = c!"C") : ∃ t sh' text, Parse W cfg sh = .ok t sh' ∧
    sh'.outputs = sh.outputs ++ [(C24.documentedPath cfg c!".h", text)] ∧
    Aligned InC (C58.C.declsOf text) (C58.declarations C58.C.base C56.C.counted (fun _ => false) (declared ds)) := by
  obtain ⟨t, sh', text, order, h1, h2, h3, h4⟩ := C59.c h hl
  refine ⟨t, sh', text, h1, h2, ?_⟩
  rw [h4, declared, ← show outline [] = [] from rfl, ← outline_tree _ ds hc]
  exact c_aligned h3 _

/-- C110, Java. -/
theorem java (h : Document W cfg sh ds toks) (hc : ElementsConsistent ds) (hl : cfg.lang = c!"Java") (hp : '\n' ∉ cfg.package) :
    ∃ t sh' text, Parse W cfg sh = .ok t sh' ∧ sh'.outputs = sh.outputs ++ [(C24.documentedPath cfg c!".java", text)] ∧
    Aligned InJava (C58.Java.declsOf text) (C58.declarations C58.Java.base (fun _ => true) (fun _ => false) (declared ds)) := by
  obtain ⟨t, sh', text, order, h1, h2, h3, h4⟩ := C59.java h hl hp
  refine ⟨t, sh', text, h1, h2, ?_⟩
  rw [h4, declared, ← show outline [] = [] from rfl, ← outline_tree _ ds hc]
  exact java_aligned h3 _

/-- C110, Rust. -/
theorem rust (h : Document W cfg sh ds toks) (hc : ElementsConsistent ds) (hl : cfg.lang = c!"Rust") :
    ∃ t sh' text, Parse W cfg sh = .ok t sh' ∧ sh'.outputs = sh.outputs ++ [(C24.documentedPath cfg c!".rs", text)] ∧
    Aligned InRust (C58.Rust.declsOf text) (C58.declarations C56.Rust.baseName C58.Rust.numbered (fun _ => false) (declared ds)) := by
  obtain ⟨t, sh', text, order, h1, h2, h3, h4⟩ := C59.rust h hl
  refine ⟨t, sh', text, h1, h2, ?_⟩
  rw [h4, declared, ← show outline [] = [] from rfl, ← outline_tree _ ds hc]
  exact rust_aligned h3 _

/-- C110, Go: the source handed to the formatter. -/
theorem go (h : Document W cfg sh ds toks) (hc : ElementsConsistent ds) (hl : cfg.lang = c!"Go") (hp : '\n' ∉ cfg.package) :
    ∃ source, Aligned InGo (C58.Go.declsOf source) (C58.declarations C58.Go.base C58.Go.numbered (fun _ => false) (declared ds)) ∧
    ∀ text, W.gofmt source = some text → ∃ t sh', Parse W cfg sh = .ok t sh' ∧
      sh'.outputs = sh.outputs ++ [(C24.documentedPath cfg c!".go", text)] := by
  obtain ⟨source, order, h1, h2, h3, -⟩ := C59.go h hl hp
  refine ⟨source, ?_, h3⟩
  rw [h2, declared, ← show outline [] = [] from rfl, ← outline_tree _ ds hc]
  exact go_aligned h1 _

/-- C110, TypeScript: enumerations are declared whenever they occur.  (Missing: enumeration values with quotes, equal signs or backslashes, see
C49.) -/
theorem ts_partial (h : Document W cfg sh ds toks) (hc : ElementsConsistent ds) (hv : C59.ValuesOk toks) (hl : cfg.lang = c!"TypeScript") :
    ∃ t sh' text, Parse W cfg sh = .ok t sh' ∧ sh'.outputs = sh.outputs ++ [(C24.documentedPath cfg c!".ts", text)] ∧
    Aligned InTS (C58.TS.declsOf text) (C58.declarations C58.TS.base (fun _ => true) C15.isEnum (declared ds)) := by
  obtain ⟨t, sh', text, order, h1, h2, h3, h4⟩ := C59.ts_partial h hv hl
  refine ⟨t, sh', text, h1, h2, ?_⟩
  rw [h4, declared, ← show outline [] = [] from rfl, ← outline_tree _ ds hc]
  exact ts_aligned h3 _

end

/-! ## The number of declarations -/

theorem Aligned.length {α β : Type} {R : α → β → Prop} : ∀ {as : List α} {bs : List β}, Aligned R as bs → as.length = bs.length
  | [], [], _ => rfl
  | _ :: _, _ :: _, h => congrArg (· + 1) (Aligned.length h.2)

/-- The number of declarations of a schema is the same in all languages in which nothing is declared regardless of earlier declarations. -/
theorem declarations_length (base base' : Node Element → Str) (numbered numbered' free : Node Element → Bool) (t : Tree) :
    (C58.declarations base numbered free t).length = (C58.declarations base' numbered' free t).length := by
  have hlen : ∀ (base : Node Element → Str) (numbered : Node Element → Bool) (ns : List (Node Element)) used,
      (C56.finals base numbered used ns).length = ns.length := by
    intro base numbered ns
    induction ns with
    | nil => intro used; rfl
    | cons a ns ih => intro used; rw [C56.finals]; split <;> simp [ih]
  unfold C58.declarations
  rw [List.length_zip, List.length_zip, hlen, hlen]

/-! ## Example -/

/-- XML attributes. -/
def at_ (l : List (String × String)) : List Attr := l.map fun x => { «local» := x.1.toList, value := x.2.toList }

/-- An order: a union, a type with an anonymous type inside, and an element repeated in a choice. -/
def shop : List Decl :=
  [ .simple (at_ [("name", "Size")]) (.union (at_ [("memberTypes", "xs:string xs:unsignedByte")])),
    .complex (at_ [("name", "Order")])
      (.elem (at_ [("name", "item"), ("type", "xs:int")])
        (.choice (at_ [("maxOccurs", "unbounded")]) (.elem (at_ [("name", "item"), ("type", "xs:int")]) .nil)
          (.anon (at_ [("name", "box")]) [] (.elem (at_ [("name", "size"), ("type", "Size")]) .nil)
            (.attribute (at_ [("name", "id"), ("type", "xs:ID"), ("use", "required")]) .nil)))) ]

example : ElementsConsistent shop := by decide +kernel

theorem shop_ok (lang : Str) (h : lang ∈ C24.extensions.map (·.1)) :
    @Document asciiUni (Ex.world [("a.xsd", schemaTokens C40.root shop)]) (C59.doc lang) {} shop (schemaTokens C40.root shop) := by
  refine @Document.mk asciiUni _ _ _ _ _ rfl (by decide +kernel) ⟨C40.root, by decide +kernel⟩ (by decide +kernel)
    (.inr ⟨rfl, rfl, by decide, rfl⟩) ?_ rfl rfl fun _ => rfl
  simp only [C24.extensions, List.map_cons, List.map_nil, List.mem_cons, List.not_mem_nil, or_false] at h
  rcases h with rfl | rfl | rfl | rfl | rfl <;> decide +kernel

example : C59.ValuesOk (schemaTokens C40.root shop) := by decide +kernel

/-- What it declares, in any language: the two items are one member, and so on. -/
example : declared shop =
    [ some (.simple { name := c!"Size", union := true, memberTypes := [(c!"string", []), (c!"unsignedByte", [])] }),
      some (.complex { name := c!"box", elements := [{ name := c!"size" }] }),
      some (.complex { name := c!"Order", elements := [{ name := c!"item", plural := true }, { name := c!"box" }],
                       attributes := [{ name := c!"id" }] }) ] := by decide +kernel

example : memberNames (@Names.plain asciiUni) c!"Attr" c!"Attr" false (.complex
    { name := c!"Order", elements := [{ name := c!"item", plural := true }, { name := c!"box" }], attributes := [{ name := c!"id" }] }) =
    [c!"IdAttr", c!"Item", c!"Box"] := by decide +kernel

/-- The members of a declaration in a file for Go and for Java. -/
def goMembers (t : Tree) : List (List Str) := (@C59.goDecls asciiUni toSortedPairs t).map fun d => d.2.map (·.name)
/-- The same for Java. -/
def javaMembers (t : Tree) : List (List Str) := (@C59.javaDecls asciiUni toSortedPairs t).map fun d => d.2.map (·.name)

/-- The order of the members of a union, which is that of their types, does depend on the language. -/
example : (goMembers (treeOf (typeRef c!"Go" false) [] shop))[0]? = some [c!"String", c!"UnsignedByte"] ∧
    (javaMembers (treeOf (typeRef c!"Java" false) [] shop))[0]? = some [c!"UnsignedByte", c!"String"] := by decide +kernel

/-- A schema that breaks the rule of XSD. -/
def broken : List Decl :=
  [ .complex (at_ [("name", "T")]) (.elem (at_ [("name", "a"), ("type", "xs:short")]) (.elem (at_ [("name", "a"), ("type", "xs:int")]) .nil)) ]

/-- Then the languages disagree: one member in TypeScript, where both types are numbers, two in Go. -/
theorem disagree : ¬ ElementsConsistent broken ∧
    outline (treeOf (typeRef c!"TypeScript" false) [] broken) ≠ outline (treeOf (typeRef c!"Go" false) [] broken) ∧
    (Regular (typeRef c!"Go" false) [] broken ∧ Regular (typeRef c!"TypeScript" false) [] broken) := by decide +kernel

end Xgen.C110
