import Verif.Props.C112
import Verif.Props.C20

/-! # C113: no document blows up

Whatever a document consists of - any sequence of tags, however many imports - the components it is translated to, with all their members, are at most
as many as its tags, XML attributes and characters of XML attributes.  Text adds nothing. -/

namespace Xgen.C113

/-! ## Specification -/

/-- What a tag may add: a start tag one, and one for each XML attribute and each character of its value; an end tag one. -/
def cost : Token → Nat
  | .start _ as => 1 + (as.map fun a => 1 + a.value.length).sum
  | .stop _ => 1
  | .text _ => 0
  | .other => 0

/-- The size of a document. -/
def price (toks : List Token) : Nat := (toks.map cost).sum

/-- Enumeration values and union members of a simple type. -/
def sizeS (s : SimpleType) : Nat := s.enum.length + s.memberTypes.length
/-- Attributes of an attribute group. -/
def sizeA (a : AttributeGroup) : Nat := a.attributes.length
/-- Members of a group. -/
def sizeG (g : Group) : Nat := g.elements.length + g.groups.length
/-- Members of a complex type. -/
def sizeC (c : ComplexType) : Nat :=
  c.elements.length + c.attributes.length + c.groups.length + (c.attributeGroup.map fun a => 1 + sizeA a).sum

/-- Members of a component. -/
def sizeN {ε : Type} : Node ε → Nat
  | .simple v => sizeS v
  | .attr _ => 0
  | .elem _ => 0
  | .complex v => sizeC v
  | .group v => sizeG v
  | .attrGroup v => sizeA v

/-- The size of an entry of the tree. -/
def sizeE {ε : Type} (o : Option (Node ε)) : Nat := 1 + (o.map sizeN).getD 0

/-- The number of components of a tree, with all their members. -/
def size (t : Tree) : Nat := (t.map sizeE).sum

/-! ## Updates of the parser state -/

/-- What a parser state holds. -/
def load (p : PState) : Nat :=
  (p.simpleType.map sizeS).sum + (p.complexType.map sizeC).sum + (p.group.map sizeG).sum + (p.attributeGroup.map sizeA).sum + p.attrSt.length +
    (p.proto.map sizeE).sum

/-- An update that adds at most `n`. -/
def Adds (n : Nat) (f : PState → PState) : Prop := ∀ p, load (f p) ≤ load p + n

theorem setTop_sum {α : Type} {w : α → Nat} {f : α → α} {n : Nat} (h : ∀ x, w (f x) ≤ w x + n) (l : List α) :
    ((Stack.setTop f l).map w).sum ≤ (l.map w).sum + n := by
  cases l with
  | nil => exact Nat.zero_le _
  | cons x l =>
    have := h x
    simp only [Stack.setTop, List.map_cons, List.sum_cons]
    omega

theorem tail_sum {α : Type} (w : α → Nat) (l : List α) : (l.tail.map w).sum ≤ (l.map w).sum := by
  cases l with
  | nil => exact Nat.le_refl _
  | cons x l => simp only [List.tail_cons, List.map_cons, List.sum_cons]; omega

/-- The top of a stack becomes a component. -/
theorem move_sum {α ε : Type} {w : α → Nat} {g : α → Node ε} (h : ∀ x, sizeN (g x) = w x) (l : List α) :
    sizeE (l.head?.map g) + (l.tail.map w).sum = 1 + (l.map w).sum := by
  cases l with
  | nil => rfl
  | cons x l =>
    simp only [sizeE, List.head?_cons, Option.map_some, Option.getD_some, h, List.tail_cons, List.map_cons, List.sum_cons]
    omega

theorem append_load (p : PState) (n : Option (Node Nat)) : load (p.append n) = load p + sizeE n := by
  unfold load PState.append
  simp only [List.map_append, List.sum_append, List.map_singleton, List.sum_singleton]
  omega

theorem adds_simple {f : SimpleType → SimpleType} {n : Nat} (h : ∀ x, sizeS (f x) ≤ sizeS x + n) :
    Adds n (fun p => { p with simpleType := Stack.setTop f p.simpleType }) := by
  intro p
  have := setTop_sum h p.simpleType
  unfold load
  dsimp only
  omega

theorem adds_complex {f : ComplexType → ComplexType} {n : Nat} (h : ∀ x, sizeC (f x) ≤ sizeC x + n) :
    Adds n (fun p => { p with complexType := Stack.setTop f p.complexType }) := by
  intro p
  have := setTop_sum h p.complexType
  unfold load
  dsimp only
  omega

theorem adds_group {f : Group → Group} {n : Nat} (h : ∀ x, sizeG (f x) ≤ sizeG x + n) :
    Adds n (fun p => { p with group := Stack.setTop f p.group }) := by
  intro p
  have := setTop_sum h p.group
  unfold load
  dsimp only
  omega

theorem adds_endAttribute : Adds 1 endAttribute := by
  intro p
  unfold endAttribute
  cases e : p.attrSt with
  | nil => exact Nat.le_succ _
  | cons x rest =>
    dsimp only
    cases e2 : p.attributeGroup with
    | cons ag ags => simp [load, e, e2, sizeA]; omega
    | nil =>
      dsimp only
      cases e3 : p.complexType with
      | cons c cs => simp [load, e, e2, e3, sizeC]; omega
      | nil => rw [append_load]; simp [load, e, e2, e3, sizeE, sizeN]

theorem adds_placeAttributeGroup {x : AttributeGroup} (h : x.attributes = []) : Adds 1 (placeAttributeGroup x) := by
  intro p
  unfold placeAttributeGroup
  cases e : p.complexType with
  | nil => simp [load, e, sizeA, h]
  | cons c cs => simp [load, e, sizeC, sizeA, h]; omega

theorem adds_endAttributeGroup : Adds 1 endAttributeGroup := by
  intro p
  unfold endAttributeGroup
  cases e : p.attributeGroup with
  | nil => exact Nat.le_succ _
  | cons x rest =>
    have := append_load p (some (.attrGroup x))
    simp [load, PState.append, e, sizeE, sizeN, sizeA]
    omega

theorem setLastDoc_length (d : Str) : ∀ l : List Attribute, (setLastDoc d l).length = l.length
  | [] => rfl
  | [_] => rfl
  | _ :: b :: l => congrArg (· + 1) (setLastDoc_length d (b :: l))

theorem adds_modTopElement (f : Element → Element) : Adds 0 (fun p => p.modTopElement f) := by
  intro p
  dsimp only
  unfold PState.modTopElement
  cases p.element <;> exact Nat.le_refl _

theorem adds_charDataBelow (d : Str) : Adds 0 (charDataBelow d) := by
  intro p
  unfold charDataBelow
  split
  · exact adds_modTopElement _ p
  split
  · rename_i h
    simp [load, h]
  split
  · exact adds_simple (f := fun x => { x with doc := d }) (n := 0) (fun _ => Nat.le_refl _) p
  split
  · split
    · exact Nat.le_refl _
    · rename_i h
      split
      · simp [load, h, sizeC]
      · simp [load, h, sizeC, setLastDoc_length]
  · exact Nat.le_refl _

theorem adds_charData (s : Str) : Adds 0 (onCharData s) := by
  intro p
  unfold onCharData
  split
  · exact Nat.le_refl _
  split
  · rename_i h
    simp [load, h, sizeA]
  · exact adds_charDataBelow _ p

theorem adds_endComplexType : Adds 1 endComplexType := by
  intro p
  have h1 := append_load p (p.complexType.head?.map .complex)
  have h2 := move_sum (w := sizeC) (g := (Node.complex : _ → Node Nat)) (fun _ => rfl) p.complexType
  unfold endComplexType
  unfold load at h1 ⊢
  dsimp only [PState.append] at h1 ⊢
  omega

theorem mergeElement_length (e : Element) (es : List Element) : (mergeElement e es).length ≤ es.length + 1 := by
  unfold mergeElement
  split
  · split
    · rw [List.length_set]; omega
    · simp
  · simp

theorem adds_placeElement (e : Element) (b : Bool) : Adds 1 (placeElement e b) := by
  intro p
  unfold placeElement
  generalize ({ e with plural := e.plural || p.choicePlural } : Element) = x
  dsimp only
  have key : ∀ q : PState, load q = load p → load (match q.complexType with
      | c :: cs => { q with complexType := { c with elements := mergeElement x c.elements } :: cs }
      | [] => if q.inGroup > 0 then { q with group := Stack.setTop (fun g => { g with elements := g.elements ++ [x] }) q.group }
        else { q with element := p.heap.length :: q.element }) ≤ load p + 1 := by
    intro q hq
    rw [← hq]
    cases h : q.complexType with
    | cons c cs =>
      have := mergeElement_length x c.elements
      simp [load, h, sizeC]
      omega
    | nil =>
      dsimp only
      split
      · rw [← h]
        exact adds_group (n := 1) (fun g => by simp [sizeG]; omega) q
      · simp [load, h]
  cases b with
  | false => exact key { p with heap := p.heap ++ [x] } rfl
  | true => exact key { p with heap := p.heap ++ [x], element := p.heap.length :: p.element } rfl

theorem adds_endElement : Adds 1 endElement := by
  intro p
  unfold endElement
  split
  · rename_i a rest _ _
    exact Nat.le_of_eq (append_load p (some (.elem a)))
  · exact Nat.le_succ _

theorem adds_enumeration (as : List Attr) : Adds as.length (onEnumeration as) := by
  induction as with
  | nil => exact fun _ => Nat.le_refl _
  | cons a as ih =>
    intro p
    unfold onEnumeration
    rw [List.foldl_cons]
    refine Nat.le_trans (ih _) ?_
    have h : load (if a.local = c!"value" then
        { p with simpleType := Stack.setTop (fun x => { x with enum := x.enum ++ [a.value] }) p.simpleType } else p) ≤ load p + 1 := by
      split
      · exact adds_simple (n := 1) (fun x => by simp [sizeS]; omega) p
      · exact Nat.le_succ _
    rw [List.length_cons]
    omega

theorem adds_popSimpleType : Adds 0 popSimpleType := by
  intro p
  have := tail_sum sizeS p.simpleType
  unfold popSimpleType load
  dsimp only
  omega

theorem adds_setAttributeType (t : Str) : Adds 0 (setAttributeType t) := by
  intro p
  unfold setAttributeType load
  cases p.attrSt <;> exact Nat.le_refl _

theorem adds_endGroup (n : Str) : Adds 1 (endGroup n) := by
  intro p
  unfold endGroup
  have h1 := append_load p (p.group.head?.map .group)
  have h2 := move_sum (w := sizeG) (g := (Node.group : _ → Node Nat)) (fun _ => rfl) p.group
  have h3 : ∀ q : PState, load (if n = q.currentEle then { q with inGroup := q.inGroup - 1 } else q) = load q := by
    intro q; split <;> rfl
  dsimp only
  rw [h3]
  split
  · unfold load at h1 ⊢
    dsimp only [PState.append] at h1 ⊢
    omega
  · exact Nat.le_succ _

theorem setLast_length (x : Element) : ∀ l : List Element, (setLast x l).length = l.length
  | [] => rfl
  | [_] => rfl
  | _ :: b :: l => congrArg (· + 1) (setLast_length x (b :: l))

theorem adds_restrictionElement : Adds 0 restrictionElement := by
  intro p
  unfold restrictionElement
  split
  · rename_i a r c cs h1 h2
    simp [load, h2, sizeC, setLast_length]
  · exact Nat.le_refl _

theorem adds_onSimpleType (as : List Attr) : Adds 0 (onSimpleType as) := by
  intro p
  have h := setTop_sum (w := sizeS) (f := fun x => { x with name := lastNamed c!"name" as x.name }) (n := 0) (fun _ => Nat.le_refl _)
    (if p.simpleType.isEmpty then [{}] else p.simpleType)
  have h2 : ((if p.simpleType.isEmpty then [{}] else p.simpleType).map sizeS).sum = (p.simpleType.map sizeS).sum := by
    cases p.simpleType <;> rfl
  rw [h2] at h
  unfold onSimpleType load
  dsimp only
  omega

theorem adds_endSimpleType {n : Str} (hn : n ≠ []) : Adds 1 (endSimpleType n) := by
  intro p
  unfold endSimpleType
  split
  · rename_i x _ _ _ _ _
    have h1 := adds_popSimpleType p
    have h2 := adds_setAttributeType x.base (popSimpleType p)
    omega
  · have h1 := append_load p (p.complexType.head?.map .complex)
    have h2 := move_sum (w := sizeC) (g := (Node.complex : _ → Node Nat)) (fun _ => rfl) p.complexType
    have k1 := append_load p (p.simpleType.head?.map .simple)
    have k2 := move_sum (w := sizeS) (g := (Node.simple : _ → Node Nat)) (fun _ => rfl) p.simpleType
    unfold endSimpleTypeComplex
    split
    · unfold endSimpleTypeSimple
      rw [if_neg (by simp [hn])]
      unfold load at h1 ⊢
      dsimp only [PState.append] at h1 ⊢
      omega
    · unfold endSimpleTypeSimple
      split
      · unfold load at k1 ⊢
        dsimp only [PState.append] at k1 ⊢
        omega
      · exact Nat.le_succ _

theorem set_length (k v : Str) : ∀ m : GoMap Str, (m.set k v).length ≤ m.length + 1
  | [] => Nat.le_refl _
  | x :: m => by
    have := set_length k v m
    unfold GoMap.set
    split
    · simp
    · simp only [List.length_cons]; omega

theorem members_length (v : Str) : (splitOn ' ' v).length ≤ v.length + 1 := by
  rw [splitOn_length]
  exact Nat.succ_le_succ List.count_le_length

theorem adds_setMember (k t : Str) : Adds 1 (setMember k t) :=
  adds_simple (f := fun x => { x with memberTypes := x.memberTypes.set k t }) fun x => by
    have := set_length k t x.memberTypes
    simp only [sizeS]
    omega

theorem placeGroup_load (g : GroupRef) {p q : PState} (h : placeGroup? g p = some q) : load q ≤ load p + 1 := by
  unfold placeGroup? at h
  dsimp only at h
  split at h
  · rename_i c cs e
    split at h
    · cases h; exact Nat.le_succ _
    · cases h
      simp [load, e, sizeC]
      omega
  · rename_i e
    split at h
    · cases h
      simp [load, e, sizeG]
    split at h
    · split at h
      · cases h
      · rename_i e2
        cases h
        simp [load, e, e2, sizeG]
        omega
    · cases h; exact Nat.le_succ _

theorem onComplexType_load (as : List Attr) {p q : PState} (h : onComplexType? as p = some q) : load q ≤ load p := by
  unfold onComplexType? at h
  split at h
  · rename_i e
    split at h
    · cases h
    · cases h
      simp [load, e, sizeC]
  · rename_i e
    dsimp only at h
    split at h
    · split at h
      · cases h
      · cases h
        simp [load, e, sizeC]
    · cases h
      simp [load, e, sizeC]

/-! ## Handlers -/

/-- A computation that adds at most `n`, with results of a kind. -/
def Costs {α : Type} (n : Nat) (P : α → Prop) (m : Go St α) : Prop := ∀ s a s', m s = .ok a s' → load s'.p ≤ load s.p + n ∧ P a

/-- Any result. -/
abbrev Any {α : Type} : α → Prop := fun _ => True

section
variable {α β : Type}

theorem Costs.bind {n k : Nat} {P : α → Prop} {Q : β → Prop} {m : Go St α} {f : α → Go St β} (h : Costs n P m)
    (hf : ∀ a, P a → Costs k Q (f a)) : Costs (n + k) Q (m >>= f) := by
  intro s b s' e
  rw [Go.bind_apply] at e
  cases e1 : m s with
  | ok a s1 =>
    rw [e1] at e
    obtain ⟨h1, h2⟩ := h s a s1 e1
    obtain ⟨h3, h4⟩ := hf a h2 s1 b s' e
    exact ⟨by omega, h4⟩
  | err => rw [e1] at e; cases e
  | halt => rw [e1] at e; cases e

theorem Costs.free {n : Nat} {P : α → Prop} {Q : β → Prop} {m : Go St α} {f : α → Go St β} (h : Costs 0 P m)
    (hf : ∀ a, P a → Costs n Q (f a)) : Costs n Q (m >>= f) := by
  have := h.bind hf
  rwa [Nat.zero_add] at this

theorem Costs.pure {P : α → Prop} {a : α} (h : P a) : Costs 0 P (Pure.pure a) := by
  intro s b s' e
  cases e
  exact ⟨Nat.le_refl _, h⟩

theorem Costs.throw {P : α → Prop} (n : Nat) (x : Err) : Costs n P (Go.throw x) := fun _ _ _ e => by cases e

theorem Costs.onP {f : PState → PState} {n : Nat} (h : Adds n f) : Costs n Any (onP f) := by
  intro s b s' e
  cases e
  exact ⟨h _, trivial⟩

theorem Costs.mono {P : α → Prop} {n k : Nat} {m : Go St α} (h : Costs n P m) (hk : n ≤ k) : Costs k P m :=
  fun s a s' e => ⟨Nat.le_trans (h s a s' e).1 (Nat.add_le_add_left hk _), (h s a s' e).2⟩

theorem Costs.forAttrs {P : α → Prop} {st : α → Attr → Go St α} {w : Attr → Nat} : ∀ (as : List Attr),
    (∀ a ∈ as, ∀ x, P x → Costs (w a) P (st x a)) → ∀ x, P x → Costs (as.map w).sum P (forAttrs st as x)
  | [], _, _, h => Costs.pure h
  | a :: as, hst, x, h => by
    rw [List.map_cons, List.sum_cons]
    exact (hst a List.mem_cons_self x h).bind fun y hy => Costs.forAttrs as (fun b hb => hst b (List.mem_cons_of_mem _ hb)) y hy

/-- Steps that add nothing. -/
theorem Costs.forFree {P : α → Prop} {st : α → Attr → Go St α} (as : List Attr) (h : ∀ x a, P x → Costs 0 P (st x a)) (x : α) (hx : P x) :
    Costs 0 P (Xgen.forAttrs st as x) := by
  refine (Costs.forAttrs (w := fun _ => 0) as (fun a _ y hy => h y a hy) x hx).mono (Nat.le_of_eq ?_)
  induction as with
  | nil => rfl
  | cons a as ih => rw [List.map_cons, List.sum_cons, ih]

variable {gvt : Gvt} (hg : ∀ v, Costs 0 Any (gvt v))
include hg

theorem costs_resolve (v : Str) : Costs 0 Any (resolve gvt v) := by
  refine (hg v).free fun r _ => ?_
  cases r.2 with
  | none => exact (Costs.pure (P := Any) trivial).free fun _ _ => Costs.pure trivial
  | some e => exact (Costs.throw (P := Any) 0 e).free fun _ _ => Costs.pure trivial

theorem costs_assign (v : Str) {n : Nat} {set : Str → PState → PState} (h : ∀ t, Adds n (set t)) : Costs n Any (assignType gvt v set) := by
  refine (hg v).free fun r _ => ((Costs.onP (h r.1)).bind (k := 0) fun _ _ => ?_)
  cases r.2 with
  | none => exact Costs.pure trivial
  | some e => exact Costs.throw 0 e

theorem costs_onAttribute (as : List Attr) : Costs 1 Any (onAttribute gvt as) := by
  refine (Costs.forFree (P := Any) as (fun x a _ => ?_) _ trivial).free fun x _ => Costs.onP fun p => ?_
  · unfold onAttributeAttr
    split
    · exact (costs_resolve hg _).free fun _ _ => Costs.pure trivial
    split
    · exact Costs.pure trivial
    split
    · exact (costs_resolve hg _).free fun _ _ => Costs.pure trivial
    split <;> exact Costs.pure trivial
  · simp only [load, List.length_cons]
    omega

theorem costs_onAttributeGroup (as : List Attr) : Costs 1 Any (onAttributeGroup gvt as) := by
  refine (Costs.forFree (P := fun x : AttributeGroup => x.attributes = []) as (fun x a h => ?_) _ rfl).free fun x h =>
    Costs.onP (adds_placeAttributeGroup h)
  unfold onAttributeGroupAttr
  split
  · exact Costs.pure h
  split
  · exact (costs_resolve hg _).free fun _ _ => Costs.pure h
  · exact Costs.pure h

theorem costs_onElement (as : List Attr) : Costs 1 Any (onElement gvt as) := by
  refine (Costs.forFree (P := Any) as (fun x a _ => ?_) _ trivial).free fun x _ => ?_
  · unfold onElementAttr
    split
    · exact (costs_resolve hg _).free fun _ _ => Costs.pure trivial
    split
    · exact Costs.pure trivial
    split
    · exact (costs_resolve hg _).free fun _ _ => Costs.pure trivial
    split
    · split
      · exact Costs.throw 0 _
      · exact Costs.pure trivial
    split <;> exact Costs.pure trivial
  · split
    · exact (costs_resolve hg _).free fun _ _ => Costs.onP (adds_placeElement _ _)
    · exact Costs.onP (adds_placeElement _ _)

theorem costs_onGroup (as : List Attr) : Costs 1 Any (onGroup gvt as) := by
  refine (Costs.forFree (P := Any) as (fun x a _ => ?_) _ trivial).free fun x _ s b s' e => ?_
  · unfold onGroupAttr
    split
    · exact Costs.pure trivial
    split
    · exact (costs_resolve hg _).free fun _ _ => Costs.pure trivial
    split <;> exact Costs.pure trivial
  · cases h : placeGroup? x s.p with
    | none => rw [h] at e; cases e
    | some q =>
      rw [h] at e
      cases e
      exact ⟨placeGroup_load x h, trivial⟩

theorem costs_onExtension (as : List Attr) : Costs 0 Any (onExtension gvt as) := by
  refine Costs.forFree (P := Any) as (fun x a _ => ?_) _ trivial
  unfold onExtensionAttr
  split
  · refine (costs_resolve hg _).free fun t _ s b s' e => ?_
    change (match s.p.complexType with
      | [] => Out.ok () s
      | _ :: _ => (do assignType gvt t setComplexBase; onP (nameComplex a.value)) s) = _ at e
    split at e
    · cases e; exact ⟨Nat.le_refl _, trivial⟩
    · refine Costs.free (P := Any) (costs_assign hg t fun t => ?_) (fun _ _ => Costs.onP ?_) s b s' e
      · exact adds_complex (f := fun c => { c with base := t }) fun _ => Nat.le_refl _
      · exact adds_complex (f := fun c => if c.name = [] then { c with name := a.value } else c) fun c => by
          split <;> exact Nat.le_refl _
  · exact Costs.pure trivial

theorem costs_setBase (v : Str) : Costs 0 Any (assignType gvt v setSimpleBase) :=
  costs_assign hg v fun t => adds_simple (f := fun c => { c with base := t }) fun _ => Nat.le_refl _

theorem costs_onRestriction (as : List Attr) : Costs 0 Any (onRestriction gvt as) := by
  refine Costs.forFree (P := Any) as (fun x a _ => ?_) _ trivial
  unfold onRestrictionAttr
  split
  · refine (costs_resolve hg _).free fun t _ s b s' e => ?_
    change (match s.p.simpleType with
      | [] => Out.ok () s
      | _ :: _ => (do assignType gvt t setSimpleBase; onP (nameSimple a.value)) s) = _ at e
    split at e
    · cases e; exact ⟨Nat.le_refl _, trivial⟩
    · refine Costs.free (P := Any) (costs_setBase hg t) (fun _ _ => Costs.onP ?_) s b s' e
      exact adds_simple (f := fun c => if c.name = [] then { c with name := a.value } else c) fun c => by
        split <;> exact Nat.le_refl _
  · exact Costs.pure trivial

theorem costs_onList (as : List Attr) : Costs 0 Any (onList gvt as) := by
  intro s b s' e
  unfold onList at e
  split at e
  · cases e; exact ⟨Nat.le_refl _, trivial⟩
  · refine Costs.free (P := Any) (Costs.onP (adds_simple (f := fun x => { x with list := true }) fun _ => Nat.le_refl _)) (fun _ _ =>
      Costs.forFree (P := Any) as (fun x a _ => ?_) _ trivial) s b s' e
    unfold onListAttr
    split
    · exact costs_setBase hg _
    · exact Costs.pure trivial

theorem costs_addMembers : ∀ ms : List Str, Costs ms.length Any (addMembers gvt ms)
  | [] => Costs.pure trivial
  | m :: ms => by
    have := (costs_assign hg m fun t => adds_setMember (trimNSPrefix m) t).bind fun _ _ => costs_addMembers ms
    rw [List.length_cons, Nat.add_comm]
    exact this

theorem costs_onUnion (as : List Attr) : Costs (as.map fun a => 1 + a.value.length).sum Any (onUnion gvt as) := by
  intro s b s' e
  unfold onUnion at e
  dsimp only at e
  split at e
  · cases e; exact ⟨Nat.le_add_right _ _, trivial⟩
  · refine Costs.free (P := Any) (Costs.onP (adds_simple (f := fun x => { x with union := true, memberTypes := [] }) fun x => ?_)) (fun _ _ =>
      Costs.forAttrs (P := Any) as (fun a _ x _ => ?_) _ trivial) { s with p := { s.p with inUnion := true } } b s' e
    · simp [sizeS]
    · unfold onUnionAttr
      split
      · exact (costs_addMembers hg _).mono (by rw [Nat.add_comm]; exact members_length a.value)
      · exact (Costs.pure trivial).mono (Nat.zero_le _)

theorem costs_popToAttribute : Costs 0 Any (popToAttribute gvt) := by
  intro s b s' e
  unfold popToAttribute at e
  split at e
  · exact ((Costs.onP adds_popSimpleType).free fun _ _ => (costs_assign hg _ adds_setAttributeType).free fun _ _ =>
      Costs.onP (f := clearCurrent) fun _ => Nat.le_refl _) s b s' e
  · cases e; exact ⟨Nat.le_refl _, trivial⟩

theorem costs_facetEnd : Costs 0 Any (facetEnd gvt) := by
  intro s b s' e
  unfold facetEnd at e
  split at e
  · exact ((Costs.onP adds_popSimpleType).free fun _ _ => (costs_assign hg _ fun t => adds_modTopElement fun e => { e with type := t }).free fun _ _ =>
      Costs.onP (f := clearCurrent) fun _ => Nat.le_refl _) s b s' e
  · cases e; exact ⟨Nat.le_refl _, trivial⟩

theorem costs_endEnumeration : Costs 0 Any (endEnumeration gvt) := by
  refine Costs.free (P := Any) (fun s b s' e => ?_) fun _ _ s b s' e => ?_
  · unfold enumAttribute at e
    split at e
    · exact ((costs_assign hg _ adds_setAttributeType).free fun _ _ => Costs.onP (f := clearCurrent) fun _ => Nat.le_refl _) s b s' e
    · cases e; exact ⟨Nat.le_refl _, trivial⟩
  · unfold enumElement at e
    split at e
    · exact ((costs_assign hg _ fun t => adds_modTopElement fun e => { e with type := t }).free fun _ _ =>
        Costs.onP (f := clearCurrent) fun _ => Nat.le_refl _) s b s' e
    · cases e; exact ⟨Nat.le_refl _, trivial⟩

omit hg in
theorem costs_onChoice (as : List Attr) : Costs 0 Any (onChoice as) := by
  refine (Costs.forFree (P := Any) as (fun x a _ => ?_) _ trivial).free fun x _ => Costs.onP fun p => Nat.le_refl _
  unfold onChoiceAttr
  split
  · split
    · exact Costs.throw 0 _
    · exact Costs.pure trivial
  · exact Costs.pure trivial

theorem costs_callEnd (n : Str) (hn : n ≠ []) (k : EndKind) : Costs 1 Any (callEnd gvt n k) := by
  cases k with
  | «attribute» => exact Costs.onP adds_endAttribute
  | attributeGroup => exact Costs.onP adds_endAttributeGroup
  | choice => exact Costs.onP fun _ => Nat.le_succ _
  | complexType => exact Costs.onP adds_endComplexType
  | element => exact Costs.onP adds_endElement
  | enumeration => exact (costs_endEnumeration hg).mono (Nat.zero_le _)
  | extension => exact (costs_popToAttribute hg).mono (Nat.zero_le _)
  | facet => exact (costs_facetEnd hg).mono (Nat.zero_le _)
  | group => exact Costs.onP (adds_endGroup n)
  | pattern => exact ((costs_popToAttribute hg).free fun _ _ => costs_facetEnd hg).mono (Nat.zero_le _)
  | restriction => exact ((costs_popToAttribute hg).free fun _ _ => Costs.onP adds_restrictionElement).mono (Nat.zero_le _)
  | simpleType => exact Costs.onP (adds_endSimpleType hn)
  | union =>
    refine Costs.onP fun p => ?_
    unfold endUnion
    split <;> exact Nat.le_succ _

theorem costs_callOn (W : World) (as : List Attr) (k : OnKind) : Costs (1 + (as.map fun a => 1 + a.value.length).sum) Any (callOn W gvt as k) := by
  have hlen : as.length ≤ (as.map fun a => 1 + a.value.length).sum := by
    induction as with
    | nil => exact Nat.le_refl _
    | cons a as ih => rw [List.length_cons, List.map_cons, List.sum_cons]; omega
  have hsh : ∀ f, Costs 0 Any (onSh f) := by
    intro f s b s' e
    cases e
    exact ⟨Nat.le_refl _, trivial⟩
  cases k with
  | «attribute» => exact (costs_onAttribute hg as).mono (by omega)
  | attributeGroup => exact (costs_onAttributeGroup hg as).mono (by omega)
  | charData => intro s b s' e; cases e
  | choice => exact (costs_onChoice as).mono (by omega)
  | complexType =>
    intro s b s' e
    change onComplexType as s = _ at e
    unfold onComplexType at e
    cases h : onComplexType? as s.p with
    | none => rw [h] at e; cases e
    | some q =>
      rw [h] at e
      cases e
      exact ⟨Nat.le_trans (onComplexType_load as h) (Nat.le_add_right _ _), trivial⟩
  | element => exact (costs_onElement hg as).mono (by omega)
  | enumeration => exact (Costs.onP (adds_enumeration as)).mono (by omega)
  | extension => exact (costs_onExtension hg as).mono (by omega)
  | group => exact (costs_onGroup hg as).mono (by omega)
  | «import» => exact (hsh _).mono (by omega)
  | «include» => exact (hsh _).mono (by omega)
  | list => exact (costs_onList hg as).mono (by omega)
  | restriction => exact (costs_onRestriction hg as).mono (by omega)
  | schema => exact (hsh _).mono (by omega)
  | simpleType => exact (Costs.onP (adds_onSimpleType as)).mono (by omega)
  | union => exact (costs_onUnion hg as).mono (by omega)

end

section
variable [Uni]

theorem costs_run {gvt : Gvt} (hg : ∀ v, Costs 0 Any (gvt v)) (W : World) : ∀ toks, Costs (price toks) Any (run W gvt toks)
  | [] => Costs.pure trivial
  | t :: ts => by
    unfold price
    rw [List.map_cons, List.sum_cons]
    refine Costs.bind (P := Any) ?_ fun _ _ => costs_run hg W ts
    cases t with
    | start n as =>
      refine Costs.free (P := Any) (Costs.onP (f := fun p => { p with inElement := n }) fun _ => Nat.le_refl _) fun _ _ => ?_
      cases onKind n with
      | none => exact (Costs.pure trivial).mono (Nat.zero_le _)
      | some k => exact costs_callOn hg W as k
    | stop n =>
      show Costs 1 Any (match endKind n with | none => pure () | some k => callEnd gvt n k)
      cases e : endKind n with
      | none => exact (Costs.pure trivial).mono (Nat.zero_le _)
      | some k =>
        refine costs_callEnd hg n (fun c => ?_) k
        rw [c] at e
        cases e
    | text s => exact Costs.onP (adds_charData s)
    | other => exact Costs.pure trivial

omit [Uni] in
theorem costs_gvt (W : World) (rec : Cfg → Go Shared Tree) (cfg : Cfg) (v : Str) : Costs 0 Any (gvtOf W rec cfg v) := by
  intro s a s' e
  unfold gvtOf at e
  cases h : getValueType W rec cfg v s.p.freeze s.sh with
  | ok r sh => rw [h] at e; cases e; exact ⟨Nat.le_refl _, trivial⟩
  | err => rw [h] at e; cases e
  | halt => rw [h] at e; cases e

omit [Uni] in
theorem size_freeze (p : PState) : size p.freeze = (p.proto.map sizeE).sum := by
  unfold size PState.freeze
  rw [List.map_map]
  congr 1
  refine List.map_congr_left fun o _ => ?_
  cases o with
  | none => rfl
  | some n => cases n <;> rfl

/-- The tree of a document is no larger than the document. -/
theorem bounded {W : World} {cfg : Cfg} {sh sh' : Shared} {toks : List Token} {t : Tree} (hf : W.fs.get? cfg.filePath = some (.file toks))
    (h : Parse W cfg sh = .ok t sh') : size t ≤ price toks := by
  unfold Parse parse parseWith at h
  rw [hf] at h
  dsimp only at h
  unfold parseOpen at h
  cases e : run W (gvtOf W (parse W (W.fs.length + 1)) cfg) toks ⟨beginParse cfg sh, {}⟩ with
  | err => rw [e] at h; cases h
  | halt => rw [e] at h; cases h
  | ok x s =>
    rw [e] at h
    have h1 := (costs_run (fun v => costs_gvt W _ cfg v) W toks _ _ _ e).1
    rw [C20.finish_tree W cfg _ _ _ _ h, size_freeze]
    have h2 : load ({} : PState) = 0 := rfl
    rw [h2] at h1
    unfold load at h1
    omega

/-- In particular, there are no more components than that. -/
theorem few_components {W : World} {cfg : Cfg} {sh sh' : Shared} {toks : List Token} {t : Tree} (hf : W.fs.get? cfg.filePath = some (.file toks))
    (h : Parse W cfg sh = .ok t sh') : t.length ≤ price toks := by
  refine Nat.le_trans ?_ (bounded hf h)
  have key : ∀ t : Tree, t.length ≤ size t := by
    intro t
    unfold size
    induction t with
    | nil => exact Nat.le_refl _
    | cons o t ih =>
      rw [List.length_cons, List.map_cons, List.sum_cons]
      unfold sizeE at ih ⊢
      omega
  exact key t

end

/-! ## Examples -/

open C112 (go tree odd)
open C110 (at_)

/-- Documents that are no schemas are small, too. -/
example : size (tree (go odd c!"Go")) = 5 ∧ price odd = 60 := by decide +kernel

/-- End tags without start tags: the bound is reached. -/
example : size (tree (go (List.replicate 7 (.stop c!"complexType")) c!"Java")) = price (List.replicate 7 (.stop c!"complexType")) := by decide +kernel

/-- A type of four members, and a union of two. -/
def small : List Token :=
  [ .start c!"complexType" (at_ [("name", "T")]),
    .start c!"element" (at_ [("name", "a")]), .stop c!"element", .start c!"element" (at_ [("name", "b")]), .stop c!"element",
    .start c!"attribute" (at_ [("name", "c")]), .stop c!"attribute", .start c!"group" (at_ [("ref", "d")]), .stop c!"group",
    .stop c!"complexType",
    .start c!"simpleType" (at_ [("name", "S")]), .start c!"union" (at_ [("memberTypes", "x y")]), .stop c!"union", .stop c!"simpleType" ]

example : size (tree (go small c!"Rust")) = (1 + 4) + (1 + 2) ∧ price small = 30 := by decide +kernel

/-- The hypotheses of the theorem for it. -/
example : (Ex.world [("a.xsd", small)]).fs.get? (C59.doc c!"Rust").filePath = some (.file small) ∧
    ∃ t sh, go small c!"Rust" = .ok t sh := by
  refine ⟨by decide +kernel, ?_⟩
  have h : C112.verdict (go small c!"Rust") = none := by decide +kernel
  cases e : go small c!"Rust" with
  | ok t sh => exact ⟨t, sh, rfl⟩
  | err => rw [e] at h; cases h
  | halt => rw [e] at h; cases h

end Xgen.C113
