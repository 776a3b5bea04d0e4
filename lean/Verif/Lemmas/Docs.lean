import Verif.Lemmas.Origin

/-! # Where documentation comes from

Every documentation in the tree of a parser is the text of its document that stands in one piece, without the white space around it. -/

namespace Xgen.Docs
open Origin (all_setTop all_tail all_snoc all_cons find_mem)

variable (D : Str → Prop)

/-- The documentation of an attribute. -/
def At (a : Attribute) : Prop := D a.doc

/-- The documentation of an element. -/
def El (e : Element) : Prop := D e.doc

/-- The documentation of an attribute group and what is in it. -/
def Ag (g : AttributeGroup) : Prop := D g.doc ∧ ∀ a ∈ g.attributes, At D a

/-- The documentation of a group and what is in it. -/
def Gp (g : Group) : Prop := D g.doc ∧ ∀ e ∈ g.elements, El D e

/-- The documentation of a complex type and what is in it. -/
def Ct (c : ComplexType) : Prop :=
  D c.doc ∧ (∀ e ∈ c.elements, El D e) ∧ (∀ a ∈ c.attributes, At D a) ∧ ∀ g ∈ c.attributeGroup, Ag D g

/-- The documentation of a simple type. -/
def Sm (x : SimpleType) : Prop := D x.doc

/-- The same for the entries of a tree, elements being given by `e`. -/
def Nd {ε : Type} (e : ε → Prop) : Node ε → Prop
  | .simple v => Sm D v
  | .attr v => At D v
  | .elem v => e v
  | .complex v => Ct D v
  | .group v => Gp D v
  | .attrGroup v => Ag D v

/-- The same for trees. -/
def Tr (t : Tree) : Prop := ∀ n, some n ∈ t → Nd D (El D) n

/-- The same for parser states. -/
structure Made (p : PState) : Prop where
  heap : ∀ e ∈ p.heap, El D e
  simple : ∀ x ∈ p.simpleType, Sm D x
  cplx : ∀ x ∈ p.complexType, Ct D x
  attr : ∀ x ∈ p.attrSt, At D x
  group : ∀ x ∈ p.group, Gp D x
  attrGroup : ∀ x ∈ p.attributeGroup, Ag D x
  proto : ∀ n, some n ∈ p.proto → Nd D (fun _ => True) n

/-- The computation keeps this; results satisfy `Q`. -/
def Hold {α : Type} (Q : α → Prop) (m : Go St α) : Prop := ∀ s, Made D s.p → ∀ r s', m s = .ok r s' → Q r ∧ Made D s'.p

variable {D}

namespace Hold
variable {α β : Type} {Q : α → Prop} {Q' : β → Prop}

theorem ok {a : α} (h : Q a) (s : St) (hv : Made D s.p) : ∀ r s', (.ok a s : Out St α) = .ok r s' → Q r ∧ Made D s'.p :=
  fun r s' e => by cases e; exact ⟨h, hv⟩

theorem pure {a : α} (h : Q a) : Hold D Q (Pure.pure a) := fun s hv => ok h s hv

theorem bind {m : Go St α} {f : α → Go St β} (h : Hold D Q m) (k : ∀ a, Q a → Hold D Q' (f a)) : Hold D Q' (m >>= f) := by
  intro s hv r s' he
  simp only [Go.bind_apply] at he
  cases e : m s with
  | ok a s1 =>
    rw [e] at he
    obtain ⟨h1, h2⟩ := h s hv a s1 e
    exact k a h1 s1 h2 r s' he
  | err er s1 => rw [e] at he; cases he
  | halt h s1 => rw [e] at he; cases he

theorem throw (e : Err) : Hold D Q (Go.throw e) := fun s _ r s' e => by cases e

theorem throwOpt (o : Option Err) : Hold D (fun _ => True) (Go.throwOpt o) := by
  cases o with
  | none => exact pure trivial
  | some e => exact throw e

theorem onP {f : PState → PState} (h : ∀ p, Made D p → Made D (f p)) : Hold D (fun _ => True) (onP f) :=
  fun s hv r s' e => by cases e; exact ⟨trivial, h _ hv⟩

theorem onSh {f : Shared → Shared} : Hold D (fun _ => True) (onSh f) := fun s hv r s' e => by cases e; exact ⟨trivial, hv⟩

theorem forAttrs {step : α → Attr → Go St α} (as : List Attr)
    (h : ∀ acc a, Q acc → Hold D Q (step acc a)) (acc : α) (hq : Q acc) : Hold D Q (forAttrs step as acc) := by
  induction as generalizing acc with
  | nil => exact pure hq
  | cons a as ih => exact bind (h acc a hq) fun acc' hq' => ih acc' hq'

end Hold

section
variable {gvt : Gvt} (hg : ∀ v, Hold D (fun _ => True) (gvt v))
include hg

theorem hold_resolve (v : Str) : Hold D (fun _ => True) (resolve gvt v) :=
  (hg v).bind fun r _ => (Hold.throwOpt r.2).bind fun _ _ => Hold.pure trivial

theorem hold_assign (v : Str) {set : Str → PState → PState} (h : ∀ t p, Made D p → Made D (set t p)) :
    Hold D (fun _ => True) (assignType gvt v set) :=
  (hg v).bind fun r _ => (Hold.onP fun p hp => h r.1 p hp).bind fun _ _ => Hold.throwOpt r.2

end

/-! ## The updates -/

theorem Made.deref {p : PState} (h : Made D p) (n : D []) (a : Nat) : El D (p.deref a) := by
  unfold PState.deref
  cases e : p.heap[a]? with
  | none => exact n
  | some x => exact h.heap x (List.mem_of_getElem? e)

theorem Made.append {p : PState} (h : Made D p) {n : Option (Node Nat)} (hn : ∀ m, n = some m → Nd D (fun _ => True) m) :
    Made D (p.append n) :=
  have : ∀ m, some m ∈ p.proto ++ [n] → Nd D (fun _ => True) m := by
    intro m hm
    rcases List.mem_append.1 hm with hm | hm
    · exact h.proto m hm
    · exact hn m (List.mem_singleton.1 hm).symm
  { h with proto := this }

theorem Made.modTop {p : PState} (h : Made D p) {f : Element → Element} (hf : ∀ e, El D e → El D (f e)) :
    Made D (p.modTopElement f) := by
  unfold PState.modTopElement
  cases p.element with
  | nil => exact h
  | cons a rest =>
    refine { h with heap := fun e he => ?_ }
    dsimp only at he
    obtain ⟨i, hi⟩ := List.getElem?_of_mem he
    rw [List.getElem?_modify] at hi
    cases e0 : p.heap[i]? with
    | none => rw [e0] at hi; cases hi
    | some x =>
      rw [e0] at hi
      simp only [Option.map_eq_map, Option.map_some, Option.some.injEq] at hi
      have hx := h.heap x (List.mem_of_getElem? e0)
      split at hi
      · rw [← hi]; exact hf x hx
      · rw [← hi]; exact hx

theorem Made.setSimple {p : PState} (h : Made D p) {f : SimpleType → SimpleType} (hf : ∀ x, Sm D x → Sm D (f x)) :
    Made D { p with simpleType := Stack.setTop f p.simpleType } := { h with simple := all_setTop h.simple hf }

theorem Made.popSimple {p : PState} (h : Made D p) : Made D (popSimpleType p) := { h with simple := all_tail h.simple }

theorem Made.setAttribute {p : PState} (h : Made D p) (t : Str) : Made D (setAttributeType t p) :=
  { h with attr := all_setTop h.attr fun x hx => hx }

theorem Made.clear {p : PState} (h : Made D p) : Made D (clearCurrent p) := { h with }

theorem all_lastDoc {doc : Str} (hd : D doc) {l : List Attribute} (h : ∀ a ∈ l, At D a) : ∀ a ∈ setLastDoc doc l, At D a := by
  induction l with
  | nil => exact h
  | cons x l ih =>
    cases l with
    | nil =>
      intro a ha
      rw [show setLastDoc doc [x] = [{ x with doc := doc }] from rfl, List.mem_singleton] at ha
      subst ha
      exact hd
    | cons y l => exact all_cons (ih fun a ha => h a (by simp [ha])) (h x (by simp))

theorem Made.charData {p : PState} (h : Made D p) {x : Str} (hd : D (trimSpace x)) : Made D (onCharData x p) := by
  unfold onCharData
  split
  · exact h
  · split
    · rename_i _ _ g gs _ e
      refine { h with attrGroup := all_cons (fun y hy => h.attrGroup y (by rw [e]; simp [hy])) ?_ }
      exact ⟨hd, (h.attrGroup g (by rw [e]; simp)).2⟩
    · unfold charDataBelow
      split
      · exact h.modTop fun e he => hd
      · split
        · rename_i y rest e
          refine { h with attr := all_cons (fun z hz => h.attr z (by rw [e]; simp [hz])) ?_ }
          exact hd
        · split
          · exact h.setSimple fun x hx => hd
          · split
            · split
              · exact h
              · rename_i c cs e
                have hc := h.cplx c (by rw [e]; simp)
                have hcs : ∀ y ∈ cs, Ct D y := fun y hy => h.cplx y (by rw [e]; simp [hy])
                split
                · exact { h with cplx := all_cons hcs ⟨hd, hc.2⟩ }
                · exact { h with cplx := all_cons hcs ⟨hc.1, hc.2.1, all_lastDoc hd hc.2.2.1, hc.2.2.2⟩ }
            · exact h

theorem all_merge {e : Element} (he : El D e) {l : List Element} (h : ∀ x ∈ l, El D x) : ∀ x ∈ mergeElement e l, El D x := by
  unfold mergeElement
  split
  · rename_i x i hx
    split
    · intro y hy
      rcases List.mem_or_eq_of_mem_set hy with hy | rfl
      · exact h y hy
      · exact h x (find_mem hx)
    · exact all_snoc h he
  · exact all_snoc h he

theorem Made.placeElement {p : PState} (h : Made D p) {e : Element} (he : El D e) (b : Bool) : Made D (placeElement e b p) := by
  have hh : ∀ x ∈ p.heap ++ [{ e with plural := e.plural || p.choicePlural }], El D x := all_snoc h.heap he
  cases b
  all_goals
    simp only [Xgen.placeElement, Bool.false_eq_true, if_true, if_false]
    split
    · rename_i c cs ec
      have hc := h.cplx c (by rw [ec]; simp)
      exact { h with heap := hh, cplx := all_cons (fun y hy => h.cplx y (by rw [ec]; simp [hy])) ⟨hc.1, all_merge (D := D)
        (e := { e with plural := e.plural || p.choicePlural }) he hc.2.1, hc.2.2⟩ }
    · split
      · refine { h with heap := hh, group := all_setTop h.group fun g hg => ⟨hg.1, all_snoc hg.2 ?_⟩ }
        exact he
      · exact { h with heap := hh }

theorem Made.enumeration {p : PState} (h : Made D p) (as : List Attr) :
    Made D (onEnumeration as p) := by
  unfold onEnumeration
  induction as generalizing p with
  | nil => exact h
  | cons a as ih =>
    rw [List.foldl_cons]
    refine ih ?_
    split
    · rename_i e
      exact h.setSimple fun x hx => hx
    · exact h

theorem head_node {α : Type} {l : List α} {f : α → Node Nat} {P : α → Prop} (h : ∀ x ∈ l, P x) (hf : ∀ x, P x → Nd D (fun _ => True) (f x)) :
    ∀ m, l.head?.map f = some m → Nd D (fun _ => True) m := by
  intro m hm
  cases l with
  | nil => cases hm
  | cons a l => cases hm; exact hf a (h a (by simp))

theorem all_setLast {x : Element} (hx : El D x) {l : List Element} (h : ∀ e ∈ l, El D e) : ∀ e ∈ setLast x l, El D e := by
  induction l with
  | nil => exact h
  | cons y l ih =>
    cases l with
    | nil => intro e he; rw [show setLast x [y] = [x] from rfl, List.mem_singleton] at he; subst he; exact hx
    | cons z l => exact all_cons (ih fun a ha => h a (by simp [ha])) (h y (by simp))

theorem named {n : Str} (c : ComplexType) (hc : Ct D c) : Ct D (if c.name = [] then { c with name := n } else c) := by
  split <;> exact hc

/-! ## The handlers -/

section
variable {gvt : Gvt} (hg : ∀ v, Hold D (fun _ => True) (gvt v)) (hD : D [])

section
include hg

theorem hold_popToAttribute : Hold D (fun _ => True) (popToAttribute gvt) := by
  intro s hv
  unfold popToAttribute
  split
  · rename_i x xs y ys e1 e2
    exact ((Hold.onP fun p hp => hp.popSimple).bind fun _ _ => (hold_assign hg _
      fun t p hp => hp.setAttribute t).bind fun _ _ => Hold.onP fun p hp => hp.clear) s hv
  · exact Hold.ok trivial s hv

theorem hold_facetEnd : Hold D (fun _ => True) (facetEnd gvt) := by
  intro s hv
  unfold facetEnd
  split
  · rename_i x xs y ys e1 e2
    exact ((Hold.onP fun p hp => hp.popSimple).bind fun _ _ => (hold_assign hg _
      fun t p hp => hp.modTop (f := fun e => { e with type := t }) fun e he => he).bind fun _ _ => Hold.onP fun p hp => hp.clear) s hv
  · exact Hold.ok trivial s hv

theorem hold_enum : Hold D (fun _ => True) (endEnumeration gvt) := by
  refine Hold.bind (Q := fun _ => True) (fun s hv => ?_) fun _ _ => fun s hv => ?_
  · unfold enumAttribute
    split
    · rename_i x xs y ys e1 e2
      exact ((hold_assign hg _ fun t p hp => hp.setAttribute t).bind fun _ _ =>
        Hold.onP fun p hp => hp.clear) s hv
    · exact Hold.ok trivial s hv
  · unfold enumElement
    split
    · rename_i x xs y ys e1 e2
      exact ((hold_assign hg _ fun t p hp => hp.modTop (f := fun e => { e with type := t })
        fun e he => he).bind fun _ _ => Hold.onP fun p hp => hp.clear) s hv
    · exact Hold.ok trivial s hv

end

include hg hD in
theorem hold_end (name : Str) (k : EndKind) : Hold D (fun _ => True) (callEnd gvt name k) := by
  cases k with
  | «attribute» =>
    refine Hold.onP fun p hp => ?_
    unfold endAttribute
    split
    · exact hp
    · rename_i x rest e
      have hx := hp.attr x (by rw [e]; simp)
      have hr : ∀ y ∈ rest, At D y := fun y hy => hp.attr y (by rw [e]; simp [hy])
      dsimp only
      split
      · rename_i g gs eg
        have hgg := hp.attrGroup g (by rw [eg]; simp)
        exact { hp with attr := hr, attrGroup := all_cons (fun y hy => hp.attrGroup y (by rw [eg]; simp [hy])) ⟨hgg.1, all_snoc hgg.2 hx⟩ }
      · split
        · rename_i c cs ec
          have hc := hp.cplx c (by rw [ec]; simp)
          exact { hp with attr := hr, cplx := all_cons (fun y hy => hp.cplx y (by rw [ec]; simp [hy])) ⟨hc.1, hc.2.1,
            all_snoc hc.2.2.1 hx, hc.2.2.2⟩ }
        · exact Made.append (p := { p with attrSt := rest }) { hp with attr := hr } fun m hm => by cases hm; exact hx
  | attributeGroup =>
    refine Hold.onP fun p hp => ?_
    unfold endAttributeGroup
    split
    · exact hp
    · rename_i g gs eg
      have := hp.append (n := some (.attrGroup g)) fun m hm => by cases hm; exact hp.attrGroup g (by rw [eg]; simp)
      exact { this with attrGroup := fun y hy => hp.attrGroup y (by rw [eg]; simp [show y ∈ gs from hy]) }
  | choice => exact Hold.onP fun p hp => { hp with }
  | complexType =>
    refine Hold.onP fun p hp => ?_
    unfold endComplexType
    have := hp.append (head_node (f := .complex) hp.cplx fun x hx => hx)
    exact { this with cplx := all_tail hp.cplx }
  | element =>
    refine Hold.onP fun p hp => ?_
    unfold endElement
    split
    · have := hp.append (n := some (.elem ‹_›)) fun m hm => by cases hm; trivial
      exact { this with }
    · exact hp
  | enumeration => exact hold_enum hg
  | extension => exact hold_popToAttribute hg
  | facet => exact hold_facetEnd hg
  | group =>
    refine Hold.onP fun p hp => ?_
    have key : ∀ q, Made D q → Made D (if name = q.currentEle then { q with inGroup := q.inGroup - 1 } else q) := by
      intro q hq
      split
      · exact { hq with }
      · exact hq
    unfold endGroup
    refine key _ ?_
    split
    · have := hp.append (head_node (f := .group) hp.group fun x hx => hx)
      exact { this with group := all_tail hp.group }
    · exact hp
  | pattern => exact (hold_popToAttribute hg).bind fun _ _ => hold_facetEnd hg
  | restriction =>
    refine (hold_popToAttribute hg).bind fun _ _ => Hold.onP fun p hp => ?_
    unfold restrictionElement
    split
    · rename_i a as c cs ea ec
      have hc := hp.cplx c (by rw [ec]; simp)
      exact { hp with cplx := all_cons (fun y hy => hp.cplx y (by rw [ec]; simp [hy])) ⟨hc.1, all_setLast (hp.deref hD a) hc.2.1, hc.2.2⟩ }
    · exact hp
  | simpleType =>
    refine Hold.onP fun p hp => ?_
    unfold endSimpleType
    split
    · rename_i x xs y ys e1 e2
      exact hp.popSimple.setAttribute _
    · have h1 : Made D (endSimpleTypeComplex name p) := by
        unfold endSimpleTypeComplex
        split
        · have := hp.append (head_node (f := .complex) hp.cplx fun x hx => hx)
          exact { this with cplx := all_tail hp.cplx }
        · exact hp
      revert h1
      generalize endSimpleTypeComplex name p = q
      intro h1
      unfold endSimpleTypeSimple
      split
      · have := h1.append (head_node (f := .simple) h1.simple fun x hx => hx)
        exact { this with simple := all_tail h1.simple }
      · exact h1
  | union =>
    refine Hold.onP fun p hp => ?_
    unfold endUnion
    split
    · exact hp
    · exact { hp with }

include hg hD in
theorem hold_on (W : World) (as : List Attr) (k : OnKind) :
    Hold D (fun _ => True) (callOn W gvt as k) := by
  cases k with
  | «attribute» =>
    refine (Hold.forAttrs (Q := fun x => At D x) as ?_ { optional := true } hD).bind fun x hx => Hold.onP fun p hp => { hp with attr := all_cons hp.attr hx }
    intro acc a hq
    unfold onAttributeAttr
    split
    · exact (hold_resolve hg _).bind fun t ht => Hold.pure hq
    split
    · exact Hold.pure hq
    split
    · exact (hold_resolve hg _).bind fun t ht => Hold.pure hq
    split
    · exact Hold.pure (by split <;> exact hq)
    · exact Hold.pure hq
  | attributeGroup =>
    refine (Hold.forAttrs (Q := fun x => Ag D x) as ?_ {} ⟨hD, nofun⟩).bind fun x hx => Hold.onP fun p hp => ?_
    · intro acc a hq
      unfold onAttributeGroupAttr
      split
      · exact Hold.pure hq
      split
      · exact (hold_resolve hg _).bind fun t ht => Hold.pure hq
      · exact Hold.pure hq
    · unfold placeAttributeGroup
      split
      · exact { hp with attrGroup := all_cons hp.attrGroup hx }
      · rename_i c cs ec
        have hc := hp.cplx c (by rw [ec]; simp)
        exact { hp with cplx := all_cons (fun y hy => hp.cplx y (by rw [ec]; simp [hy])) ⟨hc.1, hc.2.1, hc.2.2.1, all_snoc hc.2.2.2 hx⟩ }
  | charData => exact fun s _ r s' e => by cases e
  | choice =>
    refine (Hold.forAttrs (Q := fun _ => True) as ?_ _ trivial).bind fun x hx => Hold.onP fun p hp => { hp with }
    intro acc a hq
    unfold onChoiceAttr
    split
    · split
      · exact Hold.throw _
      · exact Hold.pure trivial
    · exact Hold.pure trivial
  | complexType =>
    intro s hv
    have key : ∀ p, onComplexType? as s.p = some p → Made D p := by
      have hc : ∀ n, Ct D { name := n } := fun n => ⟨hD, nofun, nofun, nofun⟩
      intro p h
      unfold onComplexType? at h
      split at h
      · split at h
        · cases h
        · rename_i ec a rest ea
          cases h
          exact { hv with cplx := all_cons hv.cplx (hc _) }
      · dsimp only at h
        split at h
        · split at h
          · cases h
          · rename_i a rest ea
            cases h
            exact { hv with cplx := all_cons (nofun) (hc _) }
        · cases h
          exact { hv with cplx := all_cons (nofun) (hc _) }
    simp only [callOn, onComplexType]
    cases h : onComplexType? as s.p with
    | none => exact fun r s' e => by cases e
    | some p => exact fun r s' e => by cases e; exact ⟨trivial, key p h⟩
  | element =>
    refine (Hold.forAttrs (Q := fun x => El D x) as ?_ {} hD).bind fun x hx => ?_
    · intro acc a hq
      unfold onElementAttr
      split
      · exact (hold_resolve hg _).bind fun t ht => Hold.pure hq
      split
      · exact Hold.pure hq
      split
      · exact (hold_resolve hg _).bind fun t ht => Hold.pure hq
      split
      · split
        · exact Hold.throw _
        · exact Hold.pure (by split <;> exact hq)
      split
      · exact Hold.pure (by split <;> exact hq)
      · exact Hold.pure hq
    · split
      · exact (hold_resolve hg _).bind fun t ht => Hold.onP fun p hp => hp.placeElement (e := { x with type := t }) hx _
      · exact Hold.onP fun p hp => hp.placeElement hx _
  | enumeration => exact Hold.onP fun p hp => hp.enumeration as
  | extension =>
    refine Hold.forAttrs (Q := fun _ => True) as ?_ _ trivial
    intro acc a hq
    unfold onExtensionAttr
    split
    · refine (hold_resolve hg _).bind fun t ht => fun s hv => ?_
      split
      · exact Hold.ok trivial s hv
      · exact ((hold_assign hg _ (set := setComplexBase) fun t p hp =>
          { hp with cplx := all_setTop hp.cplx fun c hc => hc }).bind
          fun _ _ => Hold.onP (f := nameComplex a.value) fun p hp => { hp with cplx := all_setTop hp.cplx named }) s hv
    · exact Hold.pure trivial
  | group =>
    refine (Hold.forAttrs (Q := fun _ => True) as ?_ _ trivial).bind fun x hx => fun s hv => ?_
    · intro acc a hq
      unfold onGroupAttr
      split
      · exact Hold.pure hq
      split
      · exact (hold_resolve hg _).bind fun t ht => Hold.pure hq
      split
      · exact Hold.pure trivial
      · exact Hold.pure hq
    · have key : ∀ p, placeGroup? x s.p = some p → Made D p := by
        intro p h
        unfold placeGroup? at h
        dsimp only at h
        split at h
        · rename_i c cs ec
          have hc := hv.cplx c (by rw [ec]; simp)
          split at h <;> cases h
          · exact hv
          · exact { hv with cplx := all_cons (fun y hy => hv.cplx y (by rw [ec]; simp [hy])) hc }
        · split at h
          · cases h
            exact { hv with group := all_cons hv.group ⟨hD, nofun⟩ }
          · split at h
            · split at h
              · cases h
              · rename_i y ys ey
                cases h
                have hy := hv.group y (by rw [ey]; simp)
                exact { hv with group := all_cons (fun z hz => hv.group z (by rw [ey]; simp [hz])) hy }
            · cases h; exact hv
      cases h : placeGroup? x s.p with
      | none => exact fun r s' e => by cases e
      | some p => exact fun r s' e => by cases e; exact ⟨trivial, key p h⟩
  | «import» => exact Hold.onSh
  | «include» => exact Hold.onSh
  | list =>
    intro s hv
    simp only [callOn, onList]
    split
    · exact Hold.ok trivial s hv
    · refine ((Hold.onP (f := fun p => { p with simpleType := Stack.setTop (fun x => { x with list := true }) p.simpleType })
        fun p hp => hp.setSimple fun x hx => hx).bind fun _ _ => Hold.forAttrs (Q := fun _ => True) as ?_ _ trivial) s hv
      intro acc a hq
      unfold onListAttr
      split
      · exact hold_assign hg _ fun t p hp => hp.setSimple (f := fun x => { x with base := t }) fun x hx => hx
      · exact Hold.pure trivial
  | restriction =>
    refine Hold.forAttrs (Q := fun _ => True) as ?_ _ trivial
    intro acc a hq
    unfold onRestrictionAttr
    split
    · refine (hold_resolve hg _).bind fun t ht => fun s hv => ?_
      split
      · exact Hold.ok trivial s hv
      · exact ((hold_assign hg _ fun t p hp => hp.setSimple (f := fun x => { x with base := t }) fun x hx => hx).bind
          fun _ _ => Hold.onP fun p hp => hp.setSimple (f := fun x => if x.name = [] then { x with name := a.value } else x) fun x hx => by
            split <;> exact hx) s hv
    · exact Hold.pure trivial
  | schema => exact Hold.onSh
  | simpleType =>
    refine Hold.onP fun p hp => ?_
    unfold onSimpleType
    have h0 : ∀ x ∈ (if p.simpleType.isEmpty then [{}] else p.simpleType), Sm D x := by
      intro x hx
      split at hx
      · simp only [List.mem_singleton] at hx; subst hx; exact hD
      · exact hp.simple x hx
    exact { hp with simple := all_setTop h0 fun x hx => hx }
  | union =>
    intro s hv
    simp only [callOn, onUnion]
    have hv' : Made D { s.p with inUnion := true } := { hv with }
    split
    · exact Hold.ok trivial { s with p := { s.p with inUnion := true } } hv'
    · refine ((Hold.onP (f := fun p => { p with
          simpleType := Stack.setTop (fun x => { x with union := true, memberTypes := [] }) p.simpleType })
        fun p hp => hp.setSimple fun x hx => hx).bind fun _ _ =>
          Hold.forAttrs (Q := fun _ => True) as ?_ _ trivial) { s with p := { s.p with inUnion := true } } hv'
      intro acc a hq
      unfold onUnionAttr
      split
      · generalize splitOn ' ' a.value = ms
        induction ms with
        | nil => exact Hold.pure trivial
        | cons m ms ih =>
          exact (hold_assign hg _ fun t p hp =>
            hp.setSimple (f := fun x => { x with memberTypes := x.memberTypes.set (trimNSPrefix m) t }) fun x hx => hx).bind fun _ _ => ih
      · exact Hold.pure trivial

variable [Uni]

include hg hD in
/-- A run of the parser. -/
theorem hold_run (W : World) (toks : List Token) (ht : ∀ x, Token.text x ∈ toks → D (trimSpace x)) :
    Hold D (fun _ => True) (run W gvt toks) := by
  induction toks with
  | nil => exact Hold.pure trivial
  | cons t ts ih =>
    refine Hold.bind (Q := fun _ => True) ?_ fun _ _ => ih fun x h => ht x (by simp [h])
    cases t with
    | start n as =>
      simp only [step]
      refine (Hold.onP (f := fun p => { p with inElement := n }) fun p hp => { hp with }).bind fun _ _ => ?_
      cases h : onKind n with
      | none => exact Hold.pure trivial
      | some k => exact hold_on hg hD W as k
    | stop n =>
      simp only [step]
      cases h : endKind n with
      | none => exact Hold.pure trivial
      | some k => exact hold_end hg hD n k
    | text x => exact Hold.onP fun p hp => hp.charData (ht x (by simp))
    | other => exact Hold.pure trivial

end

theorem made_init : Made D ({} : PState) := by
  constructor <;> intros <;> simp_all

/-- The tree of a parser state. -/
theorem Made.tree {p : PState} (h : Made D p) (hD : D []) : Tr D p.freeze := by
  intro n hn
  unfold PState.freeze at hn
  obtain ⟨o, ho, e⟩ := List.mem_map.1 hn
  cases o with
  | none => cases e
  | some m =>
    injection e with e
    subst e
    have := h.proto m ho
    cases m with
    | elem a => exact h.deref hD a
    | _ => exact this

theorem hold_gvt [Uni] (W : World) (rec : Cfg → Go Shared Tree) (cfg : Cfg) (v : Str) : Hold D (fun _ => True) (gvtOf W rec cfg v) := by
  intro s hp r s' e
  unfold gvtOf at e
  cases h : getValueType W rec cfg v s.p.freeze s.sh with
  | halt x sh => rw [h] at e; cases e
  | err x sh => rw [h] at e; cases e
  | ok r sh => rw [h] at e; cases e; exact ⟨trivial, hp⟩

/-- What a file is parsed to, whatever is written then. -/
theorem parsed [Uni] (W : World) (n : Nat) (cfg : Cfg) (sh : Shared) {toks : List Token} (hf : W.fs.get? cfg.filePath = some (.file toks))
    (hD : D []) (ht : ∀ x, Token.text x ∈ toks → D (trimSpace x)) :
    (∃ t sh', Tr D t ∧ parse W (n + 1) cfg sh = finish W cfg t sh') ∨ (∃ e sh', parse W (n + 1) cfg sh = .err e sh') ∨
      ∃ e sh', parse W (n + 1) cfg sh = .halt e sh' := by
  have : parse W (n + 1) cfg sh = parseOpen W (parse W n) cfg toks sh := by
    show parseWith W (parse W n) cfg sh = _
    unfold parseWith
    rw [hf]
  rw [this]
  unfold parseOpen
  cases e : run W (gvtOf W (parse W n) cfg) toks { sh := beginParse cfg sh, p := {} } with
  | halt x s => exact .inr (.inr ⟨_, _, rfl⟩)
  | err x s => exact .inr (.inl ⟨_, _, rfl⟩)
  | ok r s =>
    exact .inl ⟨_, _, ((hold_run (hold_gvt W _ cfg) hD W toks ht _ made_init r s e).2).tree hD, rfl⟩

end Xgen.Docs
