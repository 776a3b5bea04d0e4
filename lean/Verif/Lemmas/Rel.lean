import Verif.Model.Parser

/-!
# A logical relation for the handlers

Every handler is built from a few atomic actions: returning, failing, panicking, a fixed set of updates of the parser
state, reading the parser state, the three updates of the shared maps, and `gvt`.  A relation between computations
that is closed under these actions therefore relates each handler run with one resolver to the same handler run with
another.  All invariants of the parser are instances.
-/

namespace Xgen

/-- The state updates of the start handlers. -/
inductive OnPrim : OnKind → (PState → PState) → Prop
  | pushAttribute (x) : OnPrim .attribute (fun p => { p with attrSt := x :: p.attrSt })
  | placeAttributeGroup (x) : OnPrim .attributeGroup (placeAttributeGroup x)
  | pushChoice (x : Choice) : OnPrim .choice
      (fun p => { p with choice := { plural := x.plural || p.choicePlural } :: p.choice })
  | placeElement (e b) : OnPrim .element (placeElement e b)
  | enumeration (attrs) : OnPrim .enumeration (onEnumeration attrs)
  | setComplexBase (t) : OnPrim .extension (setComplexBase t)
  | nameComplex (v) : OnPrim .extension (nameComplex v)
  | setList : OnPrim .list
      (fun p => { p with simpleType := Stack.setTop (fun x => { x with list := true }) p.simpleType })
  | setListBase (t) : OnPrim .list (setSimpleBase t)
  | setSimpleBase (t) : OnPrim .restriction (setSimpleBase t)
  | nameSimple (v) : OnPrim .restriction (nameSimple v)
  | simpleType (attrs) : OnPrim .simpleType (onSimpleType attrs)
  | setInUnion : OnPrim .union (fun p => { p with inUnion := true })
  | setUnion : OnPrim .union (fun p => { p with
      simpleType := Stack.setTop (fun x => { x with union := true, memberTypes := [] }) p.simpleType })
  | setMember (k t) : OnPrim .union (setMember k t)

/-- The start handlers' updates that can panic. -/
inductive OnPrim? : OnKind → (PState → Option PState) → Prop
  | complexType (attrs) : OnPrim? .complexType (onComplexType? attrs)
  | group (g) : OnPrim? .group (placeGroup? g)

/-- The state updates of the end handlers. -/
inductive EndPrim (name : Str) : EndKind → (PState → PState) → Prop
  | attribute : EndPrim name .attribute endAttribute
  | attributeGroup : EndPrim name .attributeGroup endAttributeGroup
  | choice : EndPrim name .choice endChoice
  | complexType : EndPrim name .complexType endComplexType
  | element : EndPrim name .element endElement
  | group : EndPrim name .group (endGroup name)
  | simpleType : EndPrim name .simpleType (endSimpleType name)
  | union : EndPrim name .union endUnion
  | setAttributeType (k) (t) : EndPrim name k (setAttributeType t)
  | setElementType (k) (t) : EndPrim name k (setElementType t)
  | clearCurrent (k) : EndPrim name k clearCurrent
  | popSimpleType (k) : EndPrim name k popSimpleType
  | restrictionElement : EndPrim name .restriction restrictionElement

/-- A partial update as a computation. -/
def onP? (f : PState → Option PState) : Go St Unit := fun s =>
  match f s.p with
  | none => .halt .panic s
  | some p => .ok () { s with p := p }

/-- All that a handler looks at before it decides what to do (the updates themselves look at more): whether three
stacks are empty, and the base of the simple type on top of the fourth. -/
structure View where
  attr : Bool
  elem : Bool
  cplx : Bool
  simple : Option Str

/-- The view of a parser state. -/
def view (p : PState) : View :=
  ⟨p.attrSt.isEmpty, p.element.isEmpty, p.complexType.isEmpty, p.simpleType.head?.map (·.base)⟩

theorem view_attr {p : PState} {b : Bool} (h : (view p).attr = b) :
    (b = true ∧ p.attrSt = []) ∨ (b = false ∧ ∃ x xs, p.attrSt = x :: xs) := by
  subst h
  unfold view
  cases p.attrSt <;> simp

theorem view_elem {p : PState} {b : Bool} (h : (view p).elem = b) :
    (b = true ∧ p.element = []) ∨ (b = false ∧ ∃ x xs, p.element = x :: xs) := by
  subst h
  unfold view
  cases p.element <;> simp

theorem view_cplx {p : PState} {b : Bool} (h : (view p).cplx = b) :
    (b = true ∧ p.complexType = []) ∨ (b = false ∧ ∃ x xs, p.complexType = x :: xs) := by
  subst h
  unfold view
  cases p.complexType <;> simp

theorem view_simple {p : PState} {b : Option Str} (h : (view p).simple = b) :
    (b = none ∧ p.simpleType = []) ∨ (∃ x xs, b = some x.base ∧ p.simpleType = x :: xs) := by
  subst h
  unfold view
  cases p.simpleType <;> simp

/-- Closure under the actions common to all handlers. -/
structure Closed (Rel : {α : Type} → Go St α → Go St α → Prop) (gvt gvt' : Gvt) : Prop where
  pure : ∀ {α : Type} (a : α), Rel (Pure.pure a) (Pure.pure a)
  bind : ∀ {α β : Type} {m m' : Go St α} {f f' : α → Go St β}, Rel m m' → (∀ a, Rel (f a) (f' a)) →
    Rel (m >>= f) (m' >>= f')
  throw : ∀ {α : Type} (e : Err), Rel (Go.throw e : Go St α) (Go.throw e)
  /-- a computation may look at the parser state first -/
  read : ∀ {α : Type} {m m' : Go St α},
    (∀ v, ∃ k k', Rel k k' ∧ ∀ s : St, view s.p = v → m s = k s ∧ m' s = k' s) → Rel m m'
  /-- a type name resolved into a component; nothing but the kind of end need be alike if resolving fails -/
  assignType : ∀ v (set : Str → PState → PState), (∀ t, Rel (onP (set t)) (onP (set t))) →
    Rel (assignType gvt v set) (assignType gvt' v set)
  /-- a type name resolved into a variable -/
  resolve : ∀ v, Rel (resolve gvt v) (resolve gvt' v)

/-- Closure from a resolver alike in all it returns. -/
structure ClosedGvt (Rel : {α : Type} → Go St α → Go St α → Prop) (gvt gvt' : Gvt) : Prop where
  pure : ∀ {α : Type} (a : α), Rel (Pure.pure a) (Pure.pure a)
  bind : ∀ {α β : Type} {m m' : Go St α} {f f' : α → Go St β}, Rel m m' → (∀ a, Rel (f a) (f' a)) →
    Rel (m >>= f) (m' >>= f')
  throw : ∀ {α : Type} (e : Err), Rel (Go.throw e : Go St α) (Go.throw e)
  read : ∀ {α : Type} {m m' : Go St α},
    (∀ v, ∃ k k', Rel k k' ∧ ∀ s : St, view s.p = v → m s = k s ∧ m' s = k' s) → Rel m m'
  gvt : ∀ v, Rel (gvt v) (gvt' v)

theorem Closed.ofGvt {Rel : {α : Type} → Go St α → Go St α → Prop} {gvt gvt' : Gvt} (C : ClosedGvt Rel gvt gvt') :
    Closed Rel gvt gvt' := by
  have ht : ∀ o : Option Err, Rel (Go.throwOpt o) (Go.throwOpt o) := by
    intro o
    cases o with
    | none => exact C.pure ()
    | some e => exact C.throw e
  exact {
    pure := C.pure
    bind := C.bind
    throw := C.throw
    read := C.read
    assignType := fun v set h => C.bind (C.gvt v) fun _ => C.bind (h _) fun _ => ht _
    resolve := fun v => C.bind (C.gvt v) fun _ => C.bind (ht _) fun _ => C.pure _ }

/-- What a start handler of kind `k` with the given attributes needs in addition. -/
structure ClosedOn (W : World) (Rel : {α : Type} → Go St α → Go St α → Prop) (gvt gvt' : Gvt) (k : OnKind)
    (attrs : List Attr) : Prop extends Closed Rel gvt gvt' where
  panic : k = .charData → Rel (Go.panic : Go St Unit) Go.panic
  prim : ∀ f, OnPrim k f → Rel (onP f) (onP f)
  prim? : ∀ f, OnPrim? k f → Rel (onP? f) (onP? f)
  import' : k = .import → Rel (onSh (onImport W.isURL attrs)) (onSh (onImport W.isURL attrs))
  include' : k = .include → Rel (onSh (onInclude attrs)) (onSh (onInclude attrs))
  schema' : k = .schema → Rel (onSh (onSchema attrs)) (onSh (onSchema attrs))

/-- What an end handler needs in addition. -/
structure ClosedEnd (Rel : {α : Type} → Go St α → Go St α → Prop) (gvt gvt' : Gvt) (name : Str) (k : EndKind) :
    Prop extends Closed Rel gvt gvt' where
  prim : ∀ f, EndPrim name k f → Rel (onP f) (onP f)

section
variable {Rel : {α : Type} → Go St α → Go St α → Prop} {gvt gvt' : Gvt}

theorem Closed.throwOpt (C : Closed Rel gvt gvt') (o : Option Err) : Rel (Go.throwOpt o) (Go.throwOpt o) := by
  cases o with
  | none => exact C.pure ()
  | some e => exact C.throw e

theorem Closed.forAttrs (C : Closed Rel gvt gvt') {α : Type} {step step' : α → Attr → Go St α} (attrs : List Attr)
    (h : ∀ acc a, Rel (step acc a) (step' acc a)) (acc : α) :
    Rel (forAttrs step attrs acc) (forAttrs step' attrs acc) := by
  induction attrs generalizing acc with
  | nil => exact C.pure acc
  | cons a as ih => exact C.bind (h acc a) fun _ => ih _

theorem callOn_rel {W : World} {k : OnKind} {attrs : List Attr} (C : ClosedOn W Rel gvt gvt' k attrs) :
    Rel (callOn W gvt attrs k) (callOn W gvt' attrs k) := by
  have B := C.toClosed
  cases k with
  | «attribute» =>
    refine B.bind (B.forAttrs attrs ?_ _) fun x => C.prim _ (.pushAttribute x)
    intro acc a
    unfold onAttributeAttr
    split
    · exact B.bind (B.resolve _) fun _ => B.pure _
    split
    · exact B.pure _
    split
    · exact B.bind (B.resolve _) fun _ => B.pure _
    split <;> exact B.pure _
  | attributeGroup =>
    refine B.bind (B.forAttrs attrs ?_ _) fun x => C.prim _ (.placeAttributeGroup x)
    intro acc a
    unfold onAttributeGroupAttr
    split
    · exact B.pure _
    split
    · exact B.bind (B.resolve _) fun _ => B.pure _
    exact B.pure _
  | charData => exact C.panic rfl
  | choice =>
    refine B.bind (B.forAttrs attrs ?_ _) fun x => C.prim _ (.pushChoice x)
    intro acc a
    unfold onChoiceAttr
    split
    · split
      · exact B.throw _
      · exact B.pure _
    exact B.pure _
  | complexType => exact C.prim? _ (.complexType attrs)
  | element =>
    refine B.bind (B.forAttrs attrs ?_ _) fun x => ?_
    · intro acc a
      unfold onElementAttr
      split
      · exact B.bind (B.resolve _) fun _ => B.pure _
      split
      · exact B.pure _
      split
      · exact B.bind (B.resolve _) fun _ => B.pure _
      split
      · split
        · exact B.throw _
        · exact B.pure _
      split <;> exact B.pure _
    · split
      · exact B.bind (B.resolve _) fun _ => C.prim _ (.placeElement _ _)
      · exact C.prim _ (.placeElement _ _)
  | enumeration => exact C.prim _ (.enumeration attrs)
  | extension =>
    refine B.forAttrs attrs ?_ _
    intro acc a
    unfold onExtensionAttr
    split
    · refine B.bind (B.resolve _) fun t => B.read fun v => ?_
      cases hp : v.cplx with
      | true => exact ⟨_, _, B.pure (), fun s hs => by
          subst hs; obtain ⟨-, h⟩ | ⟨h, -⟩ := view_cplx hp <;> simp_all⟩
      | false =>
        exact ⟨_, _, B.bind (B.assignType t _ fun t => C.prim _ (.setComplexBase t)) fun _ =>
          C.prim _ (.nameComplex a.value), fun s hs => by
            subst hs
            obtain ⟨h, -⟩ | ⟨-, x, xs, h⟩ := view_cplx hp
            · cases h
            · simp only [h, and_self]⟩
    exact B.pure _
  | group =>
    refine B.bind (B.forAttrs attrs ?_ _) fun x => C.prim? _ (.group x)
    intro acc a
    unfold onGroupAttr
    split
    · exact B.pure _
    split
    · exact B.bind (B.resolve _) fun _ => B.pure _
    split <;> exact B.pure _
  | «import» => exact C.import' rfl
  | «include» => exact C.include' rfl
  | list =>
    refine B.read fun v => ?_
    cases hp : v.simple with
    | none => exact ⟨_, _, B.pure (), fun s hs => by
        subst hs
        obtain ⟨-, h⟩ | ⟨x, xs, h, -⟩ := view_simple hp
        · simp [callOn, onList, h]
        · cases h⟩
    | some b =>
      refine ⟨_, _, B.bind (C.prim _ .setList) fun _ => B.forAttrs (step := onListAttr gvt)
        (step' := onListAttr gvt') attrs ?_ (), fun s hs => by
          subst hs
          obtain ⟨h, -⟩ | ⟨x, xs, -, h⟩ := view_simple hp
          · cases h
          · simp only [callOn, onList, h, and_self]⟩
      intro acc a
      unfold onListAttr
      split
      · exact B.assignType _ _ fun t => C.prim _ (.setListBase t)
      · exact B.pure _
  | restriction =>
    refine B.forAttrs attrs ?_ _
    intro acc a
    unfold onRestrictionAttr
    split
    · refine B.bind (B.resolve _) fun t => B.read fun v => ?_
      cases hp : v.simple with
      | none => exact ⟨_, _, B.pure (), fun s hs => by
          subst hs; obtain ⟨-, h⟩ | ⟨x, xs, h, -⟩ := view_simple hp <;> simp_all⟩
      | some b =>
        exact ⟨_, _, B.bind (B.assignType t _ fun t => C.prim _ (.setSimpleBase t)) fun _ =>
          C.prim _ (.nameSimple a.value), fun s hs => by
            subst hs
            obtain ⟨h, -⟩ | ⟨x, xs, -, h⟩ := view_simple hp
            · cases h
            · simp only [h, and_self]⟩
    exact B.pure _
  | schema => exact C.schema' rfl
  | simpleType => exact C.prim _ (.simpleType attrs)
  | union =>
    refine B.read fun v => ?_
    cases hp : v.simple with
    | none => exact ⟨_, _, C.prim _ .setInUnion, fun s hs => by
        subst hs
        obtain ⟨-, h⟩ | ⟨x, xs, h, -⟩ := view_simple hp
        · simp [callOn, onUnion, h]
        · cases h⟩
    | some b =>
      refine ⟨_, _, B.bind (C.prim _ .setInUnion) fun _ => B.bind (C.prim _ .setUnion) fun _ =>
        B.forAttrs (step := onUnionAttr gvt) (step' := onUnionAttr gvt') attrs ?_ (), fun s hs => by
          subst hs
          obtain ⟨h, -⟩ | ⟨x, xs, -, h⟩ := view_simple hp
          · cases h
          · constructor <;> simp [callOn, onUnion, h]⟩
      intro acc a
      unfold onUnionAttr
      split
      · generalize splitOn ' ' a.value = ms
        induction ms with
        | nil => exact B.pure ()
        | cons m ms ih => exact B.bind (B.assignType _ _ fun t => C.prim _ (.setMember _ t)) fun _ => ih
      · exact B.pure _

theorem ClosedEnd.popToAttribute {name : Str} {k : EndKind} (C : ClosedEnd Rel gvt gvt' name k) :
    Rel (popToAttribute gvt) (popToAttribute gvt') := by
  refine C.read fun v => ?_
  cases hp : v.attr with
  | true => exact ⟨_, _, C.pure (), fun s hs => by
      subst hs
      obtain ⟨-, h⟩ | ⟨h, -⟩ := view_attr hp
      · simp [Xgen.popToAttribute, h]
      · cases h⟩
  | false =>
    cases hq : v.simple with
    | none => exact ⟨_, _, C.pure (), fun s hs => by
        subst hs
        obtain ⟨-, h⟩ | ⟨x, xs, h, -⟩ := view_simple hq
        · simp [Xgen.popToAttribute, h]
        · cases h⟩
    | some b =>
      exact ⟨_, _, C.bind (C.prim _ (.popSimpleType _)) fun _ =>
        C.bind (C.assignType b _ fun t => C.prim _ (.setAttributeType _ t)) fun _ => C.prim _ (.clearCurrent _),
        fun s hs => by
          subst hs
          obtain ⟨h, -⟩ | ⟨-, y, ys, h⟩ := view_attr hp
          · cases h
          obtain ⟨h2, -⟩ | ⟨x, xs, hb, h2⟩ := view_simple hq
          · cases h2
          cases hb
          simp only [Xgen.popToAttribute, h, h2, and_self]⟩

theorem ClosedEnd.facetEnd {name : Str} {k : EndKind} (C : ClosedEnd Rel gvt gvt' name k) :
    Rel (facetEnd gvt) (facetEnd gvt') := by
  refine C.read fun v => ?_
  cases hp : v.elem with
  | true => exact ⟨_, _, C.pure (), fun s hs => by
      subst hs
      obtain ⟨-, h⟩ | ⟨h, -⟩ := view_elem hp
      · simp [Xgen.facetEnd, h]
      · cases h⟩
  | false =>
    cases hq : v.simple with
    | none => exact ⟨_, _, C.pure (), fun s hs => by
        subst hs
        obtain ⟨-, h⟩ | ⟨x, xs, h, -⟩ := view_simple hq
        · simp [Xgen.facetEnd, h]
        · cases h⟩
    | some b =>
      exact ⟨_, _, C.bind (C.prim _ (.popSimpleType _)) fun _ =>
        C.bind (C.assignType b _ fun t => C.prim _ (.setElementType _ t)) fun _ => C.prim _ (.clearCurrent _),
        fun s hs => by
          subst hs
          obtain ⟨h, -⟩ | ⟨-, y, ys, h⟩ := view_elem hp
          · cases h
          obtain ⟨h2, -⟩ | ⟨x, xs, hb, h2⟩ := view_simple hq
          · cases h2
          cases hb
          simp only [Xgen.facetEnd, h, h2, and_self]⟩

theorem callEnd_rel {name : Str} {k : EndKind} (C : ClosedEnd Rel gvt gvt' name k) :
    Rel (callEnd gvt name k) (callEnd gvt' name k) := by
  cases k with
  | «attribute» => exact C.prim _ .attribute
  | attributeGroup => exact C.prim _ .attributeGroup
  | choice => exact C.prim _ .choice
  | complexType => exact C.prim _ .complexType
  | element => exact C.prim _ .element
  | enumeration =>
    refine C.bind ?_ fun _ => ?_
    · refine C.read fun v => ?_
      cases hp : v.attr with
      | true => exact ⟨_, _, C.pure (), fun s hs => by
          subst hs
          obtain ⟨-, h⟩ | ⟨h, -⟩ := view_attr hp
          · simp [enumAttribute, h]
          · cases h⟩
      | false =>
        cases hq : v.simple with
        | none => exact ⟨_, _, C.pure (), fun s hs => by
            subst hs
            obtain ⟨-, h⟩ | ⟨x, xs, h, -⟩ := view_simple hq
            · simp [enumAttribute, h]
            · cases h⟩
        | some b =>
          exact ⟨_, _, C.bind (C.assignType b _ fun t => C.prim _ (.setAttributeType _ t)) fun _ =>
            C.prim _ (.clearCurrent _),
            fun s hs => by
              subst hs
              obtain ⟨h, -⟩ | ⟨-, y, ys, h⟩ := view_attr hp
              · cases h
              obtain ⟨h2, -⟩ | ⟨x, xs, hb, h2⟩ := view_simple hq
              · cases h2
              cases hb
              simp only [enumAttribute, h, h2, and_self]⟩
    · refine C.read fun v => ?_
      cases hp : v.elem with
      | true => exact ⟨_, _, C.pure (), fun s hs => by
          subst hs
          obtain ⟨-, h⟩ | ⟨h, -⟩ := view_elem hp
          · simp [enumElement, h]
          · cases h⟩
      | false =>
        cases hq : v.simple with
        | none => exact ⟨_, _, C.pure (), fun s hs => by
            subst hs
            obtain ⟨-, h⟩ | ⟨x, xs, h, -⟩ := view_simple hq
            · simp [enumElement, h]
            · cases h⟩
        | some b =>
          exact ⟨_, _, C.bind (C.assignType b _ fun t => C.prim _ (.setElementType _ t)) fun _ =>
            C.prim _ (.clearCurrent _),
            fun s hs => by
              subst hs
              obtain ⟨h, -⟩ | ⟨-, y, ys, h⟩ := view_elem hp
              · cases h
              obtain ⟨h2, -⟩ | ⟨x, xs, hb, h2⟩ := view_simple hq
              · cases h2
              cases hb
              simp only [enumElement, h, h2, and_self]⟩
  | extension => exact C.popToAttribute
  | facet => exact C.facetEnd
  | group => exact C.prim _ .group
  | pattern => exact C.bind C.popToAttribute fun _ => C.facetEnd
  | restriction => exact C.bind C.popToAttribute fun _ => C.prim _ .restrictionElement
  | simpleType => exact C.prim _ .simpleType
  | union => exact C.prim _ .union

end
end Xgen

namespace Xgen
variable [Uni]

/-- What a token needs. -/
structure ClosedTok (W : World) (Rel : {α : Type} → Go St α → Go St α → Prop) (g g' : Gvt) (t : Token) :
    Prop extends Closed Rel g g' where
  setIn : ∀ name attrs, t = .start name attrs →
    Rel (onP fun p => { p with inElement := name }) (onP fun p => { p with inElement := name })
  on : ∀ name attrs k, t = .start name attrs → onKind name = some k → ClosedOn W Rel g g' k attrs
  stop : ∀ name k, t = .stop name → endKind name = some k → ClosedEnd Rel g g' name k
  text : ∀ x, t = .text x → Rel (onP (onCharData x)) (onP (onCharData x))

theorem step_rel {W : World} {Rel : {α : Type} → Go St α → Go St α → Prop} {gvt gvt' : Gvt} {t : Token}
    (C : ClosedTok W Rel gvt gvt' t) : Rel (step W gvt t) (step W gvt' t) := by
  cases t with
  | start name attrs =>
    refine C.bind (C.setIn name attrs rfl) fun _ => ?_
    cases hk : onKind name with
    | none => exact C.pure ()
    | some k => exact callOn_rel (C.on name attrs k rfl hk)
  | stop name =>
    simp only [step]
    cases hk : endKind name with
    | none => exact C.pure ()
    | some k => exact callEnd_rel (C.stop name k rfl hk)
  | text x => exact C.text x rfl
  | other => exact C.pure ()

theorem run_rel {W : World} {Rel : {α : Type} → Go St α → Go St α → Prop} {gvt gvt' : Gvt}
    (B : Closed Rel gvt gvt') (toks : List Token) (C : ∀ t ∈ toks, ClosedTok W Rel gvt gvt' t) :
    Rel (run W gvt toks) (run W gvt' toks) := by
  induction toks with
  | nil => exact B.pure ()
  | cons t ts ih =>
    exact B.bind (step_rel (C t (by simp))) fun _ => ih fun x hx => C x (by simp [hx])

/-! ## Instance: relations on the shared state -/

/-- From states with `Q`, the shared state moves along `R`, and abnormal ends satisfy `H`. -/
def Keeps (Q : Shared → Prop) (R : Shared → Shared → Prop) (H : Halt → Prop) {α : Type} (m m' : Go St α) : Prop :=
  m = m' ∧ ∀ s, Q s.sh → R s.sh (m s).state.sh ∧ ∀ h s', m s = .halt h s' → H h

/-- The requirements on `Q` and `R`. -/
structure Stable (Q : Shared → Prop) (R : Shared → Shared → Prop) : Prop where
  refl : ∀ a, R a a
  trans : ∀ {a b c}, R a b → R b c → R a c
  keep : ∀ {a b}, R a b → Q a → Q b

section
variable {Q : Shared → Prop} {R : Shared → Shared → Prop} {H : Halt → Prop}

omit [Uni] in
theorem keeps_closed (S : Stable Q R) (gvt : Gvt) (hg : ∀ v, Keeps Q R H (gvt v) (gvt v)) :
    Closed (Keeps Q R H) gvt gvt := Closed.ofGvt {
  pure _ := ⟨rfl, fun s _ => ⟨S.refl _, by intro h s' e; cases e⟩⟩
  bind := by
    rintro α β m m' f f' ⟨rfl, hm⟩ hf
    have hff : f = f' := funext fun a => (hf a).1
    subst hff
    refine ⟨rfl, fun s hq => ?_⟩
    obtain ⟨h1, h2⟩ := hm s hq
    simp only [Go.bind_apply]
    cases e : m s with
    | ok a s1 =>
      rw [e] at h1
      obtain ⟨h3, h4⟩ := (hf a).2 s1 (S.keep h1 hq)
      exact ⟨S.trans h1 h3, h4⟩
    | err er s1 => rw [e] at h1; exact ⟨h1, by intro h s' e'; cases e'⟩
    | halt h s1 => rw [e] at h1; exact ⟨h1, by intro h' s' e'; cases e'; exact h2 _ _ e⟩
  throw e := ⟨rfl, fun s _ => ⟨S.refl _, by intro h s' e; cases e⟩⟩
  read := by
    intro α m m' hk
    constructor
    · funext s
      obtain ⟨k, k', ⟨hkk, _⟩, he⟩ := hk (view s.p)
      rw [(he s rfl).1, (he s rfl).2, hkk]
    · intro s hq
      obtain ⟨k, k', ⟨_, h⟩, he⟩ := hk (view s.p)
      rw [(he s rfl).1]
      exact h s hq
  gvt := hg }

omit [Uni] in
theorem keeps_onP (S : Stable Q R) (f : PState → PState) : Keeps Q R H (onP f) (onP f) :=
  ⟨rfl, fun s _ => ⟨S.refl _, by intro h s' e; cases e⟩⟩

omit [Uni] in
theorem keeps_onP? (S : Stable Q R) (hp : H .panic) (f : PState → Option PState) : Keeps Q R H (onP? f) (onP? f) := by
  refine ⟨rfl, fun s _ => ?_⟩
  unfold onP?
  cases f s.p with
  | none => exact ⟨S.refl _, by intro h s' e; cases e; exact hp⟩
  | some p => exact ⟨S.refl _, by intro h s' e; cases e⟩

omit [Uni] in
theorem keeps_onSh {f : Shared → Shared} (h : ∀ sh, Q sh → R sh (f sh)) : Keeps Q R H (onSh f) (onSh f) :=
  ⟨rfl, fun s hq => ⟨h s.sh hq, by intro h s' e; cases e⟩⟩

/-- If the three updates of the shared maps made by the tokens and the resolver move the shared state along `R`, so does
the whole run. -/
theorem run_keeps (W : World) (S : Stable Q R) (hp : H .panic) (gvt : Gvt) (hg : ∀ v, Keeps Q R H (gvt v) (gvt v))
    (toks : List Token)
    (ht : ∀ name attrs, Token.start name attrs ∈ toks → ∀ sh, Q sh →
      R sh (onImport W.isURL attrs sh) ∧ R sh (onInclude attrs sh) ∧ R sh (onSchema attrs sh)) :
    Keeps Q R H (run W gvt toks) (run W gvt toks) := by
  have B := keeps_closed (H := H) S gvt hg
  refine run_rel B toks fun t htm => ?_
  exact {
    toClosed := B
    setIn := fun _ _ _ => keeps_onP S _
    on := by
      rintro name attrs k rfl _
      exact {
        toClosed := B
        panic := fun _ => ⟨rfl, fun s _ => ⟨S.refl _, by intro h s' e; cases e; exact hp⟩⟩
        prim := fun f _ => keeps_onP S f
        prim? := fun f _ => keeps_onP? S hp f
        import' := fun _ => keeps_onSh fun sh hq => (ht _ _ htm sh hq).1
        include' := fun _ => keeps_onSh fun sh hq => (ht _ _ htm sh hq).2.1
        schema' := fun _ => keeps_onSh fun sh hq => (ht _ _ htm sh hq).2.2 }
    stop := fun _ _ _ _ => { toClosed := B, prim := fun f _ => keeps_onP S f }
    text := fun _ _ => keeps_onP S _ }

end
end Xgen
