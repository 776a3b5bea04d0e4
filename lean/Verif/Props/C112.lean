import Verif.Props.C110
import Verif.Props.C70

/-! # C112: whether a document is accepted does not depend on the language

C110 and C111 are about schemas in the core fragment.  Here: any sequence of tags and text, however wrong as a schema, as long as it neither imports
nor includes.  The parser for one language ends in the way it ends for another, with the same error, and if it succeeds the two trees have the same
components with the same names, attributes, groups, members of unions, and values of enumerations. -/

namespace Xgen.C112
open C110 (eraseE eraseA eraseR eraseAG eraseG eraseC eraseS)

/-! ## Specification -/

/-- A complex type without types and elements. -/
def bareC (c : ComplexType) : ComplexType := { eraseC c with elements := [] }

/-- A component without types; in complex types without elements (C110: `disagree`). -/
def bareN {ε ε' : Type} (f : ε → ε') : Node ε → Node ε'
  | .simple v => .simple (eraseS v)
  | .attr v => .attr (eraseA v)
  | .elem v => .elem (f v)
  | .complex v => .complex (bareC v)
  | .group v => .group (eraseG v)
  | .attrGroup v => .attrGroup (eraseAG v)

/-- The components of a tree. -/
def contour (t : Tree) : Tree := t.map (Option.map (bareN eraseE))

/-- No import and include tags, and no element with an empty type or reference. -/
def Closed [Uni] (toks : List Token) : Prop :=
  ∀ n as, Token.start n as ∈ toks → onKind n ≠ some .import ∧ onKind n ≠ some .include ∧
    (onKind n = some .element → ∀ a ∈ as, a.local ∈ [c!"type", c!"ref"] → trimNSPrefix a.value ≠ [])

/-- Runs that end in the same way: with the same error, in the same panic or exit, or with trees that have the same components. -/
def SameEnd : Out Shared Tree → Out Shared Tree → Prop
  | .ok t _, .ok t' _ => contour t = contour t'
  | .err e _, .err e' _ => e = e'
  | .halt h _, .halt h' _ => h = h'
  | _, _ => False

instance (a b : Out Shared Tree) : Decidable (SameEnd a b) := by
  cases a <;> cases b <;> unfold SameEnd <;> infer_instance

/-- Files can be created, and the formatter accepts the source. -/
def Writable (W : World) : Prop := (∀ path, W.createOk path = true) ∧ ∀ src, W.gofmt src ≠ none

/-- A parse of a file, starting with nothing imported or included. -/
structure Start (W : World) (cfg : Cfg) (sh : Shared) : Prop where
  writes : cfg.extract = false
  included : sh.includeMap = []
  imported : sh.nsLoc = []
  url : W.isURL [] = false
  dir : ∀ toks, W.fs.get? cfg.filePath = some (.file toks) → W.fs.get? (pathDir cfg.filePath) = some .dir

/-! ## The parser state without types -/

/-- A parser state without types. -/
def sk (p : PState) : PState :=
  { p with heap := p.heap.map eraseE, proto := p.proto.map (Option.map (bareN id)), simpleType := p.simpleType.map eraseS,
           complexType := p.complexType.map bareC, attrSt := p.attrSt.map eraseA, group := p.group.map eraseG,
           attributeGroup := p.attributeGroup.map eraseAG }

/-- An update of the state that treats types as blanks. -/
def Blind (f f' : PState → PState) : Prop := ∀ p p', sk p = sk p' → sk (f p) = sk (f' p')

/-- It suffices that the update commutes with forgetting types. -/
theorem Blind.of {f f' g : PState → PState} (h : ∀ p, sk (f p) = g (sk p)) (h' : ∀ p, sk (f' p) = g (sk p)) : Blind f f' :=
  fun p p' e => by rw [h, h', e]

theorem eraseE_id (e : Element) : eraseE (eraseE e) = eraseE e := rfl

/-- The parts of equal states. -/
structure Parts (p p' : PState) : Prop where
  heap : p.heap.map eraseE = p'.heap.map eraseE
  proto : p.proto.map (Option.map (bareN id)) = p'.proto.map (Option.map (bareN (id : Nat → Nat)))
  inElement : p.inElement = p'.inElement
  currentEle : p.currentEle = p'.currentEle
  inGroup : p.inGroup = p'.inGroup
  inUnion : p.inUnion = p'.inUnion
  inAttributeGroup : p.inAttributeGroup = p'.inAttributeGroup
  simpleType : p.simpleType.map eraseS = p'.simpleType.map eraseS
  complexType : p.complexType.map bareC = p'.complexType.map bareC
  element : p.element = p'.element
  attrSt : p.attrSt.map eraseA = p'.attrSt.map eraseA
  group : p.group.map eraseG = p'.group.map eraseG
  attributeGroup : p.attributeGroup.map eraseAG = p'.attributeGroup.map eraseAG
  choice : p.choice = p'.choice

theorem parts {p p' : PState} : sk p = sk p' ↔ Parts p p' := by
  constructor
  · intro h
    unfold sk at h
    injection h
    constructor <;> assumption
  · intro h
    unfold sk
    rw [h.heap, h.proto, h.inElement, h.currentEle, h.inGroup, h.inUnion, h.inAttributeGroup, h.simpleType, h.complexType, h.element, h.attrSt,
      h.group, h.attributeGroup, h.choice]

/-- Two lists that are the same without types: both empty, or alike at the top and below. -/
theorem split_map {α β : Type} {f : α → β} {l l' : List α} (h : l.map f = l'.map f) :
    (l = [] ∧ l' = []) ∨ ∃ a b r r', l = a :: r ∧ l' = b :: r' ∧ f a = f b ∧ r.map f = r'.map f := by
  cases l with
  | nil => cases l' with
    | nil => exact .inl ⟨rfl, rfl⟩
    | cons b r' => cases h
  | cons a r => cases l' with
    | nil => cases h
    | cons b r' =>
      injection h with h1 h2
      exact .inr ⟨a, b, r, r', rfl, rfl, h1, h2⟩

theorem setTop_map {α : Type} {e : α → α} {f f' : α → α} (hf : ∀ a b, e a = e b → e (f a) = e (f' b)) {l l' : List α} (h : l.map e = l'.map e) :
    (Stack.setTop f l).map e = (Stack.setTop f' l').map e := by
  rcases split_map h with ⟨rfl, rfl⟩ | ⟨a, b, r, r', rfl, rfl, h1, h2⟩
  · rfl
  · simp only [Stack.setTop, List.map_cons, hf a b h1, h2]

theorem head_tail {α β : Type} {f : α → β} {l l' : List α} (h : l.map f = l'.map f) :
    l.head?.map f = l'.head?.map f ∧ l.tail.map f = l'.tail.map f ∧ l.length = l'.length ∧ l.isEmpty = l'.isEmpty := by
  rcases split_map h with ⟨rfl, rfl⟩ | ⟨a, b, r, r', rfl, rfl, h1, h2⟩
  · exact ⟨rfl, rfl, rfl, rfl⟩
  · have := congrArg List.length h2
    simp only [List.length_map] at this
    exact ⟨by simp [h1], h2, by simp [this], rfl⟩

theorem append_parts {p p' : PState} (h : Parts p p') {n n' : Option (Node Nat)} (hn : n.map (bareN id) = n'.map (bareN (id : Nat → Nat))) :
    Parts (p.append n) (p'.append n') := by
  refine { h with proto := ?_ }
  show (p.proto ++ [n]).map _ = (p'.proto ++ [n']).map _
  rw [List.map_append, List.map_append, h.proto, List.map_singleton, List.map_singleton, hn]

theorem map_heads {α : Type} {f : α → α} {g : α → Node Nat} (hg : ∀ a, bareN id (g a) = g (f a)) {l l' : List α}
    (h : l.map f = l'.map f) : (l.head?.map g).map (bareN id) = (l'.head?.map g).map (bareN (id : Nat → Nat)) := by
  rcases split_map h with ⟨rfl, rfl⟩ | ⟨a, b, r, r', rfl, rfl, h1, h2⟩
  · rfl
  · simp [hg, h1]

/-! ## Updates -/

theorem blind_endAttribute : Blind endAttribute endAttribute := by
  intro p p' h
  have h := parts.1 h
  unfold endAttribute
  rcases split_map h.attrSt with ⟨e, e'⟩ | ⟨x, y, r, r', e, e', hx, hr⟩
  · rw [e, e']; exact parts.2 h
  · rw [e, e']
    dsimp only
    rcases split_map h.attributeGroup with ⟨g, g'⟩ | ⟨u, v, w, w', g, g', hu, hw⟩
    · rw [g, g']
      dsimp only
      rcases split_map h.complexType with ⟨k, k'⟩ | ⟨c, d, cs, cs', k, k', hc, hcs⟩
      · rw [k, k']
        dsimp only
        have h3 : Parts { p with attrSt := r } { p' with attrSt := r' } := { h with attrSt := hr }
        have := append_parts h3 (n := some (.attr x)) (n' := some (.attr y)) (congrArg (fun z => some (Node.attr z)) hx)
        exact parts.2 { this with attributeGroup := rfl, complexType := rfl }
      · rw [k, k']
        dsimp only
        refine parts.2 { h with attrSt := hr, attributeGroup := rfl, complexType := ?_ }
        simp only [List.map_cons, hcs]
        refine congrArg (· :: _) ?_
        have h1 : bareC { c with attributes := c.attributes ++ [x] } = { bareC c with attributes := (bareC c).attributes ++ [eraseA x] } := by
          simp [bareC, eraseC]
        have h2 : bareC { d with attributes := d.attributes ++ [y] } = { bareC d with attributes := (bareC d).attributes ++ [eraseA y] } := by
          simp [bareC, eraseC]
        rw [h1, h2, hc, hx]
    · rw [g, g']
      refine parts.2 { h with attrSt := hr, attributeGroup := ?_ }
      simp only [List.map_cons, hw]
      refine congrArg (· :: _) ?_
      have h1 : eraseAG { u with attributes := u.attributes ++ [x] } = { eraseAG u with attributes := (eraseAG u).attributes ++ [eraseA x] } := by
        simp [eraseAG]
      have h2 : eraseAG { v with attributes := v.attributes ++ [y] } = { eraseAG v with attributes := (eraseAG v).attributes ++ [eraseA y] } := by
        simp [eraseAG]
      rw [h1, h2, hu, hx]

theorem blind_placeAttributeGroup {x y : AttributeGroup} (hx : eraseAG x = eraseAG y) : Blind (placeAttributeGroup x) (placeAttributeGroup y) := by
  intro p p' h
  have h := parts.1 h
  unfold placeAttributeGroup
  rcases split_map h.complexType with ⟨k, k'⟩ | ⟨c, d, cs, cs', k, k', hc, hcs⟩
  · rw [k, k']
    refine parts.2 { h with inAttributeGroup := rfl, currentEle := h.inElement, attributeGroup := ?_, complexType := rfl }
    simp only [List.map_cons, hx, h.attributeGroup]
  · rw [k, k']
    refine parts.2 { h with complexType := ?_ }
    simp only [List.map_cons, hcs]
    refine congrArg (· :: _) ?_
    have h1 : bareC { c with attributeGroup := c.attributeGroup ++ [x] } = { bareC c with attributeGroup := (bareC c).attributeGroup ++ [eraseAG x] } := by
      simp [bareC, eraseC]
    have h2 : bareC { d with attributeGroup := d.attributeGroup ++ [y] } = { bareC d with attributeGroup := (bareC d).attributeGroup ++ [eraseAG y] } := by
      simp [bareC, eraseC]
    rw [h1, h2, hc, hx]

theorem blind_endAttributeGroup : Blind endAttributeGroup endAttributeGroup := by
  intro p p' h
  have h := parts.1 h
  unfold endAttributeGroup
  rcases split_map h.attributeGroup with ⟨e, e'⟩ | ⟨x, y, r, r', e, e', hx, hr⟩
  · rw [e, e']; exact parts.2 h
  · rw [e, e']
    have := append_parts h (n := some (.attrGroup x)) (n' := some (.attrGroup y)) (congrArg (fun z => some (Node.attrGroup z)) hx)
    exact parts.2 { this with attributeGroup := hr, currentEle := rfl, inAttributeGroup := rfl }

theorem blind_setElement {f f' : Element → Element} (hf : ∀ a b, eraseE a = eraseE b → eraseE (f a) = eraseE (f' b)) :
    Blind (fun p => p.modTopElement f) (fun p => p.modTopElement f') := by
  intro p p' h
  have h := parts.1 h
  have hm : ∀ (l l' : List Element) (a : Nat), l.map eraseE = l'.map eraseE → (l.modify a f).map eraseE = (l'.modify a f').map eraseE := by
    intro l
    induction l with
    | nil =>
      intro l' a h
      cases l' with
      | nil => simp
      | cons b r => cases h
    | cons x l ih =>
      intro l' a h
      cases l' with
      | nil => cases h
      | cons y l' =>
        injection h with h1 h2
        cases a with
        | zero => simp [h2, hf x y h1]
        | succ a => simp [h1, ih l' a h2]
  dsimp only
  unfold PState.modTopElement
  rw [h.element]
  cases p'.element with
  | nil => exact parts.2 h
  | cons a r =>
    dsimp only
    exact parts.2 { h with heap := hm _ _ a h.heap, element := rfl }

theorem blind_setElementType (t t' : Str) : Blind (setElementType t) (setElementType t') :=
  blind_setElement (f := fun e => { e with type := t }) (f' := fun e => { e with type := t' }) fun _ _ h => h

theorem blind_setAttributeType (t t' : Str) : Blind (setAttributeType t) (setAttributeType t') := by
  intro p p' h
  have h := parts.1 h
  have := setTop_map (e := eraseA) (f := fun x => { x with type := t }) (f' := fun x => { x with type := t' }) (fun _ _ h => h) h.attrSt
  exact parts.2 { h with attrSt := this }

theorem setLastDoc_map (d : Str) : ∀ l l' : List Attribute, l.map eraseA = l'.map eraseA →
    (setLastDoc d l).map eraseA = (setLastDoc d l').map eraseA
  | [], [], _ => rfl
  | [], _ :: _, h => by cases h
  | _ :: _, [], h => by cases h
  | [x], [y], h => by
    injection h with h1 _
    exact congrArg (fun z => [{ z with doc := d }]) h1
  | [_], _ :: _ :: _, h => by injection h with _ h; cases h
  | _ :: _ :: _, [_], h => by injection h with _ h; cases h
  | x :: y :: r, x' :: y' :: r', h => by
    injection h with h1 h2
    simp only [setLastDoc, List.map_cons, h1]
    rw [setLastDoc_map d (y :: r) (y' :: r') h2]

theorem blind_charData (s : Str) : Blind (onCharData s) (onCharData s) := by
  intro p p' h
  have h0 := h
  have h := parts.1 h
  unfold onCharData
  by_cases hs : trimSpace s = []
  · rw [if_pos hs, if_pos hs]; exact h0
  rw [if_neg hs, if_neg hs, h.inAttributeGroup]
  have below : sk (charDataBelow (trimSpace s) p) = sk (charDataBelow (trimSpace s) p') := by
    unfold charDataBelow
    have hcond : (p.inElement ≠ [] && !p.element.isEmpty) = (p'.inElement ≠ [] && !p'.element.isEmpty) := by rw [h.inElement, h.element]
    by_cases hc : (p'.inElement ≠ [] && !p'.element.isEmpty) = true
    · rw [if_pos (hcond.trans hc), if_pos hc]
      exact blind_setElement (fun _ _ h => congrArg (fun z => { z with doc := trimSpace s }) h) p p' h0
    rw [if_neg (hcond ▸ hc), if_neg hc]
    rcases split_map h.attrSt with ⟨e, e'⟩ | ⟨x, y, r, r', e, e', hx, hr⟩
    · rw [e, e']
      dsimp only
      by_cases h1 : p'.currentEle = c!"simpleType"
      · rw [if_pos (h.currentEle.trans h1), if_pos h1]
        have := setTop_map (e := eraseS) (f := fun x => { x with doc := trimSpace s }) (f' := fun x => { x with doc := trimSpace s })
          (fun _ _ h => congrArg (fun z => { z with doc := trimSpace s }) h) h.simpleType
        exact parts.2 { h with attrSt := rfl, simpleType := this }
      rw [if_neg (h.currentEle ▸ h1), if_neg h1]
      by_cases h2 : p'.currentEle = c!"complexType"
      · rw [if_pos (h.currentEle.trans h2), if_pos h2]
        rcases split_map h.complexType with ⟨k, k'⟩ | ⟨c, d, cs, cs', k, k', hc, hcs⟩
        · rw [k, k']; exact h0
        · rw [k, k']
          dsimp only
          have ha : c.attributes.map eraseA = d.attributes.map eraseA := congrArg ComplexType.attributes hc
          rw [(head_tail ha).2.2.2]
          split
          · refine parts.2 { h with complexType := ?_, attrSt := rfl }
            simp only [List.map_cons, hcs]
            exact congrArg (fun z => ({ z with doc := trimSpace s } : ComplexType) :: _) hc
          · refine parts.2 { h with complexType := ?_, attrSt := rfl }
            simp only [List.map_cons, hcs]
            refine congrArg (· :: _) ?_
            have h1 : bareC { c with attributes := setLastDoc (trimSpace s) c.attributes } =
              { bareC c with attributes := (setLastDoc (trimSpace s) c.attributes).map eraseA } := rfl
            have h2 : bareC { d with attributes := setLastDoc (trimSpace s) d.attributes } =
              { bareC d with attributes := (setLastDoc (trimSpace s) d.attributes).map eraseA } := rfl
            rw [h1, h2, hc, setLastDoc_map _ _ _ ha]
      · rw [if_neg (h.currentEle ▸ h2), if_neg h2]
        exact h0
    · rw [e, e']
      dsimp only
      refine parts.2 { h with attrSt := ?_ }
      simp only [List.map_cons, hr]
      exact congrArg (fun z => { z with doc := trimSpace s } :: _) hx
  rcases split_map h.attributeGroup with ⟨g, g'⟩ | ⟨u, v, w, w', g, g', hu, hw⟩
  · rw [g, g']
    cases p'.inAttributeGroup <;> exact below
  · rw [g, g']
    cases hb : p'.inAttributeGroup with
    | false => exact below
    | true =>
      dsimp only
      refine parts.2 { h with attributeGroup := ?_, inAttributeGroup := rfl }
      simp only [List.map_cons, hw]
      exact congrArg (fun z => { z with doc := trimSpace s } :: _) hu

theorem blind_pushAttribute {x y : Attribute} (hx : eraseA x = eraseA y) :
    Blind (fun p => { p with attrSt := x :: p.attrSt }) (fun p => { p with attrSt := y :: p.attrSt }) := by
  intro p p' h
  have h := parts.1 h
  refine parts.2 { h with attrSt := ?_ }
  simp only [List.map_cons, hx, h.attrSt]

theorem choicePlural_eq {p p' : PState} (h : Parts p p') : p.choicePlural = p'.choicePlural := by
  unfold PState.choicePlural
  rw [h.choice]

theorem blind_pushChoice (x : Choice) : Blind (fun p => { p with choice := { plural := x.plural || p.choicePlural } :: p.choice })
    (fun p => { p with choice := { plural := x.plural || p.choicePlural } :: p.choice }) := by
  intro p p' h
  have h := parts.1 h
  refine parts.2 { h with choice := ?_ }
  dsimp only
  rw [choicePlural_eq h, h.choice]

theorem blind_endChoice : Blind endChoice endChoice := by
  intro p p' h
  have h := parts.1 h
  exact parts.2 { h with choice := congrArg List.tail h.choice }

theorem deref_name {p p' : PState} (h : Parts p p') (a : Nat) : eraseE (p.deref a) = eraseE (p'.deref a) := by
  have := congrArg (fun l => (l[a]?).getD {}) h.heap
  simp only [List.getElem?_map] at this
  unfold PState.deref
  cases h1 : p.heap[a]? with
  | none => cases h2 : p'.heap[a]? with
    | none => rfl
    | some y => rw [h1, h2] at this; exact this
  | some x => cases h2 : p'.heap[a]? with
    | none => rw [h1, h2] at this; exact this
    | some y => rw [h1, h2] at this; exact this

/-- The same for updates that can panic. -/
def Blind? (f f' : PState → Option PState) : Prop := ∀ p p', sk p = sk p' → (f p).map sk = (f' p').map sk

theorem blind_onComplexType (attrs : List Attr) : Blind? (onComplexType? attrs) (onComplexType? attrs) := by
  intro p p' h
  have h := parts.1 h
  unfold onComplexType?
  have hn : ∀ a, (p.deref a).name = (p'.deref a).name := fun a => by
    have := congrArg Element.name (deref_name h a)
    exact this
  rcases split_map h.complexType with ⟨k, k'⟩ | ⟨c, d, cs, cs', k, k', hc, hcs⟩
  · rw [k, k']
    dsimp only
    split
    · rw [h.element]
      cases p'.element with
      | nil => rfl
      | cons a r =>
        refine congrArg some (parts.2 { h with currentEle := h.inElement, element := rfl, complexType := ?_ })
        show [bareC { name := (p.deref a).name }] = [bareC { name := (p'.deref a).name }]
        rw [hn]
    · exact congrArg some (parts.2 { h with currentEle := h.inElement, complexType := rfl })
  · rw [k, k', h.element]
    cases p'.element with
    | nil => rfl
    | cons a r =>
      refine congrArg some (parts.2 { h with element := rfl, complexType := ?_ })
      simp only [List.map_cons, hc, hcs]
      rw [hn]

theorem blind_endComplexType : Blind endComplexType endComplexType := by
  intro p p' h
  have h := parts.1 h
  have := append_parts h (map_heads (g := Node.complex) (fun _ => rfl) h.complexType)
  exact parts.2 { this with complexType := (head_tail h.complexType).2.1, currentEle := rfl }

theorem blind_placeElement {e e' : Element} (he : eraseE e = eraseE e') (b : Bool) : Blind (placeElement e b) (placeElement e' b) := by
  intro p p' h
  have h := parts.1 h
  have hl : p.heap.length = p'.heap.length := (head_tail h.heap).2.2.1
  have hx : eraseE { e with plural := e.plural || p.choicePlural } = eraseE { e' with plural := e'.plural || p'.choicePlural } := by
    rw [choicePlural_eq h]
    exact congrArg (fun z => { z with plural := z.plural || p'.choicePlural }) he
  unfold placeElement
  generalize ({ e with plural := e.plural || p.choicePlural } : Element) = x at hx
  generalize ({ e' with plural := e'.plural || p'.choicePlural } : Element) = x' at hx
  dsimp only
  have hh : (p.heap ++ [x]).map eraseE = (p'.heap ++ [x']).map eraseE := by
    rw [List.map_append, List.map_append, h.heap, List.map_singleton, List.map_singleton, hx]
  have key : ∀ q q' : PState, Parts q q' →
      Parts (match q.complexType with
        | c :: cs => { q with complexType := { c with elements := mergeElement x c.elements } :: cs }
        | [] => if q.inGroup > 0 then { q with group := Stack.setTop (fun g => { g with elements := g.elements ++ [x] }) q.group }
          else { q with element := p.heap.length :: q.element })
       (match q'.complexType with
        | c :: cs => { q' with complexType := { c with elements := mergeElement x' c.elements } :: cs }
        | [] => if q'.inGroup > 0 then { q' with group := Stack.setTop (fun g => { g with elements := g.elements ++ [x'] }) q'.group }
          else { q' with element := p'.heap.length :: q'.element }) := by
    intro q q' h
    rcases split_map h.complexType with ⟨k, k'⟩ | ⟨c, d, cs, cs', k, k', hc, hcs⟩
    · rw [k, k']
      dsimp only
      by_cases hg : q'.inGroup > 0
      · rw [if_pos (h.inGroup ▸ hg), if_pos hg]
        have := setTop_map (e := eraseG) (f := fun g => { g with elements := g.elements ++ [x] }) (f' := fun g => { g with elements := g.elements ++ [x'] })
          (fun a b hab => by
            have h1 : eraseG { a with elements := a.elements ++ [x] } = { eraseG a with elements := (eraseG a).elements ++ [eraseE x] } := by simp [eraseG]
            have h2 : eraseG { b with elements := b.elements ++ [x'] } = { eraseG b with elements := (eraseG b).elements ++ [eraseE x'] } := by simp [eraseG]
            rw [h1, h2, hab, hx]) h.group
        exact { h with complexType := rfl, group := this }
      · rw [if_neg (h.inGroup ▸ hg), if_neg hg]
        exact { h with complexType := rfl, element := by rw [hl, h.element] }
    · rw [k, k']
      dsimp only
      refine { h with complexType := ?_ }
      simp only [List.map_cons, hcs]
      exact congrArg (· :: _) hc
  cases b with
  | false =>
    refine parts.2 ?_
    exact key { p with heap := p.heap ++ [x] } { p' with heap := p'.heap ++ [x'] } { h with heap := hh }
  | true =>
    refine parts.2 ?_
    exact key { p with heap := p.heap ++ [x], element := p.heap.length :: p.element } { p' with heap := p'.heap ++ [x'], element := p'.heap.length :: p'.element }
      { h with heap := hh, element := by rw [hl, h.element] }

theorem blind_endElement : Blind endElement endElement := by
  intro p p' h
  have h0 := h
  have h := parts.1 h
  unfold endElement
  have ha := fun a : Nat => append_parts h (n := some (.elem a)) (n' := some (.elem a)) rfl
  have he := h.element
  rcases split_map h.complexType with ⟨k, k'⟩ | ⟨c, d, cs, cs', k, k', hc, hcs⟩
  · cases e : p.element with
    | nil =>
      have e' : p'.element = [] := he ▸ e
      simp only [e', k, k']
      exact h0
    | cons a r =>
      have e' : p'.element = a :: r := he ▸ e
      simp only [e', k, k']
      exact parts.2 { ha a with element := rfl }
  · cases e : p.element with
    | nil =>
      have e' : p'.element = [] := he ▸ e
      simp only [e', k, k']
      exact h0
    | cons a r =>
      have e' : p'.element = a :: r := he ▸ e
      simp only [e', k, k']
      exact h0

theorem blind_foldl {step : PState → Attr → PState} (hs : ∀ a, Blind (step · a) (step · a)) (as : List Attr) :
    Blind (fun p => as.foldl step p) (fun p => as.foldl step p) := by
  induction as with
  | nil => exact fun _ _ h => h
  | cons a as ih => exact fun p p' h => ih _ _ (hs a p p' h)

theorem blind_simple {f f' : SimpleType → SimpleType} (hf : ∀ a b, eraseS a = eraseS b → eraseS (f a) = eraseS (f' b)) :
    Blind (fun p => { p with simpleType := Stack.setTop f p.simpleType }) (fun p => { p with simpleType := Stack.setTop f' p.simpleType }) := by
  intro p p' h
  have h := parts.1 h
  exact parts.2 { h with simpleType := setTop_map hf h.simpleType }

theorem blind_complex {f f' : ComplexType → ComplexType} (hf : ∀ a b, bareC a = bareC b → bareC (f a) = bareC (f' b)) :
    Blind (fun p => { p with complexType := Stack.setTop f p.complexType }) (fun p => { p with complexType := Stack.setTop f' p.complexType }) := by
  intro p p' h
  have h := parts.1 h
  exact parts.2 { h with complexType := setTop_map hf h.complexType }

theorem blind_enumeration (attrs : List Attr) : Blind (onEnumeration attrs) (onEnumeration attrs) := by
  refine blind_foldl (fun a => ?_) attrs
  by_cases h : a.local = c!"value"
  · simp only [h, if_true]
    exact blind_simple fun x y h => congrArg (fun z : SimpleType => { z with enum := z.enum ++ [a.value] }) h
  · simp only [h, if_false]
    exact fun _ _ h => h

theorem blind_setComplexBase (t t' : Str) : Blind (setComplexBase t) (setComplexBase t') :=
  blind_complex (f := fun c => { c with base := t }) (f' := fun c => { c with base := t' }) fun _ _ h => h

theorem blind_nameComplex (v : Str) : Blind (nameComplex v) (nameComplex v) := by
  refine blind_complex fun a b h => ?_
  have hn : a.name = b.name := by
    have := congrArg ComplexType.name h
    exact this
  rw [hn]
  split
  · exact congrArg (fun z : ComplexType => { z with name := v }) h
  · exact h

theorem blind_setSimpleBase (t t' : Str) : Blind (setSimpleBase t) (setSimpleBase t') :=
  blind_simple (f := fun c => { c with base := t }) (f' := fun c => { c with base := t' }) fun _ _ h => h

theorem blind_nameSimple (v : Str) : Blind (nameSimple v) (nameSimple v) := by
  refine blind_simple fun a b h => ?_
  have hn : a.name = b.name := by
    have := congrArg SimpleType.name h
    exact this
  rw [hn]
  split
  · exact congrArg (fun z : SimpleType => { z with name := v }) h
  · exact h

theorem blind_setList : Blind (fun p => { p with simpleType := Stack.setTop (fun x => { x with list := true }) p.simpleType })
    (fun p => { p with simpleType := Stack.setTop (fun x => { x with list := true }) p.simpleType }) :=
  blind_simple fun _ _ h => congrArg (fun z : SimpleType => { z with list := true }) h

theorem blind_setUnion : Blind (fun p => { p with simpleType := Stack.setTop (fun x => { x with union := true, memberTypes := [] }) p.simpleType })
    (fun p => { p with simpleType := Stack.setTop (fun x => { x with union := true, memberTypes := [] }) p.simpleType }) :=
  blind_simple fun _ _ h => congrArg (fun z : SimpleType => { z with union := true, memberTypes := [] }) h

theorem set_keys (k t t' : Str) : ∀ m m' : GoMap Str, m.map (fun x => (x.1, ([] : Str))) = m'.map (fun x => (x.1, [])) →
    (GoMap.set m k t).map (fun x => (x.1, ([] : Str))) = (GoMap.set m' k t').map (fun x => (x.1, []))
  | [], [], _ => rfl
  | [], _ :: _, h => by cases h
  | _ :: _, [], h => by cases h
  | a :: m, b :: m', h => by
    injection h with h1 h2
    have hk : a.1 = b.1 := by
      have := congrArg Prod.fst h1
      exact this
    have ih := set_keys k t t' m m' h2
    simp only [GoMap.set, hk]
    split
    · simp [h2]
    · simp [hk, ih]

theorem blind_setMember (k t t' : Str) : Blind (setMember k t) (setMember k t') := by
  refine blind_simple (f := fun x => { x with memberTypes := x.memberTypes.set k t }) (f' := fun x => { x with memberTypes := x.memberTypes.set k t' })
    fun a b h => ?_
  have h1 : eraseS { a with memberTypes := a.memberTypes.set k t } = { eraseS a with memberTypes := (GoMap.set a.memberTypes k t).map fun m => (m.1, []) } := rfl
  have h2 : eraseS { b with memberTypes := b.memberTypes.set k t' } = { eraseS b with memberTypes := (GoMap.set b.memberTypes k t').map fun m => (m.1, []) } := rfl
  rw [h1, h2, h, set_keys k t t' _ _ (congrArg SimpleType.memberTypes h)]

theorem blind_placeGroup {g g' : GroupRef} (hg : eraseR g = eraseR g') : Blind? (placeGroup? g) (placeGroup? g') := by
  intro p p' h
  have h0 := h
  have h := parts.1 h
  have hx : eraseR { g with plural := g.plural || p.choicePlural } = eraseR { g' with plural := g'.plural || p'.choicePlural } := by
    rw [choicePlural_eq h]
    exact congrArg (fun z : GroupRef => { z with plural := z.plural || p'.choicePlural }) hg
  unfold placeGroup?
  generalize ({ g with plural := g.plural || p.choicePlural } : GroupRef) = x at hx
  generalize ({ g' with plural := g'.plural || p'.choicePlural } : GroupRef) = x' at hx
  have hn : x.name = x'.name := by
    have := congrArg GroupRef.name hx
    exact this
  dsimp only
  rcases split_map h.complexType with ⟨k, k'⟩ | ⟨c, d, cs, cs', k, k', hc, hcs⟩
  · rw [k, k']
    dsimp only
    by_cases hi : p'.inGroup = 0
    · rw [if_pos (h.inGroup.trans hi), if_pos hi]
      refine congrArg some (parts.2 { h with inGroup := by rw [h.inGroup], currentEle := h.inElement, group := ?_, complexType := rfl })
      simp only [List.map_cons, h.group]
      have := congrArg (fun z : GroupRef => eraseG { name := z.name, plural := z.plural } :: p'.group.map eraseG) hx
      exact this
    rw [if_neg (h.inGroup ▸ hi), if_neg hi]
    by_cases hp : p'.inGroup > 0
    · rw [if_pos (h.inGroup ▸ hp), if_pos hp]
      rcases split_map h.group with ⟨e, e'⟩ | ⟨u, v, r, r', e, e', hu, hr⟩
      · rw [e, e']
      · rw [e, e']
        refine congrArg some (parts.2 { h with inGroup := by rw [h.inGroup], group := ?_, complexType := rfl })
        simp only [List.map_cons, hr]
        have h1 : eraseG { u with groups := u.groups ++ [x] } = { eraseG u with groups := (eraseG u).groups ++ [eraseR x] } := by simp [eraseG]
        have h2 : eraseG { v with groups := v.groups ++ [x'] } = { eraseG v with groups := (eraseG v).groups ++ [eraseR x'] } := by simp [eraseG]
        rw [h1, h2, hu, hx]
    · rw [if_neg (h.inGroup ▸ hp), if_neg hp]
      exact congrArg some h0
  · rw [k, k']
    dsimp only
    have hgs : c.groups.map eraseR = d.groups.map eraseR := congrArg ComplexType.groups hc
    have hin : inGroups x.name c.groups = inGroups x'.name d.groups := by
      have := congrArg (fun l : List GroupRef => l.any fun g => g.name = x'.name) hgs
      simp only [List.any_map] at this
      unfold inGroups
      rw [hn]
      exact this
    rw [hin]
    split
    · exact congrArg some h0
    · refine congrArg some (parts.2 { h with complexType := ?_ })
      simp only [List.map_cons, hcs]
      have h1 : bareC { c with groups := c.groups ++ [x] } = { bareC c with groups := (bareC c).groups ++ [eraseR x] } := by simp [bareC, eraseC]
      have h2 : bareC { d with groups := d.groups ++ [x'] } = { bareC d with groups := (bareC d).groups ++ [eraseR x'] } := by simp [bareC, eraseC]
      rw [h1, h2, hc, hx]

theorem blind_endGroup (name : Str) : Blind (endGroup name) (endGroup name) := by
  intro p p' h
  have h := parts.1 h
  unfold endGroup
  have key : ∀ q q' : PState, Parts q q' → sk (if name = q.currentEle then { q with inGroup := q.inGroup - 1 } else q) =
      sk (if name = q'.currentEle then { q' with inGroup := q'.inGroup - 1 } else q') := by
    intro q q' h
    by_cases e : name = q'.currentEle
    · rw [if_pos (h.currentEle ▸ e), if_pos e]
      exact parts.2 { h with inGroup := by rw [h.inGroup] }
    · rw [if_neg (h.currentEle ▸ e), if_neg e]
      exact parts.2 h
  have hcond : (decide (name = p.currentEle) && decide (p.inGroup = 1)) = (decide (name = p'.currentEle) && decide (p'.inGroup = 1)) := by
    rw [h.currentEle, h.inGroup]
  dsimp only
  by_cases hc : (decide (name = p'.currentEle) && decide (p'.inGroup = 1)) = true
  · rw [if_pos (hcond.trans hc), if_pos hc]
    have := append_parts h (map_heads (g := Node.group) (fun _ => rfl) h.group)
    exact key _ _ { this with group := (head_tail h.group).2.1, currentEle := rfl, inGroup := by rw [h.inGroup] }
  · rw [if_neg (c := (decide (name = p.currentEle) && decide (p.inGroup = 1)) = true) (hcond ▸ hc), if_neg hc]
    exact key _ _ h

theorem blind_restrictionElement : Blind restrictionElement restrictionElement := by
  have key : ∀ p, sk (restrictionElement p) = sk p := by
    intro p
    unfold restrictionElement
    cases e : p.element with
    | nil => rfl
    | cons a r =>
      cases k : p.complexType with
      | nil => rfl
      | cons c cs =>
        refine parts.2 { heap := rfl, proto := rfl, inElement := rfl, currentEle := rfl, inGroup := rfl, inUnion := rfl, inAttributeGroup := rfl,
                         simpleType := rfl, complexType := ?_, element := e.symm, attrSt := rfl, group := rfl, attributeGroup := rfl, choice := rfl }
        rw [k]
        rfl
  intro p p' h
  rw [key, key, h]

theorem blind_onSimpleType (attrs : List Attr) : Blind (onSimpleType attrs) (onSimpleType attrs) := by
  intro p p' h
  have h := parts.1 h
  unfold onSimpleType
  have hst : (if p.simpleType.isEmpty then [{}] else p.simpleType).map eraseS = (if p'.simpleType.isEmpty then [{}] else p'.simpleType).map eraseS := by
    rw [(head_tail h.simpleType).2.2.2]
    split
    · rfl
    · exact h.simpleType
  have := setTop_map (e := eraseS) (f := fun x => { x with name := lastNamed c!"name" attrs x.name })
    (f' := fun x => { x with name := lastNamed c!"name" attrs x.name })
    (fun _ _ h => congrArg (fun z : SimpleType => { z with name := lastNamed c!"name" attrs z.name }) h) hst
  exact parts.2 { h with currentEle := h.inElement, simpleType := this }

theorem blind_popSimpleType : Blind popSimpleType popSimpleType := by
  intro p p' h
  have h := parts.1 h
  exact parts.2 { h with simpleType := (head_tail h.simpleType).2.1 }

theorem blind_clearCurrent : Blind clearCurrent clearCurrent := by
  intro p p' h
  have h := parts.1 h
  exact parts.2 { h with currentEle := rfl }

theorem blind_endSimpleTypeComplex (name : Str) : Blind (endSimpleTypeComplex name) (endSimpleTypeComplex name) := by
  intro p p' h
  have h := parts.1 h
  unfold endSimpleTypeComplex
  have hcond : (decide (name = p.currentEle) && decide (p.complexType.length = 1)) = (decide (name = p'.currentEle) && decide (p'.complexType.length = 1)) := by
    rw [h.currentEle, (head_tail h.complexType).2.2.1]
  by_cases hc : (decide (name = p'.currentEle) && decide (p'.complexType.length = 1)) = true
  · rw [if_pos (hcond.trans hc), if_pos hc]
    have := append_parts h (map_heads (g := Node.complex) (fun _ => rfl) h.complexType)
    exact parts.2 { this with complexType := (head_tail h.complexType).2.1, currentEle := rfl }
  · rw [if_neg (hcond ▸ hc), if_neg hc]
    exact parts.2 h

theorem blind_endSimpleTypeSimple (name : Str) : Blind (endSimpleTypeSimple name) (endSimpleTypeSimple name) := by
  intro p p' h
  have h := parts.1 h
  unfold endSimpleTypeSimple
  have hcond : (decide (name = p.currentEle) && !p.inUnion) = (decide (name = p'.currentEle) && !p'.inUnion) := by
    rw [h.currentEle, h.inUnion]
  by_cases hc : (decide (name = p'.currentEle) && !p'.inUnion) = true
  · rw [if_pos (hcond.trans hc), if_pos hc]
    have := append_parts h (map_heads (g := Node.simple) (fun _ => rfl) h.simpleType)
    exact parts.2 { this with simpleType := (head_tail h.simpleType).2.1, currentEle := rfl }
  · rw [if_neg (hcond ▸ hc), if_neg hc]
    exact parts.2 h

theorem blind_endSimpleType (name : Str) : Blind (endSimpleType name) (endSimpleType name) := by
  intro p p' h
  have h0 := h
  have h := parts.1 h
  have other := blind_endSimpleTypeSimple name _ _ (blind_endSimpleTypeComplex name p p' h0)
  unfold endSimpleType
  rcases split_map h.simpleType with ⟨k, k'⟩ | ⟨c, d, cs, cs', k, k', hc, hcs⟩
  · simp only [k, k']
    exact other
  · rcases split_map h.attrSt with ⟨e, e'⟩ | ⟨x, y, r, r', e, e', hx, hr⟩
    · simp only [k, k', e, e']
      exact other
    · simp only [k, k', e, e']
      exact blind_setAttributeType _ _ _ _ (blind_popSimpleType p p' h0)

theorem blind_endUnion : Blind endUnion endUnion := by
  intro p p' h
  have h0 := h
  have h := parts.1 h
  unfold endUnion
  rw [(head_tail h.simpleType).2.2.2]
  split
  · exact h0
  · exact parts.2 { h with inUnion := rfl }

/-! ## Computations -/

/-- Two parsers side by side: the same apart from types, and with registries as at the start. -/
def Alike (sh0 sh0' : Shared) (s s' : St) : Prop := C40.Like sh0 s.sh ∧ C40.Like sh0' s'.sh ∧ sk s.p = sk s'.p

/-- Outcomes that are alike. -/
def Rel {α : Type} (sh0 sh0' : Shared) (P : α → α → Prop) : Out St α → Out St α → Prop
  | .ok a s, .ok b s' => P a b ∧ Alike sh0 sh0' s s'
  | .err e s, .err e' s' => e = e' ∧ Alike sh0 sh0' s s'
  | .halt e s, .halt e' s' => e = e' ∧ Alike sh0 sh0' s s'
  | _, _ => False

/-- Computations with outcomes that are alike. -/
def Sim {α : Type} (sh0 sh0' : Shared) (P : α → α → Prop) (m m' : Go St α) : Prop := ∀ s s', Alike sh0 sh0' s s' → Rel sh0 sh0' P (m s) (m' s')

/-- Nothing is said of the results. -/
abbrev Any {α : Type} : α → α → Prop := fun _ _ => True

section
variable {sh0 sh0' : Shared} {α β : Type}

theorem Sim.bind {P : α → α → Prop} {Q : β → β → Prop} {m m' : Go St α} {f f' : α → Go St β} (h : Sim sh0 sh0' P m m')
    (hf : ∀ a b, P a b → Sim sh0 sh0' Q (f a) (f' b)) : Sim sh0 sh0' Q (m >>= f) (m' >>= f') := by
  intro s s' hs
  have := h s s' hs
  rw [Go.bind_apply, Go.bind_apply]
  cases e : m s with
  | ok a t => cases e' : m' s' with
    | ok b t' => rw [e, e'] at this; exact hf a b this.1 t t' this.2
    | err => rw [e, e'] at this; exact this.elim
    | halt => rw [e, e'] at this; exact this.elim
  | err x t => cases e' : m' s' with
    | ok b t' => rw [e, e'] at this; exact this.elim
    | err => rw [e, e'] at this; exact this
    | halt => rw [e, e'] at this; exact this
  | halt x t => cases e' : m' s' with
    | ok b t' => rw [e, e'] at this; exact this.elim
    | err => rw [e, e'] at this; exact this
    | halt => rw [e, e'] at this; exact this

theorem Sim.pure {P : α → α → Prop} {a b : α} (h : P a b) : Sim sh0 sh0' P (Pure.pure a) (Pure.pure b) := fun _ _ hs => ⟨h, hs⟩

theorem Sim.throw {P : α → α → Prop} (e : Err) : Sim sh0 sh0' P (Go.throw e) (Go.throw e) := fun _ _ hs => ⟨rfl, hs⟩

theorem Sim.onP {f f' : PState → PState} (h : Blind f f') : Sim sh0 sh0' Any (onP f) (onP f') :=
  fun s s' hs => ⟨trivial, hs.1, hs.2.1, h _ _ hs.2.2⟩

/-- Updates that can panic. -/
theorem Sim.place {f f' : PState → Option PState} (h : Blind? f f') :
    Sim sh0 sh0' Any (fun s => match f s.p with | none => .halt .panic s | some p => .ok () { s with p := p })
      (fun s => match f' s.p with | none => .halt .panic s | some p => .ok () { s with p := p }) := by
  intro s s' hs
  have := h _ _ hs.2.2
  dsimp only
  cases e : f s.p with
  | none => cases e' : f' s'.p with
    | none => exact ⟨rfl, hs⟩
    | some q => rw [e, e'] at this; cases this
  | some q => cases e' : f' s'.p with
    | none => rw [e, e'] at this; cases this
    | some q' =>
      rw [e, e'] at this
      exact ⟨trivial, hs.1, hs.2.1, Option.some.inj this⟩

theorem Sim.forAttrs {R : α → α → Prop} {st st' : α → Attr → Go St α} : ∀ (as : List Attr),
    (∀ a ∈ as, ∀ x y, R x y → Sim sh0 sh0' R (st x a) (st' y a)) → ∀ x y, R x y → Sim sh0 sh0' R (forAttrs st as x) (forAttrs st' as y)
  | [], _, _, _, h => Sim.pure h
  | a :: as, hst, x, y, h => (hst a List.mem_cons_self x y h).bind fun u v huv =>
      Sim.forAttrs as (fun b hb => hst b (List.mem_cons_of_mem _ hb)) u v huv

theorem Sim.weaken {P : α → α → Prop} {Q : α → α → Prop} {m m' : Go St α} (h : Sim sh0 sh0' P m m') (hpq : ∀ a b, P a b → Q a b) : Sim sh0 sh0' Q m m' := by
  intro s s' hs
  have := h s s' hs
  cases e : m s <;> cases e' : m' s' <;> rw [e, e'] at this <;> first | exact ⟨hpq _ _ this.1, this.2⟩ | exact this

/-! ## Handlers -/

/-- Lookups always succeed, change nothing of interest, and give a name for a name. -/
def Quiet (sh0 : Shared) (gvt : Gvt) : Prop :=
  ∃ ref : Tree → Str → Str, Core.Answers (C40.Like sh0) ref gvt ∧ ∀ t v, trimNSPrefix v ≠ [] → ref t v ≠ []

variable {gvt gvt' : Gvt} (hg : Quiet sh0 gvt) (hg' : Quiet sh0' gvt')

include hg hg'

theorem sim_gvt (v v' : Str) : Sim sh0 sh0' (fun r r' => r.2 = none ∧ r'.2 = none ∧ (trimNSPrefix v ≠ [] → r.1 ≠ []) ∧ (trimNSPrefix v' ≠ [] → r'.1 ≠ []))
    (gvt v) (gvt' v') := by
  intro s s' hs
  obtain ⟨ref, ha, hn⟩ := hg
  obtain ⟨ref', ha', hn'⟩ := hg'
  obtain ⟨sh, p⟩ := s
  obtain ⟨sh', p'⟩ := s'
  obtain ⟨x, hx, e⟩ := ha v sh p hs.1
  obtain ⟨x', hx', e'⟩ := ha' v' sh' p' hs.2.1
  rw [e, e']
  exact ⟨⟨rfl, rfl, hn _ _, hn' _ _⟩, hx, hx', hs.2.2⟩

theorem sim_resolve (v v' : Str) : Sim sh0 sh0' (fun t t' => (trimNSPrefix v ≠ [] → t ≠ []) ∧ (trimNSPrefix v' ≠ [] → t' ≠ [])) (resolve gvt v)
    (resolve gvt' v') := by
  refine (sim_gvt hg hg' v v').bind fun r r' h => ?_
  rw [h.1, h.2.1]
  exact (Sim.pure (P := Any) trivial).bind fun _ _ _ => Sim.pure h.2.2

theorem sim_assign (v v' : Str) {set set' : Str → PState → PState} (hset : ∀ t t', Blind (set t) (set' t')) :
    Sim sh0 sh0' Any (assignType gvt v set) (assignType gvt' v' set') := by
  refine (sim_gvt hg hg' v v').bind fun r r' h => ?_
  rw [h.1, h.2.1]
  exact (Sim.onP (hset _ _)).bind fun _ _ _ => Sim.pure trivial

theorem sim_onAttribute (as : List Attr) : Sim sh0 sh0' Any (onAttribute gvt as) (onAttribute gvt' as) := by
  refine (Sim.forAttrs (R := fun x y => eraseA x = eraseA y) as (fun a _ x y h => ?_) _ _ rfl).bind fun x y h => Sim.onP (blind_pushAttribute h)
  unfold onAttributeAttr
  split
  · exact (sim_resolve hg hg' _ _).bind fun t t' _ => Sim.pure (congrArg (fun z : Attribute => { z with name := a.value }) h)
  split
  · exact Sim.pure (congrArg (fun z : Attribute => { z with name := a.value }) h)
  split
  · exact (sim_resolve hg hg' _ _).bind fun t t' _ => Sim.pure h
  split
  · refine Sim.pure ?_
    split
    · exact congrArg (fun z : Attribute => { z with optional := false }) h
    · exact h
  · exact Sim.pure h

theorem sim_onAttributeGroup (as : List Attr) : Sim sh0 sh0' Any (onAttributeGroup gvt as) (onAttributeGroup gvt' as) := by
  refine (Sim.forAttrs (R := fun x y => eraseAG x = eraseAG y) as (fun a _ x y h => ?_) _ _ rfl).bind fun x y h =>
    Sim.onP (blind_placeAttributeGroup h)
  unfold onAttributeGroupAttr
  split
  · exact Sim.pure (congrArg (fun z : AttributeGroup => { z with name := a.value }) h)
  split
  · exact (sim_resolve hg hg' _ _).bind fun t t' _ => Sim.pure (congrArg (fun z : AttributeGroup => { z with name := a.value }) h)
  · exact Sim.pure h

theorem sim_onElement (as : List Attr) (hn : ∀ a ∈ as, a.local ∈ [c!"type", c!"ref"] → trimNSPrefix a.value ≠ []) :
    Sim sh0 sh0' Any (onElement gvt as) (onElement gvt' as) := by
  refine (Sim.forAttrs (R := fun x y => eraseE x = eraseE y ∧ (x.type = [] ↔ y.type = [])) as (fun a ha x y h => ?_) _ _ ⟨rfl, Iff.rfl⟩).bind
    fun x y h => ?_
  · unfold onElementAttr
    have hn := hn a ha
    split
    · rename_i e
      have hn := hn (by rw [e]; decide)
      refine (sim_resolve hg hg' _ _).bind fun t t' ht => Sim.pure ⟨congrArg (fun z : Element => { z with name := a.value }) h.1, ?_⟩
      exact ⟨fun c => absurd c (ht.1 hn), fun c => absurd c (ht.2 hn)⟩
    split
    · exact Sim.pure ⟨congrArg (fun z : Element => { z with name := a.value }) h.1, h.2⟩
    split
    · rename_i e
      have hn := hn (by rw [e]; decide)
      refine (sim_resolve hg hg' _ _).bind fun t t' ht => Sim.pure ⟨h.1, ?_⟩
      exact ⟨fun c => absurd c (ht.1 hn), fun c => absurd c (ht.2 hn)⟩
    split
    · cases maxOccursPlural a.value with
      | none => exact Sim.throw _
      | some b =>
        cases b with
        | false => exact Sim.pure h
        | true => exact Sim.pure ⟨congrArg (fun z : Element => { z with plural := true }) h.1, h.2⟩
    split
    · refine Sim.pure ?_
      split
      · exact ⟨congrArg (fun z : Element => { z with plural := true }) h.1, h.2⟩
      · exact h
    · exact Sim.pure h
  · by_cases e : y.type = []
    · rw [if_pos (h.2.2 e), if_pos e]
      refine (sim_resolve hg hg' _ _).bind fun t t' _ => Sim.onP (blind_placeElement ?_ _)
      exact h.1
    · rw [if_neg (fun c => e (h.2.1 c)), if_neg e]
      exact Sim.onP (blind_placeElement h.1 _)

theorem sim_onGroup (as : List Attr) : Sim sh0 sh0' Any (onGroup gvt as) (onGroup gvt' as) := by
  refine (Sim.forAttrs (R := fun x y => eraseR x = eraseR y) as (fun a _ x y h => ?_) _ _ rfl).bind fun x y h => Sim.place (blind_placeGroup h)
  unfold onGroupAttr
  split
  · exact Sim.pure (congrArg (fun z : GroupRef => { z with name := a.value }) h)
  split
  · exact (sim_resolve hg hg' _ _).bind fun t t' _ => Sim.pure (congrArg (fun z : GroupRef => { z with name := a.value }) h)
  split
  · refine Sim.pure ?_
    split
    · exact congrArg (fun z : GroupRef => { z with plural := true }) h
    · exact h
  · exact Sim.pure h

theorem sim_onExtension (as : List Attr) : Sim sh0 sh0' Any (onExtension gvt as) (onExtension gvt' as) := by
  refine Sim.forAttrs as (fun a _ x y _ => ?_) _ _ trivial
  unfold onExtensionAttr
  split
  · refine (sim_resolve hg hg' _ _).bind fun t t' _ s s' hs => ?_
    change Rel sh0 sh0' Any (match s.p.complexType with
        | [] => .ok () s
        | _ :: _ => (do assignType gvt t setComplexBase; onP (nameComplex a.value)) s)
      (match s'.p.complexType with
        | [] => .ok () s'
        | _ :: _ => (do assignType gvt' t' setComplexBase; onP (nameComplex a.value)) s')
    rcases split_map (parts.1 hs.2.2).complexType with ⟨e, e'⟩ | ⟨c, d, r, r', e, e', _, _⟩
    · rw [e, e']; exact ⟨trivial, hs⟩
    · rw [e, e']
      exact (sim_assign hg hg' _ _ fun t t' => blind_setComplexBase t t').bind (fun _ _ _ => Sim.onP (blind_nameComplex a.value)) s s' hs
  · exact Sim.pure trivial

theorem sim_onRestriction (as : List Attr) : Sim sh0 sh0' Any (onRestriction gvt as) (onRestriction gvt' as) := by
  refine Sim.forAttrs as (fun a _ x y _ => ?_) _ _ trivial
  unfold onRestrictionAttr
  split
  · refine (sim_resolve hg hg' _ _).bind fun t t' _ s s' hs => ?_
    change Rel sh0 sh0' Any (match s.p.simpleType with
        | [] => .ok () s
        | _ :: _ => (do assignType gvt t setSimpleBase; onP (nameSimple a.value)) s)
      (match s'.p.simpleType with
        | [] => .ok () s'
        | _ :: _ => (do assignType gvt' t' setSimpleBase; onP (nameSimple a.value)) s')
    rcases split_map (parts.1 hs.2.2).simpleType with ⟨e, e'⟩ | ⟨c, d, r, r', e, e', _, _⟩
    · rw [e, e']; exact ⟨trivial, hs⟩
    · rw [e, e']
      exact (sim_assign hg hg' _ _ fun t t' => blind_setSimpleBase t t').bind (fun _ _ _ => Sim.onP (blind_nameSimple a.value)) s s' hs
  · exact Sim.pure trivial

theorem sim_onList (as : List Attr) : Sim sh0 sh0' Any (onList gvt as) (onList gvt' as) := by
  intro s s' hs
  unfold onList
  rcases split_map (parts.1 hs.2.2).simpleType with ⟨e, e'⟩ | ⟨c, d, r, r', e, e', _, _⟩
  · rw [e, e']; exact ⟨trivial, hs⟩
  · rw [e, e']
    refine (Sim.onP blind_setList).bind (fun _ _ _ => Sim.forAttrs as (fun a _ x y _ => ?_) _ _ trivial) s s' hs
    unfold onListAttr
    split
    · exact sim_assign hg hg' _ _ fun t t' => blind_setSimpleBase t t'
    · exact Sim.pure trivial

theorem sim_addMembers : ∀ ms : List Str, Sim sh0 sh0' Any (addMembers gvt ms) (addMembers gvt' ms)
  | [] => Sim.pure trivial
  | m :: ms => (sim_assign hg hg' _ _ fun t t' => blind_setMember _ t t').bind fun _ _ _ => sim_addMembers ms

theorem sim_onUnion (as : List Attr) : Sim sh0 sh0' Any (onUnion gvt as) (onUnion gvt' as) := by
  have body : Sim sh0 sh0' Any (fun s => match s.p.simpleType with
        | [] => .ok () s
        | _ :: _ => (do
            onP fun p => { p with simpleType := Stack.setTop (fun x => { x with union := true, memberTypes := [] }) p.simpleType }
            forAttrs (onUnionAttr gvt) as ()) s)
      (fun s => match s.p.simpleType with
        | [] => .ok () s
        | _ :: _ => (do
            onP fun p => { p with simpleType := Stack.setTop (fun x => { x with union := true, memberTypes := [] }) p.simpleType }
            forAttrs (onUnionAttr gvt') as ()) s) := by
    intro s s' hs
    dsimp only
    rcases split_map (parts.1 hs.2.2).simpleType with ⟨e, e'⟩ | ⟨c, d, r, r', e, e', _, _⟩
    · rw [e, e']; exact ⟨trivial, hs⟩
    · rw [e, e']
      refine (Sim.onP blind_setUnion).bind (fun _ _ _ => Sim.forAttrs as (fun a _ x y _ => ?_) _ _ trivial) s s' hs
      unfold onUnionAttr
      split
      · exact sim_addMembers hg hg' _
      · exact Sim.pure trivial
  intro s s' hs
  exact body { s with p := { s.p with inUnion := true } } { s' with p := { s'.p with inUnion := true } }
    ⟨hs.1, hs.2.1, parts.2 { parts.1 hs.2.2 with inUnion := rfl }⟩

theorem sim_popToAttribute : Sim sh0 sh0' Any (popToAttribute gvt) (popToAttribute gvt') := by
  intro s s' hs
  have hp := parts.1 hs.2.2
  unfold popToAttribute
  rcases split_map hp.attrSt with ⟨e, e'⟩ | ⟨x, y, r, r', e, e', _, _⟩
  · simp only [e, e']; exact ⟨trivial, hs⟩
  · rcases split_map hp.simpleType with ⟨k, k'⟩ | ⟨c, d, w, w', k, k', _, _⟩
    · simp only [e, e', k, k']; exact ⟨trivial, hs⟩
    · simp only [e, e', k, k']
      exact (Sim.onP blind_popSimpleType).bind (fun _ _ _ => (sim_assign hg hg' _ _ fun t t' => blind_setAttributeType t t').bind
        fun _ _ _ => Sim.onP blind_clearCurrent) s s' hs

theorem sim_facetEnd : Sim sh0 sh0' Any (facetEnd gvt) (facetEnd gvt') := by
  intro s s' hs
  have hp := parts.1 hs.2.2
  have he := hp.element
  unfold facetEnd
  cases e' : s'.p.element with
  | nil =>
    have e : s.p.element = [] := he.trans e'
    simp only [e]; exact ⟨trivial, hs⟩
  | cons a l =>
    have e : s.p.element = a :: l := he.trans e'
    rcases split_map hp.simpleType with ⟨k, k'⟩ | ⟨c, d, w, w', k, k', _, _⟩
    · simp only [e, k, k']; exact ⟨trivial, hs⟩
    · simp only [e, k, k']
      exact (Sim.onP blind_popSimpleType).bind (fun _ _ _ => (sim_assign hg hg' _ _ fun t t' => blind_setElementType t t').bind
        fun _ _ _ => Sim.onP blind_clearCurrent) s s' hs

theorem sim_endEnumeration : Sim sh0 sh0' Any (endEnumeration gvt) (endEnumeration gvt') := by
  refine Sim.bind (P := Any) (fun s s' hs => ?_) fun _ _ _ s s' hs => ?_
  · have hp := parts.1 hs.2.2
    unfold enumAttribute
    rcases split_map hp.attrSt with ⟨e, e'⟩ | ⟨x, y, r, r', e, e', _, _⟩
    · simp only [e, e']; exact ⟨trivial, hs⟩
    · rcases split_map hp.simpleType with ⟨k, k'⟩ | ⟨c, d, w, w', k, k', _, _⟩
      · simp only [e, e', k, k']; exact ⟨trivial, hs⟩
      · simp only [e, e', k, k']
        exact (sim_assign hg hg' _ _ fun t t' => blind_setAttributeType t t').bind (fun _ _ _ => Sim.onP blind_clearCurrent) s s' hs
  · have hp := parts.1 hs.2.2
    have he := hp.element
    unfold enumElement
    cases e' : s'.p.element with
    | nil =>
      have e : s.p.element = [] := he.trans e'
      simp only [e]; exact ⟨trivial, hs⟩
    | cons a l =>
      have e : s.p.element = a :: l := he.trans e'
      rcases split_map hp.simpleType with ⟨k, k'⟩ | ⟨c, d, w, w', k, k', _, _⟩
      · simp only [e, k, k']; exact ⟨trivial, hs⟩
      · simp only [e, k, k']
        exact (sim_assign hg hg' _ _ fun t t' => blind_setElementType t t').bind (fun _ _ _ => Sim.onP blind_clearCurrent) s s' hs

omit hg hg' in
theorem sim_onChoice (as : List Attr) : Sim sh0 sh0' Any (onChoice as) (onChoice as) := by
  refine (Sim.forAttrs (R := fun x y => x = y) as (fun a _ x y h => ?_) _ _ rfl).bind fun x y h => ?_
  · subst h
    unfold onChoiceAttr
    split
    · cases maxOccursPlural a.value with
      | none => exact Sim.throw _
      | some b => exact Sim.pure rfl
    · exact Sim.pure rfl
  · subst h
    exact Sim.onP (blind_pushChoice x)

omit hg hg' in
theorem sim_onSchema (as : List Attr) : Sim sh0 sh0' Any (onSh (onSchema as)) (onSh (onSchema as)) := by
  have key : ∀ (sh0 : Shared) (as : List Attr) sh, C40.Like sh0 sh → C40.Like sh0 (onSchema as sh) := by
    intro sh0 as
    induction as with
    | nil => exact fun _ h => h
    | cons a as ih =>
      rintro sh ⟨ns, k, rfl⟩
      unfold onSchema
      rw [List.foldl_cons]
      refine ih _ ?_
      dsimp only
      split
      · exact ⟨_, k, rfl⟩
      · exact ⟨ns, k, rfl⟩
  exact fun s s' hs => ⟨trivial, key _ _ _ hs.1, key _ _ _ hs.2.1, hs.2.2⟩

theorem sim_callEnd (n : Str) (k : EndKind) : Sim sh0 sh0' Any (callEnd gvt n k) (callEnd gvt' n k) := by
  cases k with
  | «attribute» => exact Sim.onP blind_endAttribute
  | attributeGroup => exact Sim.onP blind_endAttributeGroup
  | choice => exact Sim.onP blind_endChoice
  | complexType => exact Sim.onP blind_endComplexType
  | element => exact Sim.onP blind_endElement
  | enumeration => exact sim_endEnumeration hg hg'
  | extension => exact sim_popToAttribute hg hg'
  | facet => exact sim_facetEnd hg hg'
  | group => exact Sim.onP (blind_endGroup n)
  | pattern => exact (sim_popToAttribute hg hg').bind fun _ _ _ => sim_facetEnd hg hg'
  | restriction => exact (sim_popToAttribute hg hg').bind fun _ _ _ => Sim.onP blind_restrictionElement
  | simpleType => exact Sim.onP (blind_endSimpleType n)
  | union => exact Sim.onP blind_endUnion

theorem sim_callOn (W : World) (as : List Attr) (k : OnKind) (h1 : k ≠ .import) (h2 : k ≠ .include)
    (h3 : k = .element → ∀ a ∈ as, a.local ∈ [c!"type", c!"ref"] → trimNSPrefix a.value ≠ []) :
    Sim sh0 sh0' Any (callOn W gvt as k) (callOn W gvt' as k) := by
  cases k with
  | «attribute» => exact sim_onAttribute hg hg' as
  | attributeGroup => exact sim_onAttributeGroup hg hg' as
  | charData => exact fun s s' hs => ⟨rfl, hs⟩
  | choice => exact sim_onChoice as
  | complexType => exact Sim.place (blind_onComplexType as)
  | element => exact sim_onElement hg hg' as (h3 rfl)
  | enumeration => exact Sim.onP (blind_enumeration as)
  | extension => exact sim_onExtension hg hg' as
  | group => exact sim_onGroup hg hg' as
  | «import» => exact absurd rfl h1
  | «include» => exact absurd rfl h2
  | list => exact sim_onList hg hg' as
  | restriction => exact sim_onRestriction hg hg' as
  | schema => exact sim_onSchema as
  | simpleType => exact Sim.onP (blind_onSimpleType as)
  | union => exact sim_onUnion hg hg' as

end

section
variable [Uni]

/-- The token loop. -/
theorem sim_run {sh0 sh0' : Shared} {gvt gvt' : Gvt} (hg : Quiet sh0 gvt) (hg' : Quiet sh0' gvt') (W : World) :
    ∀ toks, Closed toks → Sim sh0 sh0' Any (run W gvt toks) (run W gvt' toks)
  | [], _ => Sim.pure trivial
  | t :: ts, hc => by
    refine Sim.bind (P := Any) ?_ fun _ _ _ => sim_run hg hg' W ts fun n as h => hc n as (List.mem_cons_of_mem _ h)
    cases t with
    | start n as =>
      refine (Sim.onP (fun p p' h => ?_)).bind fun _ _ _ => ?_
      · exact parts.2 { parts.1 h with inElement := rfl }
      obtain ⟨h1, h2, h3⟩ := hc n as List.mem_cons_self
      cases e : onKind n with
      | none => exact Sim.pure trivial
      | some k =>
        rw [e] at h1 h2 h3
        exact sim_callOn hg hg' W as k (fun c => h1 (congrArg some c)) (fun c => h2 (congrArg some c)) fun c => h3 (congrArg some c)
    | stop n =>
      show Sim sh0 sh0' Any (match endKind n with | none => pure () | some k => callEnd gvt n k) (match endKind n with | none => pure () | some k => callEnd gvt' n k)
      cases endKind n with
      | none => exact Sim.pure trivial
      | some k => exact sim_callEnd hg hg' n k
    | text s => exact Sim.onP (blind_charData s)
    | other => exact Sim.pure trivial

omit [Uni] in
/-- The trees of states that are alike. -/
theorem contour_freeze {p p' : PState} (h : sk p = sk p') : contour p.freeze = contour p'.freeze := by
  have h := parts.1 h
  have key : ∀ n : Node Nat, bareN eraseE (n.deref p.deref) = (bareN id n).deref (fun a => eraseE (p'.deref a)) := by
    intro n
    cases n with
    | elem a => exact congrArg Node.elem (deref_name h a)
    | _ => rfl
  have key' : ∀ n : Node Nat, bareN eraseE (n.deref p'.deref) = (bareN id n).deref (fun a => eraseE (p'.deref a)) := by
    intro n
    cases n <;> rfl
  unfold contour PState.freeze
  rw [List.map_map, List.map_map]
  have e : ∀ (q : PState), (∀ n : Node Nat, bareN eraseE (n.deref q.deref) = (bareN id n).deref (fun a => eraseE (p'.deref a))) →
      q.proto.map (Option.map (bareN eraseE) ∘ Option.map (Node.deref q.deref)) =
        (q.proto.map (Option.map (bareN id))).map (Option.map (Node.deref fun a => eraseE (p'.deref a))) := by
    intro q hq
    rw [List.map_map]
    refine List.map_congr_left fun o _ => ?_
    cases o with
    | none => rfl
    | some n => exact congrArg some (hq n)
  rw [e p key, e p' key', h.proto]

theorem quiet {W : World} {cfg : Cfg} {sh : Shared} (h : Start W cfg sh) {toks : List Token} (hf : W.fs.get? cfg.filePath = some (.file toks)) (rec : Cfg → Go Shared Tree) (lang pkg : Str) :
    Quiet (beginParse cfg sh) (gvtOf W rec { cfg with lang := lang, package := pkg }) := by
  have ha : C40.Alone W { cfg with lang := lang, package := pkg } (beginParse cfg sh) := by
    refine .inr ⟨?_, ?_, h.url, h.dir toks hf⟩
    · unfold beginParse; rw [h.writes]; exact h.included
    · unfold beginParse; rw [h.writes]; exact h.imported
  refine ⟨_, C40.answers W rec _ _ ha, fun t v hv => ?_⟩
  rw [Names.localPart_eq] at hv
  unfold C40.typeRef
  cases e : getBuildInTypeByLang (Names.localPart v) lang with
  | some b => exact (C70.table_plain e).1
  | none =>
    dsimp only
    cases (t.filterMap C07.declares).find? (fun d => d.1 = Names.localPart v) with
    | none => exact hv
    | some d =>
      simp only [h.writes, Bool.not_false, Bool.and_true, decide_eq_true_eq]
      split
      · exact hv
      · assumption

theorem write_ok {W : World} (hw : Writable W) (lang pkg file : Str) (t : Tree) (sh : Shared) : ∃ sh', generate W lang pkg file t sh = .ok () sh' := by
  have wf : ∀ path content sh, ∃ sh', writeFile W path content sh = .ok () sh' := by
    intro path content sh
    unfold writeFile
    rw [if_pos (hw.1 path)]
    exact ⟨_, rfl⟩
  unfold generate
  split
  · unfold writeGo
    cases e : W.gofmt (goSource pkg t) with
    | none => exact absurd e (hw.2 _)
    | some src => exact wf _ _ _
  split
  · exact wf _ _ _
  split
  · exact wf _ _ _
  split
  · exact wf _ _ _
  split
  · exact wf _ _ _
  · exact ⟨_, rfl⟩

/-- How a parse ends depends neither on the language nor on the package. -/
theorem same_end {W : World} {cfg : Cfg} {sh sh' : Shared} (h : Start W cfg sh) (h' : Start W cfg sh') (hw : Writable W)
    (hc : ∀ toks, W.fs.get? cfg.filePath = some (.file toks) → Closed toks) (lang lang' pkg pkg' : Str) :
    SameEnd (Parse W { cfg with lang := lang, package := pkg } sh) (Parse W { cfg with lang := lang', package := pkg' } sh') := by
  unfold Parse parse parseWith
  dsimp only
  cases hf : W.fs.get? cfg.filePath with
  | none => exact rfl
  | some en => cases en with
    | dir => exact rfl
    | noOpen => exact rfl
    | file toks =>
      dsimp only
      have key := sim_run (quiet h hf (parse W (W.fs.length + 1)) lang pkg) (quiet h' hf (parse W (W.fs.length + 1)) lang' pkg') W toks (hc toks hf)
        ⟨beginParse cfg sh, {}⟩ ⟨beginParse cfg sh', {}⟩ ⟨⟨(beginParse cfg sh).localNS, (beginParse cfg sh).tick, rfl⟩,
          ⟨(beginParse cfg sh').localNS, (beginParse cfg sh').tick, rfl⟩, rfl⟩
      unfold parseOpen
      have b1 : beginParse { cfg with lang := lang, package := pkg } sh = beginParse cfg sh := rfl
      have b2 : beginParse { cfg with lang := lang', package := pkg' } sh' = beginParse cfg sh' := rfl
      rw [b1, b2]
      cases e : run W (gvtOf W (parse W (W.fs.length + 1)) { cfg with lang := lang, package := pkg }) toks ⟨beginParse cfg sh, {}⟩ with
      | err x s =>
        rw [e] at key
        cases e' : run W (gvtOf W (parse W (W.fs.length + 1)) { cfg with lang := lang', package := pkg' }) toks ⟨beginParse cfg sh', {}⟩ with
        | err y s' => rw [e'] at key; exact key.1
        | ok y s' => rw [e'] at key; exact key.elim
        | halt y s' => rw [e'] at key; exact key.elim
      | halt x s =>
        rw [e] at key
        cases e' : run W (gvtOf W (parse W (W.fs.length + 1)) { cfg with lang := lang', package := pkg' }) toks ⟨beginParse cfg sh', {}⟩ with
        | err y s' => rw [e'] at key; exact key.elim
        | ok y s' => rw [e'] at key; exact key.elim
        | halt y s' => rw [e'] at key; exact key.1
      | ok x s =>
        rw [e] at key
        cases e' : run W (gvtOf W (parse W (W.fs.length + 1)) { cfg with lang := lang', package := pkg' }) toks ⟨beginParse cfg sh', {}⟩ with
        | err y s' => rw [e'] at key; exact key.elim
        | halt y s' => rw [e'] at key; exact key.elim
        | ok y s' =>
          rw [e'] at key
          have ht := contour_freeze key.2.2.2
          dsimp only
          unfold finish
          have o1 : outputPath { cfg with lang := lang, package := pkg } = outputPath cfg := rfl
          have o2 : outputPath { cfg with lang := lang', package := pkg' } = outputPath cfg := rfl
          rw [o1, o2]
          simp only [h.writes, Bool.false_eq_true, if_false]
          by_cases hm : W.mkdirOk (pathDir (outputPath cfg)) = true
          · rw [if_pos hm, if_pos hm]
            obtain ⟨u, hu⟩ := write_ok hw lang pkg (outputPath cfg) s.p.freeze (register cfg.filePath s.p.freeze s.sh)
            obtain ⟨u', hu'⟩ := write_ok hw lang' pkg' (outputPath cfg) s'.p.freeze (register cfg.filePath s'.p.freeze s'.sh)
            rw [hu, hu']
            exact ht
          · rw [if_neg hm, if_neg hm]
            exact rfl

/-- A document is accepted for one language exactly if it is accepted for another. -/
theorem accepted {W : World} {cfg : Cfg} {sh : Shared} (h : Start W cfg sh) (hw : Writable W)
    (hc : ∀ toks, W.fs.get? cfg.filePath = some (.file toks) → Closed toks) (lang lang' : Str) :
    (∃ t sh', Parse W { cfg with lang := lang } sh = .ok t sh') ↔ ∃ t sh', Parse W { cfg with lang := lang' } sh = .ok t sh' := by
  have key := same_end h h hw hc lang lang' cfg.package cfg.package
  constructor
  · rintro ⟨t, sh', e⟩
    rw [e] at key
    cases e' : Parse W { cfg with lang := lang' } sh with
    | ok t' s' => exact ⟨t', s', rfl⟩
    | err x s' => rw [e'] at key; exact key.elim
    | halt x s' => rw [e'] at key; exact key.elim
  · rintro ⟨t, sh', e⟩
    rw [e] at key
    cases e' : Parse W { cfg with lang := lang } sh with
    | ok t' s' => exact ⟨t', s', rfl⟩
    | err x s' => rw [e'] at key; exact key.elim
    | halt x s' => rw [e'] at key; exact key.elim

end

/-! ## Examples -/

open C110 (at_)

/-- No schema: a member outside of any type, two members of one name, a restriction in a wrong place, a base that is declared later. -/
def odd : List Token :=
  [ .start c!"attribute" (at_ [("name", "lost"), ("type", "xs:date")]), .stop c!"restriction", .stop c!"attribute",
    .start c!"complexType" (at_ [("name", "T")]),
    .start c!"element" (at_ [("name", "a"), ("type", "xs:short")]), .stop c!"element",
    .start c!"element" (at_ [("name", "a"), ("type", "xs:int")]), .stop c!"element",
    .stop c!"complexType", .stop c!"complexType",
    .start c!"simpleType" (at_ [("name", "S")]), .start c!"restriction" (at_ [("base", "Later")]), .stop c!"union",
    .start c!"enumeration" (at_ [("value", "x")]), .stop c!"enumeration" ]

/-- Worse: a type without a name inside nothing, after a number that is none. -/
def bad (n : String) : List Token :=
  [ .start c!"choice" (at_ [("maxOccurs", n)]), .start c!"complexType" [] ]

theorem start (toks : List Token) (lang : Str) : Start (Ex.world [("a.xsd", toks)]) (C59.doc lang) {} := ⟨rfl, rfl, rfl, rfl, fun _ _ => rfl⟩

/-- A run on one file. -/
def go (toks : List Token) (lang : Str) : Out Shared Tree := @Parse asciiUni (Ex.world [("a.xsd", toks)]) (C59.doc lang) {}

theorem writable (toks : List Token) : Writable (Ex.world [("a.xsd", toks)]) := ⟨fun _ => rfl, fun _ h => by cases h⟩

/-- One tag. -/
def Harmless [Uni] : Token → Prop
  | .start n as => onKind n ≠ some .import ∧ onKind n ≠ some .include ∧
      (onKind n = some .element → ∀ a ∈ as, a.local ∈ [c!"type", c!"ref"] → trimNSPrefix a.value ≠ [])
  | _ => True

instance [Uni] (t : Token) : Decidable (Harmless t) := by
  cases t <;> unfold Harmless <;> infer_instance

theorem closed_of [Uni] {toks : List Token} (h : ∀ t ∈ toks, Harmless t) : Closed toks := fun n as hn => h (.start n as) hn

/-- The premises hold for files without import and include tags. -/
theorem go_alike {toks : List Token} (h : ∀ t ∈ toks, @Harmless asciiUni t) (lang lang' : Str) : SameEnd (go toks lang) (go toks lang') := by
  refine @same_end asciiUni _ (C59.doc lang) {} {} (start toks lang) (start toks lang) (writable toks) (fun ts e => ?_) lang lang' [] []
  have : ts = toks := by
    have e0 : (Ex.world [("a.xsd", toks)]).fs.get? (C59.doc lang).filePath = some (.file toks) := by
      simp [Ex.world, C59.doc, GoMap.get?]
    rw [e0] at e
    injection e with e
    injection e with e
    exact e.symm
  rw [this]
  exact @closed_of asciiUni _ h

example (lang lang' : Str) : SameEnd (go odd lang) (go odd lang') := go_alike (by decide +kernel) lang lang'
example (lang lang' : Str) : SameEnd (go (bad "2") lang) (go (bad "2") lang') := go_alike (by decide +kernel) lang lang'

/-- The kind of end. -/
def verdict : Out Shared Tree → Option (Option Err ⊕ Halt)
  | .ok _ _ => none
  | .err e _ => some (.inl (some e))
  | .halt h _ => some (.inr h)

example : [c!"Go", c!"C", c!"TypeScript"].map (fun l => verdict (go odd l)) = [none, none, none] := by decide +kernel
example : [c!"Go", c!"C", c!"TypeScript"].map (fun l => verdict (go (bad "2") l)) = List.replicate 3 (some (.inr .panic)) := by decide +kernel
example : [c!"Go", c!"C", c!"TypeScript"].map (fun l => verdict (go (bad "two") l)) = List.replicate 3 (some (.inl (some (.atoi c!"two")))) := by
  decide +kernel

/-- The tree of a run. -/
def tree : Out Shared Tree → Tree
  | .ok t _ => t
  | _ => []

/-- The elements of complex types are not part of the claim: they do differ here. -/
theorem elements_differ : contour (tree (go odd c!"Go")) = contour (tree (go odd c!"TypeScript")) ∧
    C110.outline (tree (go odd c!"Go")) ≠ C110.outline (tree (go odd c!"TypeScript")) ∧ (contour (tree (go odd c!"Go"))).length = 3 := by
  decide +kernel

/-- Imports cannot be left out: this schema is accepted for Go and rejected for Java (C111). -/
def importing : List Token :=
  [ .start c!"import" (at_ [("schemaLocation", "b.xsd")]), .stop c!"import",
    .start c!"simpleType" (at_ [("name", "S")]), .start c!"restriction" (at_ [("base", "xs:string")]), .stop c!"restriction", .stop c!"simpleType" ]

theorem imports_matter : ¬ SameEnd (go importing c!"Go") (go importing c!"Java") := by decide +kernel

end Xgen.C112
