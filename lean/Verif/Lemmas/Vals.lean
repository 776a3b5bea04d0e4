import Verif.Lemmas.Rel

/-! # The names and references a document brings into the parser

Every reference the parser asks for is the value of an attribute of the document or an answer it has got before, and every
name it knows is the value of an attribute.  So a resolver matters only on such references. -/

namespace Xgen

/-- The values of a tag: `T` for what may be asked, `N` for what may become a name. -/
def TagVals (T N : Str → Prop) (as : List Attr) : Prop :=
  ∀ a ∈ as, (a.local ∈ [c!"name", c!"ref", c!"type", c!"base", c!"itemType"] → T a.value) ∧
    (a.local = c!"memberTypes" → ∀ m ∈ splitOn ' ' a.value, T m) ∧
    (a.local ∈ [c!"name", c!"ref", c!"base"] → N a.value)

/-- The types (`R`) and names (`N`) in a parser state that can become visible to references. -/
structure Vals (R N : Str → Prop) (p : PState) : Prop where
  heap : ∀ e ∈ p.heap, R e.type ∧ N e.name
  simple : ∀ x ∈ p.simpleType, R x.base ∧ N x.name
  attr : ∀ x ∈ p.attrSt, R x.type ∧ N x.name
  protoSimple : ∀ x, some (Node.simple x) ∈ p.proto → R x.base ∧ N x.name
  protoAttr : ∀ x, some (Node.attr x) ∈ p.proto → R x.type ∧ N x.name

/-- Two computations agree from states with such values and with `I`, and keep both; results satisfy `Q`. -/
def Agree (R N : Str → Prop) (I : Shared → Prop) {α : Type} (Q : α → Prop) (m m' : Go St α) : Prop :=
  ∀ s, Vals R N s.p → I s.sh → m s = m' s ∧ ∀ r s', m' s = .ok r s' → Q r ∧ Vals R N s'.p ∧ I s'.sh

variable {T R N : Str → Prop} {I : Shared → Prop}

namespace Agree
variable {α β : Type} {Q : α → Prop} {Q' : β → Prop}

theorem pure {a : α} (h : Q a) : Agree R N I Q (Pure.pure a) (Pure.pure a) :=
  fun s hv hi => ⟨rfl, fun r s' e => by cases e; exact ⟨h, hv, hi⟩⟩

theorem bind {m m' : Go St α} {f f' : α → Go St β} (h : Agree R N I Q m m') (k : ∀ a, Q a → Agree R N I Q' (f a) (f' a)) :
    Agree R N I Q' (m >>= f) (m' >>= f') := by
  intro s hv hi
  obtain ⟨h1, h2⟩ := h s hv hi
  simp only [Go.bind_apply, h1]
  cases e : m' s with
  | ok r s1 =>
    obtain ⟨a, b, c⟩ := h2 r s1 e
    exact k r a s1 b c
  | err er s1 => exact ⟨rfl, fun r s' e => by cases e⟩
  | halt h s1 => exact ⟨rfl, fun r s' e => by cases e⟩

theorem throw (e : Err) : Agree R N I Q (Go.throw e) (Go.throw e) := fun s _ _ => ⟨rfl, fun r s' e => by cases e⟩

theorem throwOpt (o : Option Err) : Agree R N I (fun _ => True) (Go.throwOpt o) (Go.throwOpt o) := by
  cases o with
  | none => exact pure trivial
  | some e => exact throw e

theorem onP {f : PState → PState} (h : ∀ p, Vals R N p → Vals R N (f p)) : Agree R N I (fun _ => True) (onP f) (onP f) :=
  fun s hv hi => ⟨rfl, fun r s' e => by cases e; exact ⟨trivial, h _ hv, hi⟩⟩

theorem forAttrs {step step' : α → Attr → Go St α} (as : List Attr)
    (h : ∀ acc, ∀ a ∈ as, Q acc → Agree R N I Q (step acc a) (step' acc a)) (acc : α) (hq : Q acc) :
    Agree R N I Q (forAttrs step as acc) (forAttrs step' as acc) := by
  induction as generalizing acc with
  | nil => exact pure hq
  | cons a as ih =>
    exact bind (h acc a (by simp) hq) fun acc' hq' => ih (fun acc b hb => h acc b (by simp [hb])) acc' hq'

end Agree

section
variable {gvt gvt' : Gvt} (hg : ∀ v, T v → Agree R N I (fun r => R r.1) (gvt v) (gvt' v))
include hg

theorem agree_resolve {v : Str} (hv : T v) : Agree R N I R (resolve gvt v) (resolve gvt' v) :=
  (hg v hv).bind fun r hr => (Agree.throwOpt r.2).bind fun _ _ => Agree.pure hr

theorem agree_assign {v : Str} (hv : T v) {set : Str → PState → PState} (h : ∀ t p, R t → Vals R N p → Vals R N (set t p)) :
    Agree R N I (fun _ => True) (assignType gvt v set) (assignType gvt' v set) :=
  (hg v hv).bind fun r hr => (Agree.onP fun p hp => h r.1 p hr hp).bind fun _ _ => Agree.throwOpt r.2

end

/-! ## The updates -/

theorem mem_setTop {α : Type} {f : α → α} {l : List α} {x : α} (h : x ∈ Stack.setTop f l) : (∃ y ∈ l, x = f y) ∨ x ∈ l := by
  cases l with
  | nil => cases h
  | cons a l =>
    rcases List.mem_cons.1 h with rfl | h
    · exact .inl ⟨a, by simp, rfl⟩
    · exact .inr (by simp [h])

theorem Vals.deref {p : PState} (h : Vals R N p) (r : R []) (n : N []) (a : Nat) : R (p.deref a).type ∧ N (p.deref a).name := by
  unfold PState.deref
  cases e : p.heap[a]? with
  | none => exact ⟨r, n⟩
  | some x => exact h.heap x (List.mem_of_getElem? e)

/-- Changing the top of the simple types. -/
theorem Vals.setSimple {p : PState} (h : Vals R N p) {f : SimpleType → SimpleType}
    (hf : ∀ x, R x.base ∧ N x.name → R (f x).base ∧ N (f x).name) :
    Vals R N { p with simpleType := Stack.setTop f p.simpleType } :=
  ⟨h.heap, fun x hx => by
    rcases mem_setTop hx with ⟨y, hy, rfl⟩ | hx
    · exact hf y (h.simple y hy)
    · exact h.simple x hx, h.attr, h.protoSimple, h.protoAttr⟩

theorem Vals.popSimple {p : PState} (h : Vals R N p) : Vals R N (popSimpleType p) :=
  ⟨h.heap, fun x hx => h.simple x (List.mem_of_mem_tail hx), h.attr, h.protoSimple, h.protoAttr⟩

theorem Vals.setAttribute {p : PState} (h : Vals R N p) {t : Str} (ht : R t) : Vals R N (setAttributeType t p) :=
  ⟨h.heap, h.simple, fun x hx => by
    rcases mem_setTop hx with ⟨y, hy, rfl⟩ | hx
    · exact ⟨ht, (h.attr y hy).2⟩
    · exact h.attr x hx, h.protoSimple, h.protoAttr⟩

theorem Vals.modTop {p : PState} (h : Vals R N p) {f : Element → Element} (hf : ∀ e, R e.type ∧ N e.name → R (f e).type ∧ N (f e).name) :
    Vals R N (p.modTopElement f) := by
  unfold PState.modTopElement
  cases p.element with
  | nil => exact h
  | cons a rest =>
    refine ⟨fun e he => ?_, h.simple, h.attr, h.protoSimple, h.protoAttr⟩
    dsimp only at he
    obtain ⟨i, hi⟩ := List.getElem?_of_mem he
    rw [List.getElem?_modify] at hi
    cases e0 : p.heap[i]? with
    | none => rw [e0] at hi; cases hi
    | some x =>
      rw [e0] at hi
      simp only [Option.map_eq_map, Option.map_some, Option.some.injEq] at hi
      have hx := h.heap x (List.mem_of_getElem? e0)
      split at hi
      · rw [← hi]; exact hf x hx
      · rw [← hi]; exact hx

theorem Vals.clear {p : PState} (h : Vals R N p) : Vals R N (clearCurrent p) := ⟨h.heap, h.simple, h.attr, h.protoSimple, h.protoAttr⟩

/-- Appending other components. -/
theorem Vals.append {p : PState} (h : Vals R N p) {n : Option (Node Nat)}
    (hs : ∀ x, n = some (.simple x) → R x.base ∧ N x.name) (ha : ∀ x, n = some (.attr x) → R x.type ∧ N x.name) :
    Vals R N (p.append n) :=
  ⟨h.heap, h.simple, h.attr, fun x hx => by
    rcases List.mem_append.1 hx with hx | hx
    · exact h.protoSimple x hx
    · simp only [List.mem_singleton] at hx; exact hs x hx.symm, fun x hx => by
    rcases List.mem_append.1 hx with hx | hx
    · exact h.protoAttr x hx
    · simp only [List.mem_singleton] at hx; exact ha x hx.symm⟩

theorem Vals.lastNamed {as : List Attr} (h : ∀ a ∈ as, a.local = c!"name" → N a.value) {init : Str} (hi : N init) :
    N (lastNamed c!"name" as init) := by
  unfold Xgen.lastNamed
  induction as generalizing init with
  | nil => exact hi
  | cons a as ih =>
    rw [List.foldl_cons]
    refine ih (fun b hb => h b (by simp [hb])) ?_
    split
    · rename_i e; exact h a (by simp) e
    · exact hi

theorem Vals.charData {p : PState} (h : Vals R N p) (x : Str) : Vals R N (onCharData x p) := by
  unfold onCharData
  split
  · exact h
  · split
    · exact ⟨h.heap, h.simple, h.attr, h.protoSimple, h.protoAttr⟩
    · unfold charDataBelow
      split
      · exact h.modTop fun e he => he
      · split
        · rename_i y rest e
          refine ⟨h.heap, h.simple, fun z hz => ?_, h.protoSimple, h.protoAttr⟩
          rcases List.mem_cons.1 hz with rfl | hz
          · exact h.attr y (by rw [e]; simp)
          · exact h.attr z (by rw [e]; simp [hz])
        · split
          · exact h.setSimple fun x hx => hx
          · split
            · split
              · exact h
              · split
                · exact ⟨h.heap, h.simple, h.attr, h.protoSimple, h.protoAttr⟩
                · exact ⟨h.heap, h.simple, h.attr, h.protoSimple, h.protoAttr⟩
            · exact h

theorem Vals.placeElement {p : PState} (h : Vals R N p) {e : Element} (he : R e.type ∧ N e.name) (b : Bool) :
    Vals R N (placeElement e b p) := by
  have hh : ∀ x ∈ p.heap ++ [{ e with plural := e.plural || p.choicePlural }], R x.type ∧ N x.name := by
    intro x hx
    rcases List.mem_append.1 hx with hx | hx
    · exact h.heap x hx
    · simp only [List.mem_singleton] at hx; subst hx; exact he
  cases b
  all_goals
    simp only [Xgen.placeElement, Bool.false_eq_true, if_true, if_false]
    split
    · exact ⟨hh, h.simple, h.attr, h.protoSimple, h.protoAttr⟩
    · split
      · exact ⟨hh, h.simple, h.attr, h.protoSimple, h.protoAttr⟩
      · exact ⟨hh, h.simple, h.attr, h.protoSimple, h.protoAttr⟩

theorem Vals.enumeration {p : PState} (h : Vals R N p) (as : List Attr) : Vals R N (onEnumeration as p) := by
  unfold onEnumeration
  induction as generalizing p with
  | nil => exact h
  | cons a as ih =>
    rw [List.foldl_cons]
    refine ih ?_
    split
    · exact h.setSimple fun x hx => hx
    · exact h

/-! ## The handlers -/

section
variable {gvt gvt' : Gvt} (hg : ∀ v, T v → Agree R N I (fun r => R r.1) (gvt v) (gvt' v))
variable (hRT : ∀ v, R v → T v) (hR : R []) (hN : N []) (hT : T [])
include hg hRT hR hN hT

theorem agree_popToAttribute : Agree R N I (fun _ => True) (popToAttribute gvt) (popToAttribute gvt') := by
  intro s hv hi
  unfold popToAttribute
  split
  · rename_i x xs y ys e1 e2
    exact ((Agree.onP fun p hp => hp.popSimple).bind fun _ _ => (agree_assign hg
      (hRT _ (hv.simple y (by rw [e2]; simp)).1) fun t p ht hp => hp.setAttribute ht).bind fun _ _ => Agree.onP fun p hp => hp.clear) s hv hi
  · exact ⟨rfl, fun r s' e => by cases e; exact ⟨trivial, hv, hi⟩⟩

theorem agree_facetEnd : Agree R N I (fun _ => True) (facetEnd gvt) (facetEnd gvt') := by
  intro s hv hi
  unfold facetEnd
  split
  · rename_i x xs y ys e1 e2
    exact ((Agree.onP fun p hp => hp.popSimple).bind fun _ _ => (agree_assign hg
      (hRT _ (hv.simple y (by rw [e2]; simp)).1) fun t p ht hp => hp.modTop (f := fun e => { e with type := t }) fun e he => ⟨ht, he.2⟩).bind fun _ _ =>
        Agree.onP fun p hp => hp.clear) s hv hi
  · exact ⟨rfl, fun r s' e => by cases e; exact ⟨trivial, hv, hi⟩⟩

theorem agree_enum : Agree R N I (fun _ => True) (endEnumeration gvt) (endEnumeration gvt') := by
  refine Agree.bind (Q := fun _ => True) (fun s hv hi => ?_) fun _ _ => fun s hv hi => ?_
  · unfold enumAttribute
    split
    · rename_i x xs y ys e1 e2
      exact ((agree_assign hg (hRT _ (hv.simple y (by rw [e2]; simp)).1) fun t p ht hp => hp.setAttribute ht).bind fun _ _ =>
        Agree.onP fun p hp => hp.clear) s hv hi
    · exact ⟨rfl, fun r s' e => by cases e; exact ⟨trivial, hv, hi⟩⟩
  · unfold enumElement
    split
    · rename_i x xs y ys e1 e2
      exact ((agree_assign hg (hRT _ (hv.simple y (by rw [e2]; simp)).1) fun t p ht hp => hp.modTop (f := fun e => { e with type := t }) fun e he => ⟨ht, he.2⟩).bind fun _ _ =>
        Agree.onP fun p hp => hp.clear) s hv hi
    · exact ⟨rfl, fun r s' e => by cases e; exact ⟨trivial, hv, hi⟩⟩

theorem agree_end (name : Str) (k : EndKind) : Agree R N I (fun _ => True) (callEnd gvt name k) (callEnd gvt' name k) := by
  cases k with
  | «attribute» =>
    refine Agree.onP fun p hp => ?_
    unfold endAttribute
    split
    · exact hp
    · rename_i x rest e
      have hx := hp.attr x (by rw [e]; simp)
      have hr : ∀ y ∈ rest, R y.type ∧ N y.name := fun y hy => hp.attr y (by rw [e]; simp [hy])
      dsimp only
      split
      · exact ⟨hp.heap, hp.simple, hr, hp.protoSimple, hp.protoAttr⟩
      · split
        · exact ⟨hp.heap, hp.simple, hr, hp.protoSimple, hp.protoAttr⟩
        · exact Vals.append (p := { p with attrSt := rest }) ⟨hp.heap, hp.simple, hr, hp.protoSimple, hp.protoAttr⟩
            (fun y hy => by cases hy) (fun y hy => by cases hy; exact hx)
  | attributeGroup =>
    refine Agree.onP fun p hp => ?_
    unfold endAttributeGroup
    split
    · exact hp
    · have := hp.append (n := some (.attrGroup ‹_›)) (fun y hy => by cases hy) (fun y hy => by cases hy)
      exact ⟨this.heap, this.simple, this.attr, this.protoSimple, this.protoAttr⟩
  | choice => exact Agree.onP fun p hp => ⟨hp.heap, hp.simple, hp.attr, hp.protoSimple, hp.protoAttr⟩
  | complexType =>
    refine Agree.onP fun p hp => ?_
    unfold endComplexType
    have := hp.append (n := p.complexType.head?.map .complex) (fun y hy => by cases h : p.complexType.head? <;> rw [h] at hy <;> cases hy)
      (fun y hy => by cases h : p.complexType.head? <;> rw [h] at hy <;> cases hy)
    exact ⟨this.heap, this.simple, this.attr, this.protoSimple, this.protoAttr⟩
  | element =>
    refine Agree.onP fun p hp => ?_
    unfold endElement
    split
    · have := hp.append (n := some (.elem ‹_›)) (fun y hy => by cases hy) (fun y hy => by cases hy)
      exact ⟨this.heap, this.simple, this.attr, this.protoSimple, this.protoAttr⟩
    · exact hp
  | enumeration => exact agree_enum hg hRT hR hN hT
  | extension => exact agree_popToAttribute hg hRT hR hN hT
  | facet => exact agree_facetEnd hg hRT hR hN hT
  | group =>
    refine Agree.onP fun p hp => ?_
    have key : ∀ q, Vals R N q → Vals R N (if name = q.currentEle then { q with inGroup := q.inGroup - 1 } else q) := by
      intro q hq
      split
      · exact ⟨hq.heap, hq.simple, hq.attr, hq.protoSimple, hq.protoAttr⟩
      · exact hq
    unfold endGroup
    refine key _ ?_
    split
    · have := hp.append (n := p.group.head?.map .group) (fun y hy => by cases h : p.group.head? <;> rw [h] at hy <;> cases hy)
        (fun y hy => by cases h : p.group.head? <;> rw [h] at hy <;> cases hy)
      exact ⟨this.heap, this.simple, this.attr, this.protoSimple, this.protoAttr⟩
    · exact hp
  | pattern => exact (agree_popToAttribute hg hRT hR hN hT).bind fun _ _ => agree_facetEnd hg hRT hR hN hT
  | restriction =>
    refine (agree_popToAttribute hg hRT hR hN hT).bind fun _ _ => Agree.onP fun p hp => ?_
    unfold restrictionElement
    split
    · exact ⟨hp.heap, hp.simple, hp.attr, hp.protoSimple, hp.protoAttr⟩
    · exact hp
  | simpleType =>
    refine Agree.onP fun p hp => ?_
    unfold endSimpleType
    split
    · rename_i x xs y ys e1 e2
      exact hp.popSimple.setAttribute (hp.simple x (by rw [e1]; simp)).1
    · have h1 : Vals R N (endSimpleTypeComplex name p) := by
        unfold endSimpleTypeComplex
        split
        · have := hp.append (n := p.complexType.head?.map .complex) (fun y hy => by cases h : p.complexType.head? <;> rw [h] at hy <;> cases hy)
            (fun y hy => by cases h : p.complexType.head? <;> rw [h] at hy <;> cases hy)
          exact ⟨this.heap, this.simple, this.attr, this.protoSimple, this.protoAttr⟩
        · exact hp
      revert h1
      generalize endSimpleTypeComplex name p = q
      intro h1
      unfold endSimpleTypeSimple
      split
      · have := h1.append (n := q.simpleType.head?.map .simple) (fun y hy => by
          cases h : q.simpleType with
          | nil => rw [h] at hy; cases hy
          | cons z zs =>
            rw [h] at hy
            cases hy
            exact h1.simple y (by rw [h]; simp))
          (fun y hy => by cases h : q.simpleType.head? <;> rw [h] at hy <;> cases hy)
        exact ⟨this.heap, fun x hx => h1.simple x (List.mem_of_mem_tail hx), this.attr, this.protoSimple, this.protoAttr⟩
      · exact h1
  | union =>
    refine Agree.onP fun p hp => ?_
    unfold endUnion
    split
    · exact hp
    · exact ⟨hp.heap, hp.simple, hp.attr, hp.protoSimple, hp.protoAttr⟩

theorem agree_on (W : World) (as : List Attr) (ha : TagVals T N as) (k : OnKind) (hk : k ≠ .import ∧ k ≠ .include ∧ k ≠ .schema) :
    Agree R N I (fun _ => True) (callOn W gvt as k) (callOn W gvt' as k) := by
  have tv : ∀ a ∈ as, ∀ l, a.local = l → l ∈ [c!"name", c!"ref", c!"type", c!"base", c!"itemType"] → T a.value :=
    fun a h l e hl => (ha a h).1 (e ▸ hl)
  have nv : ∀ a ∈ as, ∀ l, a.local = l → l ∈ [c!"name", c!"ref", c!"base"] → N a.value :=
    fun a h l e hl => (ha a h).2.2 (e ▸ hl)
  cases k with
  | «attribute» =>
    refine (Agree.forAttrs (Q := fun x => R x.type ∧ N x.name) as ?_ _ ⟨hR, hN⟩).bind fun x hx => Agree.onP fun p hp =>
      ⟨hp.heap, hp.simple, fun y hy => ?_, hp.protoSimple, hp.protoAttr⟩
    · intro acc a hm hq
      unfold onAttributeAttr
      split
      · rename_i e
        exact (agree_resolve hg (tv a hm _ e (by decide))).bind fun t ht => Agree.pure ⟨ht, nv a hm _ e (by decide)⟩
      split
      · rename_i e
        exact Agree.pure ⟨hq.1, nv a hm _ e (by decide)⟩
      split
      · rename_i e
        exact (agree_resolve hg (tv a hm _ e (by decide))).bind fun t ht => Agree.pure ⟨ht, hq.2⟩
      split
      · exact Agree.pure (by split <;> exact hq)
      · exact Agree.pure hq
    · rcases List.mem_cons.1 hy with rfl | hy
      · exact hx
      · exact hp.attr y hy
  | attributeGroup =>
    refine (Agree.forAttrs (Q := fun _ => True) as ?_ _ trivial).bind fun x hx => Agree.onP fun p hp => ?_
    · intro acc a hm hq
      unfold onAttributeGroupAttr
      split
      · exact Agree.pure trivial
      split
      · rename_i e
        exact (agree_resolve hg (tv a hm _ e (by decide))).bind fun t ht => Agree.pure trivial
      · exact Agree.pure trivial
    · unfold placeAttributeGroup
      split <;> exact ⟨hp.heap, hp.simple, hp.attr, hp.protoSimple, hp.protoAttr⟩
  | charData => exact fun s _ _ => ⟨rfl, fun r s' e => by cases e⟩
  | choice =>
    refine (Agree.forAttrs (Q := fun _ => True) as ?_ _ trivial).bind fun x hx => Agree.onP fun p hp =>
      ⟨hp.heap, hp.simple, hp.attr, hp.protoSimple, hp.protoAttr⟩
    intro acc a hm hq
    unfold onChoiceAttr
    split
    · split
      · exact Agree.throw _
      · exact Agree.pure trivial
    · exact Agree.pure trivial
  | complexType =>
    intro s hv hi
    refine ⟨rfl, fun r s' e => ?_⟩
    simp only [callOn, onComplexType] at e
    cases h : onComplexType? as s.p with
    | none => rw [h] at e; cases e
    | some p =>
      rw [h] at e
      cases e
      refine ⟨trivial, ?_, hi⟩
      unfold onComplexType? at h
      split at h
      · split at h
        · cases h
        · cases h; exact ⟨hv.heap, hv.simple, hv.attr, hv.protoSimple, hv.protoAttr⟩
      · dsimp only at h
        split at h
        · split at h
          · cases h
          · cases h; exact ⟨hv.heap, hv.simple, hv.attr, hv.protoSimple, hv.protoAttr⟩
        · cases h; exact ⟨hv.heap, hv.simple, hv.attr, hv.protoSimple, hv.protoAttr⟩
  | element =>
    refine (Agree.forAttrs (Q := fun x => R x.type ∧ N x.name ∧ T x.name) as ?_ _ ⟨hR, hN, hT⟩).bind fun x hx => ?_
    · intro acc a hm hq
      unfold onElementAttr
      split
      · rename_i e
        exact (agree_resolve hg (tv a hm _ e (by decide))).bind fun t ht =>
          Agree.pure ⟨ht, nv a hm _ e (by decide), tv a hm _ e (by decide)⟩
      split
      · rename_i e
        exact Agree.pure ⟨hq.1, nv a hm _ e (by decide), tv a hm _ e (by decide)⟩
      split
      · rename_i e
        exact (agree_resolve hg (tv a hm _ e (by decide))).bind fun t ht => Agree.pure ⟨ht, hq.2⟩
      split
      · split
        · exact Agree.throw _
        · exact Agree.pure (by split <;> exact hq)
      split
      · exact Agree.pure (by split <;> exact hq)
      · exact Agree.pure hq
    · split
      · exact (agree_resolve hg hx.2.2).bind fun t ht => Agree.onP fun p hp => hp.placeElement (e := { x with type := t }) ⟨ht, hx.2.1⟩ _
      · exact Agree.onP fun p hp => hp.placeElement ⟨hx.1, hx.2.1⟩ _
  | enumeration => exact Agree.onP fun p hp => hp.enumeration as
  | extension =>
    refine Agree.forAttrs (Q := fun _ => True) as ?_ _ trivial
    intro acc a hm hq
    unfold onExtensionAttr
    split
    · rename_i e
      refine (agree_resolve hg (tv a hm _ e (by decide))).bind fun t ht => fun s hv hi => ?_
      split
      · exact ⟨rfl, fun r s' e => by cases e; exact ⟨trivial, hv, hi⟩⟩
      · exact ((agree_assign hg (hRT t ht) (set := setComplexBase)
          fun t p ht hp => ⟨hp.heap, hp.simple, hp.attr, hp.protoSimple, hp.protoAttr⟩).bind
          fun _ _ => Agree.onP (f := nameComplex a.value) fun p hp => ⟨hp.heap, hp.simple, hp.attr, hp.protoSimple, hp.protoAttr⟩) s hv hi
    · exact Agree.pure trivial
  | group =>
    refine (Agree.forAttrs (Q := fun _ => True) as ?_ _ trivial).bind fun x hx => fun s hv hi => ?_
    · intro acc a hm hq
      unfold onGroupAttr
      split
      · exact Agree.pure trivial
      split
      · rename_i e
        exact (agree_resolve hg (tv a hm _ e (by decide))).bind fun t ht => Agree.pure trivial
      split <;> exact Agree.pure trivial
    · refine ⟨rfl, fun r s' e => ?_⟩
      cases h : placeGroup? x s.p with
      | none => rw [h] at e; cases e
      | some p =>
        rw [h] at e
        cases e
        refine ⟨trivial, ?_, hi⟩
        unfold placeGroup? at h
        dsimp only at h
        split at h
        · split at h <;> cases h
          · exact hv
          · exact ⟨hv.heap, hv.simple, hv.attr, hv.protoSimple, hv.protoAttr⟩
        · split at h
          · cases h; exact ⟨hv.heap, hv.simple, hv.attr, hv.protoSimple, hv.protoAttr⟩
          · split at h
            · split at h
              · cases h
              · cases h; exact ⟨hv.heap, hv.simple, hv.attr, hv.protoSimple, hv.protoAttr⟩
            · cases h; exact hv
  | «import» => exact absurd rfl hk.1
  | «include» => exact absurd rfl hk.2.1
  | list =>
    intro s hv hi
    simp only [callOn, onList]
    split
    · exact ⟨rfl, fun r s' e => by cases e; exact ⟨trivial, hv, hi⟩⟩
    · refine ((Agree.onP (f := fun p => { p with simpleType := Stack.setTop (fun x => { x with list := true }) p.simpleType })
        fun p hp => hp.setSimple fun x hx => hx).bind fun _ _ => Agree.forAttrs (Q := fun _ => True) as ?_ _ trivial) s hv hi
      intro acc a hm hq
      unfold onListAttr
      split
      · rename_i e
        exact agree_assign hg (tv a hm _ e (by decide)) fun t p ht hp => hp.setSimple (f := fun x => { x with base := t }) fun x hx => ⟨ht, hx.2⟩
      · exact Agree.pure trivial
  | restriction =>
    refine Agree.forAttrs (Q := fun _ => True) as ?_ _ trivial
    intro acc a hm hq
    unfold onRestrictionAttr
    split
    · rename_i e
      have hn := nv a hm _ e (by decide)
      refine (agree_resolve hg (tv a hm _ e (by decide))).bind fun t ht => fun s hv hi => ?_
      split
      · exact ⟨rfl, fun r s' e => by cases e; exact ⟨trivial, hv, hi⟩⟩
      · exact ((agree_assign hg (hRT t ht) fun t p ht hp => hp.setSimple (f := fun x => { x with base := t }) fun x hx => ⟨ht, hx.2⟩).bind
          fun _ _ => Agree.onP fun p hp => hp.setSimple (f := fun x => if x.name = [] then { x with name := a.value } else x) fun x hx => by
            split
            · exact ⟨hx.1, hn⟩
            · exact hx) s hv hi
    · exact Agree.pure trivial
  | schema => exact absurd rfl hk.2.2
  | simpleType =>
    refine Agree.onP fun p hp => ?_
    unfold onSimpleType
    have h0 : ∀ x ∈ (if p.simpleType.isEmpty then [{}] else p.simpleType), R x.base ∧ N x.name := by
      intro x hx
      split at hx
      · simp only [List.mem_singleton] at hx; subst hx; exact ⟨hR, hN⟩
      · exact hp.simple x hx
    refine ⟨hp.heap, fun x hx => ?_, hp.attr, hp.protoSimple, hp.protoAttr⟩
    dsimp only at hx
    rcases mem_setTop hx with ⟨y, hy, rfl⟩ | hx
    · exact ⟨(h0 y hy).1, Vals.lastNamed (fun a hm e => nv a hm _ e (by decide)) (h0 y hy).2⟩
    · exact h0 x hx
  | union =>
    intro s hv hi
    simp only [callOn, onUnion]
    have hv' : Vals R N { s.p with inUnion := true } := ⟨hv.heap, hv.simple, hv.attr, hv.protoSimple, hv.protoAttr⟩
    split
    · exact ⟨rfl, fun r s' e => by cases e; exact ⟨trivial, hv', hi⟩⟩
    · refine ((Agree.onP (f := fun p => { p with
          simpleType := Stack.setTop (fun x => { x with union := true, memberTypes := [] }) p.simpleType })
        fun p hp => hp.setSimple fun x hx => hx).bind fun _ _ => Agree.forAttrs (Q := fun _ => True) as ?_ _ trivial)
        { s with p := { s.p with inUnion := true } } hv' hi
      intro acc a hm hq
      unfold onUnionAttr
      split
      · rename_i e
        have hms := (ha a hm).2.1 e
        generalize splitOn ' ' a.value = ms at hms
        induction ms with
        | nil => exact Agree.pure trivial
        | cons m ms ih =>
          exact (agree_assign hg (hms m (by simp)) fun t p ht hp =>
            hp.setSimple (f := fun x => { x with memberTypes := x.memberTypes.set (trimNSPrefix m) t }) fun x hx => hx).bind fun _ _ =>
            ih fun x hx => hms x (by simp [hx])
      · exact Agree.pure trivial

variable [Uni]

theorem agree_step (W : World) (t : Token) (ht : ∀ n as, t = .start n as → TagVals T N as ∧
      ∀ k, onKind n = some k → k ≠ .import ∧ k ≠ .include ∧ k ≠ .schema) :
    Agree R N I (fun _ => True) (step W gvt t) (step W gvt' t) := by
  cases t with
  | start n as =>
    simp only [step]
    refine (Agree.onP (f := fun p => { p with inElement := n })
      fun p hp => ⟨hp.heap, hp.simple, hp.attr, hp.protoSimple, hp.protoAttr⟩).bind fun _ _ => ?_
    cases h : onKind n with
    | none => exact Agree.pure trivial
    | some k => exact agree_on hg hRT hR hN hT W as (ht n as rfl).1 k ((ht n as rfl).2 k h)
  | stop n =>
    simp only [step]
    cases h : endKind n with
    | none => exact Agree.pure trivial
    | some k => exact agree_end hg hRT hR hN hT n k
  | text x => exact Agree.onP fun p hp => hp.charData x
  | other => exact Agree.pure trivial

/-- A run does not depend on the resolver, except for references from the document and earlier answers. -/
theorem agree_run (W : World) (toks : List Token) (ht : ∀ n as, Token.start n as ∈ toks → TagVals T N as ∧
      ∀ k, onKind n = some k → k ≠ .import ∧ k ≠ .include ∧ k ≠ .schema) :
    Agree R N I (fun _ => True) (run W gvt toks) (run W gvt' toks) := by
  induction toks with
  | nil => exact Agree.pure trivial
  | cons t ts ih =>
    exact (agree_step hg hRT hR hN hT W t fun n as e => ht n as (by simp [e])).bind fun _ _ =>
      ih fun n as h => ht n as (by simp [h])

end
end Xgen
