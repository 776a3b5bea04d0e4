import Verif.Lemmas.Vals
import Verif.Lemmas.Clean
import Verif.Lemmas.ParseRel

/-! # Where names and types come from

Every name in the tree of a parser is the value of an attribute of its document, every type is the answer to a reference that is the value of
an attribute, a name, or an earlier answer, and every enumeration value is the value of an attribute. -/

namespace Xgen.Origin

/-- The attributes of a tag: `N` for names, `R` for references, `E` for enumeration values. -/
def TagOk (N R E : Str → Prop) (as : List Attr) : Prop :=
  ∀ a ∈ as, (a.local ∈ [c!"name", c!"ref", c!"base"] → N a.value) ∧ (a.local ∈ [c!"type", c!"itemType"] → R a.value) ∧
    (a.local = c!"memberTypes" → ∀ m ∈ splitOn ' ' a.value, R m ∧ N (trimNSPrefix m)) ∧ (a.local = c!"value" → E a.value)

variable (N R E : Str → Prop)

/-- The names and types of elements, attributes and so on. -/
def El (e : Element) : Prop := N e.name ∧ R e.type

/-- The same for attributes. -/
def At (a : Attribute) : Prop := N a.name ∧ R a.type

/-- The same for attribute groups. -/
def Ag (g : AttributeGroup) : Prop := N g.name ∧ R g.ref ∧ ∀ a ∈ g.attributes, At N R a

/-- The same for references to groups. -/
def Gr (g : GroupRef) : Prop := N g.name ∧ R g.ref

/-- The same for groups. -/
def Gp (g : Group) : Prop := N g.name ∧ R g.ref ∧ (∀ e ∈ g.elements, El N R e) ∧ ∀ r ∈ g.groups, Gr N R r

/-- The same for complex types. -/
def Ct (c : ComplexType) : Prop :=
  N c.name ∧ R c.base ∧ (∀ e ∈ c.elements, El N R e) ∧ (∀ a ∈ c.attributes, At N R a) ∧ (∀ r ∈ c.groups, Gr N R r) ∧
    ∀ g ∈ c.attributeGroup, Ag N R g

/-- The same for simple types. -/
def Sm (x : SimpleType) : Prop := N x.name ∧ R x.base ∧ (∀ m ∈ x.memberTypes, N m.1 ∧ R m.2) ∧ ∀ v ∈ x.enum, E v

/-- The same for the entries of a tree, elements being given by `e`. -/
def Nd {ε : Type} (e : ε → Prop) : Node ε → Prop
  | .simple v => Sm N R E v
  | .attr v => At N R v
  | .elem v => e v
  | .complex v => Ct N R v
  | .group v => Gp N R v
  | .attrGroup v => Ag N R v

/-- The same for trees. -/
def Tr (t : Tree) : Prop := ∀ n, some n ∈ t → Nd N R E (El N R) n

/-- The same for parser states. -/
structure Made (p : PState) : Prop where
  heap : ∀ e ∈ p.heap, El N R e
  simple : ∀ x ∈ p.simpleType, Sm N R E x
  cplx : ∀ x ∈ p.complexType, Ct N R x
  attr : ∀ x ∈ p.attrSt, At N R x
  group : ∀ x ∈ p.group, Gp N R x
  attrGroup : ∀ x ∈ p.attributeGroup, Ag N R x
  proto : ∀ n, some n ∈ p.proto → Nd N R E (fun _ => True) n

/-- The computation keeps this, and `I`; results satisfy `Q`. -/
def Hold (I : Shared → Prop) {α : Type} (Q : α → Prop) (m : Go St α) : Prop :=
  ∀ s, Made N R E s.p → I s.sh → I (m s).state.sh ∧ ∀ r s', m s = .ok r s' → Q r ∧ Made N R E s'.p

variable {N R E} {I : Shared → Prop}

namespace Hold
variable {α β : Type} {Q : α → Prop} {Q' : β → Prop}

theorem pure {a : α} (h : Q a) : Hold N R E I Q (Pure.pure a) := fun s hv hi => ⟨hi, fun r s' e => by cases e; exact ⟨h, hv⟩⟩

theorem ok {a : α} (h : Q a) (s : St) (hv : Made N R E s.p) (hi : I s.sh) :
    I (Out.state (.ok a s : Out St α)).sh ∧ ∀ r s', (.ok a s : Out St α) = .ok r s' → Q r ∧ Made N R E s'.p :=
  ⟨hi, fun r s' e => by cases e; exact ⟨h, hv⟩⟩

theorem bind {m : Go St α} {f : α → Go St β} (h : Hold N R E I Q m) (k : ∀ a, Q a → Hold N R E I Q' (f a)) :
    Hold N R E I Q' (m >>= f) := by
  intro s hv hi
  obtain ⟨h1, h2⟩ := h s hv hi
  simp only [Go.bind_apply]
  cases e : m s with
  | ok r s1 =>
    rw [e] at h1
    obtain ⟨a, b⟩ := h2 r s1 e
    exact k r a s1 b h1
  | err er s1 => rw [e] at h1; exact ⟨h1, fun r s' e => by cases e⟩
  | halt h s1 => rw [e] at h1; exact ⟨h1, fun r s' e => by cases e⟩

theorem throw (e : Err) : Hold N R E I Q (Go.throw e) := fun s _ hi => ⟨hi, fun r s' e => by cases e⟩

theorem throwOpt (o : Option Err) : Hold N R E I (fun _ => True) (Go.throwOpt o) := by
  cases o with
  | none => exact pure trivial
  | some e => exact throw e

theorem onP {f : PState → PState} (h : ∀ p, Made N R E p → Made N R E (f p)) : Hold N R E I (fun _ => True) (onP f) :=
  fun s hv hi => ⟨hi, fun r s' e => by cases e; exact ⟨trivial, h _ hv⟩⟩

theorem onSh {f : Shared → Shared} (h : ∀ sh, I sh → I (f sh)) : Hold N R E I (fun _ => True) (onSh f) :=
  fun s hv hi => ⟨h _ hi, fun r s' e => by cases e; exact ⟨trivial, hv⟩⟩

theorem forAttrs {step : α → Attr → Go St α} (as : List Attr)
    (h : ∀ acc, ∀ a ∈ as, Q acc → Hold N R E I Q (step acc a)) (acc : α) (hq : Q acc) : Hold N R E I Q (forAttrs step as acc) := by
  induction as generalizing acc with
  | nil => exact pure hq
  | cons a as ih => exact bind (h acc a (by simp) hq) fun acc' hq' => ih (fun acc b hb => h acc b (by simp [hb])) acc' hq'

end Hold

section
variable {gvt : Gvt} (hg : ∀ v, R v → Hold N R E I (fun r => R r.1) (gvt v))
include hg

theorem hold_resolve {v : Str} (hv : R v) : Hold N R E I R (resolve gvt v) :=
  (hg v hv).bind fun r hr => (Hold.throwOpt r.2).bind fun _ _ => Hold.pure hr

theorem hold_assign {v : Str} (hv : R v) {set : Str → PState → PState} (h : ∀ t p, R t → Made N R E p → Made N R E (set t p)) :
    Hold N R E I (fun _ => True) (assignType gvt v set) :=
  (hg v hv).bind fun r hr => (Hold.onP fun p hp => h r.1 p hr hp).bind fun _ _ => Hold.throwOpt r.2

end

/-! ## The updates -/

theorem all_setTop {α : Type} {P : α → Prop} {f : α → α} {l : List α} (h : ∀ x ∈ l, P x) (hf : ∀ x, P x → P (f x)) :
    ∀ x ∈ Stack.setTop f l, P x := by
  intro x hx
  rcases mem_setTop hx with ⟨y, hy, rfl⟩ | hx
  · exact hf y (h y hy)
  · exact h x hx

theorem all_tail {α : Type} {P : α → Prop} {l : List α} (h : ∀ x ∈ l, P x) : ∀ x ∈ l.tail, P x := fun x hx => h x (List.mem_of_mem_tail hx)

theorem all_snoc {α : Type} {P : α → Prop} {l : List α} {a : α} (h : ∀ x ∈ l, P x) (ha : P a) : ∀ x ∈ l ++ [a], P x := by
  intro x hx
  rcases List.mem_append.1 hx with hx | hx
  · exact h x hx
  · rw [List.mem_singleton.1 hx]; exact ha

theorem all_cons {α : Type} {P : α → Prop} {l : List α} {a : α} (h : ∀ x ∈ l, P x) (ha : P a) : ∀ x ∈ a :: l, P x := by
  intro x hx
  rcases List.mem_cons.1 hx with rfl | hx
  · exact ha
  · exact h x hx

theorem Made.deref {p : PState} (h : Made N R E p) (r : R []) (n : N []) (a : Nat) : El N R (p.deref a) := by
  unfold PState.deref
  cases e : p.heap[a]? with
  | none => exact ⟨n, r⟩
  | some x => exact h.heap x (List.mem_of_getElem? e)

theorem Made.append {p : PState} (h : Made N R E p) {n : Option (Node Nat)} (hn : ∀ m, n = some m → Nd N R E (fun _ => True) m) :
    Made N R E (p.append n) :=
  have : ∀ m, some m ∈ p.proto ++ [n] → Nd N R E (fun _ => True) m := by
    intro m hm
    rcases List.mem_append.1 hm with hm | hm
    · exact h.proto m hm
    · exact hn m (List.mem_singleton.1 hm).symm
  { h with proto := this }

theorem Made.modTop {p : PState} (h : Made N R E p) {f : Element → Element} (hf : ∀ e, El N R e → El N R (f e)) :
    Made N R E (p.modTopElement f) := by
  unfold PState.modTopElement
  cases p.element with
  | nil => exact h
  | cons a rest =>
    refine { h with heap := fun e he => ?_ }
    dsimp only at he
    obtain ⟨i, hi⟩ := List.getElem?_of_mem he
    rw [List.getElem?_modify] at hi
    cases e0 : p.heap[i]? with
    | none => rw [e0] at hi; cases hi
    | some x =>
      rw [e0] at hi
      simp only [Option.map_eq_map, Option.map_some, Option.some.injEq] at hi
      have hx := h.heap x (List.mem_of_getElem? e0)
      split at hi
      · rw [← hi]; exact hf x hx
      · rw [← hi]; exact hx

theorem Made.setSimple {p : PState} (h : Made N R E p) {f : SimpleType → SimpleType} (hf : ∀ x, Sm N R E x → Sm N R E (f x)) :
    Made N R E { p with simpleType := Stack.setTop f p.simpleType } := { h with simple := all_setTop h.simple hf }

theorem Made.popSimple {p : PState} (h : Made N R E p) : Made N R E (popSimpleType p) := { h with simple := all_tail h.simple }

theorem Made.setAttribute {p : PState} (h : Made N R E p) {t : Str} (ht : R t) : Made N R E (setAttributeType t p) :=
  { h with attr := all_setTop h.attr fun x hx => ⟨hx.1, ht⟩ }

theorem Made.clear {p : PState} (h : Made N R E p) : Made N R E (clearCurrent p) := { h with }

theorem all_lastDoc {doc : Str} {l : List Attribute} (h : ∀ a ∈ l, At N R a) : ∀ a ∈ setLastDoc doc l, At N R a := by
  induction l with
  | nil => exact h
  | cons x l ih =>
    cases l with
    | nil =>
      intro a ha
      rw [show setLastDoc doc [x] = [{ x with doc := doc }] from rfl, List.mem_singleton] at ha
      subst ha
      exact h x (by simp)
    | cons y l => exact all_cons (ih fun a ha => h a (by simp [ha])) (h x (by simp))

theorem Made.charData {p : PState} (h : Made N R E p) (x : Str) : Made N R E (onCharData x p) := by
  unfold onCharData
  split
  · exact h
  · split
    · rename_i _ _ g gs _ e
      refine { h with attrGroup := all_cons (fun y hy => h.attrGroup y (by rw [e]; simp [hy])) ?_ }
      exact h.attrGroup g (by rw [e]; simp)
    · unfold charDataBelow
      split
      · exact h.modTop fun e he => he
      · split
        · rename_i y rest e
          refine { h with attr := all_cons (fun z hz => h.attr z (by rw [e]; simp [hz])) ?_ }
          exact h.attr y (by rw [e]; simp)
        · split
          · exact h.setSimple fun x hx => hx
          · split
            · split
              · exact h
              · rename_i c cs e
                have hc := h.cplx c (by rw [e]; simp)
                have hcs : ∀ y ∈ cs, Ct N R y := fun y hy => h.cplx y (by rw [e]; simp [hy])
                split
                · exact { h with cplx := all_cons hcs hc }
                · exact { h with cplx := all_cons hcs ⟨hc.1, hc.2.1, hc.2.2.1, all_lastDoc hc.2.2.2.1, hc.2.2.2.2⟩ }
            · exact h

theorem find_mem {n : Str} {l : List Element} {x : Element} {i : Nat} (h : findElement n l = some (x, i)) : x ∈ l := by
  induction l generalizing i with
  | nil => cases h
  | cons a l ih =>
    unfold findElement at h
    split at h
    · cases h; simp
    · cases e : findElement n l with
      | none => rw [e] at h; cases h
      | some r =>
        rw [e] at h
        cases h
        exact List.mem_cons_of_mem _ (ih e)

theorem all_merge {e : Element} (he : El N R e) {l : List Element} (h : ∀ x ∈ l, El N R x) : ∀ x ∈ mergeElement e l, El N R x := by
  unfold mergeElement
  split
  · rename_i x i hx
    split
    · intro y hy
      rcases List.mem_or_eq_of_mem_set hy with hy | rfl
      · exact h y hy
      · exact h x (find_mem hx)
    · exact all_snoc h he
  · exact all_snoc h he

theorem Made.placeElement {p : PState} (h : Made N R E p) {e : Element} (he : El N R e) (b : Bool) : Made N R E (placeElement e b p) := by
  have hh : ∀ x ∈ p.heap ++ [{ e with plural := e.plural || p.choicePlural }], El N R x := all_snoc h.heap he
  cases b
  all_goals
    simp only [Xgen.placeElement, Bool.false_eq_true, if_true, if_false]
    split
    · rename_i c cs ec
      have hc := h.cplx c (by rw [ec]; simp)
      exact { h with heap := hh, cplx := all_cons (fun y hy => h.cplx y (by rw [ec]; simp [hy])) ⟨hc.1, hc.2.1, all_merge (N := N) (R := R)
        (e := { e with plural := e.plural || p.choicePlural }) he hc.2.2.1, hc.2.2.2⟩ }
    · split
      · refine { h with heap := hh, group := all_setTop h.group fun g hg => ⟨hg.1, hg.2.1, all_snoc hg.2.2.1 ?_, hg.2.2.2⟩ }
        exact he
      · exact { h with heap := hh }

theorem Made.enumeration {p : PState} (h : Made N R E p) {as : List Attr} (ha : ∀ a ∈ as, a.local = c!"value" → E a.value) :
    Made N R E (onEnumeration as p) := by
  unfold onEnumeration
  induction as generalizing p with
  | nil => exact h
  | cons a as ih =>
    rw [List.foldl_cons]
    refine ih ?_ fun b hb => ha b (by simp [hb])
    split
    · rename_i e
      exact h.setSimple fun x hx => ⟨hx.1, hx.2.1, hx.2.2.1, all_snoc hx.2.2.2 (ha a (by simp) e)⟩
    · exact h

theorem head_node {α : Type} {l : List α} {f : α → Node Nat} {P : α → Prop} (h : ∀ x ∈ l, P x) (hf : ∀ x, P x → Nd N R E (fun _ => True) (f x)) :
    ∀ m, l.head?.map f = some m → Nd N R E (fun _ => True) m := by
  intro m hm
  cases l with
  | nil => cases hm
  | cons a l => cases hm; exact hf a (h a (by simp))

theorem all_set {m : GoMap Str} (h : ∀ x ∈ m, N x.1 ∧ R x.2) {k t : Str} (hk : N k) (ht : R t) : ∀ x ∈ m.set k t, N x.1 ∧ R x.2 := by
  induction m with
  | nil => intro x hx; rw [show GoMap.set [] k t = [(k, t)] from rfl, List.mem_singleton] at hx; subst hx; exact ⟨hk, ht⟩
  | cons a m ih =>
    obtain ⟨k', v⟩ := a
    unfold GoMap.set
    split
    · rename_i e
      exact all_cons (fun x hx => h x (by simp [hx])) ⟨(h (k', v) (by simp)).1, ht⟩
    · exact all_cons (ih fun x hx => h x (by simp [hx])) (h (k', v) (by simp))

theorem all_setLast {x : Element} (hx : El N R x) {l : List Element} (h : ∀ e ∈ l, El N R e) : ∀ e ∈ setLast x l, El N R e := by
  induction l with
  | nil => exact h
  | cons y l ih =>
    cases l with
    | nil => intro e he; rw [show setLast x [y] = [x] from rfl, List.mem_singleton] at he; subst he; exact hx
    | cons z l => exact all_cons (ih fun a ha => h a (by simp [ha])) (h y (by simp))

theorem named {n : Str} (hn : N n) (c : ComplexType) (hc : Ct N R c) : Ct N R (if c.name = [] then { c with name := n } else c) := by
  split
  · exact ⟨hn, hc.2⟩
  · exact hc

/-! ## The handlers -/

section
variable {gvt : Gvt} (hg : ∀ v, R v → Hold N R E I (fun r => R r.1) (gvt v)) (hR : R []) (hN : N []) (hNR : ∀ v, N v → R v)

section
include hg

theorem hold_popToAttribute : Hold N R E I (fun _ => True) (popToAttribute gvt) := by
  intro s hv hi
  unfold popToAttribute
  split
  · rename_i x xs y ys e1 e2
    exact ((Hold.onP fun p hp => hp.popSimple).bind fun _ _ => (hold_assign hg (hv.simple y (by rw [e2]; simp)).2.1
      fun t p ht hp => hp.setAttribute ht).bind fun _ _ => Hold.onP fun p hp => hp.clear) s hv hi
  · exact Hold.ok trivial s hv hi

theorem hold_facetEnd : Hold N R E I (fun _ => True) (facetEnd gvt) := by
  intro s hv hi
  unfold facetEnd
  split
  · rename_i x xs y ys e1 e2
    exact ((Hold.onP fun p hp => hp.popSimple).bind fun _ _ => (hold_assign hg (hv.simple y (by rw [e2]; simp)).2.1
      fun t p ht hp => hp.modTop (f := fun e => { e with type := t }) fun e he => ⟨he.1, ht⟩).bind fun _ _ => Hold.onP fun p hp => hp.clear) s hv hi
  · exact Hold.ok trivial s hv hi

theorem hold_enum : Hold N R E I (fun _ => True) (endEnumeration gvt) := by
  refine Hold.bind (Q := fun _ => True) (fun s hv hi => ?_) fun _ _ => fun s hv hi => ?_
  · unfold enumAttribute
    split
    · rename_i x xs y ys e1 e2
      exact ((hold_assign hg (hv.simple y (by rw [e2]; simp)).2.1 fun t p ht hp => hp.setAttribute ht).bind fun _ _ =>
        Hold.onP fun p hp => hp.clear) s hv hi
    · exact Hold.ok trivial s hv hi
  · unfold enumElement
    split
    · rename_i x xs y ys e1 e2
      exact ((hold_assign hg (hv.simple y (by rw [e2]; simp)).2.1 fun t p ht hp => hp.modTop (f := fun e => { e with type := t })
        fun e he => ⟨he.1, ht⟩).bind fun _ _ => Hold.onP fun p hp => hp.clear) s hv hi
    · exact Hold.ok trivial s hv hi

end

include hg hR hN in
theorem hold_end (name : Str) (k : EndKind) : Hold N R E I (fun _ => True) (callEnd gvt name k) := by
  cases k with
  | «attribute» =>
    refine Hold.onP fun p hp => ?_
    unfold endAttribute
    split
    · exact hp
    · rename_i x rest e
      have hx := hp.attr x (by rw [e]; simp)
      have hr : ∀ y ∈ rest, At N R y := fun y hy => hp.attr y (by rw [e]; simp [hy])
      dsimp only
      split
      · rename_i g gs eg
        have hgg := hp.attrGroup g (by rw [eg]; simp)
        exact { hp with attr := hr, attrGroup := all_cons (fun y hy => hp.attrGroup y (by rw [eg]; simp [hy])) ⟨hgg.1, hgg.2.1, all_snoc hgg.2.2 hx⟩ }
      · split
        · rename_i c cs ec
          have hc := hp.cplx c (by rw [ec]; simp)
          exact { hp with attr := hr, cplx := all_cons (fun y hy => hp.cplx y (by rw [ec]; simp [hy])) ⟨hc.1, hc.2.1, hc.2.2.1,
            all_snoc hc.2.2.2.1 hx, hc.2.2.2.2⟩ }
        · exact Made.append (p := { p with attrSt := rest }) { hp with attr := hr } fun m hm => by cases hm; exact hx
  | attributeGroup =>
    refine Hold.onP fun p hp => ?_
    unfold endAttributeGroup
    split
    · exact hp
    · rename_i g gs eg
      have := hp.append (n := some (.attrGroup g)) fun m hm => by cases hm; exact hp.attrGroup g (by rw [eg]; simp)
      exact { this with attrGroup := fun y hy => hp.attrGroup y (by rw [eg]; simp [show y ∈ gs from hy]) }
  | choice => exact Hold.onP fun p hp => { hp with }
  | complexType =>
    refine Hold.onP fun p hp => ?_
    unfold endComplexType
    have := hp.append (head_node (f := .complex) hp.cplx fun x hx => hx)
    exact { this with cplx := all_tail hp.cplx }
  | element =>
    refine Hold.onP fun p hp => ?_
    unfold endElement
    split
    · have := hp.append (n := some (.elem ‹_›)) fun m hm => by cases hm; trivial
      exact { this with }
    · exact hp
  | enumeration => exact hold_enum hg
  | extension => exact hold_popToAttribute hg
  | facet => exact hold_facetEnd hg
  | group =>
    refine Hold.onP fun p hp => ?_
    have key : ∀ q, Made N R E q → Made N R E (if name = q.currentEle then { q with inGroup := q.inGroup - 1 } else q) := by
      intro q hq
      split
      · exact { hq with }
      · exact hq
    unfold endGroup
    refine key _ ?_
    split
    · have := hp.append (head_node (f := .group) hp.group fun x hx => hx)
      exact { this with group := all_tail hp.group }
    · exact hp
  | pattern => exact (hold_popToAttribute hg).bind fun _ _ => hold_facetEnd hg
  | restriction =>
    refine (hold_popToAttribute hg).bind fun _ _ => Hold.onP fun p hp => ?_
    unfold restrictionElement
    split
    · rename_i a as c cs ea ec
      have hc := hp.cplx c (by rw [ec]; simp)
      exact { hp with cplx := all_cons (fun y hy => hp.cplx y (by rw [ec]; simp [hy])) ⟨hc.1, hc.2.1, all_setLast (hp.deref hR hN a) hc.2.2.1, hc.2.2.2⟩ }
    · exact hp
  | simpleType =>
    refine Hold.onP fun p hp => ?_
    unfold endSimpleType
    split
    · rename_i x xs y ys e1 e2
      exact hp.popSimple.setAttribute (hp.simple x (by rw [e1]; simp)).2.1
    · have h1 : Made N R E (endSimpleTypeComplex name p) := by
        unfold endSimpleTypeComplex
        split
        · have := hp.append (head_node (f := .complex) hp.cplx fun x hx => hx)
          exact { this with cplx := all_tail hp.cplx }
        · exact hp
      revert h1
      generalize endSimpleTypeComplex name p = q
      intro h1
      unfold endSimpleTypeSimple
      split
      · have := h1.append (head_node (f := .simple) h1.simple fun x hx => hx)
        exact { this with simple := all_tail h1.simple }
      · exact h1
  | union =>
    refine Hold.onP fun p hp => ?_
    unfold endUnion
    split
    · exact hp
    · exact { hp with }

include hg hR hN hNR in
theorem hold_on (W : World) (as : List Attr) (ha : TagOk N R E as) (k : OnKind)
    (hi1 : ∀ sh, I sh → I (onImport W.isURL as sh)) (hi2 : ∀ sh, I sh → I (onInclude as sh)) (hi3 : ∀ sh, I sh → I (onSchema as sh)) :
    Hold N R E I (fun _ => True) (callOn W gvt as k) := by
  have nv : ∀ a ∈ as, ∀ l, a.local = l → l ∈ [c!"name", c!"ref", c!"base"] → N a.value := fun a h l e hl => (ha a h).1 (e ▸ hl)
  have tv : ∀ a ∈ as, ∀ l, a.local = l → l ∈ [c!"type", c!"itemType"] → R a.value := fun a h l e hl => (ha a h).2.1 (e ▸ hl)
  cases k with
  | «attribute» =>
    refine (Hold.forAttrs (Q := fun x => At N R x) as ?_ _ ⟨hN, hR⟩).bind fun x hx => Hold.onP fun p hp => { hp with attr := all_cons hp.attr hx }
    intro acc a hm hq
    unfold onAttributeAttr
    split
    · rename_i e
      have hn := nv a hm _ e (by decide)
      exact (hold_resolve hg (hNR _ hn)).bind fun t ht => Hold.pure ⟨hn, ht⟩
    split
    · rename_i e
      exact Hold.pure ⟨nv a hm _ e (by decide), hq.2⟩
    split
    · rename_i e
      exact (hold_resolve hg (tv a hm _ e (by decide))).bind fun t ht => Hold.pure ⟨hq.1, ht⟩
    split
    · exact Hold.pure (by split <;> exact hq)
    · exact Hold.pure hq
  | attributeGroup =>
    refine (Hold.forAttrs (Q := fun x => Ag N R x) as ?_ _ ⟨hN, hR, by intro _ h; cases h⟩).bind fun x hx => Hold.onP fun p hp => ?_
    · intro acc a hm hq
      unfold onAttributeGroupAttr
      split
      · rename_i e
        exact Hold.pure ⟨nv a hm _ e (by decide), hq.2⟩
      split
      · rename_i e
        have hn := nv a hm _ e (by decide)
        exact (hold_resolve hg (hNR _ hn)).bind fun t ht => Hold.pure ⟨hn, ht, hq.2.2⟩
      · exact Hold.pure hq
    · unfold placeAttributeGroup
      split
      · exact { hp with attrGroup := all_cons hp.attrGroup hx }
      · rename_i c cs ec
        have hc := hp.cplx c (by rw [ec]; simp)
        exact { hp with cplx := all_cons (fun y hy => hp.cplx y (by rw [ec]; simp [hy])) ⟨hc.1, hc.2.1, hc.2.2.1, hc.2.2.2.1, hc.2.2.2.2.1,
          all_snoc hc.2.2.2.2.2 hx⟩ }
  | charData => exact fun s _ hi => ⟨hi, fun r s' e => by cases e⟩
  | choice =>
    refine (Hold.forAttrs (Q := fun _ => True) as ?_ _ trivial).bind fun x hx => Hold.onP fun p hp => { hp with }
    intro acc a hm hq
    unfold onChoiceAttr
    split
    · split
      · exact Hold.throw _
      · exact Hold.pure trivial
    · exact Hold.pure trivial
  | complexType =>
    intro s hv hi
    have key : ∀ p, onComplexType? as s.p = some p → Made N R E p := by
      have hc : ∀ n, N n → Ct N R { name := n } := fun n hn => ⟨hn, hR, nofun, nofun, nofun,
        nofun⟩
      intro p h
      unfold onComplexType? at h
      split at h
      · split at h
        · cases h
        · rename_i ec a rest ea
          cases h
          exact { hv with cplx := all_cons hv.cplx (hc _ (hv.deref hR hN a).1) }
      · dsimp only at h
        split at h
        · split at h
          · cases h
          · rename_i a rest ea
            cases h
            exact { hv with cplx := all_cons (nofun) (hc _ (hv.deref hR hN a).1) }
        · cases h
          exact { hv with cplx := all_cons (nofun) (hc _ (Vals.lastNamed (fun a hm e => nv a hm _ e (by decide)) hN)) }
    simp only [callOn, onComplexType]
    cases h : onComplexType? as s.p with
    | none => exact ⟨hi, fun r s' e => by cases e⟩
    | some p => exact ⟨hi, fun r s' e => by cases e; exact ⟨trivial, key p h⟩⟩
  | element =>
    refine (Hold.forAttrs (Q := fun x => El N R x) as ?_ _ ⟨hN, hR⟩).bind fun x hx => ?_
    · intro acc a hm hq
      unfold onElementAttr
      split
      · rename_i e
        have hn := nv a hm _ e (by decide)
        exact (hold_resolve hg (hNR _ hn)).bind fun t ht => Hold.pure ⟨hn, ht⟩
      split
      · rename_i e
        exact Hold.pure ⟨nv a hm _ e (by decide), hq.2⟩
      split
      · rename_i e
        exact (hold_resolve hg (tv a hm _ e (by decide))).bind fun t ht => Hold.pure ⟨hq.1, ht⟩
      split
      · split
        · exact Hold.throw _
        · exact Hold.pure (by split <;> exact hq)
      split
      · exact Hold.pure (by split <;> exact hq)
      · exact Hold.pure hq
    · split
      · exact (hold_resolve hg (hNR _ hx.1)).bind fun t ht => Hold.onP fun p hp => hp.placeElement (e := { x with type := t }) ⟨hx.1, ht⟩ _
      · exact Hold.onP fun p hp => hp.placeElement hx _
  | enumeration => exact Hold.onP fun p hp => hp.enumeration fun a hm => (ha a hm).2.2.2
  | extension =>
    refine Hold.forAttrs (Q := fun _ => True) as ?_ _ trivial
    intro acc a hm hq
    unfold onExtensionAttr
    split
    · rename_i e
      have hn := nv a hm _ e (by decide)
      refine (hold_resolve hg (hNR _ hn)).bind fun t ht => fun s hv hi => ?_
      split
      · exact Hold.ok trivial s hv hi
      · exact ((hold_assign hg ht (set := setComplexBase) fun t p ht hp =>
          { hp with cplx := all_setTop hp.cplx fun c hc => ⟨hc.1, ht, hc.2.2⟩ }).bind
          fun _ _ => Hold.onP (f := nameComplex a.value) fun p hp => { hp with cplx := all_setTop hp.cplx (named hn) }) s hv hi
    · exact Hold.pure trivial
  | group =>
    refine (Hold.forAttrs (Q := fun x => Gr N R x) as ?_ _ ⟨hN, hR⟩).bind fun x hx => fun s hv hi => ?_
    · intro acc a hm hq
      unfold onGroupAttr
      split
      · rename_i e
        exact Hold.pure ⟨nv a hm _ e (by decide), hq.2⟩
      split
      · rename_i e
        have hn := nv a hm _ e (by decide)
        exact (hold_resolve hg (hNR _ hn)).bind fun t ht => Hold.pure ⟨hn, ht⟩
      split
      · exact Hold.pure (by split <;> exact hq)
      · exact Hold.pure hq
    · have key : ∀ p, placeGroup? x s.p = some p → Made N R E p := by
        intro p h
        unfold placeGroup? at h
        dsimp only at h
        split at h
        · rename_i c cs ec
          have hc := hv.cplx c (by rw [ec]; simp)
          split at h <;> cases h
          · exact hv
          · refine { hv with cplx := all_cons (fun y hy => hv.cplx y (by rw [ec]; simp [hy])) ⟨hc.1, hc.2.1, hc.2.2.1, hc.2.2.2.1,
              all_snoc hc.2.2.2.2.1 ?_, hc.2.2.2.2.2⟩ }
            exact hx
        · split at h
          · cases h
            exact { hv with group := all_cons hv.group ⟨hx.1, hx.2, nofun, nofun⟩ }
          · split at h
            · split at h
              · cases h
              · rename_i y ys ey
                cases h
                have hy := hv.group y (by rw [ey]; simp)
                refine { hv with group := all_cons (fun z hz => hv.group z (by rw [ey]; simp [hz])) ⟨hy.1, hy.2.1, hy.2.2.1, all_snoc hy.2.2.2 ?_⟩ }
                exact hx
            · cases h; exact hv
      cases h : placeGroup? x s.p with
      | none => exact ⟨hi, fun r s' e => by cases e⟩
      | some p => exact ⟨hi, fun r s' e => by cases e; exact ⟨trivial, key p h⟩⟩
  | «import» => exact Hold.onSh hi1
  | «include» => exact Hold.onSh hi2
  | list =>
    intro s hv hi
    simp only [callOn, onList]
    split
    · exact Hold.ok trivial s hv hi
    · refine ((Hold.onP (f := fun p => { p with simpleType := Stack.setTop (fun x => { x with list := true }) p.simpleType })
        fun p hp => hp.setSimple fun x hx => hx).bind fun _ _ => Hold.forAttrs (Q := fun _ => True) as ?_ _ trivial) s hv hi
      intro acc a hm hq
      unfold onListAttr
      split
      · rename_i e
        exact hold_assign hg (tv a hm _ e (by decide)) fun t p ht hp => hp.setSimple (f := fun x => { x with base := t }) fun x hx => ⟨hx.1, ht, hx.2.2⟩
      · exact Hold.pure trivial
  | restriction =>
    refine Hold.forAttrs (Q := fun _ => True) as ?_ _ trivial
    intro acc a hm hq
    unfold onRestrictionAttr
    split
    · rename_i e
      have hn := nv a hm _ e (by decide)
      refine (hold_resolve hg (hNR _ hn)).bind fun t ht => fun s hv hi => ?_
      split
      · exact Hold.ok trivial s hv hi
      · exact ((hold_assign hg ht fun t p ht hp => hp.setSimple (f := fun x => { x with base := t }) fun x hx => ⟨hx.1, ht, hx.2.2⟩).bind
          fun _ _ => Hold.onP fun p hp => hp.setSimple (f := fun x => if x.name = [] then { x with name := a.value } else x) fun x hx => by
            split
            · exact ⟨hn, hx.2⟩
            · exact hx) s hv hi
    · exact Hold.pure trivial
  | schema => exact Hold.onSh hi3
  | simpleType =>
    refine Hold.onP fun p hp => ?_
    unfold onSimpleType
    have h0 : ∀ x ∈ (if p.simpleType.isEmpty then [{}] else p.simpleType), Sm N R E x := by
      intro x hx
      split at hx
      · simp only [List.mem_singleton] at hx; subst hx; exact ⟨hN, hR, nofun, nofun⟩
      · exact hp.simple x hx
    exact { hp with simple := all_setTop h0 fun x hx => ⟨Vals.lastNamed (fun a hm e => nv a hm _ e (by decide)) hx.1, hx.2⟩ }
  | union =>
    intro s hv hi
    simp only [callOn, onUnion]
    have hv' : Made N R E { s.p with inUnion := true } := { hv with }
    split
    · exact Hold.ok trivial { s with p := { s.p with inUnion := true } } hv' hi
    · refine ((Hold.onP (f := fun p => { p with
          simpleType := Stack.setTop (fun x => { x with union := true, memberTypes := [] }) p.simpleType })
        fun p hp => hp.setSimple fun x hx => ⟨hx.1, hx.2.1, nofun, hx.2.2.2⟩).bind fun _ _ =>
          Hold.forAttrs (Q := fun _ => True) as ?_ _ trivial) { s with p := { s.p with inUnion := true } } hv' hi
      intro acc a hm hq
      unfold onUnionAttr
      split
      · rename_i e
        have hms := (ha a hm).2.2.1 e
        generalize splitOn ' ' a.value = ms at hms
        induction ms with
        | nil => exact Hold.pure trivial
        | cons m ms ih =>
          exact (hold_assign hg (hms m (by simp)).1 fun t p ht hp =>
            hp.setSimple (f := fun x => { x with memberTypes := x.memberTypes.set (trimNSPrefix m) t }) fun x hx =>
              ⟨hx.1, hx.2.1, all_set hx.2.2.1 (hms m (by simp)).2 ht, hx.2.2.2⟩).bind fun _ _ => ih fun x hx => hms x (by simp [hx])
      · exact Hold.pure trivial

variable [Uni]

include hg hR hN hNR in
/-- A run of the parser. -/
theorem hold_run (W : World) (toks : List Token) (ht : ∀ n as, Token.start n as ∈ toks → onKind n ≠ none → TagOk N R E as)
    (hi1 : ∀ as sh, I sh → I (onImport W.isURL as sh)) (hi2 : ∀ as sh, I sh → I (onInclude as sh)) (hi3 : ∀ as sh, I sh → I (onSchema as sh)) :
    Hold N R E I (fun _ => True) (run W gvt toks) := by
  induction toks with
  | nil => exact Hold.pure trivial
  | cons t ts ih =>
    refine Hold.bind (Q := fun _ => True) ?_ fun _ _ => ih fun n as h => ht n as (by simp [h])
    cases t with
    | start n as =>
      simp only [step]
      refine (Hold.onP (f := fun p => { p with inElement := n }) fun p hp => { hp with }).bind fun _ _ => ?_
      cases h : onKind n with
      | none => exact Hold.pure trivial
      | some k => exact hold_on hg hR hN hNR W as (ht n as (by simp) (by rw [h]; simp)) k (hi1 as) (hi2 as) (hi3 as)
    | stop n =>
      simp only [step]
      cases h : endKind n with
      | none => exact Hold.pure trivial
      | some k => exact hold_end hg hR hN n k
    | text x => exact Hold.onP fun p hp => hp.charData x
    | other => exact Hold.pure trivial

end

theorem made_init : Made N R E ({} : PState) := by
  constructor <;> intros <;> simp_all

/-- The tree of a parser state. -/
theorem Made.tree {p : PState} (h : Made N R E p) (hR : R []) (hN : N []) : Tr N R E p.freeze := by
  intro n hn
  unfold PState.freeze at hn
  obtain ⟨o, ho, e⟩ := List.mem_map.1 hn
  cases o with
  | none => cases e
  | some m =>
    injection e with e
    subst e
    have := h.proto m ho
    cases m with
    | elem a => exact h.deref hR hN a
    | _ => exact this

/-! ## Resolving references -/

variable (N R) in
/-- What is demanded of names and references. -/
structure Rules (lang : Str) : Prop where
  name : N []
  ref : R []
  asRef : ∀ v, N v → R v
  trim : ∀ v, R v → R (trimNSPrefix v)
  builtin : ∀ v t, getBuildInTypeByLang v lang = some t → R t

theorem Tr.base {t : Tree} (h : Tr N R E t) {n : Str} (hn : R n) : R (getBasefromSimpleType n t) := by
  rcases resolve_cases t n with e | e
  · rw [e]; exact hn
  · generalize getBasefromSimpleType n t = r at e
    unfold treeTypes at e
    obtain ⟨o, ho, e⟩ := List.mem_filterMap.1 e
    cases o with
    | none => cases e
    | some m =>
      have := h m ho
      cases m <;> cases e
      · exact this.2.1
      · exact this.2
      · exact this.2

variable (N R E) in
/-- What is known of the shared state: the trees kept are made of what is in the files, and the outputs satisfy `O`. -/
structure Kept (O : Str × Str → Prop) (sh : Shared) : Prop where
  trees : ∀ x ∈ sh.parseFileMap, Tr N R E x.2
  outputs : ∀ x ∈ sh.outputs, O x

variable {O : Str × Str → Prop}

/-- The shared state stays so, and results satisfy `Q`. -/
def Fair (N R E : Str → Prop) (O : Str × Str → Prop) {α : Type} (Q : α → Prop) (r : Out Shared α) : Prop :=
  Kept N R E O r.state ∧ ∀ a sh, r = .ok a sh → Q a

theorem Fair.ok {α : Type} {Q : α → Prop} {a : α} {sh : Shared} (h : Kept N R E O sh) (hq : Q a) : Fair N R E O Q (.ok a sh) :=
  ⟨h, fun _ _ e => by cases e; exact hq⟩

theorem Fair.err {α : Type} {Q : α → Prop} {e : Err} {sh : Shared} (h : Kept N R E O sh) : Fair N R E O Q (.err e sh : Out Shared α) :=
  ⟨h, fun _ _ e => by cases e⟩

theorem Fair.halt {α : Type} {Q : α → Prop} {e : Halt} {sh : Shared} (h : Kept N R E O sh) : Fair N R E O Q (.halt e sh : Out Shared α) :=
  ⟨h, fun _ _ e => by cases e⟩

theorem all_register {m : GoMap Tree} {P : Tree → Prop} (h : ∀ x ∈ m, P x.2) {k : Str} {t : Tree} (ht : P t) : ∀ x ∈ m.set k t, P x.2 := by
  induction m with
  | nil => intro x hx; rw [show GoMap.set [] k t = [(k, t)] from rfl, List.mem_singleton] at hx; subst hx; exact ht
  | cons a m ih =>
    obtain ⟨k', v⟩ := a
    unfold GoMap.set
    split
    · exact all_cons (fun x hx => h x (by simp [hx])) ht
    · exact all_cons (ih fun x hx => h x (by simp [hx])) (h (k', v) (by simp))

theorem get_mem {α : Type} {m : GoMap α} {k : Str} {v : α} (h : m.get? k = some v) : (k, v) ∈ m := by
  induction m with
  | nil => cases h
  | cons a m ih =>
    obtain ⟨k', w⟩ := a
    unfold GoMap.get? at h
    split at h
    · rename_i e
      cases h
      rw [e]
      simp
    · exact List.mem_cons_of_mem _ (ih h)

section
variable [Uni] {W : World} {rec : Cfg → Go Shared Tree} {L : Str} (hr : Rules N R L)
  (hrec : ∀ cfg : Cfg, cfg.lang = L → cfg.package = [] → Tr N R E cfg.tree0 → ∀ sh, Kept N R E O sh → Fair N R E O (Tr N R E) (rec cfg sh))
include hr hrec

omit hr in
theorem nested (cfg : Cfg) (hl : cfg.lang = L) (path : Str) (x : Bool) (sh : Shared) (h : Kept N R E O sh) :
    Fair N R E O (Tr N R E) (rec (nestedCfg cfg path x) sh) :=
  hrec (nestedCfg cfg path x) hl rfl (by intro n h; cases h) sh h

theorem fair_loop (cfg : Cfg) (hl : cfg.lang = L) (name : Str) (hn : R name) (init : List Str) (k : Nat) :
    ∀ visited vt, R vt → ∀ sh, Kept N R E O sh → Fair N R E O R (includeLoop W rec cfg name init k visited vt sh) := by
  induction k with
  | zero => exact fun _ _ _ sh h => Fair.halt h
  | succ k ih =>
    intro visited vt hv sh h
    have h' : Kept N R E O { sh with tick := sh.tick + 1 } := ⟨h.trees, h.outputs⟩
    unfold includeLoop
    dsimp only
    cases nextKey W init visited sh with
    | none => exact Fair.ok h' (by split <;> assumption)
    | some inc =>
      have := nested hrec cfg hl (pathJoin cfg.fileDir inc) true { sh with tick := sh.tick + 1 } h'
      dsimp only
      cases e : rec (nestedCfg cfg (pathJoin cfg.fileDir inc) true) { sh with tick := sh.tick + 1 } with
      | halt x s => rw [e] at this; exact Fair.halt this.1
      | err x s => rw [e] at this; exact Fair.ok this.1 hv
      | ok t s =>
        rw [e] at this
        refine ih _ _ ?_ s this.1
        split
        · exact (this.2 t s rfl).base hn
        · exact hv

theorem fair_dep (cfg : Cfg) (hl : cfg.lang = L) (name : Str) (hn : R name) (file : Str) (dep : Tree) (hd : Tr N R E dep) (sh : Shared)
    (h : Kept N R E O sh) : Fair N R E O (fun r => R r.1) (resolveInDep rec cfg name file dep sh) := by
  unfold resolveInDep
  dsimp only
  split
  · exact Fair.ok h (hd.base hn)
  · have := nested hrec cfg hl file true sh h
    cases e : rec (nestedCfg cfg file true) sh with
    | halt x s => rw [e] at this; exact Fair.halt this.1
    | err x s => rw [e] at this; exact Fair.ok this.1 (hd.base hn)
    | ok t s => rw [e] at this; exact Fair.ok this.1 ((this.2 t s rfl).base hn)

theorem fair_file (cfg : Cfg) (hl : cfg.lang = L) (name : Str) (hn : R name) (vt : Str) (hv : R vt) (file : Str) (sh : Shared)
    (h : Kept N R E O sh) : Fair N R E O (fun r => R r.1) (resolveInFile rec cfg name vt file sh) := by
  unfold resolveInFile
  cases hd : sh.parseFileMap.get? file with
  | some dep => exact fair_dep hr hrec cfg hl name hn file dep (h.trees _ (get_mem hd)) sh h
  | none =>
    have := nested hrec cfg hl file false sh h
    dsimp only
    cases e : rec (nestedCfg cfg file false) sh with
    | halt x s => rw [e] at this; exact Fair.halt this.1
    | err x s => rw [e] at this; exact Fair.ok this.1 hv
    | ok t s => rw [e] at this; exact fair_dep hr hrec cfg hl name hn file t (this.2 t s rfl) s this.1

theorem fair_value (cfg : Cfg) (hl : cfg.lang = L) (v : Str) (hv : R v) (t : Tree) (ht : Tr N R E t) (sh : Shared)
    (h : Kept N R E O sh) : Fair N R E O (fun r => R r.1) (getValueType W rec cfg v t sh) := by
  have hn := hr.trim v hv
  have hb := ht.base hn
  unfold getValueType
  dsimp only
  cases e : getBuildInTypeByLang (trimNSPrefix v) cfg.lang with
  | some b => exact Fair.ok h (hr.builtin _ _ (hl ▸ e))
  | none =>
    dsimp only
    split
    · exact Fair.ok h hb
    split
    · exact Fair.ok h hb
    unfold resolveOutside
    dsimp only
    split
    · exact Fair.ok h hb
    cases W.fs.get? (pathJoin cfg.fileDir (sh.nsLoc.getStr (sh.localNS.getStr (getNSPrefix v)))) with
    | none => exact Fair.ok h hb
    | some en =>
      cases en with
      | dir =>
        have := fair_loop (W := W) hr hrec cfg hl (trimNSPrefix v) hn sh.includeMap.keys (sh.includeMap.length + W.size + 1) [] [] hr.ref sh h
        dsimp only
        cases e : includeLoop W rec cfg (trimNSPrefix v) sh.includeMap.keys (sh.includeMap.length + W.size + 1) [] [] sh with
        | halt x s => rw [e] at this; exact Fair.halt this.1
        | err x s => rw [e] at this; exact Fair.err this.1
        | ok t s => rw [e] at this; exact Fair.ok this.1 (this.2 t s rfl)
      | noOpen => exact fair_file hr hrec cfg hl _ hn _ hb _ sh h
      | file toks => exact fair_file hr hrec cfg hl _ hn _ hb _ sh h

theorem hold_gvt (cfg : Cfg) (hl : cfg.lang = L) (v : Str) (hv : R v) : Hold N R E (Kept N R E O) (fun r => R r.1) (gvtOf W rec cfg v) := by
  intro s hp hs
  have := fair_value (W := W) hr hrec cfg hl v hv s.p.freeze (hp.tree hr.ref hr.name) s.sh hs
  unfold gvtOf
  cases e : getValueType W rec cfg v s.p.freeze s.sh with
  | halt x sh => rw [e] at this; exact ⟨this.1, fun r s' e => by cases e⟩
  | err x sh => rw [e] at this; exact ⟨this.1, fun r s' e => by cases e⟩
  | ok r sh => rw [e] at this; exact ⟨this.1, fun r' s' e => by cases e; exact ⟨this.2 r sh rfl, hp⟩⟩

end

/-! ## Parsing -/

section
variable [Uni]

/-- The texts the generators write for trees made of what is in the files satisfy `O`. -/
def Written (W : World) (N R E : Str → Prop) (X : Tree → Prop) (O : Str × Str → Prop) (L pkg : Str) : Prop :=
  ∀ file t sh, Tr N R E t → X t → Kept N R E O sh → Kept N R E O (generate W L pkg file t sh).state

/-- `X` holds of the tree of every file, whatever references are resolved to. -/
def Ends (W : World) (X : Tree → Prop) : Prop :=
  ∀ path toks, W.fs.get? path = some (.file toks) → ∀ rec cfg sh r s, run W (gvtOf W rec cfg) toks { sh := sh, p := {} } = .ok r s → X s.p.freeze

theorem Kept.register {sh : Shared} (h : Kept N R E O sh) (path : Str) {t : Tree} (ht : Tr N R E t) : Kept N R E O (register path t sh) :=
  ⟨all_register h.trees ht, h.outputs⟩

theorem fair_finish {X : Tree → Prop} (W : World) (cfg : Cfg) (hw : Written W N R E X O cfg.lang cfg.package) (t : Tree) (ht : Tr N R E t) (hx : X t) (sh : Shared)
    (h : Kept N R E O sh) : Fair N R E O (Tr N R E) (finish W cfg t sh) := by
  unfold finish
  split
  · exact Fair.ok h ht
  dsimp only
  split
  · have := hw (outputPath cfg) t _ ht hx (h.register cfg.filePath ht)
    cases e : generate W cfg.lang cfg.package (outputPath cfg) t (Xgen.register cfg.filePath t sh) with
    | halt x s => rw [e] at this; exact Fair.halt this
    | err x s => rw [e] at this; exact Fair.err this
    | ok r s => rw [e] at this; exact Fair.ok this ht
  · exact Fair.halt (h.register cfg.filePath ht)

theorem fair_with {X : Tree → Prop} (W : World) (hX : Ends W X) {rec : Cfg → Go Shared Tree} {L : Str} (hr : Rules N R L)
    (hrec : ∀ cfg : Cfg, cfg.lang = L → cfg.package = [] → Tr N R E cfg.tree0 → ∀ sh, Kept N R E O sh → Fair N R E O (Tr N R E) (rec cfg sh))
    (hf : ∀ path toks, W.fs.get? path = some (.file toks) → ∀ n as, Token.start n as ∈ toks → onKind n ≠ none → TagOk N R E as)
    (cfg : Cfg) (hl : cfg.lang = L) (hw : Written W N R E X O L cfg.package) (ht : Tr N R E cfg.tree0) (sh : Shared) (h : Kept N R E O sh) :
    Fair N R E O (Tr N R E) (parseWith W rec cfg sh) := by
  unfold parseWith
  cases e : W.fs.get? cfg.filePath with
  | none => exact Fair.err h
  | some en =>
    cases en with
    | dir => exact Fair.ok h ht
    | noOpen => exact Fair.err h
    | file toks =>
      have hb : Kept N R E O (beginParse cfg sh) := by
        unfold beginParse
        dsimp only
        split
        · exact ⟨h.trees, h.outputs⟩
        · exact Kept.register (sh := { sh with log := sh.log ++ [(cfg.filePath, cfg.extract)] }) ⟨h.trees, h.outputs⟩ _ ht
      have hrun := hold_run (I := Kept N R E O) (hold_gvt (W := W) hr hrec cfg hl) hr.ref hr.name hr.asRef W toks (hf _ toks e)
        (fun as sh h => ⟨by rw [(onImport_frame W.isURL as sh).1]; exact h.trees, by rw [(onImport_frame W.isURL as sh).2.2.2.2.1]; exact h.outputs⟩)
        (fun as sh h => ⟨by rw [(onInclude_frame as sh).1]; exact h.trees, by rw [(onInclude_frame as sh).2.2.2.2.1]; exact h.outputs⟩)
        (fun as sh h => ⟨by rw [(onSchema_frame as sh).1]; exact h.trees, by rw [(onSchema_frame as sh).2.2.2.2.1]; exact h.outputs⟩)
        { sh := beginParse cfg sh, p := {} } made_init hb
      show Fair N R E O (Tr N R E) (parseOpen W rec cfg toks sh)
      unfold parseOpen
      cases e' : run W (gvtOf W rec cfg) toks { sh := beginParse cfg sh, p := {} } with
      | halt x s => rw [e'] at hrun; exact Fair.halt hrun.1
      | err x s => rw [e'] at hrun; exact Fair.err hrun.1
      | ok r s =>
        rw [e'] at hrun
        exact fair_finish W cfg (hl ▸ hw) _ ((hrun.2 r s rfl).2.tree hr.ref hr.name) (hX _ toks e _ _ _ r s e') s.sh hrun.1

theorem fair_parse {X : Tree → Prop} (W : World) (hX : Ends W X) {L : Str} (hr : Rules N R L)
    (hf : ∀ path toks, W.fs.get? path = some (.file toks) → ∀ n as, Token.start n as ∈ toks → onKind n ≠ none → TagOk N R E as)
    (hw : Written W N R E X O L []) (n : Nat) (cfg : Cfg) (hl : cfg.lang = L) (hp : Written W N R E X O L cfg.package) (ht : Tr N R E cfg.tree0)
    (sh : Shared) (h : Kept N R E O sh) : Fair N R E O (Tr N R E) (parse W n cfg sh) := by
  induction n generalizing cfg sh with
  | zero => exact Fair.halt h
  | succ n ih => exact fair_with W hX hr (fun c hl he ht sh h => ih c hl (he ▸ hw) ht sh h) hf cfg hl hp ht sh h

end

end Xgen.Origin
