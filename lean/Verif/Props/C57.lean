import Verif.Lemmas.Inv
import Verif.Props.C31

/-! # C57: text influences nothing but documentation, for whole documents

C31 is about one piece of text.  Here: whatever follows, a document with all its text and the same document without any text are
parsed alike, up to documentation. -/

namespace Xgen.C57
open C31
variable [Uni]

/-! ## Specification -/

/-- Everything but text. -/
def isTag : Token → Bool
  | .text _ => false
  | _ => true

/-- A document without its text. -/
def noText (toks : List Token) : List Token := toks.filter isTag

/-- A tree entry without documentation; `f` deletes that of an element. -/
def noDocNode {ε : Type} (f : ε → ε) : Node ε → Node ε
  | .simple v => .simple (noDocS v)
  | .attr v => .attr (noDocA v)
  | .elem v => .elem (f v)
  | .complex v => .complex (noDocC v)
  | .group v => .group (noDocG v)
  | .attrGroup v => .attrGroup (noDocAG v)

/-- A tree without any documentation. -/
def bare (t : Tree) : Tree := t.map (Option.map (noDocNode noDocE))

/-- The parser state without any documentation. -/
def erase (p : PState) : PState := { noDoc p with proto := p.proto.map (Option.map (noDocNode id)) }

/-- Related (here: equal) shared states, and equal parser states up to documentation. -/
def Alike (R : Shared → Shared → Prop) (s t : St) : Prop := R s.sh t.sh ∧ erase s.p = erase t.p

/-- Equal results or errors in alike states. -/
def OutAlike (R : Shared → Shared → Prop) {α : Type} : Out St α → Out St α → Prop
  | .ok a s, .ok b t => a = b ∧ Alike R s t
  | .err a s, .err b t => a = b ∧ Alike R s t
  | .halt a s, .halt b t => a = b ∧ Alike R s t
  | _, _ => False

/-- The reading of import, include and schema tags respects the relation. -/
structure Respects (R : Shared → Shared → Prop) (isURL : Str → Bool) : Prop where
  import' : ∀ as a b, R a b → R (onImport isURL as a) (onImport isURL as b)
  include' : ∀ as a b, R a b → R (onInclude as a) (onInclude as b)
  schema' : ∀ as a b, R a b → R (onSchema as a) (onSchema as b)

/-! ## The relation is respected by all handlers -/

/-- Alike states lead to alike outcomes. -/
def Same (R : Shared → Shared → Prop) {α : Type} (m m' : Go St α) : Prop := ∀ s t, Alike R s t → OutAlike R (m s) (m' t)

variable {R : Shared → Shared → Prop}

omit [Uni] in
theorem noDocE_idem (e : Element) : noDocE (noDocE e) = noDocE e := rfl

omit [Uni] in
theorem view_erase (p : PState) : view (erase p) = view p := by
  obtain ⟨heap, proto, inE, cur, inG, inU, inAG, st, ct, el, ats, gr, ags, ch⟩ := p
  unfold view erase noDoc
  dsimp only
  cases st <;> cases ct <;> cases ats <;> rfl

omit [Uni] in
theorem deref_erase (p : PState) (a : Nat) : (erase p).deref a = noDocE (p.deref a) := by
  show ((p.heap.map noDocE)[a]?).getD {} = noDocE ((p.heap[a]?).getD {})
  rw [List.getElem?_map]
  cases p.heap[a]? <;> rfl

omit [Uni] in
theorem freeze_erase (p : PState) : (erase p).freeze = bare p.freeze := by
  unfold PState.freeze bare
  show (p.proto.map (Option.map (noDocNode id))).map _ = _
  rw [List.map_map, List.map_map]
  apply List.map_congr_left
  intro n _
  cases n with
  | none => rfl
  | some n =>
    cases n with
    | elem a =>
      simp only [Function.comp, Option.map_some, Node.deref, noDocNode, id]
      rw [deref_erase]
    | _ => rfl

omit [Uni] in
theorem same_closed {gvt gvt' : Gvt} (hg : ∀ v, Same R (gvt v) (gvt' v)) : Closed (Same R) gvt gvt' := Closed.ofGvt {
  pure a := fun _ _ h => ⟨rfl, h⟩
  bind := by
    intro α β m m' f f' hm hf s t h
    have h1 := hm s t h
    simp only [Go.bind_apply]
    revert h1
    cases m s <;> cases m' t <;> intro h1
    case ok.ok a s1 b t1 =>
      obtain ⟨rfl, h2⟩ := h1
      exact hf a s1 t1 h2
    case err.err => exact h1
    case halt.halt => exact h1
    all_goals exact h1.elim
  throw e := fun _ _ h => ⟨rfl, h⟩
  read := by
    intro α m m' hk s t h
    obtain ⟨k, k', hkk, he⟩ := hk (view s.p)
    rw [(he s rfl).1, (he t (by rw [← view_erase s.p, h.2, view_erase])).2]
    exact hkk s t h
  gvt := hg }

omit [Uni] in
theorem same_onP {f : PState → PState} (f' : PState → PState) (h : ∀ p, erase (f p) = f' (erase p)) : Same R (onP f) (onP f) := by
  intro s t hst
  refine ⟨rfl, hst.1, ?_⟩
  show erase (f s.p) = erase (f t.p)
  rw [h s.p, h t.p, hst.2]

omit [Uni] in
theorem same_onP? {f : PState → Option PState} (f' : PState → Option PState) (h : ∀ p, (f p).map erase = f' (erase p)) :
    Same R (onP? f) (onP? f) := by
  intro s t hst
  have h1 : (f s.p).map erase = (f t.p).map erase := by rw [h s.p, h t.p, hst.2]
  unfold onP?
  revert h1
  cases f s.p <;> cases f t.p <;> intro h1
  · exact ⟨rfl, hst⟩
  · cases h1
  · cases h1
  · injection h1 with h1
    exact ⟨rfl, hst.1, h1⟩

omit [Uni] in
theorem same_onSh {f : Shared → Shared} (hf : ∀ a b, R a b → R (f a) (f b)) : Same R (onSh f) (onSh f) := fun _ _ hst =>
  ⟨rfl, hf _ _ hst.1, hst.2⟩

omit [Uni] in
theorem setTop_map {α : Type} {g f f' : α → α} (h : ∀ x, g (f x) = f' (g x)) (s : Stack α) :
    (Stack.setTop f s).map g = Stack.setTop f' (s.map g) := by
  cases s with
  | nil => rfl
  | cons x xs => simp [Stack.setTop, h]

omit [Uni] in
theorem modify_map {α : Type} {g f f' : α → α} (h : ∀ x, g (f x) = f' (g x)) (l : List α) (a : Nat) :
    (l.modify a f).map g = (l.map g).modify a f' := by
  induction l generalizing a with
  | nil => simp
  | cons x xs ih => cases a <;> simp [h, ih]

omit [Uni] in
theorem modTop_erase {f f' : Element → Element} (h : ∀ x, noDocE (f x) = f' (noDocE x)) (p : PState) :
    erase (p.modTopElement f) = (erase p).modTopElement f' := by
  obtain ⟨heap, proto, inE, cur, inG, inU, inAG, st, ct, el, ats, gr, ags, ch⟩ := p
  cases el with
  | nil => rfl
  | cons a as =>
    refine congrArg (fun l => ({ erase ⟨heap, proto, inE, cur, inG, inU, inAG, st, ct, a :: as, ats, gr, ags, ch⟩ with heap := l } : PState)) ?_
    exact modify_map h _ _

omit [Uni] in
theorem findElement_map (n : Str) (es : List Element) :
    findElement n (es.map noDocE) = (findElement n es).map fun r => (noDocE r.1, r.2) := by
  induction es with
  | nil => rfl
  | cons e es ih =>
    simp only [List.map_cons, findElement, show (noDocE e).name = e.name from rfl]
    split
    · rfl
    · rw [ih]
      cases findElement n es <;> rfl

omit [Uni] in
theorem merge_map (e : Element) (es : List Element) :
    (mergeElement e es).map noDocE = mergeElement (noDocE e) (es.map noDocE) := by
  unfold mergeElement
  rw [show (noDocE e).name = e.name from rfl, findElement_map]
  cases findElement e.name es with
  | none => simp
  | some r =>
    obtain ⟨x, i⟩ := r
    simp only [Option.map_some, show (noDocE x).type = x.type from rfl, show (noDocE e).type = e.type from rfl]
    split
    · rw [List.map_set]
      rfl
    · simp

omit [Uni] in
theorem setLast_map (e : Element) (es : List Element) : (setLast e es).map noDocE = setLast (noDocE e) (es.map noDocE) := by
  induction es with
  | nil => rfl
  | cons x xs ih =>
    cases xs with
    | nil => rfl
    | cons y ys => simp only [setLast, List.map_cons] at ih ⊢; rw [ih]

omit [Uni] in
theorem append_erase (p : PState) (n : Option (Node Nat)) :
    erase (p.append n) = (erase p).append (n.map (noDocNode id)) := by
  unfold PState.append
  refine congrArg (fun l => ({ noDoc p with proto := l } : PState)) ?_
  show (p.proto ++ [n]).map _ = p.proto.map _ ++ [_]
  simp

omit [Uni] in
theorem same_on {k : OnKind} {f : PState → PState} (hf : OnPrim k f) : Same R (onP f) (onP f) := by
  cases hf with
  | pushAttribute x => exact same_onP (fun p => { p with attrSt := noDocA x :: p.attrSt }) fun p => rfl
  | placeAttributeGroup x =>
    refine same_onP (placeAttributeGroup (noDocAG x)) fun p => ?_
    obtain ⟨heap, proto, inE, cur, inG, inU, inAG, st, ct, el, ats, gr, ags, ch⟩ := p
    cases ct with
    | nil => rfl
    | cons c cs => simp [placeAttributeGroup, erase, noDoc, noDocC]
  | pushChoice x => exact same_onP (fun p => { p with choice := { plural := x.plural || p.choicePlural } :: p.choice }) fun p => rfl
  | placeElement e b =>
    refine same_onP (placeElement (noDocE e) b) fun p => ?_
    obtain ⟨heap, proto, inE, cur, inG, inU, inAG, st, ct, el, ats, gr, ags, ch⟩ := p
    unfold placeElement
    have hm : ∀ es : List Element, (mergeElement { e with plural := e.plural || PState.choicePlural { choice := ch } } es).map noDocE =
        mergeElement { noDocE e with plural := e.plural || PState.choicePlural { choice := ch } } (es.map noDocE) := fun es => merge_map _ es
    have hg : ∀ (e : Element) (g : List Group), (Stack.setTop (fun g => { g with elements := g.elements ++ [e] }) g).map noDocG =
        Stack.setTop (fun g => { g with elements := g.elements ++ [noDocE e] }) (g.map noDocG) :=
      fun e g => setTop_map (fun x => by simp [noDocG]) g
    cases b <;> cases ct with
    | nil =>
      dsimp only [Bool.false_eq_true, if_false, if_true, erase, noDoc, List.map_nil]
      by_cases h : inG > 0
      · simp only [Bool.false_eq_true, if_false, if_true, if_pos h, hg]
        simp [PState.choicePlural, noDocE]
      · simp only [Bool.false_eq_true, if_false, if_true, if_neg h]
        simp [PState.choicePlural, noDocE]
    | cons c cs =>
      simp [erase, noDoc, noDocC]
      exact ⟨rfl, hm _⟩
  | enumeration as =>
    refine same_onP (onEnumeration as) fun p => ?_
    unfold onEnumeration
    induction as generalizing p with
    | nil => rfl
    | cons a as ih =>
      rw [List.foldl_cons, List.foldl_cons, ih]
      congr 1
      split
      · refine congrArg (fun l => ({ erase p with simpleType := l } : PState)) ?_
        refine setTop_map (g := noDocS) (fun _ => ?_) _
        rfl
      · rfl
  | setComplexBase t =>
    refine same_onP (setComplexBase t) fun p => ?_
    refine congrArg (fun l => ({ erase p with complexType := l } : PState)) ?_
    refine setTop_map (g := noDocC) (fun _ => ?_) _
    rfl
  | nameComplex v =>
    refine same_onP (nameComplex v) fun p => ?_
    refine congrArg (fun l => ({ erase p with complexType := l } : PState)) ?_
    refine setTop_map (g := noDocC) (fun c => ?_) _
    show _ = if c.name = [] then _ else _
    split <;> rfl
  | setList =>
    refine same_onP (fun p => { p with simpleType := Stack.setTop (fun x => { x with list := true }) p.simpleType }) fun p => ?_
    refine congrArg (fun l => ({ erase p with simpleType := l } : PState)) ?_
    refine setTop_map (g := noDocS) (fun _ => ?_) _
    rfl
  | setListBase t =>
    refine same_onP (setSimpleBase t) fun p => ?_
    refine congrArg (fun l => ({ erase p with simpleType := l } : PState)) ?_
    refine setTop_map (g := noDocS) (fun _ => ?_) _
    rfl
  | setSimpleBase t =>
    refine same_onP (setSimpleBase t) fun p => ?_
    refine congrArg (fun l => ({ erase p with simpleType := l } : PState)) ?_
    refine setTop_map (g := noDocS) (fun _ => ?_) _
    rfl
  | nameSimple v =>
    refine same_onP (nameSimple v) fun p => ?_
    refine congrArg (fun l => ({ erase p with simpleType := l } : PState)) ?_
    refine setTop_map (g := noDocS) (fun c => ?_) _
    show _ = if c.name = [] then _ else _
    split <;> rfl
  | simpleType as =>
    refine same_onP (onSimpleType as) fun p => ?_
    obtain ⟨heap, proto, inE, cur, inG, inU, inAG, st, ct, el, ats, gr, ags, ch⟩ := p
    cases st <;> rfl
  | setInUnion => exact same_onP (fun p => { p with inUnion := true }) fun p => rfl
  | setUnion =>
    refine same_onP (fun p => { p with
      simpleType := Stack.setTop (fun x => { x with union := true, memberTypes := [] }) p.simpleType }) fun p => ?_
    refine congrArg (fun l => ({ erase p with simpleType := l } : PState)) ?_
    refine setTop_map (g := noDocS) (fun _ => ?_) _
    rfl
  | setMember k t =>
    refine same_onP (setMember k t) fun p => ?_
    refine congrArg (fun l => ({ erase p with simpleType := l } : PState)) ?_
    refine setTop_map (g := noDocS) (fun _ => ?_) _
    rfl

omit [Uni] in
theorem same_on? {k : OnKind} {f : PState → Option PState} (hf : OnPrim? k f) : Same R (onP? f) (onP? f) := by
  cases hf with
  | complexType as =>
    refine same_onP? (onComplexType? as) fun p => ?_
    have hd := deref_erase p
    obtain ⟨heap, proto, inE, cur, inG, inU, inAG, st, ct, el, ats, gr, ags, ch⟩ := p
    have hn : ∀ (c d : Str) (e f : List Nat) (g h : List ComplexType) (a : Nat),
        ((erase ⟨heap, proto, inE, cur, inG, inU, inAG, st, ct, el, ats, gr, ags, ch⟩).deref a).name =
        (PState.deref ⟨heap, proto, inE, cur, inG, inU, inAG, st, ct, el, ats, gr, ags, ch⟩ a).name :=
      fun _ _ _ _ _ _ a => by rw [hd]; rfl
    unfold onComplexType?
    cases ct with
    | cons c cs =>
      cases el with
      | nil => rfl
      | cons a as =>
        simp only [erase, noDoc, Option.map_some, List.map_cons] at hn ⊢
        rw [hn [] [] [] [] [] []]
        rfl
    | nil =>
      dsimp only [erase, noDoc, List.map_nil]
      split
      · cases el with
        | nil => rfl
        | cons a as =>
          simp only [erase, noDoc, Option.map_some, List.map_cons, List.map_nil] at hn ⊢
          have := hn [] [] [] [] [] [] a
          simp only [PState.deref] at this ⊢
          rw [this]
          rfl
      · rfl
  | group g =>
    refine same_onP? (placeGroup? g) fun p => ?_
    obtain ⟨heap, proto, inE, cur, inG, inU, inAG, st, ct, el, ats, gr, ags, ch⟩ := p
    unfold placeGroup?
    cases ct with
    | cons c cs =>
      dsimp only [erase, noDoc, List.map_cons]
      by_cases h : inGroups g.name c.groups = true
      · rw [if_pos h]
        exact (if_pos h).symm
      · rw [if_neg h]
        exact (if_neg h).symm
    | nil =>
      by_cases h : inG = 0
      · simp only [erase, noDoc, List.map_nil, if_pos h]
        rfl
      by_cases h' : inG > 0
      · simp only [erase, noDoc, List.map_nil, if_neg h, if_pos h']
        cases gr <;> rfl
      · simp only [erase, noDoc, List.map_nil, if_neg h, if_neg h']
        rfl

omit [Uni] in
theorem same_end {name : Str} {k : EndKind} {f : PState → PState} (hf : EndPrim name k f) : Same R (onP f) (onP f) := by
  cases hf with
  | «attribute» =>
    refine same_onP endAttribute fun p => ?_
    obtain ⟨heap, proto, inE, cur, inG, inU, inAG, st, ct, el, ats, gr, ags, ch⟩ := p
    cases ats with
    | nil => rfl
    | cons x xs =>
      cases ags with
      | cons g gs => simp [endAttribute, erase, noDoc, noDocAG]
      | nil =>
        cases ct with
        | nil => exact append_erase _ _
        | cons c cs => simp [endAttribute, erase, noDoc, noDocC]
  | attributeGroup =>
    refine same_onP endAttributeGroup fun p => ?_
    obtain ⟨heap, proto, inE, cur, inG, inU, inAG, st, ct, el, ats, gr, ags, ch⟩ := p
    cases ags with
    | nil => rfl
    | cons g gs => simp [endAttributeGroup, PState.append, erase, noDoc, noDocNode]
  | choice => exact same_onP endChoice fun p => rfl
  | complexType =>
    refine same_onP endComplexType fun p => ?_
    obtain ⟨heap, proto, inE, cur, inG, inU, inAG, st, ct, el, ats, gr, ags, ch⟩ := p
    cases ct <;> simp [endComplexType, PState.append, erase, noDoc, noDocNode]
  | element =>
    refine same_onP endElement fun p => ?_
    obtain ⟨heap, proto, inE, cur, inG, inU, inAG, st, ct, el, ats, gr, ags, ch⟩ := p
    cases el with
    | nil => rfl
    | cons a as => cases ct <;> simp [endElement, PState.append, erase, noDoc, noDocNode]
  | group =>
    refine same_onP (endGroup name) fun p => ?_
    obtain ⟨heap, proto, inE, cur, inG, inU, inAG, st, ct, el, ats, gr, ags, ch⟩ := p
    have h : ∀ b : Bool, erase (if b then
        { (PState.append ⟨heap, proto, inE, cur, inG, inU, inAG, st, ct, el, ats, gr, ags, ch⟩ (gr.head?.map .group)) with
          group := gr.tail, currentEle := [], inGroup := inG - 1 } else ⟨heap, proto, inE, cur, inG, inU, inAG, st, ct, el, ats, gr, ags, ch⟩) =
        (if b then
        { ((erase ⟨heap, proto, inE, cur, inG, inU, inAG, st, ct, el, ats, gr, ags, ch⟩).append ((gr.map noDocG).head?.map .group)) with
          group := (gr.map noDocG).tail, currentEle := [], inGroup := inG - 1 }
        else erase ⟨heap, proto, inE, cur, inG, inU, inAG, st, ct, el, ats, gr, ags, ch⟩) := by
      intro b
      cases b
      · rfl
      · cases gr <;> simp [PState.append, erase, noDoc, noDocNode]
    have h2 : ∀ q : PState, erase (if name = q.currentEle then { q with inGroup := q.inGroup - 1 } else q) =
        if name = (erase q).currentEle then { erase q with inGroup := (erase q).inGroup - 1 } else erase q := by
      intro q
      show _ = if name = q.currentEle then _ else _
      split <;> rfl
    show erase (if name = PState.currentEle _ then _ else _) = _
    rw [h2]
    have h1 := h (decide (name = cur) && decide (inG = 1))
    exact congrArg (fun q : PState => if name = q.currentEle then { q with inGroup := q.inGroup - 1 } else q) h1
  | simpleType =>
    refine same_onP (endSimpleType name) fun p => ?_
    have h1 : ∀ q : PState, erase (endSimpleTypeComplex name q) = endSimpleTypeComplex name (erase q) := by
      intro q
      obtain ⟨heap, proto, inE, cur, inG, inU, inAG, st, ct, el, ats, gr, ags, ch⟩ := q
      unfold endSimpleTypeComplex
      have hl : (ct.map noDocC).length = ct.length := List.length_map ..
      by_cases h : (decide (name = cur) && decide (ct.length = 1)) = true
      · rw [if_pos h, if_pos (by show (decide (name = cur) && decide ((ct.map noDocC).length = 1)) = true; rw [hl]; exact h)]
        cases ct <;> simp [PState.append, erase, noDoc, noDocNode]
      · rw [if_neg h, if_neg (by show ¬(decide (name = cur) && decide ((ct.map noDocC).length = 1)) = true; rw [hl]; exact h)]
    have h2 : ∀ q : PState, erase (endSimpleTypeSimple name q) = endSimpleTypeSimple name (erase q) := by
      intro q
      obtain ⟨heap, proto, inE, cur, inG, inU, inAG, st, ct, el, ats, gr, ags, ch⟩ := q
      unfold endSimpleTypeSimple
      by_cases h : (decide (name = cur) && !inU) = true
      · rw [if_pos h]
        refine Eq.trans ?_ (if_pos h).symm
        cases st <;> simp [PState.append, erase, noDoc, noDocNode]
      · rw [if_neg h]
        exact (if_neg h).symm
    have h3 : ∀ q : PState, erase (endSimpleTypeSimple name (endSimpleTypeComplex name q)) =
        endSimpleTypeSimple name (endSimpleTypeComplex name (erase q)) := fun q => by rw [h2, h1]
    obtain ⟨heap, proto, inE, cur, inG, inU, inAG, st, ct, el, ats, gr, ags, ch⟩ := p
    cases st with
    | nil => exact h3 _
    | cons x xs =>
      cases ats with
      | nil => exact h3 _
      | cons y ys => rfl
  | union =>
    refine same_onP endUnion fun p => ?_
    obtain ⟨heap, proto, inE, cur, inG, inU, inAG, st, ct, el, ats, gr, ags, ch⟩ := p
    cases st <;> rfl
  | setAttributeType k t =>
    refine same_onP (setAttributeType t) fun p => ?_
    refine congrArg (fun l => ({ erase p with attrSt := l } : PState)) ?_
    refine setTop_map (g := noDocA) (fun _ => ?_) _
    rfl
  | setElementType k t =>
    exact same_onP (setElementType t) fun p =>
      modTop_erase (f := fun e => { e with type := t }) (f' := fun e => { e with type := t }) (fun _ => rfl) p
  | clearCurrent k => exact same_onP clearCurrent fun p => rfl
  | popSimpleType k =>
    refine same_onP popSimpleType fun p => ?_
    refine congrArg (fun l => ({ erase p with simpleType := l } : PState)) ?_
    exact List.map_tail
  | restrictionElement =>
    refine same_onP restrictionElement fun p => ?_
    have hd := deref_erase p
    obtain ⟨heap, proto, inE, cur, inG, inU, inAG, st, ct, el, ats, gr, ags, ch⟩ := p
    cases el with
    | nil => rfl
    | cons a as =>
      cases ct with
      | nil => rfl
      | cons c cs =>
        refine congrArg (fun l => ({ erase ⟨heap, proto, inE, cur, inG, inU, inAG, st, c :: cs, a :: as, ats, gr, ags, ch⟩ with
          complexType := l :: cs.map noDocC } : PState)) ?_
        refine congrArg (fun l => ({ noDocC c with elements := l } : ComplexType)) ?_
        refine (setLast_map _ _).trans ?_
        rw [← hd]
        rfl

omit [Uni] in
theorem onCharData_erase (x : Str) (p : PState) : erase (onCharData x p) = erase p := by
  unfold erase
  rw [structure_kept, tree_kept]

/-! ## Type references do not see documentation -/

omit [Uni] in
theorem base_bare (name : Str) (t : Tree) : getBasefromSimpleType name (bare t) = getBasefromSimpleType name t := by
  induction t with
  | nil => rfl
  | cons n t ih =>
    cases n with
    | none => exact ih
    | some n =>
      cases n with
      | simple v =>
        show (if !v.list && !v.union && v.name = name then v.base else getBasefromSimpleType name (bare t)) = _
        rw [ih]; rfl
      | attr v =>
        show (if v.name = name then v.type else getBasefromSimpleType name (bare t)) = _
        rw [ih]; rfl
      | elem v =>
        show (if v.name = name then v.type else getBasefromSimpleType name (bare t)) = _
        rw [ih]; rfl
      | _ => exact ih

theorem gvtOf_same (W : World) (rec : Cfg → Go Shared Tree) (cfg : Cfg) (v : Str) :
    Same (· = ·) (gvtOf W rec cfg v) (gvtOf W rec cfg v) := by
  intro s t h
  have h1 : ∀ name, getBasefromSimpleType name s.p.freeze = getBasefromSimpleType name t.p.freeze := by
    intro name
    rw [← base_bare, ← freeze_erase, h.2, freeze_erase, base_bare]
  have h2 : getValueType W rec cfg v s.p.freeze s.sh = getValueType W rec cfg v t.p.freeze t.sh := by
    unfold getValueType
    dsimp only
    rw [h1, h.1]
  unfold gvtOf
  rw [h2]
  cases getValueType W rec cfg v t.p.freeze t.sh <;> exact ⟨rfl, rfl, h.2⟩

/-! ## C57 -/

/-- Every token other than text is treated alike in states that are alike. -/
theorem step_same (W : World) (hR : Respects R W.isURL) {gvt gvt' : Gvt} (hg : ∀ v, Same R (gvt v) (gvt' v)) (t : Token) :
    Same R (step W gvt t) (step W gvt' t) := by
  have B := same_closed hg
  refine step_rel {
    toClosed := B
    setIn := fun name _ _ => same_onP (fun p => { p with inElement := name }) fun p => rfl
    on := fun _ as _ _ _ => {
      toClosed := B
      panic := fun _ s t h => ⟨rfl, h⟩
      prim := fun _ hf => same_on hf
      prim? := fun _ hf => same_on? hf
      import' := fun _ => same_onSh (hR.import' _)
      include' := fun _ => same_onSh (hR.include' _)
      schema' := fun _ => same_onSh (hR.schema' _) }
    stop := fun _ _ _ _ => { toClosed := B, prim := fun _ hf => same_end hf }
    text := fun x _ => same_onP id fun p => onCharData_erase x p }

omit [Uni] in
theorem respects_eq (isURL : Str → Bool) : Respects (· = ·) isURL :=
  ⟨fun _ _ _ h => by rw [h], fun _ _ _ h => by rw [h], fun _ _ _ h => by rw [h]⟩

/-- A document and the document without its text, started alike, end alike. -/
theorem run_noText (W : World) (hR : Respects R W.isURL) {gvt gvt' : Gvt} (hg : ∀ v, Same R (gvt v) (gvt' v)) (toks : List Token) :
    Same R (run W gvt toks) (run W gvt' (noText toks)) := by
  induction toks with
  | nil => exact fun s t h => ⟨rfl, h⟩
  | cons tok ts ih =>
    by_cases h : isTag tok = true
    · unfold noText
      rw [List.filter_cons_of_pos h]
      exact (same_closed hg).bind (step_same W hR hg tok) fun _ => ih
    · unfold noText
      rw [List.filter_cons_of_neg h]
      cases tok with
      | text x =>
        intro s t hst
        rw [run, Go.bind_apply, total]
        exact ih _ _ ⟨hst.1, (onCharData_erase x s.p).trans hst.2⟩
      | start n as => exact absurd rfl h
      | stop n => exact absurd rfl h
      | other => exact absurd rfl h

/-- C57: a document and the document without its text either fail alike, with the same error and the same effects on
everything shared, or give the generator trees that differ in documentation only. -/
theorem text_inert (W : World) (rec : Cfg → Go Shared Tree) (cfg : Cfg) (toks : List Token) (sh : Shared) :
    (∃ t t' sh', bare t = bare t' ∧ parseOpen W rec cfg toks sh = finish W cfg t sh' ∧
      parseOpen W rec cfg (noText toks) sh = finish W cfg t' sh') ∨
    (∃ e sh', parseOpen W rec cfg toks sh = .err e sh' ∧ parseOpen W rec cfg (noText toks) sh = .err e sh') ∨
    (∃ h sh', parseOpen W rec cfg toks sh = .halt h sh' ∧ parseOpen W rec cfg (noText toks) sh = .halt h sh') := by
  have h := run_noText W (respects_eq _) (gvtOf_same W rec cfg) toks { sh := beginParse cfg sh, p := {} } { sh := beginParse cfg sh, p := {} } ⟨rfl, rfl⟩
  unfold parseOpen
  revert h
  generalize run W (gvtOf W rec cfg) toks { sh := beginParse cfg sh, p := {} } = o
  generalize run W (gvtOf W rec cfg) (noText toks) { sh := beginParse cfg sh, p := {} } = o'
  intro h
  cases o <;> cases o'
  case ok.ok a s b t =>
    obtain ⟨-, h1, h2⟩ := h
    refine .inl ⟨s.p.freeze, t.p.freeze, s.sh, ?_, rfl, by rw [h1]⟩
    rw [← freeze_erase, h2, freeze_erase]
  case err.err a s b t =>
    obtain ⟨rfl, h1, h2⟩ := h
    exact .inr (.inl ⟨a, s.sh, rfl, by rw [h1]⟩)
  case halt.halt a s b t =>
    obtain ⟨rfl, h1, h2⟩ := h
    exact .inr (.inr ⟨a, s.sh, rfl, by rw [h1]⟩)
  all_goals exact h.elim

/-! ## Example -/

open Ex

/-- A type with a documented attribute, and text between the declarations. -/
def doc : List Token :=
  [on "schema" [], on "complexType" [("name", "T")], txt "A type.", on "attribute" [("name", "a"), ("type", "xs:int")], txt "An attribute.",
    off "attribute", txt "More.", off "complexType", txt "!", off "schema"]

/-- Parse it in extract mode. -/
def parsed (toks : List Token) : Option Tree :=
  match @parseOpen asciiUni (world []) (fun _ sh => .ok [] sh) { filePath := c!"a.xsd", lang := c!"Go", extract := true } toks {} with
  | .ok t _ => some t
  | _ => none

/-- The two trees differ, but not up to documentation. -/
example : parsed doc ≠ parsed (noText doc) ∧ (parsed doc).map bare = (parsed (noText doc)).map bare ∧
    parsed doc = some [some (.complex { doc := c!"A type.", name := c!"T",
                                        attributes := [{ name := c!"a", type := c!"int", optional := true, doc := c!"More." }] })] := by decide +kernel

end Xgen.C57
