import Verif.Props.C30
import Verif.Props.C45

/-! # C18: choice multiplicity reaches every nested element

At the moment of its declaration an element has exactly the multiplicity the property asks for, in whatever document and
at whatever depth.  The property for the finished tree is false: the end of a restriction inside a later attribute
overwrites the last element of the complex type (`overwritten`). -/

namespace Xgen.C18
open Occurs
variable [Uni]

/-- The choice tags that are open after the tokens, innermost first, as their attributes.  (An end tag without open
choice is ignored.) -/
def openChoices (toks : List Token) : List (List Attr) :=
  toks.foldl (fun acc t => match t with
    | .start n as => if makeFirstUpperCase n = c!"Choice" then as :: acc else acc
    | .stop n => if makeFirstUpperCase n = c!"Choice" then acc.tail else acc
    | _ => acc) []

/-! ## Only choice tags touch the stack of choices -/

omit [Uni] in
theorem onPrim_choice {k : OnKind} (hk : k ≠ .choice) {f : PState → PState} (hf : OnPrim k f) (p : PState) :
    (f p).choice = p.choice := by
  cases hf with
  | pushChoice x => exact absurd rfl hk
  | placeAttributeGroup x => unfold placeAttributeGroup; split <;> rfl
  | placeElement e b =>
    cases b
    all_goals
      simp only [placeElement, Bool.false_eq_true, if_true, if_false]
      split
      · rfl
      · split <;> rfl
  | enumeration attrs => rw [onEnumeration_frame]
  | _ => rfl

omit [Uni] in
theorem onPrim?_choice {k : OnKind} {f : PState → Option PState} (hf : OnPrim? k f) {p p' : PState}
    (e : f p = some p') : p'.choice = p.choice := by
  cases hf with
  | complexType attrs =>
    unfold onComplexType? at e
    split at e
    · split at e <;> cases e; rfl
    · dsimp only at e
      split at e
      · split at e <;> cases e; rfl
      · cases e; rfl
  | group g =>
    unfold placeGroup? at e
    dsimp only at e
    split at e
    · split at e <;> cases e <;> rfl
    · split at e
      · cases e; rfl
      · split at e
        · split at e <;> cases e; rfl
        · cases e; rfl

omit [Uni] in
theorem endPrim_choice {name : Str} {k : EndKind} (hk : k ≠ .choice) {f : PState → PState} (hf : EndPrim name k f)
    (p : PState) : (f p).choice = p.choice := by
  cases hf with
  | choice => exact absurd rfl hk
  | «attribute» => unfold endAttribute; split; · rfl
                   dsimp only; split
                   · rfl
                   · split <;> rfl
  | attributeGroup => unfold endAttributeGroup; split <;> rfl
  | element => unfold endElement; split <;> rfl
  | group =>
    obtain ⟨heap, proto, inE, cur, inG, inU, inAG, st, ct, el, ats, gr, ags, ch⟩ := p
    unfold endGroup
    dsimp only
    split <;> split <;> rfl
  | simpleType =>
    unfold endSimpleType
    split
    · rfl
    · unfold endSimpleTypeSimple endSimpleTypeComplex
      split <;> split <;> rfl
  | union => unfold endUnion; split <;> rfl
  | setElementType k t => unfold setElementType PState.modTopElement; split <;> rfl
  | restrictionElement => unfold restrictionElement; split <;> rfl
  | _ => rfl

omit [Uni] in
theorem onCharData_choice (x : Str) (p : PState) : (onCharData x p).choice = p.choice := by
  unfold onCharData
  split
  · rfl
  · split
    · rfl
    · unfold charDataBelow PState.modTopElement
      split
      · split <;> rfl
      · split
        · rfl
        · split
          · rfl
          · split
            · split
              · rfl
              · split <;> rfl
            · rfl

/-- Each entry of the stack is plural iff its choice or one further out is. -/
inductive Agree : List Choice → List (List Attr) → Prop
  | nil : Agree [] []
  | cons {c cs as os} : (c.plural = true ↔ ∃ b ∈ as :: os, ChoicePlural b) → Agree cs os → Agree (c :: cs) (as :: os)

omit [Uni] in
theorem Agree.tail {cs : List Choice} {os : List (List Attr)} (h : Agree cs os) : Agree cs.tail os.tail := by
  cases h with
  | nil => exact .nil
  | cons _ h => exact h

omit [Uni] in
theorem Agree.plural {p : PState} {os : List (List Attr)} (h : Agree p.choice os) :
    p.choicePlural = true ↔ ∃ b ∈ os, ChoicePlural b := by
  unfold PState.choicePlural
  cases h' : p.choice with
  | nil => rw [h'] at h; cases h; simp
  | cons c cs => rw [h'] at h; cases h with | cons h1 _ => exact h1

theorem onKind_choice {n : Str} (h : makeFirstUpperCase n = c!"Choice") : onKind n = some .choice := by
  unfold onKind; rw [h]; decide

theorem endKind_choice {n : Str} (h : makeFirstUpperCase n = c!"Choice") : endKind n = some .choice := by
  unfold endKind; rw [h]; decide

theorem onKind_not {n : Str} {k : OnKind} (hk : onKind n = some k) (h : makeFirstUpperCase n ≠ c!"Choice") :
    k ≠ .choice := by
  rintro rfl
  have := GoMap.mem_of_get? hk
  revert this
  generalize makeFirstUpperCase n = u at h
  intro h'
  simp only [onTable, List.mem_cons, Prod.mk.injEq, List.not_mem_nil, or_false, reduceCtorEq, and_false, false_or,
    and_true] at h'
  exact h h'

theorem endKind_not {n : Str} {k : EndKind} (hk : endKind n = some k) (h : makeFirstUpperCase n ≠ c!"Choice") :
    k ≠ .choice := by
  rintro rfl
  have := GoMap.mem_of_get? hk
  revert this
  generalize makeFirstUpperCase n = u at h
  intro h'
  simp only [endTable, List.mem_cons, Prod.mk.injEq, List.not_mem_nil, or_false, reduceCtorEq, and_false, false_or,
    and_true] at h'
  exact h h'

/-- A processed token keeps the stack in step with the open choices. -/
theorem step_agree (W : World) {gvt : Gvt} (hg : GvtOk (fun _ => True) gvt) (t : Token) (s s' : St)
    (hr : step W gvt t s = .ok () s') {toks : List Token} (h : Agree s.p.choice (openChoices toks)) :
    Agree s'.p.choice (openChoices (toks ++ [t])) := by
  unfold openChoices at h ⊢
  rw [List.foldl_append]
  simp only [List.foldl_cons, List.foldl_nil]
  cases t with
  | start n as =>
    rw [step, Go.bind_apply, onP_apply] at hr
    dsimp only at hr ⊢
    by_cases hc : makeFirstUpperCase n = c!"Choice"
    · rw [if_pos hc]
      rw [onKind_choice hc] at hr
      dsimp only [callOn] at hr
      by_cases hl : AllLegal as
      · obtain ⟨c, h1, h2⟩ := C30.choice_accepted as hl { s with p := { s.p with inElement := n } }
        rw [h1] at hr
        cases hr
        refine .cons ?_ h
        rw [h2, Agree.plural (p := { s.p with inElement := n }) h]
        simp
      · obtain ⟨v, -, h1⟩ := C30.choice_rejected as hl { s with p := { s.p with inElement := n } }
        rw [h1] at hr
        cases hr
    · rw [if_neg hc]
      cases hk : onKind n with
      | none => rw [hk] at hr; cases hr; exact h
      | some k =>
        rw [hk] at hr
        dsimp only at hr
        have hne := onKind_not hk hc
        have := ((callOn_keepsP (J := fun p => p.choice = s.p.choice) W hg as k (fun _ => trivial)
          (fun f hf p hp => (onPrim_choice hne hf p).trans hp)
          (fun f hf p hp => ⟨fun _ => trivial, fun p' e => (onPrim?_choice hf e).trans hp⟩)).2
          { s with p := { s.p with inElement := n } } rfl).1
        rw [hr] at this
        change s'.p.choice = s.p.choice at this
        rw [this]
        exact h
  | stop n =>
    simp only [step] at hr ⊢
    by_cases hc : makeFirstUpperCase n = c!"Choice"
    · rw [if_pos hc]
      rw [endKind_choice hc] at hr
      cases hr
      exact Agree.tail h
    · rw [if_neg hc]
      cases hk : endKind n with
      | none => rw [hk] at hr; cases hr; exact h
      | some k =>
        rw [hk] at hr
        dsimp only at hr
        have := ((callEnd_keepsP (J := fun p => p.choice = s.p.choice) hg n k
          (fun f hf p hp => (endPrim_choice (endKind_not hk hc) hf p).trans hp)).2 s rfl).1
        rw [hr] at this
        change s'.p.choice = s.p.choice at this
        rw [this]
        exact h
  | text x => cases hr; dsimp only; rw [onCharData_choice]; exact h
  | other => cases hr; exact h

theorem run_snoc (W : World) (gvt : Gvt) (toks : List Token) (t : Token) :
    run W gvt (toks ++ [t]) = (do run W gvt toks; step W gvt t) := by
  funext s
  induction toks generalizing s with
  | nil =>
    simp only [List.nil_append, run, Go.bind_apply]
    change _ = step W gvt t s
    cases step W gvt t s <;> rfl
  | cons x xs ih =>
    simp only [List.cons_append, run, Go.bind_apply]
    cases e : step W gvt x s with
    | ok a s1 => exact ih s1
    | err er s1 => rfl
    | halt h s1 => rfl

/-- After any tokens. -/
theorem run_agree (W : World) {gvt : Gvt} (hg : GvtOk (fun _ => True) gvt) (toks : List Token) (s s' : St)
    (hs : s.p.choice = []) (hr : run W gvt toks s = .ok () s') : Agree s'.p.choice (openChoices toks) := by
  suffices ∀ (r : List Token) (s' : St), run W gvt r.reverse s = .ok () s' →
      Agree s'.p.choice (openChoices r.reverse) by
    have := this toks.reverse s'
    rw [List.reverse_reverse] at this
    exact this hr
  intro r
  induction r with
  | nil => intro s' h; cases h; rw [hs]; exact .nil
  | cons t ts ih =>
    intro s' h
    rw [List.reverse_cons, run_snoc, Go.bind_apply] at h
    rw [List.reverse_cons]
    cases e : run W gvt ts.reverse s with
    | ok a s1 => rw [e] at h; exact step_agree W hg t s1 s' h (ih s1 e)
    | err er s1 => rw [e] at h; cases h
    | halt hh s1 => rw [e] at h; cases h

/-! ## An element tag -/

omit [Uni] in
/-- One attribute, whatever the resolver does. -/
theorem attr_spec {gvt : Gvt} (hg : GvtOk (fun _ => True) gvt) (e x : Element) (a : Attr) (s s' : St)
    (h : onElementAttr gvt e a s = .ok x s') : s'.p = s.p ∧
      (x.plural = true ↔ e.plural = true ∨ (a.local = c!"maxOccurs" ∧ Many a.value) ∨
        (a.local = c!"unbounded" ∧ a.value ≠ c!"0")) := by
  have res : ∀ v t s', resolve gvt v s = .ok t s' → s'.p = s.p := by
    intro v t s' hr
    have h1 := (hg v s).1
    unfold resolve at hr
    rw [Go.bind_apply] at hr
    cases e1 : gvt v s with
    | ok r s1 =>
      rw [e1] at hr h1
      obtain ⟨t1, o⟩ := r
      cases o with
      | none => cases hr; exact h1
      | some er => cases hr
    | err er s1 => rw [e1] at hr; cases hr
    | halt hh s1 => rw [e1] at hr; cases hr
  unfold onElementAttr at h
  by_cases h1 : a.local = c!"ref"
  · rw [if_pos h1, Go.bind_apply] at h
    cases e1 : resolve gvt a.value s with
    | ok t s1 => rw [e1] at h; cases h; exact ⟨res _ _ _ e1, by simp [h1]⟩
    | err er s1 => rw [e1] at h; cases h
    | halt hh s1 => rw [e1] at h; cases h
  rw [if_neg h1] at h
  by_cases h2 : a.local = c!"name"
  · rw [if_pos h2] at h
    cases h
    exact ⟨rfl, by simp [h2]⟩
  rw [if_neg h2] at h
  by_cases h3 : a.local = c!"type"
  · rw [if_pos h3, Go.bind_apply] at h
    cases e1 : resolve gvt a.value s with
    | ok t s1 => rw [e1] at h; cases h; exact ⟨res _ _ _ e1, by simp [h3]⟩
    | err er s1 => rw [e1] at h; cases h
    | halt hh s1 => rw [e1] at h; cases h
  rw [if_neg h3] at h
  by_cases h4 : a.local = c!"maxOccurs"
  · rw [if_pos h4] at h
    have hm := many_iff a.value
    cases e1 : maxOccursPlural a.value with
    | none => rw [e1] at h; cases h
    | some b =>
      rw [e1] at h hm
      cases h
      refine ⟨rfl, ?_⟩
      cases b with
      | true => simp [h4, hm.1 rfl]
      | false =>
        have : ¬ Many a.value := fun h => by have := hm.2 h; cases this
        simp [h4, this]
  rw [if_neg h4] at h
  by_cases h5 : a.local = c!"unbounded"
  · rw [if_pos h5] at h
    cases h
    refine ⟨rfl, ?_⟩
    by_cases h6 : a.value ≠ c!"0"
    · simp [h5, h6]
    · simp [h5, h6]
  · rw [if_neg h5] at h
    cases h
    exact ⟨rfl, by simp [h4, h5]⟩

omit [Uni] in
theorem loop_spec {gvt : Gvt} (hg : GvtOk (fun _ => True) gvt) (attrs : List Attr) (e x : Element) (s s' : St)
    (h : forAttrs (onElementAttr gvt) attrs e s = .ok x s') :
    s'.p = s.p ∧ (x.plural = true ↔ e.plural = true ∨ OwnPlural attrs) := by
  induction attrs generalizing e s with
  | nil => cases h; exact ⟨rfl, by simp [OwnPlural]⟩
  | cons a as ih =>
    rw [forAttrs, Go.bind_apply] at h
    cases e1 : onElementAttr gvt e a s with
    | ok y s1 =>
      rw [e1] at h
      obtain ⟨h1, h2⟩ := attr_spec hg e y a s s1 e1
      obtain ⟨k1, k2⟩ := ih y s1 h
      refine ⟨k1.trans h1, ?_⟩
      rw [k2, h2]
      simp only [OwnPlural, List.mem_cons, exists_eq_or_imp, or_assoc]
    | err er s1 => rw [e1] at h; cases h
    | halt hh s1 => rw [e1] at h; cases h

/-- Where a new element goes: to the innermost open complex type (merged with the elements there, see C19), else to the
open group, else to the stack of elements from which its end tag moves it into the tree. -/
def Placed (e : Element) (p p' : PState) : Prop :=
  match p.complexType, p.group with
  | c :: cs, _ => p'.complexType = { c with elements := mergeElement e c.elements } :: cs
  | [], g :: gs => 0 < p.inGroup → p'.group = { g with elements := g.elements ++ [e] } :: gs
  | [], [] => p.inGroup ≤ 0 → p'.element.head? = some p.heap.length

omit [Uni] in
theorem placed (e : Element) (b : Bool) (p : PState) :
    Placed { e with plural := e.plural || p.choicePlural } p (placeElement e b p) := by
  obtain ⟨heap, proto, inE, cur, inG, inU, inAG, st, ct, el, ats, gr, ags, ch⟩ := p
  unfold Placed
  cases b <;> cases ct <;> cases gr <;> simp only [placeElement, Bool.false_eq_true, if_true, if_false]
  · intro h
    rw [if_neg (by omega)]; rfl
  · intro h
    rw [if_pos h]; rfl
  · intro h
    rw [if_neg (by omega)]; rfl
  · intro h
    rw [if_pos h]; rfl

/-- C18 at the declaration: in every document, an element tag creates one element; it is plural iff its own attributes
say so or one of the open choices, at any depth, does; and it is placed in the open complex type or group. -/
theorem declared_partial (W : World) {gvt : Gvt} (hg : GvtOk (fun _ => True) gvt) (toks : List Token) (n : Str)
    (as : List Attr) (hn : makeFirstUpperCase n = c!"Element") (s0 s s' : St) (h0 : s0.p.choice = [])
    (hr : run W gvt toks s0 = .ok () s) (hs : step W gvt (.start n as) s = .ok () s') :
    ∃ e, s'.p.heap = s.p.heap ++ [e] ∧ Placed e s.p s'.p ∧
      (e.plural = true ↔ OwnPlural as ∨ ∃ b ∈ openChoices toks, ChoicePlural b) := by
  have hp := Agree.plural (run_agree W hg toks s0 s h0 hr)
  rw [step, Go.bind_apply, onP_apply] at hs
  have hk : onKind n = some .element := by unfold onKind; rw [hn]; decide
  rw [hk] at hs
  dsimp only [callOn, onElement] at hs
  rw [Go.bind_apply] at hs
  cases e1 : forAttrs (onElementAttr gvt) as {} { s with p := { s.p with inElement := n } } with
  | ok x s1 =>
    rw [e1] at hs
    dsimp only at hs
    obtain ⟨h1, h2⟩ := loop_spec hg as {} x _ s1 e1
    have h2' : x.plural = true ↔ OwnPlural as := by rw [h2]; simp
    have hcp : s1.p.choicePlural = s.p.choicePlural := by rw [h1]; rfl
    have conv : ∀ e q, Placed e s1.p q → Placed e s.p q := by
      intro e q; rw [h1]; exact id
    split at hs
    · rw [Go.bind_apply] at hs
      have hr2 := (hg x.name s1).1
      unfold resolve at hs
      rw [Go.bind_apply] at hs
      cases e2 : gvt x.name s1 with
      | ok r s2 =>
        rw [e2] at hs hr2
        obtain ⟨t, o⟩ := r
        cases o with
        | none =>
          cases hs
          change s2.p = s1.p at hr2
          refine ⟨{ x with type := t, plural := x.plural || s2.p.choicePlural }, ?_, ?_, ?_⟩
          · have := C30.place_heap { x with type := t } true s2.p
            have hh : s2.p.heap = s.p.heap := by rw [hr2, h1]
            rw [hh] at this
            exact this
          · have := placed { x with type := t } true s2.p
            apply conv
            change Placed _ s1.p (placeElement { x with type := t } true s2.p)
            rw [hr2] at this ⊢
            exact this
          · rw [hr2, hcp]
            simp only [Bool.or_eq_true, h2', hp]
        | some er => cases hs
      | err er s2 => rw [e2] at hs; cases hs
      | halt hh s2 => rw [e2] at hs; cases hs
    · cases hs
      refine ⟨{ x with plural := x.plural || s1.p.choicePlural }, ?_, conv _ _ (placed x false s1.p), ?_⟩
      · have := C30.place_heap x false s1.p
        have hh : s1.p.heap = s.p.heap := by rw [h1]
        rw [hh] at this
        exact this
      · rw [hcp]
        simp only [Bool.or_eq_true, h2', hp]
  | err er s1 => rw [e1] at hs; cases hs
  | halt hh s1 => rw [e1] at hs; cases hs

/-! ## Examples and the finished tree -/

open Ex in
/-- Inside two choices, the outer one repeated. -/
example : @openChoices asciiUni [on "choice" [("maxOccurs", "9")], on "choice", on "sequence"] =
    [[], [{ «local» := c!"maxOccurs", value := c!"9" }]] := by decide

open Ex in
/-- A valid schema: elements a (inline simple type), b (repeated), and an attribute with an inline simple type. -/
def doc : List Token :=
  [on "schema", on "complexType" [("name", "T")], on "sequence", on "element" [("name", "a")], on "simpleType",
   on "restriction" [("base", "string")]] ++ leaf "maxLength" [("value", "9")] ++
  [off "restriction", off "simpleType", off "element", on "choice" [("maxOccurs", "unbounded")]] ++
  leaf "element" [("name", "b"), ("type", "string")] ++
  [off "choice", off "sequence",
   on "attribute" [("name", "x")], on "simpleType", on "restriction" [("base", "string")], off "restriction",
   off "simpleType", off "attribute", off "complexType", off "schema"]

/-- Names and multiplicities of the elements of the complex types in a tree. -/
def elems : Out Shared Tree → List (Str × Bool)
  | .ok t _ => t.flatMap fun n => match n with
    | some (.complex c) => c.elements.map fun e => (e.name, e.plural)
    | _ => []
  | _ => []

open Ex in
/-- The repeated element b, the only one inside the choice, is not in the result: the end of the restriction inside the
attribute has overwritten it with a (xmlRestriction.go:47-51). -/
theorem overwritten : elems (Ex.parse (world [("s.xsd", doc)]) "s.xsd" "Go") = [(c!"a", false), (c!"a", false)] := by
  decide +kernel

end Xgen.C18
