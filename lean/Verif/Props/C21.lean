import Verif.Lemmas.Inv
import Verif.Spec.Example

/-! # C21: attributes are optional unless use is required -/

namespace Xgen.C21

/-- The tag says use="required". -/
def Required (attrs : List Attr) : Prop := ∃ a ∈ attrs, a.local = c!"use" ∧ a.value = c!"required"

theorem attr_spec {gvt : Gvt} (hg : GvtOk (fun _ => True) gvt) (x y : Attribute) (a : Attr) (s s' : St)
    (h : onAttributeAttr gvt x a s = .ok y s') : s'.p = s.p ∧
      (y.optional = true ↔ x.optional = true ∧ ¬ (a.local = c!"use" ∧ a.value = c!"required")) := by
  have res : ∀ v t s', resolve gvt v s = .ok t s' → s'.p = s.p := by
    intro v t s' hr
    have h1 := (hg v s).1
    unfold resolve at hr
    rw [Go.bind_apply] at hr
    cases e1 : gvt v s with
    | ok r s1 =>
      rw [e1] at hr h1
      obtain ⟨t1, o⟩ := r
      cases o with
      | none => cases hr; exact h1
      | some er => cases hr
    | err er s1 => rw [e1] at hr; cases hr
    | halt hh s1 => rw [e1] at hr; cases hr
  unfold onAttributeAttr at h
  by_cases h1 : a.local = c!"ref"
  · rw [if_pos h1, Go.bind_apply] at h
    cases e1 : resolve gvt a.value s with
    | ok t s1 => rw [e1] at h; cases h; exact ⟨res _ _ _ e1, by simp [h1]⟩
    | err er s1 => rw [e1] at h; cases h
    | halt hh s1 => rw [e1] at h; cases h
  rw [if_neg h1] at h
  by_cases h2 : a.local = c!"name"
  · rw [if_pos h2] at h
    cases h
    exact ⟨rfl, by simp [h2]⟩
  rw [if_neg h2] at h
  by_cases h3 : a.local = c!"type"
  · rw [if_pos h3, Go.bind_apply] at h
    cases e1 : resolve gvt a.value s with
    | ok t s1 => rw [e1] at h; cases h; exact ⟨res _ _ _ e1, by simp [h3]⟩
    | err er s1 => rw [e1] at h; cases h
    | halt hh s1 => rw [e1] at h; cases h
  rw [if_neg h3] at h
  by_cases h4 : a.local = c!"use"
  · rw [if_pos h4] at h
    cases h
    refine ⟨rfl, ?_⟩
    by_cases h5 : a.value = c!"required"
    · simp [h4, h5]
    · simp [h4, h5]
  · rw [if_neg h4] at h
    cases h
    exact ⟨rfl, by simp [h4]⟩

theorem loop_spec {gvt : Gvt} (hg : GvtOk (fun _ => True) gvt) (attrs : List Attr) (x y : Attribute) (s s' : St)
    (h : forAttrs (onAttributeAttr gvt) attrs x s = .ok y s') :
    s'.p = s.p ∧ (y.optional = true ↔ x.optional = true ∧ ¬ Required attrs) := by
  induction attrs generalizing x s with
  | nil => cases h; exact ⟨rfl, by simp [Required]⟩
  | cons a as ih =>
    rw [forAttrs, Go.bind_apply] at h
    cases e1 : onAttributeAttr gvt x a s with
    | ok z s1 =>
      rw [e1] at h
      obtain ⟨h1, h2⟩ := attr_spec hg x z a s s1 e1
      obtain ⟨k1, k2⟩ := ih z s1 h
      refine ⟨k1.trans h1, ?_⟩
      rw [k2, h2]
      simp only [Required, List.mem_cons, exists_eq_or_imp, not_or, and_assoc]
    | err er s1 => rw [e1] at h; cases h
    | halt hh s1 => rw [e1] at h; cases h

/-- C21: an accepted attribute tag pushes one attribute, optional iff the tag does not carry use="required" (anywhere among
its XML attributes); nothing else of the parser state changes. -/
theorem optional {gvt : Gvt} (hg : GvtOk (fun _ => True) gvt) (attrs : List Attr) (s s' : St)
    (h : onAttribute gvt attrs s = .ok () s') :
    ∃ x, s'.p = { s.p with attrSt := x :: s.p.attrSt } ∧ (x.optional = true ↔ ¬ Required attrs) := by
  unfold onAttribute at h
  rw [Go.bind_apply] at h
  cases e : forAttrs (onAttributeAttr gvt) attrs { optional := true } s with
  | ok x s1 =>
    rw [e] at h
    obtain ⟨h1, h2⟩ := loop_spec hg attrs _ x s s1 e
    cases h
    refine ⟨x, ?_, by rw [h2]; simp⟩
    dsimp only
    rw [h1]
  | err er s1 => rw [e] at h; cases h
  | halt hh s1 => rw [e] at h; cases h

theorem setTop_optional (f : Attribute → Attribute) (hf : ∀ x, (f x).optional = x.optional) (l : List Attribute) :
    (Stack.setTop f l).map (·.optional) = l.map (·.optional) := by
  cases l with
  | nil => rfl
  | cons x xs => simp [Stack.setTop, hf]

theorem setLastDoc_optional (d : Str) (l : List Attribute) :
    (setLastDoc d l).map (·.optional) = l.map (·.optional) := by
  induction l using setLastDoc.induct with
  | case1 => rfl
  | case2 => rfl
  | case3 x y rest ih => simp only [setLastDoc, List.map_cons, ih]

/-- The flag is final: the type of an inline simple type and documentation, the only later changes of an open attribute,
leave it; and its end tag moves it unchanged to the open attribute group, else to the open complex type, else to the
tree. -/
theorem final (p : PState) (x : Attribute) (xs : List Attribute) (h : p.attrSt = x :: xs) :
    (∀ t, (setAttributeType t p).attrSt.map (·.optional) = p.attrSt.map (·.optional)) ∧
    (∀ d, (charDataBelow d p).attrSt.map (·.optional) = p.attrSt.map (·.optional)) ∧
    (endAttribute p).attrSt = xs ∧
    ((∃ g gs, p.attributeGroup = g :: gs ∧
        (endAttribute p).attributeGroup = { g with attributes := g.attributes ++ [x] } :: gs) ∨
     (p.attributeGroup = [] ∧ ∃ c cs, p.complexType = c :: cs ∧
        (endAttribute p).complexType = { c with attributes := c.attributes ++ [x] } :: cs) ∨
     (p.attributeGroup = [] ∧ p.complexType = [] ∧ (endAttribute p).proto = p.proto ++ [some (.attr x)])) := by
  obtain ⟨heap, proto, inE, cur, inG, inU, inAG, st, ct, el, ats, gr, ags, ch⟩ := p
  simp only at h
  subst h
  refine ⟨fun t => setTop_optional (fun x => { x with type := t }) (fun _ => rfl) (x :: xs), ?_, ?_, ?_⟩
  · intro d
    unfold charDataBelow PState.modTopElement
    dsimp only
    split
    · split <;> rfl
    · rfl
  · cases ags <;> cases ct <;> rfl
  · cases ags with
    | nil =>
      cases ct with
      | nil => exact Or.inr (Or.inr ⟨rfl, rfl, rfl⟩)
      | cons c cs => exact Or.inr (Or.inl ⟨rfl, c, cs, rfl, rfl⟩)
    | cons g gs => exact Or.inl ⟨g, gs, rfl, rfl⟩

open Ex in
/-- Both cases, in one complex type. -/
example : (match Ex.parse (world [("s.xsd", [on "schema", on "complexType" [("name", "T")]] ++
    leaf "attribute" [("use", "required"), ("name", "a"), ("type", "int")] ++
    leaf "attribute" [("name", "b"), ("type", "int"), ("use", "optional")] ++
    [off "complexType", off "schema"])]) "s.xsd" "Go" with
    | .ok [some (.complex c)] _ => c.attributes.map fun x => (x.name, x.optional)
    | _ => []) = [(c!"a", false), (c!"b", true)] := by decide +kernel

end Xgen.C21
