import Verif.Spec.Core
import Verif.Lemmas.Tags

/-! # The attributes of the tags of core schemas, with a resolver that always answers -/

namespace Xgen.Core

/-- The resolver answers every reference according to the tree, keeping the property `I` of the shared maps. -/
def Answers (I : Shared → Prop) (ref : Tree → Str → Str) (gvt : Gvt) : Prop :=
  ∀ v sh p, I sh → ∃ sh', I sh' ∧ gvt v ⟨sh, p⟩ = .ok (ref p.freeze v, none) ⟨sh', p⟩

/-- References mean the same after components that declare no type. -/
def Stable (ref : Tree → Str → Str) : Prop :=
  ∀ t v, (∀ c, ref (t ++ [some (.complex c)]) v = ref t v) ∧ (∀ g, ref (t ++ [some (.attrGroup g)]) v = ref t v)

section
variable {I : Shared → Prop} {ref : Tree → Str → Str} {gvt : Gvt} (hg : Answers I ref gvt)
include hg

theorem resolve_ok (v : Str) (sh : Shared) (p : PState) (h : I sh) :
    ∃ sh', I sh' ∧ resolve gvt v ⟨sh, p⟩ = .ok (ref p.freeze v) ⟨sh', p⟩ := by
  obtain ⟨sh', h1, h2⟩ := hg v sh p h
  refine ⟨sh', h1, ?_⟩
  unfold resolve
  rw [Go.bind_apply, h2]
  rfl

theorem assign_ok (v : Str) (set : Str → PState → PState) (sh : Shared) (p : PState) (h : I sh) :
    ∃ sh', I sh' ∧ assignType gvt v set ⟨sh, p⟩ = .ok () ⟨sh', set (ref p.freeze v) p⟩ := by
  obtain ⟨sh', h1, h2⟩ := hg v sh p h
  refine ⟨sh', h1, ?_⟩
  unfold assignType
  rw [Go.bind_apply, h2]
  rfl

omit hg in
/-- A loop whose state is a local variable. -/
theorem loop_local {α : Type} {step : α → Attr → Go St α} {f : α → Attr → α} {p : PState} {as : List Attr}
    (h : ∀ acc, ∀ a ∈ as, ∀ sh, I sh → ∃ sh', I sh' ∧ step acc a ⟨sh, p⟩ = .ok (f acc a) ⟨sh', p⟩) (acc : α) (sh : Shared)
    (hi : I sh) : ∃ sh', I sh' ∧ forAttrs step as acc ⟨sh, p⟩ = .ok (as.foldl f acc) ⟨sh', p⟩ := by
  induction as generalizing acc sh with
  | nil => exact ⟨sh, hi, rfl⟩
  | cons a as ih =>
    obtain ⟨sh1, h1, h2⟩ := h acc a (by simp) sh hi
    obtain ⟨sh2, h3, h4⟩ := ih (fun acc b hb => h acc b (by simp [hb])) (f acc a) sh1 h1
    refine ⟨sh2, h3, ?_⟩
    rw [forAttrs, Go.bind_apply, h2]
    exact h4

omit hg in
/-- A loop that changes the parser state. -/
theorem loop_state {step : Unit → Attr → Go St Unit} {f : PState → Attr → PState} {J : PState → Prop} {as : List Attr}
    (h : ∀ p, J p → ∀ a ∈ as, ∀ sh, I sh → J (f p a) ∧ ∃ sh', I sh' ∧ step () a ⟨sh, p⟩ = .ok () ⟨sh', f p a⟩) (p : PState)
    (hj : J p) (sh : Shared) (hi : I sh) :
    J (as.foldl f p) ∧ ∃ sh', I sh' ∧ forAttrs step as () ⟨sh, p⟩ = .ok () ⟨sh', as.foldl f p⟩ := by
  induction as generalizing p sh with
  | nil => exact ⟨hj, sh, hi, rfl⟩
  | cons a as ih =>
    obtain ⟨h0, sh1, h1, h2⟩ := h p hj a (by simp) sh hi
    obtain ⟨h3, sh2, h4, h5⟩ := ih (fun p hp b hb => h p hp b (by simp [hb])) (f p a) h0 sh1 h1
    refine ⟨h3, sh2, h4, ?_⟩
    rw [forAttrs, Go.bind_apply, h2]
    exact h5
end

/-! ## Looking attributes up -/

theorem attr?_nil (n : Str) : attr? [] n = none := rfl

theorem attr?_cons (a : Attr) (as : List Attr) (n : Str) :
    attr? (a :: as) n = if a.local = n then some a.value else attr? as n := by
  unfold attr?
  rw [List.find?_cons]
  by_cases h : a.local = n
  · simp [h]
  · simp [h]

theorem attr?_none_of_not_mem {as : List Attr} {n : Str} (h : n ∉ as.map (·.local)) : attr? as n = none := by
  induction as with
  | nil => rfl
  | cons a as ih =>
    rw [List.map_cons, List.mem_cons, not_or] at h
    rw [attr?_cons, if_neg (fun e => h.1 e.symm), ih h.2]

theorem Distinct.head {a : Attr} {as : List Attr} (h : Distinct (a :: as)) : attr? as a.local = none := by
  unfold Distinct at h
  rw [List.map_cons, List.nodup_cons] at h
  exact attr?_none_of_not_mem h.1

theorem Distinct.tail {a : Attr} {as : List Attr} (h : Distinct (a :: as)) : Distinct as := by
  unfold Distinct at h ⊢
  rw [List.map_cons, List.nodup_cons] at h
  exact h.2

theorem attr?_mem {as : List Attr} (h : Distinct as) {a : Attr} (ha : a ∈ as) : attr? as a.local = some a.value := by
  induction as with
  | nil => cases ha
  | cons b as ih =>
    rw [attr?_cons]
    rcases List.mem_cons.1 ha with rfl | ha
    · rw [if_pos rfl]
    · rw [if_neg, ih h.tail ha]
      intro e
      have := h.head
      rw [e, ih h.tail ha] at this
      cases this

theorem lastNamed_eq {as : List Attr} (h : Distinct as) (n init : Str) : lastNamed n as init = (attr? as n).getD init := by
  unfold lastNamed
  induction as generalizing init with
  | nil => rfl
  | cons a as ih =>
    rw [List.foldl_cons, ih h.tail, attr?_cons]
    by_cases e : a.local = n
    · rw [if_pos e, if_pos e]
      have := h.head
      rw [e] at this
      rw [this]
      rfl
    · rw [if_neg e, if_neg e]

theorem RefAlone.tail {a : Attr} {as : List Attr} (hd : Distinct (a :: as)) (h : RefAlone (a :: as)) : RefAlone as := by
  intro hr
  have h0 := hd.head
  unfold RefAlone at h
  simp only [attr?_cons] at h
  by_cases e : a.local = c!"ref"
  · rw [e] at h0; rw [h0] at hr; cases hr
  · rw [if_neg e] at h
    obtain ⟨h1, h2⟩ := h hr
    constructor
    · split at h1
      · cases h1
      · exact h1
    · split at h2
      · cases h2
      · exact h2

/-! ## Element tags -/

/-- One attribute of an element tag. -/
def elemStep (ty : Str → Str) (e : Element) (a : Attr) : Element :=
  if a.local = c!"ref" then { e with name := a.value, type := ty a.value }
  else if a.local = c!"name" then { e with name := a.value }
  else if a.local = c!"type" then { e with type := ty a.value }
  else if a.local = c!"maxOccurs" then if many a.value then { e with plural := true } else e
  else if a.local = c!"unbounded" then if a.value ≠ c!"0" then { e with plural := true } else e
  else e

theorem elemStep_ok {I : Shared → Prop} {ref : Tree → Str → Str} {gvt : Gvt} (hg : Answers I ref gvt) (p : PState)
    {as : List Attr} (hd : Distinct as) (ho : OccursOk as) (e : Element) (a : Attr) (ha : a ∈ as) (sh : Shared) (hi : I sh) :
    ∃ sh', I sh' ∧ onElementAttr gvt e a ⟨sh, p⟩ = .ok (elemStep (ref p.freeze) e a) ⟨sh', p⟩ := by
  unfold onElementAttr elemStep
  by_cases h1 : a.local = c!"ref"
  · rw [if_pos h1, if_pos h1]
    obtain ⟨sh', h2, h3⟩ := resolve_ok hg a.value sh p hi
    exact ⟨sh', h2, by rw [Go.bind_apply, h3]; rfl⟩
  rw [if_neg h1, if_neg h1]
  by_cases h2 : a.local = c!"name"
  · rw [if_pos h2, if_pos h2]; exact ⟨sh, hi, rfl⟩
  rw [if_neg h2, if_neg h2]
  by_cases h3 : a.local = c!"type"
  · rw [if_pos h3, if_pos h3]
    obtain ⟨sh', h4, h5⟩ := resolve_ok hg a.value sh p hi
    exact ⟨sh', h4, by rw [Go.bind_apply, h5]; rfl⟩
  rw [if_neg h3, if_neg h3]
  by_cases h4 : a.local = c!"maxOccurs"
  · rw [if_pos h4, if_pos h4]
    have := ho a.value (by rw [← h4]; exact attr?_mem hd ha)
    rw [← Occurs.legal_iff] at this
    have hmany : many a.value = decide (maxOccursPlural a.value = some true) := decide_eq_decide.2 (Occurs.many_iff a.value).symm
    rw [hmany]
    cases hm : maxOccursPlural a.value with
    | none => exact absurd hm this
    | some b => cases b <;> exact ⟨sh, hi, by simp⟩
  rw [if_neg h4, if_neg h4]
  by_cases h5 : a.local = c!"unbounded"
  · rw [if_pos h5, if_pos h5]; exact ⟨sh, hi, rfl⟩
  · rw [if_neg h5, if_neg h5]; exact ⟨sh, hi, rfl⟩

theorem elemFold (ty : Str → Str) {as : List Attr} (hd : Distinct as) (hr : RefAlone as) (e : Element) :
    as.foldl (elemStep ty) e =
      { e with
        name := ((attr? as c!"ref").or (attr? as c!"name")).getD e.name
        type := (((attr? as c!"ref").or (attr? as c!"type")).map ty).getD e.type
        plural := e.plural || (repeated as || (attr? as c!"unbounded").any (fun v => v ≠ c!"0")) } := by
  induction as generalizing e with
  | nil => simp [attr?_nil, repeated]
  | cons a as ih =>
    have hh := hd.head
    rw [List.foldl_cons, ih hd.tail (RefAlone.tail hd hr)]
    unfold repeated
    simp only [attr?_cons]
    unfold elemStep
    by_cases h1 : a.local = c!"ref"
    · rw [h1] at hh
      have hr' := hr (by simp [attr?_cons, h1])
      simp only [attr?_cons, h1, show ¬ (c!"ref" = c!"name") by decide, show ¬ (c!"ref" = c!"type") by decide, if_false] at hr'
      simp [h1, hh, hr'.1, hr'.2]
    by_cases h2 : a.local = c!"name"
    · rw [h2] at hh
      have hn : attr? as c!"ref" = none := by
        cases hc : attr? as c!"ref" with
        | none => rfl
        | some v =>
          have := hr (by simp [attr?_cons, h1, hc])
          simp [attr?_cons, h2] at this
      simp [h2, hh, hn]
    by_cases h3 : a.local = c!"type"
    · rw [h3] at hh
      have hn : attr? as c!"ref" = none := by
        cases hc : attr? as c!"ref" with
        | none => rfl
        | some v =>
          have := hr (by simp [attr?_cons, h1, hc])
          simp [attr?_cons, h3] at this
      simp [h3, hh, hn]
    by_cases h4 : a.local = c!"maxOccurs"
    · rw [h4] at hh
      cases hm : many a.value <;> simp [h4, hh, hm]
    by_cases h5 : a.local = c!"unbounded"
    · rw [h5] at hh
      by_cases h6 : a.value = c!"0" <;> simp [h5, hh, h6]
    · simp [h1, h2, h3, h4, h5]

/-! ## Attribute tags -/

/-- One attribute of an attribute tag. -/
def attrStep (ty : Str → Str) (x : Attribute) (a : Attr) : Attribute :=
  if a.local = c!"ref" then { x with name := a.value, type := ty a.value }
  else if a.local = c!"name" then { x with name := a.value }
  else if a.local = c!"type" then { x with type := ty a.value }
  else if a.local = c!"use" then if a.value = c!"required" then { x with optional := false } else x
  else x

theorem attrStep_ok {I : Shared → Prop} {ref : Tree → Str → Str} {gvt : Gvt} (hg : Answers I ref gvt) (p : PState)
    (x : Attribute) (a : Attr) (sh : Shared) (hi : I sh) :
    ∃ sh', I sh' ∧ onAttributeAttr gvt x a ⟨sh, p⟩ = .ok (attrStep (ref p.freeze) x a) ⟨sh', p⟩ := by
  unfold onAttributeAttr attrStep
  by_cases h1 : a.local = c!"ref"
  · rw [if_pos h1, if_pos h1]
    obtain ⟨sh', h2, h3⟩ := resolve_ok hg a.value sh p hi
    exact ⟨sh', h2, by rw [Go.bind_apply, h3]; rfl⟩
  rw [if_neg h1, if_neg h1]
  by_cases h2 : a.local = c!"name"
  · rw [if_pos h2, if_pos h2]; exact ⟨sh, hi, rfl⟩
  rw [if_neg h2, if_neg h2]
  by_cases h3 : a.local = c!"type"
  · rw [if_pos h3, if_pos h3]
    obtain ⟨sh', h4, h5⟩ := resolve_ok hg a.value sh p hi
    exact ⟨sh', h4, by rw [Go.bind_apply, h5]; rfl⟩
  rw [if_neg h3, if_neg h3]
  by_cases h4 : a.local = c!"use"
  · rw [if_pos h4, if_pos h4]; exact ⟨sh, hi, rfl⟩
  · rw [if_neg h4, if_neg h4]; exact ⟨sh, hi, rfl⟩

theorem attrFold (ty : Str → Str) {as : List Attr} (hd : Distinct as) (hr : RefAlone as) (x : Attribute) :
    as.foldl (attrStep ty) x =
      { x with
        name := ((attr? as c!"ref").or (attr? as c!"name")).getD x.name
        type := (((attr? as c!"ref").or (attr? as c!"type")).map ty).getD x.type
        optional := x.optional && decide (attr? as c!"use" ≠ some c!"required") } := by
  induction as generalizing x with
  | nil => simp [attr?_nil]
  | cons a as ih =>
    have hh := hd.head
    rw [List.foldl_cons, ih hd.tail (RefAlone.tail hd hr)]
    simp only [attr?_cons]
    unfold attrStep
    by_cases h1 : a.local = c!"ref"
    · rw [h1] at hh
      have hr' := hr (by simp [attr?_cons, h1])
      simp only [attr?_cons, h1, show ¬ (c!"ref" = c!"name") by decide, show ¬ (c!"ref" = c!"type") by decide, if_false] at hr'
      simp [h1, hh, hr'.1, hr'.2]
    by_cases h2 : a.local = c!"name"
    · rw [h2] at hh
      have hn : attr? as c!"ref" = none := by
        cases hc : attr? as c!"ref" with
        | none => rfl
        | some v =>
          have := hr (by simp [attr?_cons, h1, hc])
          simp [attr?_cons, h2] at this
      simp [h2, hh, hn]
    by_cases h3 : a.local = c!"type"
    · rw [h3] at hh
      have hn : attr? as c!"ref" = none := by
        cases hc : attr? as c!"ref" with
        | none => rfl
        | some v =>
          have := hr (by simp [attr?_cons, h1, hc])
          simp [attr?_cons, h3] at this
      simp [h3, hh, hn]
    by_cases h4 : a.local = c!"use"
    · rw [h4] at hh
      by_cases h5 : a.value = c!"required" <;> simp [h4, hh, h5]
    · simp [h1, h2, h3, h4]

/-! ## Attribute-group tags -/

/-- One attribute of an attribute-group tag. -/
def agStep (ty : Str → Str) (x : AttributeGroup) (a : Attr) : AttributeGroup :=
  if a.local = c!"name" then { x with name := a.value }
  else if a.local = c!"ref" then { x with name := a.value, ref := ty a.value }
  else x

theorem agStep_ok {I : Shared → Prop} {ref : Tree → Str → Str} {gvt : Gvt} (hg : Answers I ref gvt) (p : PState)
    (x : AttributeGroup) (a : Attr) (sh : Shared) (hi : I sh) :
    ∃ sh', I sh' ∧ onAttributeGroupAttr gvt x a ⟨sh, p⟩ = .ok (agStep (ref p.freeze) x a) ⟨sh', p⟩ := by
  unfold onAttributeGroupAttr agStep
  by_cases h2 : a.local = c!"name"
  · rw [if_pos h2, if_pos h2]; exact ⟨sh, hi, rfl⟩
  rw [if_neg h2, if_neg h2]
  by_cases h1 : a.local = c!"ref"
  · rw [if_pos h1, if_pos h1]
    obtain ⟨sh', h2, h3⟩ := resolve_ok hg a.value sh p hi
    exact ⟨sh', h2, by rw [Go.bind_apply, h3]; rfl⟩
  · rw [if_neg h1, if_neg h1]; exact ⟨sh, hi, rfl⟩

theorem agFold (ty : Str → Str) {as : List Attr} (hd : Distinct as) (hr : RefAlone as) (x : AttributeGroup) :
    as.foldl (agStep ty) x =
      { x with
        name := ((attr? as c!"ref").or (attr? as c!"name")).getD x.name
        ref := ((attr? as c!"ref").map ty).getD x.ref } := by
  induction as generalizing x with
  | nil => simp [attr?_nil]
  | cons a as ih =>
    have hh := hd.head
    rw [List.foldl_cons, ih hd.tail (RefAlone.tail hd hr)]
    simp only [attr?_cons]
    unfold agStep
    by_cases h1 : a.local = c!"ref"
    · rw [h1] at hh
      have hr' := hr (by simp [attr?_cons, h1])
      simp only [attr?_cons, h1, show ¬ (c!"ref" = c!"name") by decide, if_false] at hr'
      simp [h1, hh, hr'.1]
    by_cases h2 : a.local = c!"name"
    · rw [h2] at hh
      have hn : attr? as c!"ref" = none := by
        cases hc : attr? as c!"ref" with
        | none => rfl
        | some v =>
          have := hr (by simp [attr?_cons, h1, hc])
          simp [attr?_cons, h2] at this
      simp [h2, hh, hn]
    · simp [h1, h2]

/-! ## Group tags -/

/-- One attribute of a group tag. -/
def groupStep (ty : Str → Str) (x : GroupRef) (a : Attr) : GroupRef :=
  if a.local = c!"name" then { x with name := a.value }
  else if a.local = c!"ref" then { x with name := a.value, ref := ty a.value }
  else if a.local = c!"maxOccurs" then if a.value ≠ c!"0" then { x with plural := true } else x
  else x

theorem groupStep_ok {I : Shared → Prop} {ref : Tree → Str → Str} {gvt : Gvt} (hg : Answers I ref gvt) (p : PState)
    (x : GroupRef) (a : Attr) (sh : Shared) (hi : I sh) :
    ∃ sh', I sh' ∧ onGroupAttr gvt x a ⟨sh, p⟩ = .ok (groupStep (ref p.freeze) x a) ⟨sh', p⟩ := by
  unfold onGroupAttr groupStep
  by_cases h2 : a.local = c!"name"
  · rw [if_pos h2, if_pos h2]; exact ⟨sh, hi, rfl⟩
  rw [if_neg h2, if_neg h2]
  by_cases h1 : a.local = c!"ref"
  · rw [if_pos h1, if_pos h1]
    obtain ⟨sh', h2, h3⟩ := resolve_ok hg a.value sh p hi
    exact ⟨sh', h2, by rw [Go.bind_apply, h3]; rfl⟩
  rw [if_neg h1, if_neg h1]
  by_cases h4 : a.local = c!"maxOccurs"
  · rw [if_pos h4, if_pos h4]; exact ⟨sh, hi, rfl⟩
  · rw [if_neg h4, if_neg h4]; exact ⟨sh, hi, rfl⟩

theorem groupFold (ty : Str → Str) {as : List Attr} (hd : Distinct as) (hr : RefAlone as) (x : GroupRef) :
    as.foldl (groupStep ty) x =
      { x with
        name := ((attr? as c!"ref").or (attr? as c!"name")).getD x.name
        ref := ((attr? as c!"ref").map ty).getD x.ref
        plural := x.plural || (attr? as c!"maxOccurs").any (fun v => v ≠ c!"0") } := by
  induction as generalizing x with
  | nil => simp [attr?_nil]
  | cons a as ih =>
    have hh := hd.head
    rw [List.foldl_cons, ih hd.tail (RefAlone.tail hd hr)]
    simp only [attr?_cons]
    unfold groupStep
    by_cases h1 : a.local = c!"ref"
    · rw [h1] at hh
      have hr' := hr (by simp [attr?_cons, h1])
      simp only [attr?_cons, h1, show ¬ (c!"ref" = c!"name") by decide, if_false] at hr'
      simp [h1, hh, hr'.1]
    by_cases h2 : a.local = c!"name"
    · rw [h2] at hh
      have hn : attr? as c!"ref" = none := by
        cases hc : attr? as c!"ref" with
        | none => rfl
        | some v =>
          have := hr (by simp [attr?_cons, h1, hc])
          simp [attr?_cons, h2] at this
      simp [h2, hh, hn]
    by_cases h4 : a.local = c!"maxOccurs"
    · rw [h4] at hh
      by_cases h5 : a.value = c!"0" <;> simp [h4, hh, h5]
    · simp [h1, h2, h4]

/-! ## Choice tags -/

/-- One attribute of a choice tag. -/
def choiceStep (x : Choice) (a : Attr) : Choice :=
  if a.local = c!"maxOccurs" then { x with plural := many a.value } else x

theorem choiceStep_ok {I : Shared → Prop} (p : PState) {as : List Attr} (hd : Distinct as) (ho : OccursOk as) (x : Choice)
    (a : Attr) (ha : a ∈ as) (sh : Shared) (hi : I sh) :
    ∃ sh', I sh' ∧ onChoiceAttr x a ⟨sh, p⟩ = .ok (choiceStep x a) ⟨sh', p⟩ := by
  unfold onChoiceAttr choiceStep
  by_cases h4 : a.local = c!"maxOccurs"
  · rw [if_pos h4, if_pos h4]
    have := ho a.value (by rw [← h4]; exact attr?_mem hd ha)
    rw [← Occurs.legal_iff] at this
    have hmany : many a.value = decide (maxOccursPlural a.value = some true) := decide_eq_decide.2 (Occurs.many_iff a.value).symm
    rw [hmany]
    cases hm : maxOccursPlural a.value with
    | none => exact absurd hm this
    | some b => cases b <;> exact ⟨sh, hi, by simp⟩
  · rw [if_neg h4, if_neg h4]; exact ⟨sh, hi, rfl⟩

theorem choiceFold {as : List Attr} (hd : Distinct as) (x : Choice) :
    as.foldl choiceStep x = { plural := ((attr? as c!"maxOccurs").map many).getD x.plural } := by
  induction as generalizing x with
  | nil => rfl
  | cons a as ih =>
    have hh := hd.head
    rw [List.foldl_cons, ih hd.tail]
    simp only [attr?_cons]
    unfold choiceStep
    by_cases h4 : a.local = c!"maxOccurs"
    · rw [h4] at hh; simp [h4, hh]
    · simp [h4]

end Xgen.Core
