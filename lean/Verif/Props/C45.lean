import Verif.Lemmas.Inv
import Verif.Lemmas.Map
import Verif.Spec.Example

/-! # C45: group nesting bookkeeping never breaks -/

namespace Xgen.C45
variable [Uni]

/-- The claim: counter not negative, at most one group on the stack, one exactly when the counter is positive. -/
def Consistent (p : PState) : Prop :=
  0 ≤ p.inGroup ∧ p.group.length ≤ 1 ∧ (p.group.length = 1 ↔ 0 < p.inGroup)

/-- With what makes it inductive: the name remembered for the end tag is a group's only while the counter is positive. -/
def Inv (p : PState) : Prop :=
  Consistent p ∧ (makeFirstUpperCase p.currentEle = c!"Group" → 0 < p.inGroup)

theorem inv_of_eq {p q : PState} (hp : Inv p) (h1 : q.inGroup = p.inGroup) (h2 : q.group.length = p.group.length)
    (h3 : q.currentEle = p.currentEle ∨ makeFirstUpperCase q.currentEle ≠ c!"Group") : Inv q := by
  obtain ⟨⟨a, b, c⟩, d⟩ := hp
  refine ⟨⟨by rw [h1]; exact a, by rw [h2]; exact b, by rw [h1, h2]; exact c⟩, fun h => ?_⟩
  rw [h1]
  rcases h3 with h3 | h3
  · exact d (by rw [← h3]; exact h)
  · exact absurd h h3

theorem cleared : makeFirstUpperCase ([] : Str) ≠ c!"Group" := by
  simp [makeFirstUpperCase, toTitle]

omit [Uni] in
theorem length_setTop {α : Type} (f : α → α) (s : Stack α) : (Stack.setTop f s).length = s.length := by
  cases s <;> rfl

omit [Uni] in
theorem placeElement_frame (e : Element) (b : Bool) (p : PState) :
    (placeElement e b p).inGroup = p.inGroup ∧ (placeElement e b p).group.length = p.group.length ∧
    (placeElement e b p).currentEle = p.currentEle := by
  cases b
  all_goals
    simp only [placeElement, Bool.false_eq_true, if_true, if_false]
    split
    · exact ⟨rfl, rfl, rfl⟩
    · split
      · exact ⟨rfl, length_setTop _ _, rfl⟩
      · exact ⟨rfl, rfl, rfl⟩

theorem kind_name {name : Str} {k : OnKind} (h : onKind name = some k) (hk : k ≠ .group) :
    makeFirstUpperCase name ≠ c!"Group" := by
  intro e
  rw [onKind, e] at h
  have : onTable.get? c!"Group" = some .group := by decide
  rw [this] at h
  cases h
  exact hk rfl

theorem inv_prim {name : Str} {k : OnKind} (hk : onKind name = some k) {f : PState → PState} (hf : OnPrim k f)
    (p : PState) (hp : Inv p ∧ p.inElement = name) : Inv (f p) ∧ (f p).inElement = name := by
  refine ⟨?_, (onPrim_inElement hf p).trans hp.2⟩
  obtain ⟨hp, hn⟩ := hp
  cases hf with
  | placeAttributeGroup x =>
    unfold placeAttributeGroup
    split
    · refine inv_of_eq hp rfl rfl (Or.inr ?_)
      show makeFirstUpperCase p.inElement ≠ _
      rw [hn]; exact kind_name hk (by decide)
    · exact inv_of_eq hp rfl rfl (Or.inl rfl)
  | placeElement e b =>
    obtain ⟨f1, f2, f3⟩ := placeElement_frame e b p
    exact inv_of_eq hp f1 f2 (Or.inl f3)
  | enumeration attrs => rw [onEnumeration_frame]; exact inv_of_eq hp rfl rfl (Or.inl rfl)
  | simpleType attrs =>
    refine inv_of_eq hp rfl rfl (Or.inr ?_)
    show makeFirstUpperCase p.inElement ≠ _
    rw [hn]; exact kind_name hk (by decide)
  | _ => exact inv_of_eq hp rfl rfl (Or.inl rfl)

theorem inv_prim? {name : Str} {k : OnKind} (hk : onKind name = some k) {f : PState → Option PState} (hf : OnPrim? k f)
    (p p' : PState) (hp : Inv p ∧ p.inElement = name) (e : f p = some p') : Inv p' ∧ p'.inElement = name := by
  refine ⟨?_, (onPrim?_inElement hf e).trans hp.2⟩
  obtain ⟨hp, hn⟩ := hp
  cases hf with
  | complexType attrs =>
    have hne : makeFirstUpperCase p.inElement ≠ c!"Group" := by rw [hn]; exact kind_name hk (by decide)
    unfold onComplexType? at e
    split at e
    · split at e <;> cases e
      exact inv_of_eq hp rfl rfl (Or.inl rfl)
    · dsimp only at e
      split at e
      · split at e <;> cases e
        exact inv_of_eq hp rfl rfl (Or.inr hne)
      · cases e
        exact inv_of_eq hp rfl rfl (Or.inr hne)
  | group g =>
    obtain ⟨⟨a, b, c⟩, d⟩ := hp
    unfold placeGroup? at e
    dsimp only at e
    split at e
    · split at e <;> cases e
      · exact ⟨⟨a, b, c⟩, d⟩
      · exact ⟨⟨a, b, c⟩, d⟩
    · split at e
      · rename_i h0
        cases e
        refine ⟨⟨?_, ?_, ?_⟩, fun _ => ?_⟩
        · show 0 ≤ p.inGroup + 1; omega
        · show p.group.length + 1 ≤ 1; omega
        · show p.group.length + 1 = 1 ↔ 0 < p.inGroup + 1; omega
        · show 0 < p.inGroup + 1; omega
      · split at e
        · split at e
          · cases e
          · rename_i x xs hg
            cases e
            rw [hg] at b c
            refine ⟨⟨?_, b, ?_⟩, fun _ => ?_⟩
            · show 0 ≤ p.inGroup + 1; omega
            · show (xs.length + 1 = 1) ↔ 0 < p.inGroup + 1
              simp only [List.length_cons] at c; omega
            · show 0 < p.inGroup + 1; omega
        · cases e
          exact ⟨⟨a, b, c⟩, d⟩

omit [Uni] in
theorem endGroup_cases (name : Str) (hne : name ≠ []) (p : PState) :
    (name = p.currentEle ∧ p.inGroup = 1 ∧ endGroup name p = { p.append (p.group.head?.map .group) with
        group := p.group.tail, currentEle := [], inGroup := p.inGroup - 1 }) ∨
    (name = p.currentEle ∧ p.inGroup ≠ 1 ∧ endGroup name p = { p with inGroup := p.inGroup - 1 }) ∨
    endGroup name p = p := by
  by_cases h1 : name = p.currentEle
  · by_cases h2 : p.inGroup = 1
    · refine Or.inl ⟨h1, h2, ?_⟩
      have hc : (decide (name = p.currentEle) && decide (p.inGroup = 1)) = true := by simp [h1, h2]
      simp only [endGroup, hc, if_true, if_neg hne]
    · refine Or.inr (Or.inl ⟨h1, h2, ?_⟩)
      have hc : (decide (name = p.currentEle) && decide (p.inGroup = 1)) = false := by simp [h2]
      simp only [endGroup, hc, Bool.false_eq_true, if_false, if_pos h1]
  · refine Or.inr (Or.inr ?_)
    have hc : (decide (name = p.currentEle) && decide (p.inGroup = 1)) = false := by simp [h1]
    simp only [endGroup, hc, Bool.false_eq_true, if_false, if_neg h1]

theorem inv_end {name : Str} {k : EndKind} (hk : endKind name = some k) {f : PState → PState} (hf : EndPrim name k f)
    (p : PState) (hp : Inv p) : Inv (f p) := by
  cases hf with
  | «attribute» =>
    unfold endAttribute
    split
    · exact hp
    · dsimp only
      split
      · exact inv_of_eq hp rfl rfl (Or.inl rfl)
      · split
        · exact inv_of_eq hp rfl rfl (Or.inl rfl)
        · exact inv_of_eq hp rfl rfl (Or.inl rfl)
  | attributeGroup =>
    unfold endAttributeGroup
    split
    · exact hp
    · exact inv_of_eq hp rfl rfl (Or.inr cleared)
  | complexType => exact inv_of_eq hp rfl rfl (Or.inr cleared)
  | element =>
    unfold endElement
    split
    · exact inv_of_eq hp rfl rfl (Or.inl rfl)
    · exact hp
  | group =>
    have hname : makeFirstUpperCase name = c!"Group" := by
      have := GoMap.mem_of_get? hk
      revert this
      generalize makeFirstUpperCase name = n
      intro this
      have h2 : ∀ e ∈ endTable, e.2 = EndKind.group → e.1 = c!"Group" := by decide
      exact h2 _ this rfl
    have hne : name ≠ [] := by rintro rfl; exact cleared hname
    obtain ⟨⟨a, b, c⟩, d⟩ := hp
    rcases endGroup_cases name hne p with ⟨h1, h2, e⟩ | ⟨h1, h2, e⟩ | e
    · rw [e]
      refine ⟨⟨?_, ?_, ?_⟩, fun h => absurd h cleared⟩
      · show 0 ≤ p.inGroup - 1; omega
      · show p.group.tail.length ≤ 1; rw [List.length_tail]; omega
      · show p.group.tail.length = 1 ↔ 0 < p.inGroup - 1; rw [List.length_tail]; omega
    · rw [e]
      have hpos := d (by rw [← h1]; exact hname)
      refine ⟨⟨?_, b, ?_⟩, fun _ => ?_⟩
      · show 0 ≤ p.inGroup - 1; omega
      · show p.group.length = 1 ↔ 0 < p.inGroup - 1; omega
      · show 0 < p.inGroup - 1; omega
    · rw [e]
      exact ⟨⟨a, b, c⟩, d⟩
  | simpleType =>
    unfold endSimpleType
    split
    · exact inv_of_eq hp rfl rfl (Or.inl rfl)
    · have h1 : Inv (endSimpleTypeComplex name p) := by
        unfold endSimpleTypeComplex
        split
        · exact inv_of_eq hp rfl rfl (Or.inr cleared)
        · exact hp
      unfold endSimpleTypeSimple
      split
      · exact inv_of_eq h1 rfl rfl (Or.inr cleared)
      · exact h1
  | union =>
    unfold endUnion
    split
    · exact hp
    · exact inv_of_eq hp rfl rfl (Or.inl rfl)
  | setElementType k t =>
    unfold setElementType PState.modTopElement
    split
    · exact hp
    · exact inv_of_eq hp rfl rfl (Or.inl rfl)
  | clearCurrent k => exact inv_of_eq hp rfl rfl (Or.inr cleared)
  | restrictionElement =>
    unfold restrictionElement
    split
    · exact inv_of_eq hp rfl rfl (Or.inl rfl)
    · exact hp
  | _ => exact inv_of_eq hp rfl rfl (Or.inl rfl)

omit [Uni] in
theorem onCharData_frame (x : Str) (p : PState) :
    (onCharData x p).inGroup = p.inGroup ∧ (onCharData x p).group = p.group ∧
    (onCharData x p).currentEle = p.currentEle ∧ (onCharData x p).element = p.element ∧
    (onCharData x p).complexType.length = p.complexType.length ∧ (onCharData x p).inElement = p.inElement := by
  unfold onCharData
  split
  · simp
  · split
    · simp
    · unfold charDataBelow
      split
      · unfold PState.modTopElement; split <;> simp_all
      · split
        · simp
        · split
          · simp
          · split
            · split
              · simp
              · rename_i h
                split <;> simp [h]
            · simp

theorem inv_text (x : Str) (p : PState) (hp : Inv p) : Inv (onCharData x p) := by
  obtain ⟨h1, h2, h3, -⟩ := onCharData_frame x p
  exact inv_of_eq hp h1 (by rw [h2]) (Or.inl h3)

/-- No group update fails in a consistent state. -/
theorem group_total (g : GroupRef) (p : PState) (hp : Consistent p) : placeGroup? g p ≠ none := by
  obtain ⟨a, b, c⟩ := hp
  unfold placeGroup?
  dsimp only
  split
  · split <;> simp
  · split
    · simp
    · split
      · split
        · rename_i h1 h2 h3
          rw [h3] at c
          simp at c
          omega
        · simp
      · simp

/-- One token. -/
theorem step_inv (W : World) (gvt : Gvt) (hg : GvtOk (fun _ => True) gvt) (t : Token) (s : St) (hs : Inv s.p) :
    Inv (step W gvt t s).state.p := by
  cases t with
  | start name attrs =>
    rw [step, Go.bind_apply, onP_apply]
    have h0 : Inv { s.p with inElement := name } := inv_of_eq hs rfl rfl (Or.inl rfl)
    cases hk : onKind name with
    | none => exact h0
    | some k =>
      exact ((callOn_keepsP (J := fun p => Inv p ∧ p.inElement = name) W hg attrs k (fun _ => trivial)
        (fun f hf p hp => inv_prim hk hf p hp)
        (fun f hf p hp => ⟨fun _ => trivial, fun p' e => inv_prim? hk hf p p' hp e⟩)).2
        { s with p := { s.p with inElement := name } } ⟨h0, rfl⟩).1.1
  | stop name =>
    simp only [step]
    cases hk : endKind name with
    | none => exact hs
    | some k =>
      exact ((callEnd_keepsP (J := Inv) hg name k (fun f hf p hp => inv_end hk hf p hp)).2 _ hs).1
  | text x => exact inv_text x s.p hs
  | other => exact hs

theorem run_inv (W : World) (gvt : Gvt) (hg : GvtOk (fun _ => True) gvt) (toks : List Token) (s : St) (hs : Inv s.p) :
    Inv (run W gvt toks s).state.p := by
  induction toks generalizing s with
  | nil => exact hs
  | cons t ts ih =>
    have h1 := step_inv W gvt hg t s hs
    simp only [run, Go.bind_apply]
    cases e : step W gvt t s with
    | ok a s1 => rw [e] at h1; exact ih s1 h1
    | err er s1 => rw [e] at h1; exact h1
    | halt h s1 => rw [e] at h1; exact h1

theorem inv_init : Inv ({} : PState) := by
  refine ⟨⟨by decide, by decide, by decide⟩, fun h => absurd h cleared⟩

theorem gvtOf_ok (W : World) (rec : Cfg → Go Shared Tree) (cfg : Cfg) : GvtOk (fun _ => True) (gvtOf W rec cfg) := by
  intro v s
  refine ⟨?_, fun _ _ _ => trivial⟩
  unfold gvtOf
  split <;> rfl

/-- C45: the state after any sequence of tokens (well formed or not; every prefix of a document is one) is consistent,
for every world, options, initial registries and behaviour of nested parses. -/
theorem consistent (W : World) (rec : Cfg → Go Shared Tree) (cfg : Cfg) (toks : List Token) (sh : Shared) :
    Consistent (run W (gvtOf W rec cfg) toks { sh := sh, p := {} }).state.p :=
  (run_inv W _ (gvtOf_ok W rec cfg) toks _ inv_init).1

open Ex in
/-- Inside a group with a nested reference, with a stray end tag before. -/
example : (@run asciiUni (world []) (fun v s => .ok (v, none) s)
    [off "group", on "group" [("name", "g")], on "sequence", on "group" [("ref", "h")]] {}).state.p.inGroup = 2 := by
  decide +kernel

end Xgen.C45
