import Verif.Spec.Occurs
import Verif.Spec.Example

/-! # C30: maxOccurs is honoured exactly -/

namespace Xgen.C30
open Occurs

/-- A resolver that always finds a type and leaves the parser state alone. -/
def Total (gvt : Gvt) : Prop := ∀ v s, ∃ t s', gvt v s = .ok (t, none) s' ∧ s'.p = s.p

/-- One attribute of an element tag. -/
theorem attr_ok {gvt : Gvt} (hg : Total gvt) (e : Element) (a : Attr) (s : St)
    (h : a.local = c!"maxOccurs" → Legal a.value) :
    ∃ x s', onElementAttr gvt e a s = .ok x s' ∧ s'.p = s.p ∧
      (x.plural = true ↔ e.plural = true ∨ (a.local = c!"maxOccurs" ∧ Many a.value) ∨
        (a.local = c!"unbounded" ∧ a.value ≠ c!"0")) := by
  unfold onElementAttr
  by_cases h1 : a.local = c!"ref"
  · rw [if_pos h1]
    obtain ⟨t, s', hr, hp⟩ := hg a.value s
    refine ⟨{ e with name := a.value, type := t }, s', ?_, hp, ?_⟩
    · simp only [resolve, Go.bind_apply, hr, Go.throwOpt]; rfl
    · simp [h1]
  rw [if_neg h1]
  by_cases h2 : a.local = c!"name"
  · rw [if_pos h2]
    exact ⟨_, s, rfl, rfl, by simp [h2]⟩
  rw [if_neg h2]
  by_cases h3 : a.local = c!"type"
  · rw [if_pos h3]
    obtain ⟨t, s', hr, hp⟩ := hg a.value s
    refine ⟨{ e with type := t }, s', ?_, hp, ?_⟩
    · simp only [resolve, Go.bind_apply, hr, Go.throwOpt]; rfl
    · simp [h3]
  rw [if_neg h3]
  by_cases h4 : a.local = c!"maxOccurs"
  · rw [if_pos h4]
    have hl := (legal_iff a.value).2 (h h4)
    have hm := many_iff a.value
    cases e1 : maxOccursPlural a.value with
    | none => exact absurd e1 hl
    | some b =>
      rw [e1] at hm
      refine ⟨_, s, rfl, rfl, ?_⟩
      cases b with
      | true => simp [h4, hm.1 rfl]
      | false =>
        have : ¬ Many a.value := fun h => by have := hm.2 h; cases this
        simp [h4, this]
  rw [if_neg h4]
  by_cases h5 : a.local = c!"unbounded"
  · rw [if_pos h5]
    refine ⟨_, s, rfl, rfl, ?_⟩
    by_cases h6 : a.value ≠ c!"0"
    · simp [h5, h6]
    · simp [h5, h6]
  · rw [if_neg h5]
    exact ⟨e, s, rfl, rfl, by simp [h4, h5]⟩

/-- All attributes legal: the loop succeeds with the disjunction. -/
theorem loop_ok {gvt : Gvt} (hg : Total gvt) (attrs : List Attr) (h : AllLegal attrs) (e : Element) (s : St) :
    ∃ x s', forAttrs (onElementAttr gvt) attrs e s = .ok x s' ∧ s'.p = s.p ∧
      (x.plural = true ↔ e.plural = true ∨ OwnPlural attrs) := by
  induction attrs generalizing e s with
  | nil => exact ⟨e, s, rfl, rfl, by simp [OwnPlural]⟩
  | cons a as ih =>
    obtain ⟨x, s1, h1, h2, h3⟩ := attr_ok hg e a s (h a (by simp))
    obtain ⟨y, s2, k1, k2, k3⟩ := ih (fun b hb => h b (by simp [hb])) x s1
    refine ⟨y, s2, ?_, k2.trans h2, ?_⟩
    · rw [forAttrs, Go.bind_apply, h1]; exact k1
    · rw [k3, h3]
      simp only [OwnPlural, List.mem_cons, exists_eq_or_imp, or_assoc]

/-- Some maxOccurs illegal: the loop fails with the first of them. -/
theorem loop_err {gvt : Gvt} (hg : Total gvt) (attrs : List Attr) (h : ¬ AllLegal attrs) (e : Element) (s : St) :
    ∃ l a r s', attrs = l ++ a :: r ∧ AllLegal l ∧ a.local = c!"maxOccurs" ∧ ¬ Legal a.value ∧
      forAttrs (onElementAttr gvt) attrs e s = .err (.atoi a.value) s' := by
  induction attrs generalizing e s with
  | nil => exact absurd (fun a ha => by cases ha) h
  | cons a as ih =>
    by_cases ha : a.local = c!"maxOccurs" ∧ ¬ Legal a.value
    · refine ⟨[], a, as, s, rfl, (fun b hb => by cases hb), ha.1, ha.2, ?_⟩
      have hn : maxOccursPlural a.value = none := by
        apply Classical.byContradiction
        intro hc
        exact ha.2 ((legal_iff _).1 hc)
      have e1 : onElementAttr gvt e a s = .err (.atoi a.value) s := by
        unfold onElementAttr
        rw [if_neg (by rw [ha.1]; decide), if_neg (by rw [ha.1]; decide), if_neg (by rw [ha.1]; decide), if_pos ha.1, hn]
        rfl
      rw [forAttrs, Go.bind_apply, e1]
    · have ha' : a.local = c!"maxOccurs" → Legal a.value := fun h1 => Classical.byContradiction fun h2 => ha ⟨h1, h2⟩
      obtain ⟨x, s1, h1, h2, h3⟩ := attr_ok hg e a s ha'
      obtain ⟨l, b, r, s2, k1, k2, k3, k4, k5⟩ := ih (fun hl => h (fun b hb => by
        rcases List.mem_cons.1 hb with rfl | hb
        · exact ha'
        · exact hl b hb)) x s1
      refine ⟨a :: l, b, r, s2, by rw [k1]; rfl, ?_, k3, k4, ?_⟩
      · intro c hc
        rcases List.mem_cons.1 hc with rfl | hc
        · exact ha'
        · exact k2 c hc
      · rw [forAttrs, Go.bind_apply, h1]; exact k5

theorem place_heap (e : Element) (b : Bool) (p : PState) :
    (placeElement e b p).heap = p.heap ++ [{ e with plural := e.plural || p.choicePlural }] := by
  obtain ⟨heap, proto, inE, cur, inG, inU, inAG, st, ct, el, ats, gr, ags, ch⟩ := p
  cases b <;> cases ct <;> simp only [placeElement, Bool.false_eq_true, if_true, if_false] <;> first | rfl | (split <;> rfl)

/-- C30, accepted tags: if all maxOccurs are legal, the tag is accepted and creates one element whose multiplicity is its
own or that of the enclosing choice. -/
theorem accepted {gvt : Gvt} (hg : Total gvt) (attrs : List Attr) (h : AllLegal attrs) (s : St) :
    ∃ e s', onElement gvt attrs s = .ok () s' ∧ s'.p.heap = s.p.heap ++ [e] ∧
      (e.plural = true ↔ OwnPlural attrs ∨ s.p.choicePlural = true) := by
  obtain ⟨x, s1, h1, h2, h3⟩ := loop_ok hg attrs h {} s
  unfold onElement
  rw [Go.bind_apply, h1]
  dsimp only
  have h3' : x.plural = true ↔ OwnPlural attrs := by rw [h3]; simp
  split
  · obtain ⟨t, s2, hr, hp⟩ := hg x.name s1
    refine ⟨{ x with type := t, plural := x.plural || s.p.choicePlural },
      { s2 with p := placeElement { x with type := t } true s2.p }, ?_, ?_, ?_⟩
    · simp only [resolve, Go.bind_apply, hr, Go.throwOpt]; rfl
    · rw [← h2, ← hp]; exact place_heap _ _ _
    · simp [h3']
  · refine ⟨{ x with plural := x.plural || s.p.choicePlural }, { s1 with p := placeElement x false s1.p }, rfl, ?_, ?_⟩
    · rw [← h2]; exact place_heap _ _ _
    · simp [h3']

/-- C30, rejected tags: otherwise the tag is rejected with the error of the first illegal maxOccurs. -/
theorem rejected {gvt : Gvt} (hg : Total gvt) (attrs : List Attr) (h : ¬ AllLegal attrs) (s : St) :
    ∃ l a r s', attrs = l ++ a :: r ∧ AllLegal l ∧ a.local = c!"maxOccurs" ∧ ¬ Legal a.value ∧
      onElement gvt attrs s = .err (.atoi a.value) s' := by
  obtain ⟨l, a, r, s', h1, h2, h3, h4, h5⟩ := loop_err hg attrs h {} s
  refine ⟨l, a, r, s', h1, h2, h3, h4, ?_⟩
  unfold onElement
  rw [Go.bind_apply, h5]

/-- C30: rejected iff some maxOccurs is illegal. -/
theorem rejected_iff {gvt : Gvt} (hg : Total gvt) (attrs : List Attr) (s : St) :
    (∃ e s', onElement gvt attrs s = .err e s') ↔ ∃ a ∈ attrs, a.local = c!"maxOccurs" ∧ ¬ Legal a.value := by
  constructor
  · rintro ⟨e, s', h⟩
    apply Classical.byContradiction
    intro hc
    obtain ⟨x, s2, h1, -⟩ := accepted hg attrs (fun a ha h1 => Classical.byContradiction fun h2 => hc ⟨a, ha, h1, h2⟩) s
    rw [h] at h1
    cases h1
  · rintro ⟨a, ha, h1, h2⟩
    obtain ⟨_, a, _, s', _, _, _, _, h⟩ := rejected hg attrs (fun hl => h2 (hl a ha h1)) s
    exact ⟨_, s', h⟩

/-- The choice tag: rejected iff some maxOccurs is illegal, otherwise one choice is pushed whose multiplicity is its own
(the last maxOccurs) or that of the enclosing choice. -/
theorem choice_accepted (attrs : List Attr) (h : AllLegal attrs) (s : St) :
    ∃ c, onChoice attrs s = .ok () { s with p := { s.p with choice := c :: s.p.choice } } ∧
      (c.plural = true ↔ ChoicePlural attrs ∨ s.p.choicePlural = true) := by
  have loop : ∀ (attrs : List Attr), AllLegal attrs → ∀ x : Choice, ∃ y : Choice,
      forAttrs onChoiceAttr attrs x s = .ok y s ∧
      (y.plural = true ↔ ChoicePlural attrs ∨ (x.plural = true ∧ ∀ b ∈ attrs, b.local ≠ c!"maxOccurs")) := by
    intro attrs
    induction attrs with
    | nil => exact fun _ x => ⟨x, rfl, by simp [ChoicePlural]⟩
    | cons a as ih =>
      intro hl x
      have hl' : AllLegal as := fun b hb => hl b (by simp [hb])
      have cons_iff : ChoicePlural (a :: as) ↔ ChoicePlural as ∨
          (a.local = c!"maxOccurs" ∧ Many a.value ∧ ∀ b ∈ as, b.local ≠ c!"maxOccurs") := by
        constructor
        · rintro ⟨l, c, r, h1, h2, h3, h4⟩
          cases l with
          | nil => cases h1; exact Or.inr ⟨h2, h3, h4⟩
          | cons d ds => cases h1; exact Or.inl ⟨ds, c, r, rfl, h2, h3, h4⟩
        · rintro (⟨l, c, r, h1, h2, h3, h4⟩ | ⟨h1, h2, h3⟩)
          · exact ⟨a :: l, c, r, by rw [h1]; rfl, h2, h3, h4⟩
          · exact ⟨[], a, as, rfl, h1, h2, h3⟩
      by_cases h4 : a.local = c!"maxOccurs"
      · have hleg := (legal_iff a.value).2 (hl a (by simp) h4)
        have hm := many_iff a.value
        cases e1 : maxOccursPlural a.value with
        | none => exact absurd e1 hleg
        | some b =>
          rw [e1, Option.some.injEq] at hm
          obtain ⟨y, k1, k2⟩ := ih hl' { x with plural := b }
          refine ⟨y, ?_, ?_⟩
          · have : onChoiceAttr x a s = .ok { x with plural := b } s := by
              unfold onChoiceAttr
              rw [if_pos h4, e1]; rfl
            rw [forAttrs, Go.bind_apply, this]; exact k1
          · rw [k2, cons_iff, hm]
            simp only [h4, true_and, List.mem_cons, forall_eq_or_imp, ne_eq, not_true_eq_false, false_and, and_false,
              or_false]
      · obtain ⟨y, k1, k2⟩ := ih hl' x
        refine ⟨y, ?_, ?_⟩
        · have : onChoiceAttr x a s = .ok x s := by unfold onChoiceAttr; rw [if_neg h4]; rfl
          rw [forAttrs, Go.bind_apply, this]; exact k1
        · rw [k2, cons_iff]
          simp only [h4, false_and, or_false, List.mem_cons, forall_eq_or_imp, ne_eq, not_false_iff, true_and]
  obtain ⟨y, k1, k2⟩ := loop attrs h {}
  refine ⟨{ plural := y.plural || s.p.choicePlural }, ?_, ?_⟩
  · unfold onChoice
    rw [Go.bind_apply, k1]; rfl
  · have : y.plural = true ↔ ChoicePlural attrs := by rw [k2]; simp
    simp [this]

/-- An illegal maxOccurs rejects the choice tag. -/
theorem choice_rejected (attrs : List Attr) (h : ¬ AllLegal attrs) (s : St) :
    ∃ v, ¬ Legal v ∧ onChoice attrs s = .err (.atoi v) s := by
  have loop : ∀ (attrs : List Attr), ¬ AllLegal attrs → ∀ x : Choice, ∃ v, ¬ Legal v ∧
      forAttrs onChoiceAttr attrs x s = .err (.atoi v) s := by
    intro attrs
    induction attrs with
    | nil => intro h; exact absurd (fun a ha => by cases ha) h
    | cons a as ih =>
      intro h x
      by_cases ha : a.local = c!"maxOccurs" ∧ ¬ Legal a.value
      · refine ⟨a.value, ha.2, ?_⟩
        have hn : maxOccursPlural a.value = none := Classical.byContradiction fun hc => ha.2 ((legal_iff _).1 hc)
        have : onChoiceAttr x a s = .err (.atoi a.value) s := by unfold onChoiceAttr; rw [if_pos ha.1, hn]; rfl
        rw [forAttrs, Go.bind_apply, this]
      · have ha' : a.local = c!"maxOccurs" → Legal a.value := fun h1 => Classical.byContradiction fun h2 => ha ⟨h1, h2⟩
        have hx : ∃ y, onChoiceAttr x a s = .ok y s := by
          unfold onChoiceAttr
          by_cases h4 : a.local = c!"maxOccurs"
          · rw [if_pos h4]
            cases e1 : maxOccursPlural a.value with
            | none => exact absurd e1 ((legal_iff _).2 (ha' h4))
            | some b => exact ⟨_, rfl⟩
          · rw [if_neg h4]; exact ⟨_, rfl⟩
        obtain ⟨y, hy⟩ := hx
        obtain ⟨v, k1, k2⟩ := ih (fun hl => h (fun b hb => by
          rcases List.mem_cons.1 hb with rfl | hb
          · exact ha'
          · exact hl b hb)) y
        refine ⟨v, k1, ?_⟩
        rw [forAttrs, Go.bind_apply, hy]; exact k2
  obtain ⟨v, h1, h2⟩ := loop attrs h {}
  refine ⟨v, h1, ?_⟩
  unfold onChoice
  rw [Go.bind_apply, h2]

/-! ## Examples -/

example : Total fun v s => .ok (v, none) s := fun v s => ⟨v, s, rfl, rfl⟩
example : atoi c!"-12" = some (-12) := by decide
/-- One above the largest 64-bit integer, and an empty value, are illegal. -/
example : atoi c!"9223372036854775808" = none ∧ atoi c!"" = none ∧ atoi c!"9223372036854775807" ≠ none := by decide
example : ¬ Legal c!"many" := fun h => absurd ((legal_iff _).2 h) (by decide)
example : Many c!"2" := (many_iff _).1 (by decide)
example : ¬ Many c!"1" := fun h => absurd ((many_iff _).2 h) (by decide)

end Xgen.C30
