import Verif.Props.C45
import Verif.Lemmas.ParseRel
import Verif.Spec.Handled

/-! # C33: no panic on well-formed schemas -/

namespace Xgen.C33
open Handled
variable [Uni]

/-! ## Specification -/

/-- An element declaration without type and ref. -/
def Untyped (attrs : List Attr) : Prop := ∀ a ∈ attrs, a.local ≠ c!"type" ∧ a.local ≠ c!"ref"

instance (attrs : List Attr) : Decidable (Untyped attrs) := by unfold Untyped; infer_instance

/-- A declaration with a (last) non-empty name. -/
def Named (attrs : List Attr) : Prop := ∃ l a r, attrs = l ++ a :: r ∧ a.local = c!"name" ∧ a.value ≠ [] ∧
  ∀ b ∈ r, b.local ≠ c!"name"

/-- Between tokens: `d` complex types are open, and `fresh` means that the last handled tag opened an element
declaration without type and ref.  A document is safe if no element is called charData and each complex type is named
and not nested, or the first handled child of an element declaration without type and ref. -/
inductive Safe : Nat → Bool → List Token → Prop
  | nil {d fresh} : Safe d fresh []
  | text {d fresh x ts} : Safe d fresh ts → Safe d fresh (.text x :: ts)
  | other {d fresh ts} : Safe d fresh ts → Safe d fresh (.other :: ts)
  | skipStart {d fresh n as ts} : makeFirstUpperCase n ∉ startHandled → Safe d fresh ts →
      Safe d fresh (.start n as :: ts)
  | skipStop {d fresh n ts} : makeFirstUpperCase n ∉ endHandled → Safe d fresh ts → Safe d fresh (.stop n :: ts)
  | topType {fresh n as ts} : makeFirstUpperCase n = c!"ComplexType" → Named as → Safe 1 false ts →
      Safe 0 fresh (.start n as :: ts)
  | innerType {d n as ts} : makeFirstUpperCase n = c!"ComplexType" → Safe (d + 1) false ts →
      Safe d true (.start n as :: ts)
  | endType {d fresh n ts} : makeFirstUpperCase n = c!"ComplexType" → Safe (d - 1) false ts →
      Safe d fresh (.stop n :: ts)
  | element {d fresh n as ts} : makeFirstUpperCase n = c!"Element" → Safe d (decide (Untyped as)) ts →
      Safe d fresh (.start n as :: ts)
  | start {d fresh n as ts} : makeFirstUpperCase n ≠ c!"CharData" → makeFirstUpperCase n ≠ c!"ComplexType" →
      Safe d false ts → Safe d fresh (.start n as :: ts)
  | stop {d fresh n ts} : makeFirstUpperCase n ≠ c!"ComplexType" → Safe d false ts → Safe d fresh (.stop n :: ts)

/-- Every file that can be opened is safe. -/
def SafeWorld (W : World) : Prop := ∀ path toks, W.fs.get? path = some (.file toks) → Safe 0 false toks

/-! ## Proof -/

theorem onKind_name {n : Str} {k : OnKind} (h : onKind n = some k) : (makeFirstUpperCase n, k) ∈ onTable :=
  GoMap.mem_of_get? h

theorem endKind_name {n : Str} {k : EndKind} (h : endKind n = some k) : (makeFirstUpperCase n, k) ∈ endTable :=
  GoMap.mem_of_get? h

/-- The invariant between tokens. -/
def Inv (d : Nat) (fresh : Bool) (p : PState) : Prop :=
  C45.Inv p ∧ p.complexType.length ≤ d ∧ (fresh = true → p.element ≠ [])

omit [Uni] in
theorem onPrim_complex {k : OnKind} {f : PState → PState} (hf : OnPrim k f) (p : PState) :
    (f p).complexType.length = p.complexType.length := by
  cases hf with
  | placeAttributeGroup x =>
    unfold placeAttributeGroup
    split
    · rfl
    · rename_i h; simp [h]
  | placeElement e b =>
    cases b
    all_goals
      simp only [placeElement, Bool.false_eq_true, if_true, if_false]
      split
      · rename_i h; simp [h]
      · split <;> rfl
  | enumeration attrs => rw [onEnumeration_frame]
  | setComplexBase t => exact C45.length_setTop _ _
  | nameComplex v => exact C45.length_setTop _ _
  | _ => rfl

omit [Uni] in
theorem placeGroup_complex {g : GroupRef} {p p' : PState} (e : placeGroup? g p = some p') :
    p'.complexType.length = p.complexType.length := by
  unfold placeGroup? at e
  dsimp only at e
  split at e
  · rename_i h
    split at e <;> cases e
    · rfl
    · simp [h]
  · split at e
    · cases e; rfl
    · split at e
      · split at e <;> cases e; rfl
      · cases e; rfl

omit [Uni] in
theorem endPrim_complex {name : Str} {k : EndKind} {f : PState → PState} (hf : EndPrim name k f) (p : PState) :
    (f p).complexType.length ≤ p.complexType.length ∧
    (k = .complexType → f = endComplexType → (f p).complexType.length = p.complexType.length - 1) := by
  cases hf with
  | «attribute» =>
    refine ⟨?_, fun h => by cases h⟩
    unfold endAttribute
    split
    · exact Nat.le_refl _
    · dsimp only
      split
      · exact Nat.le_refl _
      · split
        · rename_i h; simp [h]
        · exact Nat.le_refl _
  | attributeGroup =>
    refine ⟨?_, fun h => by cases h⟩
    unfold endAttributeGroup
    split <;> exact Nat.le_refl _
  | complexType =>
    have : (endComplexType p).complexType = p.complexType.tail := rfl
    rw [this, List.length_tail]
    exact ⟨by omega, fun _ _ => rfl⟩
  | element =>
    refine ⟨?_, fun h => by cases h⟩
    unfold endElement
    split
    · exact Nat.le_refl _
    · exact Nat.le_refl _
  | group =>
    refine ⟨?_, fun h => by cases h⟩
    unfold endGroup
    dsimp only
    split <;> split <;> exact Nat.le_refl _
  | simpleType =>
    refine ⟨?_, fun h => by cases h⟩
    unfold endSimpleType
    split
    · exact Nat.le_refl _
    · have h1 : (endSimpleTypeComplex name p).complexType.length ≤ p.complexType.length := by
        unfold endSimpleTypeComplex
        split
        · show p.complexType.tail.length ≤ _; rw [List.length_tail]; omega
        · exact Nat.le_refl _
      have h2 : ∀ q, (endSimpleTypeSimple name q).complexType = q.complexType := by
        intro q
        unfold endSimpleTypeSimple
        split <;> rfl
      rw [h2]
      exact h1
  | union =>
    refine ⟨?_, fun h => by cases h⟩
    unfold endUnion
    split <;> exact Nat.le_refl _
  | restrictionElement =>
    refine ⟨?_, fun h => by cases h⟩
    unfold restrictionElement
    split
    · rename_i h; simp [h]
    · exact Nat.le_refl _
  | setElementType k t =>
    have e : (setElementType t p).complexType = p.complexType := by
      unfold setElementType PState.modTopElement; split <;> rfl
    rw [e]
    refine ⟨Nat.le_refl _, fun _ h => ?_⟩
    have h1 := congrFun h { complexType := [{}] }
    have h2 := congrArg (fun q => q.complexType.length) h1
    simp [setElementType, PState.modTopElement, endComplexType] at h2
  | setAttributeType k t =>
    refine ⟨Nat.le_refl _, fun _ h => ?_⟩
    have h2 := congrArg (fun q => q.complexType.length) (congrFun h { complexType := [{}] })
    simp [setAttributeType, endComplexType] at h2
  | clearCurrent k =>
    refine ⟨Nat.le_refl _, fun _ h => ?_⟩
    have h2 := congrArg (fun q => q.complexType.length) (congrFun h { complexType := [{}] })
    simp [clearCurrent, endComplexType] at h2
  | popSimpleType k =>
    refine ⟨Nat.le_refl _, fun _ h => ?_⟩
    have h2 := congrArg (fun q => q.complexType.length) (congrFun h { complexType := [{}] })
    simp [popSimpleType, endComplexType] at h2
  | choice => exact ⟨Nat.le_refl _, fun h => by cases h⟩

/-- Not a panic. -/
abbrev NP (h : Halt) : Prop := h ≠ .panic

theorem start_keeps (W : World) {gvt : Gvt} (hg : GvtOk NP gvt) {name : Str} (attrs : List Attr) {k : OnKind}
    (hk : onKind name = some k) (h1 : k ≠ .charData) (h2 : k ≠ .complexType) (d : Nat) :
    KeepsP (fun p => (C45.Inv p ∧ p.inElement = name) ∧ p.complexType.length ≤ d) NP
      (callOn W gvt attrs k) (callOn W gvt attrs k) := by
  refine callOn_keepsP W hg attrs k (fun h => absurd h h1)
    (fun f hf p hp => ⟨C45.inv_prim hk hf p hp.1, by rw [onPrim_complex hf]; exact hp.2⟩) fun f hf p hp => ?_
  cases hf with
  | complexType as => exact absurd rfl h2
  | group g =>
    exact ⟨fun e => absurd e (C45.group_total g p hp.1.1.1),
      fun p' e => ⟨C45.inv_prim? hk (.group g) p p' hp.1 e, by rw [placeGroup_complex e]; exact hp.2⟩⟩

theorem stop_keeps {gvt : Gvt} (hg : GvtOk NP gvt) {name : Str} {k : EndKind} (hk : endKind name = some k) (d : Nat) :
    KeepsP (fun p => C45.Inv p ∧ p.complexType.length ≤ d) NP (callEnd gvt name k) (callEnd gvt name k) :=
  callEnd_keepsP hg name k fun f hf p hp =>
    ⟨C45.inv_end hk hf p hp.1, Nat.le_trans (endPrim_complex hf p).1 hp.2⟩

omit [Uni] in
theorem lastNamed_ne {attrs : List Attr} (h : Named attrs) : lastNamed c!"name" attrs [] ≠ [] := by
  obtain ⟨l, a, r, rfl, h1, h2, h3⟩ := h
  unfold lastNamed
  rw [List.foldl_append, List.foldl_cons, if_pos h1]
  have : ∀ (r : List Attr) acc, (∀ b ∈ r, b.local ≠ c!"name") →
      r.foldl (fun acc a => if a.local = c!"name" then a.value else acc) acc = acc := by
    intro r
    induction r with
    | nil => intros; rfl
    | cons b bs ih =>
      intro acc h
      rw [List.foldl_cons, if_neg (h b (by simp))]
      exact ih acc fun x hx => h x (by simp [hx])
  rw [this r _ h3]
  exact h2

omit [Uni] in
theorem attr_untyped {gvt : Gvt} {a : Attr} (h : a.local ≠ c!"type" ∧ a.local ≠ c!"ref") (e : Element)
    (he : e.type = []) (s : St) :
    (∃ x, onElementAttr gvt e a s = .ok x s ∧ x.type = []) ∨ (∃ er, onElementAttr gvt e a s = .err er s) := by
  unfold onElementAttr
  rw [if_neg h.2]
  split
  · exact Or.inl ⟨_, rfl, he⟩
  rw [if_neg h.1]
  split
  · cases maxOccursPlural a.value with
    | none => exact Or.inr ⟨_, rfl⟩
    | some b => refine Or.inl ⟨_, rfl, ?_⟩; cases b <;> exact he
  split
  · refine Or.inl ⟨_, rfl, ?_⟩
    split <;> exact he
  · exact Or.inl ⟨_, rfl, he⟩

omit [Uni] in
/-- Attributes other than type and ref leave the type empty and the state alone. -/
theorem forAttrs_untyped {gvt : Gvt} {attrs : List Attr} (h : Untyped attrs) (e : Element) (he : e.type = []) (s : St) :
    (∃ x, forAttrs (onElementAttr gvt) attrs e s = .ok x s ∧ x.type = []) ∨
    (∃ er, forAttrs (onElementAttr gvt) attrs e s = .err er s) := by
  induction attrs generalizing e with
  | nil => exact Or.inl ⟨e, rfl, he⟩
  | cons a as ih =>
    simp only [forAttrs, Go.bind_apply]
    rcases attr_untyped (gvt := gvt) (h a (by simp)) e he s with ⟨x, hx, ht⟩ | ⟨er, hx⟩
    · rw [hx]
      exact ih (fun x hx => h x (by simp [hx])) x ht
    · rw [hx]
      exact Or.inr ⟨er, rfl⟩

omit [Uni] in
theorem placeElement_ne (e : Element) (p : PState) : (placeElement e true p).element ≠ [] := by
  simp only [placeElement, if_true]
  split
  · simp
  · split <;> simp

theorem onElement_fresh {gvt : Gvt} (hg : GvtOk NP gvt) {attrs : List Attr} (h : Untyped attrs) (s s' : St)
    (e : onElement gvt attrs s = .ok () s') : s'.p.element ≠ [] := by
  unfold onElement at e
  rw [Go.bind_apply] at e
  rcases forAttrs_untyped (gvt := gvt) h {} rfl s with ⟨x, hx, ht⟩ | ⟨er, hx⟩
  · rw [hx] at e
    simp only [ht, if_true, resolve, Go.bind_apply] at e
    cases h2 : gvt x.name s with
    | ok r s1 =>
      rw [h2] at e
      cases h3 : r.2 with
      | none =>
        simp only [h3, Go.throwOpt] at e
        cases e
        exact placeElement_ne _ _
      | some er => simp only [h3, Go.throwOpt] at e; cases e
    | err er s1 => rw [h2] at e; cases e
    | halt hh s1 => rw [h2] at e; cases e
  · rw [hx] at e; cases e

theorem step_start (W : World) (gvt : Gvt) (name : Str) (attrs : List Attr) (s : St) :
    step W gvt (.start name attrs) s = (match onKind name with
      | none => Out.ok () { s with p := { s.p with inElement := name } }
      | some k => callOn W gvt attrs k { s with p := { s.p with inElement := name } }) := by
  rw [step, Go.bind_apply, onP_apply]
  cases onKind name <;> rfl

/-- A safe token stream does not panic, from any state satisfying the invariant. -/
theorem run_safe (W : World) {gvt : Gvt} (hg : GvtOk NP gvt) {d : Nat} {fresh : Bool} {toks : List Token}
    (hs : Safe d fresh toks) (s : St) (hi : Inv d fresh s.p) :
    ∀ h s', run W gvt toks s = .halt h s' → NP h := by
  -- one token that keeps the invariant for the rest
  have next : ∀ {t : Token} {ts : List Token} {d' : Nat} {f' : Bool} {s : St},
      (∀ s, Inv d' f' s.p → ∀ h s', run W gvt ts s = .halt h s' → NP h) →
      (∀ h s', step W gvt t s = .halt h s' → NP h) → (∀ s', step W gvt t s = .ok () s' → Inv d' f' s'.p) →
      ∀ h s', run W gvt (t :: ts) s = .halt h s' → NP h := by
    intro t ts d' f' s ih hh hok h s' e
    rw [run, Go.bind_apply] at e
    cases e1 : step W gvt t s with
    | ok a s1 => rw [e1] at e; exact ih s1 (hok s1 e1) h s' e
    | err er s1 => rw [e1] at e; cases e
    | halt h1 s1 => rw [e1] at e; cases e; exact hh _ _ e1
  have inv45 : ∀ t s s', C45.Inv s.p → step W gvt t s = .ok () s' → C45.Inv s'.p := by
    intro t s s' h e
    have := C45.step_inv W gvt (fun v s => ⟨(hg v s).1, fun _ _ _ => trivial⟩) t s h
    rw [e] at this; exact this
  induction hs generalizing s with
  | nil => intro h s' e; cases e
  | text _ ih =>
    rename_i x ts _
    refine next ih (by intro h s' e; cases e) fun s' e => ?_
    obtain ⟨-, -, -, h4, h5, -⟩ := C45.onCharData_frame x s.p
    refine ⟨inv45 _ _ _ hi.1 e, ?_, ?_⟩ <;> cases e
    · show (onCharData x s.p).complexType.length ≤ _; rw [h5]; exact hi.2.1
    · show _ → (onCharData x s.p).element ≠ _; rw [h4]; exact hi.2.2
  | other _ ih => exact next ih (by intro h s' e; cases e) (by intro s' e; cases e; exact hi)
  | skipStart hn _ ih =>
    rename_i n as ts _
    have he := step_start W gvt n as s
    rw [onKind_none hn] at he
    refine next ih (by intro h s' e; rw [he] at e; cases e) fun s' e => ⟨inv45 _ _ _ hi.1 e, ?_⟩
    rw [he] at e; cases e
    exact hi.2
  | skipStop hn _ ih =>
    rename_i n ts _
    have he : step W gvt (.stop n) s = .ok () s := by rw [step, endKind_none hn]; rfl
    refine next ih (by intro h s' e; rw [he] at e; cases e) fun s' e => ?_
    rw [he] at e; cases e
    exact hi
  | topType hn hnm _ ih =>
    rename_i n as ts _
    have he := step_start W gvt n as s
    have hk : onKind n = some .complexType := by unfold onKind; rw [hn]; decide
    have hc : s.p.complexType = [] := List.eq_nil_of_length_eq_zero (Nat.le_zero.mp hi.2.1)
    rw [hk] at he
    have he2 : step W gvt (.start n as) s =
        .ok () { s with p := { s.p with inElement := n, currentEle := n,
                                        complexType := [{ name := lastNamed c!"name" as [] }] } } := by
      rw [he]
      simp only [callOn, onComplexType, onComplexType?, hc, if_neg (lastNamed_ne hnm)]
    refine next ih (by intro h s' e; rw [he2] at e; cases e) fun s' e => ⟨inv45 _ _ _ hi.1 e, ?_⟩
    rw [he2] at e; cases e
    exact ⟨Nat.le_refl _, fun h => by cases h⟩
  | innerType hn _ ih =>
    rename_i d n as ts _
    have he := step_start W gvt n as s
    have hk : onKind n = some .complexType := by unfold onKind; rw [hn]; decide
    rw [hk] at he
    obtain ⟨a, rest, hel⟩ := List.exists_cons_of_ne_nil (hi.2.2 rfl)
    have hp : ∃ p', onComplexType? as { s.p with inElement := n } = some p' ∧
        p'.complexType.length ≤ d + 1 := by
      unfold onComplexType?
      split
      · simp only [hel]
        exact ⟨_, rfl, by simpa using hi.2.1⟩
      · dsimp only
        split
        · simp only [hel]
          exact ⟨_, rfl, by simp⟩
        · exact ⟨_, rfl, by simp⟩
    obtain ⟨p', hp1, hp2⟩ := hp
    have he2 : step W gvt (.start n as) s = .ok () { s with p := p' } := by
      rw [he]
      simp only [callOn, onComplexType, hp1]
    refine next ih (by intro h s' e; rw [he2] at e; cases e) fun s' e => ⟨inv45 _ _ _ hi.1 e, ?_⟩
    rw [he2] at e; cases e
    exact ⟨hp2, fun h => by cases h⟩
  | endType hn _ ih =>
    rename_i d _ n ts _
    have hk : endKind n = some .complexType := by unfold endKind; rw [hn]; decide
    have he : step W gvt (.stop n) s = .ok () { s with p := endComplexType s.p } := by rw [step, hk]; rfl
    refine next ih (by intro h s' e; rw [he] at e; cases e) fun s' e => ⟨inv45 _ _ _ hi.1 e, ?_⟩
    rw [he] at e; cases e
    refine ⟨?_, fun h => by cases h⟩
    show s.p.complexType.tail.length ≤ d - 1
    rw [List.length_tail]
    have := hi.2.1
    omega
  | element hn _ ih =>
    rename_i d _ n as ts _
    have he := step_start W gvt n as s
    have hk : onKind n = some .element := by unfold onKind; rw [hn]; decide
    rw [hk] at he
    obtain ⟨k1, k2⟩ := (start_keeps W hg as hk (by decide) (by decide) d).2
      { s with p := { s.p with inElement := n } }
      ⟨⟨C45.inv_of_eq hi.1 rfl rfl (Or.inl rfl), rfl⟩, hi.2.1⟩
    refine next ih (by intro h s' e; rw [he] at e; exact k2 h s' e) fun s' e => ?_
    have e' := e
    rw [he] at e'
    dsimp only at e'
    rw [e'] at k1
    refine ⟨inv45 _ _ _ hi.1 e, k1.2, fun hf => ?_⟩
    exact onElement_fresh hg (of_decide_eq_true hf) _ _ e'
  | start h1 h2 _ ih =>
    rename_i d _ n as ts _
    have he := step_start W gvt n as s
    cases hk : onKind n with
    | none =>
      rw [hk] at he
      refine next ih (by intro h s' e; rw [he] at e; cases e) fun s' e => ⟨inv45 _ _ _ hi.1 e, ?_⟩
      rw [he] at e; cases e
      exact ⟨hi.2.1, fun h => by cases h⟩
    | some k =>
      rw [hk] at he
      have hm := onKind_name hk
      have hk1 : k ≠ .charData := by
        rintro rfl
        have : ∀ x ∈ onTable, x.2 = .charData → x.1 = c!"CharData" := by decide
        exact h1 (this _ hm rfl)
      have hk2 : k ≠ .complexType := by
        rintro rfl
        have : ∀ x ∈ onTable, x.2 = .complexType → x.1 = c!"ComplexType" := by decide
        exact h2 (this _ hm rfl)
      obtain ⟨k1, k2⟩ := (start_keeps W hg as hk hk1 hk2 d).2
        { s with p := { s.p with inElement := n } }
        ⟨⟨C45.inv_of_eq hi.1 rfl rfl (Or.inl rfl), rfl⟩, hi.2.1⟩
      refine next ih (by intro h s' e; rw [he] at e; exact k2 h s' e) fun s' e => ?_
      have e' := e
      rw [he] at e'
      dsimp only at e'
      rw [e'] at k1
      exact ⟨inv45 _ _ _ hi.1 e, k1.2, fun h => by cases h⟩
  | stop hn _ ih =>
    rename_i d _ n ts _
    cases hk : endKind n with
    | none =>
      have he : step W gvt (.stop n) s = .ok () s := by rw [step, hk]; rfl
      refine next ih (by intro h s' e; rw [he] at e; cases e) fun s' e => ?_
      rw [he] at e; cases e
      exact ⟨hi.1, hi.2.1, fun h => by cases h⟩
    | some k =>
      have he : step W gvt (.stop n) s = callEnd gvt n k s := by rw [step, hk]
      obtain ⟨k1, k2⟩ := (stop_keeps hg hk d).2 s ⟨hi.1, hi.2.1⟩
      refine next ih (by intro h s' e; rw [he] at e; exact k2 h s' e) fun s' e => ?_
      have e' := e
      rw [he] at e'
      rw [e'] at k1
      exact ⟨k1.1, k1.2, fun h => by cases h⟩

theorem includeLoop_np (W : World) {rec : Cfg → Go Shared Tree} (hr : ∀ cfg sh h s', rec cfg sh = .halt h s' → NP h)
    (cfg : Cfg) (name : Str) (init : List Str) (k : Nat) (visited : List Str) (vt : Str) (sh : Shared) :
    ∀ h s', includeLoop W rec cfg name init k visited vt sh = .halt h s' → NP h := by
  induction k generalizing visited vt sh with
  | zero => intro h s' e; cases e; decide
  | succ k ih =>
    intro h s' e
    unfold includeLoop at e
    dsimp only at e
    split at e
    · cases e
    · split at e
      · rename_i h1
        cases e; exact hr _ _ _ _ h1
      · cases e
      · exact ih _ _ _ _ _ e

theorem gvtOf_np (W : World) {rec : Cfg → Go Shared Tree} (hr : ∀ cfg sh h s', rec cfg sh = .halt h s' → NP h)
    (cfg : Cfg) : GvtOk NP (gvtOf W rec cfg) := by
  intro v s
  refine ⟨by unfold gvtOf; split <;> rfl, ?_⟩
  have S : Stable (fun _ : Shared => True) (fun _ _ : Shared => True) :=
    ⟨fun _ => trivial, fun _ _ => trivial, fun _ _ => trivial⟩
  have h1 := getValueType_keeps (W := W) (rec := rec) (cfg := cfg) (H := NP) S
    (fun _ path sh _ => ⟨trivial, hr _ sh⟩) (fun _ path sh _ _ _ => ⟨trivial, hr _ sh⟩)
    (fun _ name sh _ => ⟨trivial, includeLoop_np W hr cfg name _ _ _ _ sh⟩) v s.p.freeze s.sh trivial
  intro h s' e
  unfold gvtOf at e
  split at e
  · cases e
  · cases e
  · rename_i hh sh1 e1
    cases e
    exact h1.2 _ _ e1

theorem parse_np {W : World} (hW : SafeWorld W) (n : Nat) (cfg : Cfg) (sh : Shared) :
    ∀ h s', parse W n cfg sh = .halt h s' → NP h := by
  induction n generalizing cfg sh with
  | zero => intro h s' e; cases e; decide
  | succ n ih =>
    intro h s' e
    unfold parse parseWith at e
    split at e
    · cases e
    · cases e
    · cases e
    · rename_i toks hf
      unfold parseOpen at e
      split at e
      · rename_i s1 e1
        unfold finish at e
        dsimp only at e
        split at e
        · cases e
        · split at e
          · split at e
            · cases e
            · cases e
            · rename_i h1 s2 e2
              have S : ShRel W (fun _ _ => True) :=
                ⟨fun _ => trivial, fun _ _ => trivial, fun _ => trivial, fun _ _ _ => ⟨trivial, trivial, trivial⟩,
                  fun _ _ _ => trivial, fun _ _ _ _ => trivial, fun _ _ _ => trivial⟩
              exact absurd ((generate_keeps S _ _ _ _ _).2 _ _ e2) id
          · cases e; decide
      · cases e
      · rename_i h1 s1 e1
        cases e
        exact run_safe W (gvtOf_np W ih cfg) (hW _ _ hf) _
          ⟨C45.inv_init, Nat.le_refl _, fun h => by cases h⟩ _ _ e1

/-- C33: with safe files, `Parse` does not panic, for every configuration, registries and iteration order. -/
theorem no_panic {W : World} (hW : SafeWorld W) (cfg : Cfg) (sh s' : Shared) :
    Parse W cfg sh ≠ .halt .panic s' :=
  fun e => parse_np hW _ cfg sh _ _ e rfl

/-- C33, the other half: a panic comes from a file that is not safe. -/
theorem panic_cause {W : World} {cfg : Cfg} {sh s' : Shared} (h : Parse W cfg sh = .halt .panic s') :
    ∃ path toks, W.fs.get? path = some (.file toks) ∧ ¬ Safe 0 false toks := by
  apply Classical.byContradiction
  intro hc
  refine no_panic (W := W) (fun path toks hf => ?_) cfg sh s' h
  apply Classical.byContradiction
  intro hs
  exact hc ⟨path, toks, hf, hs⟩

/-- The exact cause at the token: with a resolver that does not panic and consistent group bookkeeping (C45), a token
panics iff it starts an element charData, or a complex type that is nested or unnamed while no element is pending. -/
theorem step_panic_iff (W : World) {gvt : Gvt} (hg : GvtOk NP gvt) (t : Token) (s : St) (hi : C45.Inv s.p) :
    (∃ s', step W gvt t s = .halt .panic s') ↔
    ∃ n as, t = .start n as ∧ (makeFirstUpperCase n = c!"CharData" ∨
      (makeFirstUpperCase n = c!"ComplexType" ∧ s.p.element = [] ∧
        (s.p.complexType ≠ [] ∨ lastNamed c!"name" as [] = []))) := by
  constructor
  · rintro ⟨s', e⟩
    cases t with
    | text x => cases e
    | other => cases e
    | stop n =>
      rw [step] at e
      cases hk : endKind n with
      | none => rw [hk] at e; cases e
      | some k =>
        rw [hk] at e
        exact absurd rfl (((stop_keeps hg hk s.p.complexType.length).2 s ⟨hi, Nat.le_refl _⟩).2 _ _ e)
    | start n as =>
      refine ⟨n, as, rfl, ?_⟩
      rw [step_start] at e
      cases hk : onKind n with
      | none => rw [hk] at e; cases e
      | some k =>
        rw [hk] at e
        have hm := onKind_name hk
        by_cases h1 : k = .charData
        · subst h1
          have : ∀ x ∈ onTable, x.2 = .charData → x.1 = c!"CharData" := by decide
          exact Or.inl (this _ hm rfl)
        by_cases h2 : k = .complexType
        · subst h2
          have : ∀ x ∈ onTable, x.2 = .complexType → x.1 = c!"ComplexType" := by decide
          refine Or.inr ⟨this _ hm rfl, ?_⟩
          simp only [callOn, onComplexType, onComplexType?] at e
          cases hel : s.p.element with
          | nil =>
            refine ⟨rfl, ?_⟩
            cases hc : s.p.complexType with
            | nil =>
              right
              apply Classical.byContradiction
              intro hne
              simp only [hc, if_neg hne] at e
              cases e
            | cons c cs => left; simp
          | cons a rest =>
            exfalso
            cases hc : s.p.complexType with
            | nil =>
              simp only [hc, hel] at e
              by_cases hne : lastNamed c!"name" as [] = []
              · simp only [if_pos hne] at e; cases e
              · simp only [if_neg hne] at e; cases e
            | cons c cs => simp only [hc, hel] at e; cases e
        · exact absurd rfl (((start_keeps W hg as hk h1 h2 s.p.complexType.length).2
            { s with p := { s.p with inElement := n } }
            ⟨⟨C45.inv_of_eq hi rfl rfl (Or.inl rfl), rfl⟩, Nat.le_refl _⟩).2 _ _ e)
  · rintro ⟨n, as, rfl, h⟩
    rw [step_start]
    rcases h with h | ⟨h, hel, hc⟩
    · have hk : onKind n = some .charData := by unfold onKind; rw [h]; decide
      rw [hk]
      exact ⟨_, rfl⟩
    · have hk : onKind n = some .complexType := by unfold onKind; rw [h]; decide
      rw [hk]
      simp only [callOn, onComplexType, onComplexType?, hel]
      cases hct : s.p.complexType with
      | nil =>
        rcases hc with hc | hc
        · exact absurd hct hc
        · simp only [if_pos hc]; exact ⟨_, rfl⟩
      | cons c cs => exact ⟨_, rfl⟩

/-! ## Examples -/

open Ex

/-- An element with an annotated anonymous complex type that contains another one. -/
def doc : List Token :=
  [on "schema", on "element" [("name", "a")], on "annotation", txt "x", off "annotation", on "complexType", on "sequence",
   on "element" [("name", "b")], on "complexType"] ++ leaf "attribute" [("name", "c"), ("type", "string")] ++
  [off "complexType", off "element", off "sequence", off "complexType", off "element",
   on "complexType" [("name", "T")], off "complexType", off "schema"]

set_option maxRecDepth 4000 in
example : @Safe asciiUni 0 false doc := by
  refine @Safe.start asciiUni _ _ _ _ _ (by decide) (by decide) ?_
  refine @Safe.element asciiUni _ _ _ _ _ (by decide) ?_
  refine @Safe.skipStart asciiUni _ _ _ _ _ (by decide) ?_
  refine @Safe.text asciiUni _ _ _ _ ?_
  refine @Safe.skipStop asciiUni _ _ _ _ (by decide) ?_
  refine @Safe.innerType asciiUni _ _ _ _ (by decide) ?_
  refine @Safe.skipStart asciiUni _ _ _ _ _ (by decide) ?_
  refine @Safe.element asciiUni _ _ _ _ _ (by decide) ?_
  refine @Safe.innerType asciiUni _ _ _ _ (by decide) ?_
  refine @Safe.start asciiUni _ _ _ _ _ (by decide) (by decide) ?_
  refine @Safe.stop asciiUni _ _ _ _ (by decide) ?_
  refine @Safe.endType asciiUni _ _ _ _ (by decide) ?_
  refine @Safe.stop asciiUni _ _ _ _ (by decide) ?_
  refine @Safe.skipStop asciiUni _ _ _ _ (by decide) ?_
  refine @Safe.endType asciiUni _ _ _ _ (by decide) ?_
  refine @Safe.stop asciiUni _ _ _ _ (by decide) ?_
  refine @Safe.topType asciiUni _ _ _ _ (by decide) ⟨[], _, [], rfl, by decide, by decide, by simp⟩ ?_
  refine @Safe.endType asciiUni _ _ _ _ (by decide) ?_
  refine @Safe.stop asciiUni _ _ _ _ (by decide) ?_
  exact @Safe.nil asciiUni _ _

example : kind (Ex.parse (world [("a.xsd", doc)]) "a.xsd" "Go") = none := by decide +kernel
/-- Both causes occur. -/
example : kind (Ex.parse (world [("a.xsd", leaf "charData")]) "a.xsd" "Go") = some (some .panic) := by decide +kernel
example : kind (Ex.parse (world [("a.xsd", leaf "complexType")]) "a.xsd" "Go") = some (some .panic) := by decide +kernel

end Xgen.C33
