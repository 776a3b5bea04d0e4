import Verif.Props.C45
import Verif.Lemmas.ParseRel

/-! # C20: a complex type references each model group once -/

namespace Xgen.C20
variable [Uni]

/-- The names of the group references of a complex type. -/
def names (c : ComplexType) : List Str := c.groups.map (·.name)

/-- The complex types of a tree. -/
def complexOf {ε : Type} (t : List (Option (Node ε))) : List ComplexType :=
  t.filterMap fun n => match n with
    | some (.complex c) => some c
    | _ => none

/-- The property for all complex types, finished or open. -/
def Distinct (p : PState) : Prop := ∀ c ∈ complexOf p.proto ++ p.complexType, (names c).Nodup

/-! ## Distinctness -/

omit [Uni] in
theorem complexOf_append {ε : Type} (a b : List (Option (Node ε))) :
    complexOf (a ++ b) = complexOf a ++ complexOf b := List.filterMap_append

omit [Uni] in
theorem distinct_of_eq {p q : PState} (hp : Distinct p) (h1 : q.proto = p.proto) (h2 : q.complexType = p.complexType) :
    Distinct q := by
  unfold Distinct; rw [h1, h2]; exact hp

omit [Uni] in
/-- A node that is no complex type is appended. -/
theorem distinct_append {p q : PState} (hp : Distinct p) (n : Option (Node Nat)) (hn : complexOf [n] = [])
    (h1 : q.proto = p.proto ++ [n]) (h2 : q.complexType = p.complexType) : Distinct q := by
  unfold Distinct; rw [h1, h2, complexOf_append, hn, List.append_nil]; exact hp

omit [Uni] in
/-- The innermost complex type changes, but not its groups. -/
theorem distinct_top {p q : PState} (hp : Distinct p) (h1 : q.proto = p.proto) {c c' : ComplexType}
    {cs : List ComplexType} (h2 : p.complexType = c :: cs) (h3 : q.complexType = c' :: cs) (h4 : names c' = names c) :
    Distinct q := by
  intro x hx
  rw [h1, h3] at hx
  unfold Distinct at hp
  rw [h2] at hp
  simp only [List.mem_append, List.mem_cons] at hp hx
  rcases hx with hx | rfl | hx
  · exact hp x (Or.inl hx)
  · rw [h4]; exact hp c (Or.inr (Or.inl rfl))
  · exact hp x (Or.inr (Or.inr hx))

omit [Uni] in
/-- The innermost complex type moves to the tree. -/
theorem distinct_pop {p q : PState} (hp : Distinct p) (h1 : q.proto = p.proto ++ [p.complexType.head?.map .complex])
    (h2 : q.complexType = p.complexType.tail) : Distinct q := by
  intro x hx
  rw [h1, h2, complexOf_append] at hx
  apply hp x
  cases hc : p.complexType with
  | nil =>
    rw [hc] at hx
    simpa [complexOf] using hx
  | cons c cs =>
    rw [hc] at hx
    simp only [List.head?_cons, Option.map_some, complexOf, List.filterMap_cons, List.filterMap_nil, List.tail_cons,
      List.mem_append, List.mem_cons, List.not_mem_nil, or_false] at hx ⊢
    rcases hx with (hx | hx) | hx
    · exact Or.inl hx
    · exact Or.inr (Or.inl hx)
    · exact Or.inr (Or.inr hx)

omit [Uni] in
/-- A complex type without groups is opened. -/
theorem distinct_push {p q : PState} (hp : Distinct p) (h1 : q.proto = p.proto) (n : Str)
    (h2 : q.complexType = { name := n } :: p.complexType) : Distinct q := by
  intro x hx
  rw [h1, h2] at hx
  simp only [List.mem_append, List.mem_cons] at hx
  rcases hx with hx | rfl | hx
  · exact hp x (by simp [hx])
  · exact List.nodup_nil
  · exact hp x (by simp [hx])

omit [Uni] in
theorem setTop_cons {α : Type} (f : α → α) (x : α) (xs : List α) : Stack.setTop f (x :: xs) = f x :: xs := rfl

omit [Uni] in
theorem distinct_setTop {p q : PState} (hp : Distinct p) (h1 : q.proto = p.proto) (f : ComplexType → ComplexType)
    (hf : ∀ c, names (f c) = names c) (h2 : q.complexType = Stack.setTop f p.complexType) : Distinct q := by
  cases hc : p.complexType with
  | nil => rw [hc] at h2; exact distinct_of_eq hp h1 (by rw [h2, hc]; rfl)
  | cons c cs => rw [hc] at h2; exact distinct_top hp h1 hc h2 (hf c)

omit [Uni] in
theorem prim {k : OnKind} {f : PState → PState} (hf : OnPrim k f) (p : PState) (hp : Distinct p) : Distinct (f p) := by
  cases hf with
  | placeAttributeGroup x =>
    unfold placeAttributeGroup
    split
    · exact distinct_of_eq hp rfl rfl
    · rename_i c cs h
      exact distinct_top hp rfl h rfl rfl
  | placeElement e b =>
    obtain ⟨heap, proto, inE, cur, inG, inU, inAG, st, ct, el, ats, gr, ags, ch⟩ := p
    cases b <;> cases ct
    all_goals simp only [placeElement, Bool.false_eq_true, if_true, if_false]
    · split <;> exact distinct_of_eq hp rfl rfl
    · exact distinct_top hp rfl rfl rfl rfl
    · split <;> exact distinct_of_eq hp rfl rfl
    · exact distinct_top hp rfl rfl rfl rfl
  | enumeration attrs => rw [onEnumeration_frame]; exact distinct_of_eq hp rfl rfl
  | setComplexBase t => exact distinct_setTop hp rfl (fun c => { c with base := t }) (fun _ => rfl) rfl
  | nameComplex v =>
    exact distinct_setTop hp rfl (fun c => if c.name = [] then { c with name := v } else c)
      (fun c => by split <;> rfl) rfl
  | _ => exact distinct_of_eq hp rfl rfl

omit [Uni] in
theorem prim? {k : OnKind} {f : PState → Option PState} (hf : OnPrim? k f) (p p' : PState) (hp : Distinct p)
    (e : f p = some p') : Distinct p' := by
  cases hf with
  | complexType attrs =>
    unfold onComplexType? at e
    split at e
    · rename_i h
      split at e <;> cases e
      exact distinct_push hp rfl _ rfl
    · rename_i h
      dsimp only at e
      split at e
      · split at e <;> cases e
        exact distinct_push hp rfl _ (by rw [h])
      · cases e; exact distinct_push hp rfl _ (by rw [h])
  | group g =>
    unfold placeGroup? at e
    dsimp only at e
    split at e
    · rename_i c cs h
      split at e <;> cases e
      · exact hp
      · rename_i hg
        intro x hx
        simp only [List.mem_append, List.mem_cons] at hx
        rcases hx with hx | rfl | hx
        · exact hp x (by simp [hx])
        · have hc := hp c (by rw [h]; simp)
          unfold names at hc ⊢
          rw [List.map_append, List.nodup_append]
          refine ⟨hc, by simp, ?_⟩
          intro a ha b hb
          simp only [List.map_cons, List.map_nil, List.mem_singleton] at hb
          subst hb
          rintro rfl
          apply hg
          obtain ⟨y, hy, hyn⟩ := List.mem_map.1 ha
          unfold inGroups
          rw [List.any_eq_true]
          exact ⟨y, hy, by simpa using hyn⟩
        · exact hp x (by rw [h]; simp [hx])
    · rename_i h
      split at e
      · cases e; exact distinct_of_eq hp rfl rfl
      · split at e
        · split at e <;> cases e
          exact distinct_of_eq hp rfl rfl
        · cases e; exact hp

omit [Uni] in
theorem endPrim {name : Str} {k : EndKind} {f : PState → PState} (hf : EndPrim name k f) (p : PState)
    (hp : Distinct p) : Distinct (f p) := by
  cases hf with
  | «attribute» =>
    unfold endAttribute
    split
    · exact hp
    · dsimp only
      split
      · exact distinct_of_eq hp rfl rfl
      · split
        · rename_i c cs h
          exact distinct_top hp rfl h rfl rfl
        · rename_i h
          exact distinct_append hp _ rfl rfl rfl
  | attributeGroup =>
    unfold endAttributeGroup
    split
    · exact hp
    · exact distinct_append hp _ rfl rfl rfl
  | complexType => exact distinct_pop hp rfl rfl
  | element =>
    unfold endElement
    split
    · rename_i h
      exact distinct_append hp _ rfl rfl rfl
    · exact hp
  | group =>
    unfold endGroup
    have h1 : Distinct (if name = p.currentEle && p.inGroup = 1 then
        { p.append (p.group.head?.map .group) with
          group := p.group.tail, currentEle := [], inGroup := p.inGroup - 1 } else p) := by
      split
      · refine distinct_append hp (p.group.head?.map .group) ?_ rfl rfl
        cases p.group <;> rfl
      · exact hp
    dsimp only
    generalize (if name = p.currentEle && p.inGroup = 1 then
        { p.append (p.group.head?.map .group) with
          group := p.group.tail, currentEle := [], inGroup := p.inGroup - 1 } else p) = q at h1
    split
    · exact distinct_of_eq h1 rfl rfl
    · exact h1
  | simpleType =>
    unfold endSimpleType
    split
    · exact distinct_of_eq hp rfl rfl
    · have h1 : Distinct (endSimpleTypeComplex name p) := by
        unfold endSimpleTypeComplex
        split
        · exact distinct_pop hp rfl rfl
        · exact hp
      generalize endSimpleTypeComplex name p = q at h1
      unfold endSimpleTypeSimple
      split
      · refine distinct_append h1 (q.simpleType.head?.map .simple) ?_ rfl rfl
        cases q.simpleType <;> rfl
      · exact h1
  | union =>
    unfold endUnion
    split
    · exact hp
    · exact distinct_of_eq hp rfl rfl
  | setElementType k t =>
    unfold setElementType PState.modTopElement
    split
    · exact hp
    · exact distinct_of_eq hp rfl rfl
  | restrictionElement =>
    unfold restrictionElement
    split
    · rename_i c cs h
      exact distinct_top hp rfl h rfl rfl
    · exact hp
  | _ => exact distinct_of_eq hp rfl rfl

omit [Uni] in
theorem text (x : Str) (p : PState) (hp : Distinct p) : Distinct (onCharData x p) := by
  unfold onCharData
  split
  · exact hp
  · split
    · exact distinct_of_eq hp rfl rfl
    · unfold charDataBelow PState.modTopElement
      split
      · split
        · exact hp
        · exact distinct_of_eq hp rfl rfl
      · split
        · exact distinct_of_eq hp rfl rfl
        · split
          · exact distinct_of_eq hp rfl rfl
          · split
            · split
              · exact hp
              · rename_i c cs h
                split
                · exact distinct_top hp rfl h rfl rfl
                · exact distinct_top hp rfl h rfl rfl
            · exact hp

theorem step_distinct (W : World) (gvt : Gvt) (hg : GvtOk (fun _ => True) gvt) (t : Token) (s : St)
    (hs : Distinct s.p) : Distinct (step W gvt t s).state.p := by
  cases t with
  | start name attrs =>
    rw [step, Go.bind_apply, onP_apply]
    have h0 : Distinct { s.p with inElement := name } := distinct_of_eq hs rfl rfl
    cases hk : onKind name with
    | none => exact h0
    | some k =>
      exact ((callOn_keepsP (J := Distinct) W hg attrs k (fun _ => trivial) (fun f hf p hp => prim hf p hp)
        (fun f hf p hp => ⟨fun _ => trivial, fun p' e => prim? hf p p' hp e⟩)).2
        { s with p := { s.p with inElement := name } } h0).1
  | stop name =>
    simp only [step]
    cases hk : endKind name with
    | none => exact hs
    | some k => exact ((callEnd_keepsP (J := Distinct) hg name k (fun f hf p hp => endPrim hf p hp)).2 _ hs).1
  | text x => exact text x s.p hs
  | other => exact hs

theorem run_distinct (W : World) (gvt : Gvt) (hg : GvtOk (fun _ => True) gvt) (toks : List Token) (s : St)
    (hs : Distinct s.p) : Distinct (run W gvt toks s).state.p := by
  induction toks generalizing s with
  | nil => exact hs
  | cons t ts ih =>
    have h1 := step_distinct W gvt hg t s hs
    simp only [run, Go.bind_apply]
    cases e : step W gvt t s with
    | ok a s1 => rw [e] at h1; exact ih s1 h1
    | err er s1 => rw [e] at h1; exact h1
    | halt h s1 => rw [e] at h1; exact h1

omit [Uni] in
theorem complexOf_freeze (p : PState) : complexOf p.freeze = complexOf p.proto := by
  unfold PState.freeze complexOf
  rw [List.filterMap_map]
  congr 1
  funext n
  cases n with
  | none => rfl
  | some n => cases n <;> rfl

theorem finish_tree (W : World) (cfg : Cfg) (t t' : Tree) (sh sh' : Shared) (h : finish W cfg t sh = .ok t' sh') :
    t' = t := by
  unfold finish at h
  split at h
  · cases h; rfl
  · dsimp only at h
    split at h
    · split at h <;> cases h
      rfl
    · cases h

/-- C20: in the tree of every successful parse of any document, each complex type has pairwise distinct group
references. -/
theorem distinct (W : World) (cfg : Cfg) (sh sh' : Shared) (t : Tree) (h : Parse W cfg sh = .ok t sh')
    (h0 : ∀ c ∈ complexOf cfg.tree0, (names c).Nodup) (c : ComplexType) (hc : c ∈ complexOf t) : (names c).Nodup := by
  unfold Parse parse parseWith at h
  split at h
  · cases h
  · cases h; exact h0 c hc
  · cases h
  · rename_i toks _
    unfold parseOpen at h
    split at h
    · rename_i s' e
      have := finish_tree _ _ _ _ _ _ h
      subst this
      rw [complexOf_freeze] at hc
      have hd := run_distinct W _ (C45.gvtOf_ok W (parse W (W.fs.length + 1)) cfg) toks
        { sh := beginParse cfg sh, p := {} } (by intro c hc; cases hc)
      rw [e] at hd
      exact hd c (by
        change c ∈ complexOf s'.p.proto ++ s'.p.complexType
        simp [hc])
    · cases h
    · cases h

/-! ## Presence -/

omit [Uni] in
theorem group_attr {gvt : Gvt} (hg : GvtOk (fun _ => True) gvt) (attrs : List Attr) (g x : GroupRef) (s s' : St)
    (h : forAttrs (onGroupAttr gvt) attrs g s = .ok x s') : s'.p = s.p ∧
      x.name = attrs.foldl (fun n a => if a.local = c!"name" ∨ a.local = c!"ref" then a.value else n) g.name := by
  induction attrs generalizing g s with
  | nil => cases h; exact ⟨rfl, rfl⟩
  | cons a as ih =>
    rw [forAttrs, Go.bind_apply] at h
    rw [List.foldl_cons]
    unfold onGroupAttr at h
    by_cases h1 : a.local = c!"name"
    · rw [if_pos h1] at h
      rw [if_pos (Or.inl h1)]
      exact ih { g with name := a.value } s h
    · rw [if_neg h1] at h
      by_cases h2 : a.local = c!"ref"
      · rw [if_pos h2, Go.bind_apply] at h
        rw [if_pos (Or.inr h2)]
        have hp := (hg a.value s).1
        unfold resolve at h
        rw [Go.bind_apply] at h
        cases e : gvt a.value s with
        | ok r s1 =>
          rw [e] at h hp
          obtain ⟨t, o⟩ := r
          cases o with
          | none =>
            obtain ⟨k1, k2⟩ := ih { g with name := a.value, ref := t } s1 h
            exact ⟨k1.trans hp, k2⟩
          | some er => cases h
        | err er s1 => rw [e] at h; cases h
        | halt hh s1 => rw [e] at h; cases h
      · rw [if_neg h2] at h
        rw [if_neg (by simp [h1, h2])]
        by_cases h3 : a.local = c!"maxOccurs"
        · rw [if_pos h3] at h
          have := ih (if a.value ≠ c!"0" then { g with plural := true } else g) s h
          split at this <;> exact this
        · rw [if_neg h3] at h
          exact ih g s h

/-- C20, presence: a group tag inside a complex type records the name it references (the last ref or name attribute) and
keeps all recorded before, in order. -/
theorem present (W : World) {gvt : Gvt} (hg : GvtOk (fun _ => True) gvt) (n : Str) (as : List Attr)
    (hn : makeFirstUpperCase n = c!"Group") (s s' : St) (c : ComplexType) (cs : List ComplexType)
    (hc : s.p.complexType = c :: cs) (hs : step W gvt (.start n as) s = .ok () s') :
    ∃ c', s'.p.complexType = c' :: cs ∧ c.groups <+: c'.groups ∧ c'.groups.length ≤ c.groups.length + 1 ∧
      as.foldl (fun n a => if a.local = c!"name" ∨ a.local = c!"ref" then a.value else n) [] ∈ names c' := by
  rw [step, Go.bind_apply, onP_apply] at hs
  have hk : onKind n = some .group := by unfold onKind; rw [hn]; decide
  rw [hk] at hs
  dsimp only [callOn] at hs
  have hd : onGroup gvt as = forAttrs (onGroupAttr gvt) as {} >>= fun g => onP? (placeGroup? g) := rfl
  rw [hd, Go.bind_apply] at hs
  cases e : forAttrs (onGroupAttr gvt) as {} { s with p := { s.p with inElement := n } } with
  | ok g s1 =>
    rw [e] at hs
    obtain ⟨h1, h2⟩ := group_attr hg as {} g _ s1 e
    have hc1 : s1.p.complexType = c :: cs := by rw [h1]; exact hc
    dsimp only at hs
    unfold onP? placeGroup? at hs
    rw [hc1] at hs
    dsimp only at hs
    rw [← h2]
    by_cases hi : inGroups g.name c.groups = true
    · rw [if_pos hi] at hs
      cases hs
      refine ⟨c, hc1, List.prefix_refl _, by omega, ?_⟩
      unfold inGroups at hi
      rw [List.any_eq_true] at hi
      obtain ⟨x, hx, hxn⟩ := hi
      exact List.mem_map.2 ⟨x, hx, by simpa using hxn⟩
    · rw [if_neg hi] at hs
      cases hs
      refine ⟨_, rfl, List.prefix_append _ _, by simp, ?_⟩
      simp [names]
  | err er s1 => rw [e] at hs; cases hs
  | halt hh s1 => rw [e] at hs; cases hs

/-! ## Persistence -/

/-- Some complex type, finished or open, has the name `n` and its group references start with `g`. -/
def Recorded (n : Str) (g : List GroupRef) (p : PState) : Prop :=
  ∃ c ∈ complexOf p.proto ++ p.complexType, c.name = n ∧ g <+: c.groups

section
variable {n : Str} {g : List GroupRef}

omit [Uni] in
theorem rec_mono {p q : PState} (hp : Recorded n g p)
    (h : ∀ c ∈ complexOf p.proto ++ p.complexType, c.name = n → ∃ c' ∈ complexOf q.proto ++ q.complexType,
      c'.name = c.name ∧ c.groups <+: c'.groups) : Recorded n g q := by
  obtain ⟨c, hc, h1, h2⟩ := hp
  obtain ⟨c', hc', k1, k2⟩ := h c hc h1
  exact ⟨c', hc', k1.trans h1, h2.trans k2⟩

omit [Uni] in
theorem rec_sub {p q : PState} (hp : Recorded n g p)
    (h : ∀ c ∈ complexOf p.proto ++ p.complexType, c ∈ complexOf q.proto ++ q.complexType) : Recorded n g q :=
  rec_mono hp fun c hc _ => ⟨c, h c hc, rfl, List.prefix_refl _⟩

omit [Uni] in
theorem rec_of_eq {p q : PState} (hp : Recorded n g p) (h1 : q.proto = p.proto) (h2 : q.complexType = p.complexType) :
    Recorded n g q := rec_sub hp (by rw [h1, h2]; exact fun c hc => hc)

omit [Uni] in
theorem rec_append {p q : PState} (hp : Recorded n g p) (m : Option (Node Nat))
    (h1 : q.proto = p.proto ++ [m]) (h2 : q.complexType = p.complexType) : Recorded n g q := by
  refine rec_sub hp fun c hc => ?_
  rw [h1, h2, complexOf_append]
  simp only [List.mem_append] at hc ⊢
  exact hc.imp Or.inl id

omit [Uni] in
theorem rec_top {p q : PState} (hp : Recorded n g p) (h1 : q.proto = p.proto) {c c' : ComplexType}
    {cs : List ComplexType} (h2 : p.complexType = c :: cs) (h3 : q.complexType = c' :: cs)
    (h4 : c.name = n → c'.name = c.name) (h5 : c.groups <+: c'.groups) : Recorded n g q := by
  refine rec_mono hp fun x hx hn => ?_
  rw [h1, h3]
  rw [h2] at hx
  simp only [List.mem_append, List.mem_cons] at hx ⊢
  rcases hx with hx | rfl | hx
  · exact ⟨x, Or.inl hx, rfl, List.prefix_refl _⟩
  · exact ⟨c', Or.inr (Or.inl rfl), h4 hn, h5⟩
  · exact ⟨x, Or.inr (Or.inr hx), rfl, List.prefix_refl _⟩

omit [Uni] in
theorem rec_pop {p q : PState} (hp : Recorded n g p) (h1 : q.proto = p.proto ++ [p.complexType.head?.map .complex])
    (h2 : q.complexType = p.complexType.tail) : Recorded n g q := by
  refine rec_sub hp fun x hx => ?_
  rw [h1, h2, complexOf_append]
  cases hc : p.complexType with
  | nil => rw [hc] at hx; simpa [complexOf] using hx
  | cons c cs =>
    rw [hc] at hx
    simp only [List.head?_cons, Option.map_some, complexOf, List.filterMap_cons, List.filterMap_nil, List.tail_cons,
      List.mem_append, List.mem_cons, List.not_mem_nil, or_false] at hx ⊢
    rcases hx with hx | hx | hx
    · exact Or.inl (Or.inl hx)
    · exact Or.inl (Or.inr hx)
    · exact Or.inr hx

omit [Uni] in
theorem rec_push {p q : PState} (hp : Recorded n g p) (h1 : q.proto = p.proto) (c : ComplexType)
    (h2 : q.complexType = c :: p.complexType) : Recorded n g q := by
  refine rec_sub hp fun x hx => ?_
  rw [h1, h2]
  simp only [List.mem_append, List.mem_cons] at hx ⊢
  exact hx.imp id Or.inr

omit [Uni] in
theorem rec_setTop {p q : PState} (hp : Recorded n g p) (h1 : q.proto = p.proto) (f : ComplexType → ComplexType)
    (hf : ∀ c, c.name = n → (f c).name = c.name) (hg : ∀ c, (f c).groups = c.groups)
    (h2 : q.complexType = Stack.setTop f p.complexType) : Recorded n g q := by
  cases hc : p.complexType with
  | nil => rw [hc] at h2; exact rec_of_eq hp h1 (by rw [h2, hc]; rfl)
  | cons c cs => rw [hc] at h2; exact rec_top hp h1 hc h2 (hf c) (by rw [hg]; exact List.prefix_refl _)

omit [Uni] in
theorem rec_prim (hn : n ≠ []) {k : OnKind} {f : PState → PState} (hf : OnPrim k f) (p : PState)
    (hp : Recorded n g p) : Recorded n g (f p) := by
  cases hf with
  | placeAttributeGroup x =>
    unfold placeAttributeGroup
    split
    · exact rec_of_eq hp rfl rfl
    · rename_i c cs h
      exact rec_top hp rfl h rfl (fun _ => rfl) (List.prefix_refl _)
  | placeElement e b =>
    obtain ⟨heap, proto, inE, cur, inG, inU, inAG, st, ct, el, ats, gr, ags, ch⟩ := p
    cases b <;> cases ct
    all_goals simp only [placeElement, Bool.false_eq_true, if_true, if_false]
    · split <;> exact rec_of_eq hp rfl rfl
    · exact rec_top hp rfl rfl rfl (fun _ => rfl) (List.prefix_refl _)
    · split <;> exact rec_of_eq hp rfl rfl
    · exact rec_top hp rfl rfl rfl (fun _ => rfl) (List.prefix_refl _)
  | enumeration attrs => rw [onEnumeration_frame]; exact rec_of_eq hp rfl rfl
  | setComplexBase t =>
    exact rec_setTop hp rfl (fun c => { c with base := t }) (fun _ _ => rfl) (fun _ => rfl) rfl
  | nameComplex v =>
    exact rec_setTop hp rfl (fun c => if c.name = [] then { c with name := v } else c)
      (fun c h => by rw [if_neg (by rw [h]; exact hn)]) (fun c => by split <;> rfl) rfl
  | _ => exact rec_of_eq hp rfl rfl

omit [Uni] in
theorem rec_prim? {k : OnKind} {f : PState → Option PState} (hf : OnPrim? k f) (p p' : PState) (hp : Recorded n g p)
    (e : f p = some p') : Recorded n g p' := by
  cases hf with
  | complexType attrs =>
    unfold onComplexType? at e
    split at e
    · rename_i h
      split at e <;> cases e
      exact rec_push hp rfl _ rfl
    · rename_i h
      dsimp only at e
      split at e
      · split at e <;> cases e
        exact rec_push hp rfl _ (by rw [h])
      · cases e; exact rec_push hp rfl _ (by rw [h])
  | group x =>
    unfold placeGroup? at e
    dsimp only at e
    split at e
    · rename_i c cs h
      split at e <;> cases e
      · exact hp
      · exact rec_top hp rfl h rfl (fun _ => rfl) (List.prefix_append _ _)
    · rename_i h
      split at e
      · cases e; exact rec_of_eq hp rfl rfl
      · split at e
        · split at e <;> cases e
          exact rec_of_eq hp rfl rfl
        · cases e; exact hp

omit [Uni] in
theorem rec_end {name : Str} {k : EndKind} {f : PState → PState} (hf : EndPrim name k f) (p : PState)
    (hp : Recorded n g p) : Recorded n g (f p) := by
  cases hf with
  | «attribute» =>
    unfold endAttribute
    split
    · exact hp
    · dsimp only
      split
      · exact rec_of_eq hp rfl rfl
      · split
        · rename_i c cs h
          exact rec_top hp rfl h rfl (fun _ => rfl) (List.prefix_refl _)
        · exact rec_append hp _ rfl rfl
  | attributeGroup =>
    unfold endAttributeGroup
    split
    · exact hp
    · exact rec_append hp _ rfl rfl
  | complexType => exact rec_pop hp rfl rfl
  | element =>
    unfold endElement
    split
    · exact rec_append hp _ rfl rfl
    · exact hp
  | group =>
    unfold endGroup
    have h1 : Recorded n g (if name = p.currentEle && p.inGroup = 1 then
        { p.append (p.group.head?.map .group) with
          group := p.group.tail, currentEle := [], inGroup := p.inGroup - 1 } else p) := by
      split
      · exact rec_append hp (p.group.head?.map .group) rfl rfl
      · exact hp
    dsimp only
    generalize (if name = p.currentEle && p.inGroup = 1 then
        { p.append (p.group.head?.map .group) with
          group := p.group.tail, currentEle := [], inGroup := p.inGroup - 1 } else p) = q at h1
    split
    · exact rec_of_eq h1 rfl rfl
    · exact h1
  | simpleType =>
    unfold endSimpleType
    split
    · exact rec_of_eq hp rfl rfl
    · have h1 : Recorded n g (endSimpleTypeComplex name p) := by
        unfold endSimpleTypeComplex
        split
        · exact rec_pop hp rfl rfl
        · exact hp
      generalize endSimpleTypeComplex name p = q at h1
      unfold endSimpleTypeSimple
      split
      · exact rec_append h1 (q.simpleType.head?.map .simple) rfl rfl
      · exact h1
  | union =>
    unfold endUnion
    split
    · exact hp
    · exact rec_of_eq hp rfl rfl
  | setElementType k t =>
    unfold setElementType PState.modTopElement
    split
    · exact hp
    · exact rec_of_eq hp rfl rfl
  | restrictionElement =>
    unfold restrictionElement
    split
    · rename_i c cs h
      exact rec_top hp rfl h rfl (fun _ => rfl) (List.prefix_refl _)
    · exact hp
  | _ => exact rec_of_eq hp rfl rfl

omit [Uni] in
theorem rec_text (x : Str) (p : PState) (hp : Recorded n g p) : Recorded n g (onCharData x p) := by
  unfold onCharData
  split
  · exact hp
  · split
    · exact rec_of_eq hp rfl rfl
    · unfold charDataBelow PState.modTopElement
      split
      · split
        · exact hp
        · exact rec_of_eq hp rfl rfl
      · split
        · exact rec_of_eq hp rfl rfl
        · split
          · exact rec_of_eq hp rfl rfl
          · split
            · split
              · exact hp
              · rename_i c cs h
                split
                · exact rec_top hp rfl h rfl (fun _ => rfl) (List.prefix_refl _)
                · exact rec_top hp rfl h rfl (fun _ => rfl) (List.prefix_refl _)
            · exact hp

end

/-- C20, persistence: what a named complex type has recorded is never lost: after any further tokens there is a complex
type of this name, finished or still open, whose references start with the recorded ones. -/
theorem kept (W : World) (gvt : Gvt) (hg : GvtOk (fun _ => True) gvt) (toks : List Token) (s : St) (c : ComplexType)
    (hc : c ∈ complexOf s.p.proto ++ s.p.complexType) (hn : c.name ≠ []) :
    ∃ c' ∈ complexOf (run W gvt toks s).state.p.proto ++ (run W gvt toks s).state.p.complexType,
      c'.name = c.name ∧ c.groups <+: c'.groups := by
  have stepR : ∀ t s, Recorded c.name c.groups s.p → Recorded c.name c.groups (step W gvt t s).state.p := by
    intro t s hs
    cases t with
    | start name attrs =>
      rw [step, Go.bind_apply, onP_apply]
      have h0 : Recorded c.name c.groups { s.p with inElement := name } := rec_of_eq hs rfl rfl
      cases hk : onKind name with
      | none => exact h0
      | some k =>
        exact ((callOn_keepsP (J := Recorded c.name c.groups) W hg attrs k (fun _ => trivial)
          (fun f hf p hp => rec_prim hn hf p hp)
          (fun f hf p hp => ⟨fun _ => trivial, fun p' e => rec_prim? hf p p' hp e⟩)).2
          { s with p := { s.p with inElement := name } } h0).1
    | stop name =>
      simp only [step]
      cases hk : endKind name with
      | none => exact hs
      | some k =>
        exact ((callEnd_keepsP (J := Recorded c.name c.groups) hg name k (fun f hf p hp => rec_end hf p hp)).2 _ hs).1
    | text x => exact rec_text x s.p hs
    | other => exact hs
  have runR : ∀ toks s, Recorded c.name c.groups s.p → Recorded c.name c.groups (run W gvt toks s).state.p := by
    intro toks
    induction toks with
    | nil => exact fun s hs => hs
    | cons t ts ih =>
      intro s hs
      have h1 := stepR t s hs
      simp only [run, Go.bind_apply]
      cases e : step W gvt t s with
      | ok a s1 => rw [e] at h1; exact ih s1 h1
      | err er s1 => rw [e] at h1; exact h1
      | halt h s1 => rw [e] at h1; exact h1
  exact runR toks s ⟨c, hc, rfl, List.prefix_refl _⟩

open Ex in
/-- Two references to g and one to h. -/
example : (match Ex.parse (world [("s.xsd", [on "schema", on "complexType" [("name", "T")], on "sequence"] ++
    leaf "group" [("ref", "g")] ++ leaf "group" [("ref", "h")] ++ leaf "group" [("ref", "g")] ++
    [off "sequence", off "complexType", off "schema"])]) "s.xsd" "Go" with
    | .ok t _ => (complexOf t).map names
    | _ => []) = [[c!"g", c!"h"]] := by decide +kernel

end Xgen.C20
