import Verif.Lemmas.CoreAttrs

/-! # The parser on the contents of core schemas -/

namespace Xgen.Core
variable [Uni]

/-! ## Running token lists -/

theorem run_append (W : World) (gvt : Gvt) (xs ys : List Token) (s : St) :
    run W gvt (xs ++ ys) s = (run W gvt xs >>= fun _ => run W gvt ys) s := by
  induction xs generalizing s with
  | nil => rfl
  | cons x xs ih =>
    simp only [List.cons_append, run, Go.bind_apply]
    cases step W gvt x s with
    | ok a s => exact ih s
    | err e s => rfl
    | halt h s => rfl

/-- The token list runs from one state to another. -/
def Runs (W : World) (gvt : Gvt) (ts : List Token) (s s' : St) : Prop := run W gvt ts s = .ok () s'

variable {W : World} {gvt : Gvt}

theorem Runs.nil (s : St) : Runs W gvt [] s s := rfl

theorem Runs.append {xs ys : List Token} {s s' s'' : St} (h : Runs W gvt xs s s') (k : Runs W gvt ys s' s'') :
    Runs W gvt (xs ++ ys) s s'' := by
  unfold Runs at *
  rw [run_append, Go.bind_apply, h]
  exact k

theorem Runs.cons {t : Token} {ys : List Token} {s s' s'' : St} (h : step W gvt t s = .ok () s') (k : Runs W gvt ys s' s'') :
    Runs W gvt (t :: ys) s s'' := by
  unfold Runs at *
  rw [run, Go.bind_apply, h]
  exact k

theorem Runs.one {t : Token} {s s' : St} (h : step W gvt t s = .ok () s') : Runs W gvt [t] s s' := Runs.cons h (Runs.nil s')

/-- A tag pair: its start handler, its contents, its end handler. -/
theorem Runs.tag {n : Str} {as : List Attr} {inner : List Token} {k : OnKind} {s s1 s2 s3 : St} (hk : onKind n = some k)
    (h1 : callOn W gvt as k ⟨s.sh, { s.p with inElement := n }⟩ = .ok () s1) (h2 : Runs W gvt inner s1 s2)
    (h3 : step W gvt (.stop n) s2 = .ok () s3) : Runs W gvt (tag n as inner) s s3 := by
  refine Runs.cons (s' := s1) ?_ (h2.append (Runs.one h3))
  simp only [step, Go.bind_apply, onP_apply, hk]
  exact h1

/-! ## Trees -/

/-- The tree seen through a heap. -/
def frz (h : List Element) (pr : PTree) : Tree := pr.map (Option.map (Node.deref fun a => (h[a]?).getD {}))

omit [Uni] in
theorem freeze_eq (p : PState) : p.freeze = frz p.heap p.proto := rfl

/-- Element pointers point into the heap. -/
def Valid (h : List Element) (pr : PTree) : Prop := ∀ a, some (Node.elem a) ∈ pr → a < h.length

omit [Uni] in
theorem frz_heap {h : List Element} {pr : PTree} (hv : Valid h pr) (e : List Element) : frz (h ++ e) pr = frz h pr := by
  unfold frz
  apply List.map_congr_left
  intro n hn
  cases n with
  | none => rfl
  | some n =>
    cases n with
    | elem a =>
      have := hv a hn
      simp only [Option.map_some, Node.deref, List.getElem?_append_left this]
    | _ => rfl

omit [Uni] in
theorem Valid.heap {h : List Element} {pr : PTree} (hv : Valid h pr) (e : List Element) : Valid (h ++ e) pr := by
  intro a ha
  have := hv a ha
  rw [List.length_append]
  omega

omit [Uni] in
theorem frz_append (h : List Element) (pr pr' : PTree) : frz h (pr ++ pr') = frz h pr ++ frz h pr' := by
  unfold frz
  exact List.map_append

omit [Uni] in
theorem Valid.append {h : List Element} {pr : PTree} (hv : Valid h pr) {n : Node Nat} (hn : ∀ a, n = .elem a → a < h.length) :
    Valid h (pr ++ [some n]) := by
  intro a ha
  rcases List.mem_append.1 ha with ha | ha
  · exact hv a ha
  · simp only [List.mem_singleton, Option.some.injEq] at ha
    exact hn a ha.symm

/-- The heap and tree grow by the given components. -/
structure Grown (h : List Element) (pr : PTree) (h' : List Element) (pr' : PTree) (ns : List (Node Element)) : Prop where
  valid : Valid h' pr'
  tree : frz h' pr' = frz h pr ++ ns.map some

omit [Uni] in
theorem Grown.refl {h : List Element} {pr : PTree} (hv : Valid h pr) : Grown h pr h pr [] := ⟨hv, by simp⟩

omit [Uni] in
theorem Grown.trans {h h' h'' : List Element} {pr pr' pr'' : PTree} {ns ms : List (Node Element)} (a : Grown h pr h' pr' ns)
    (b : Grown h' pr' h'' pr'' ms) : Grown h pr h'' pr'' (ns ++ ms) :=
  ⟨b.valid, by rw [b.tree, a.tree, List.map_append, List.append_assoc]⟩

omit [Uni] in
theorem Grown.alloc {h : List Element} {pr : PTree} (hv : Valid h pr) (e : Element) : Grown h pr (h ++ [e]) pr [] :=
  ⟨hv.heap _, by simp [frz_heap hv]⟩

omit [Uni] in
theorem Grown.node {h : List Element} {pr : PTree} (hv : Valid h pr) {n : Node Nat} (hn : ∀ a, n = .elem a → a < h.length) :
    Grown h pr h (pr ++ [some n]) [n.deref fun a => (h[a]?).getD {}] :=
  ⟨hv.append hn, by rw [frz_append]; rfl⟩

/-! ## Stability of references -/

/-- Components that declare no type. -/
def Silent (ns : List (Node Element)) : Prop := ∀ n ∈ ns, (∃ c, n = .complex c) ∨ (∃ g, n = .attrGroup g)

omit [Uni] in
theorem Stable.silent {ref : Tree → Str → Str} (hs : Stable ref) (t : Tree) {ns : List (Node Element)} (h : Silent ns) :
    ref (t ++ ns.map some) = ref t := by
  induction ns generalizing t with
  | nil => simp
  | cons n ns ih =>
    have := ih (t ++ [some n]) (fun m hm => h m (by simp [hm]))
    rw [List.append_assoc] at this
    rw [List.map_cons]
    refine this.trans (funext fun v => ?_)
    rcases h n (by simp) with ⟨c, rfl⟩ | ⟨g, rfl⟩
    · exact (hs t v).1 c
    · exact (hs t v).2 g

omit [Uni] in
theorem silent_complex (cs : List ComplexType) : Silent (cs.map .complex) := by
  intro n hn
  obtain ⟨c, _, rfl⟩ := List.mem_map.1 hn
  exact .inl ⟨c, rfl⟩

omit [Uni] in
theorem silent_attrGroup (cs : List AttributeGroup) : Silent (cs.map .attrGroup) := by
  intro n hn
  obtain ⟨c, _, rfl⟩ := List.mem_map.1 hn
  exact .inr ⟨c, rfl⟩

/-! ## Start handlers -/

section
variable {I : Shared → Prop} {ref : Tree → Str → Str} (hg : Answers I ref gvt)
include hg

omit [Uni] in
theorem element_typed {as : List Attr} (ht : TagOk as) (ho : OccursOk as) (p : PState) (hty : Typed (ref p.freeze) as)
    (sh : Shared) (hi : I sh) :
    ∃ sh', I sh' ∧ onElement gvt as ⟨sh, p⟩ = .ok () ⟨sh', placeElement (elementOf (ref p.freeze) false as) false p⟩ := by
  obtain ⟨sh', h1, h2⟩ := loop_local (step := onElementAttr gvt) (as := as) (p := p)
    (fun e a ha sh hi => elemStep_ok hg p ht.1 ho e a ha sh hi) {} sh hi
  obtain ⟨t, h3, h4⟩ := hty
  refine ⟨sh', h1, ?_⟩
  unfold onElement
  rw [Go.bind_apply, h2, elemFold _ ht.1 ht.2]
  have he : elementOf (ref p.freeze) false as = { ({} : Element) with
      name := ((attr? as c!"ref").or (attr? as c!"name")).getD []
      type := (((attr? as c!"ref").or (attr? as c!"type")).map (ref p.freeze)).getD []
      plural := false || (repeated as || (attr? as c!"unbounded").any (fun v => v ≠ c!"0")) } := by
    simp [elementOf, nameOf, h3]
  dsimp only
  rw [if_neg (by rw [h3]; exact h4), he]
  rfl

omit [Uni] in
theorem element_untyped {as : List Attr} (ht : TagOk as) (ho : OccursOk as) (hu : Untyped as) (p : PState) (sh : Shared)
    (hi : I sh) :
    ∃ sh', I sh' ∧ onElement gvt as ⟨sh, p⟩ = .ok () ⟨sh', placeElement (elementOf (ref p.freeze) false as) true p⟩ := by
  obtain ⟨sh', h1, h2⟩ := loop_local (step := onElementAttr gvt) (as := as) (p := p)
    (fun e a ha sh hi => elemStep_ok hg p ht.1 ho e a ha sh hi) {} sh hi
  obtain ⟨h3, h4, h5⟩ := hu
  obtain ⟨sh2, h6, h7⟩ := resolve_ok hg (nameOf as) sh' p h1
  refine ⟨sh2, h6, ?_⟩
  unfold onElement
  rw [Go.bind_apply, h2, elemFold _ ht.1 ht.2]
  have he : elementOf (ref p.freeze) false as = { ({} : Element) with
      name := ((attr? as c!"ref").or (attr? as c!"name")).getD []
      type := ref p.freeze (nameOf as)
      plural := false || (repeated as || (attr? as c!"unbounded").any (fun v => v ≠ c!"0")) } := by
    simp [elementOf, nameOf, h3, h4]
  dsimp only
  rw [if_pos (by rw [h3, h4]; rfl), he, Go.bind_apply]
  rw [show ((attr? as c!"ref").or (attr? as c!"name")).getD [] = nameOf as from rfl, h7]
  rfl

omit [Uni] in
theorem attribute_on {as : List Attr} (ht : TagOk as) (p : PState) (sh : Shared) (hi : I sh) :
    ∃ sh', I sh' ∧ onAttribute gvt as ⟨sh, p⟩ =
      .ok () ⟨sh', { p with attrSt := attributeOf (ref p.freeze) as :: p.attrSt }⟩ := by
  obtain ⟨sh', h1, h2⟩ := loop_local (step := onAttributeAttr gvt) (as := as) (p := p)
    (fun e a _ sh hi => attrStep_ok hg p e a sh hi) { optional := true } sh hi
  refine ⟨sh', h1, ?_⟩
  unfold onAttribute
  rw [Go.bind_apply, h2, attrFold _ ht.1 ht.2]
  simp [attributeOf, nameOf]

omit [Uni] in
theorem attrGroup_on {as : List Attr} (ht : TagOk as) (p : PState) (sh : Shared) (hi : I sh) :
    ∃ sh', I sh' ∧ onAttributeGroup gvt as ⟨sh, p⟩ =
      .ok () ⟨sh', placeAttributeGroup (attrGroupOf (ref p.freeze) as) p⟩ := by
  obtain ⟨sh', h1, h2⟩ := loop_local (step := onAttributeGroupAttr gvt) (as := as) (p := p)
    (fun e a _ sh hi => agStep_ok hg p e a sh hi) {} sh hi
  refine ⟨sh', h1, ?_⟩
  unfold onAttributeGroup
  rw [Go.bind_apply, h2, agFold _ ht.1 ht.2]
  simp [attrGroupOf, nameOf]

omit [Uni] in
theorem group_on {as : List Attr} (ht : TagOk as) (p p' : PState) (sh : Shared) (hi : I sh)
    (hp : placeGroup? (groupOf (ref p.freeze) false as) p = some p') :
    ∃ sh', I sh' ∧ onGroup gvt as ⟨sh, p⟩ = .ok () ⟨sh', p'⟩ := by
  obtain ⟨sh', h1, h2⟩ := loop_local (step := onGroupAttr gvt) (as := as) (p := p)
    (fun e a _ sh hi => groupStep_ok hg p e a sh hi) {} sh hi
  refine ⟨sh', h1, ?_⟩
  unfold onGroup
  refine (Go.bind_apply _ _ _).trans ?_
  rw [h2, groupFold _ ht.1 ht.2]
  have he : groupOf (ref p.freeze) false as = { ({} : GroupRef) with
      name := ((attr? as c!"ref").or (attr? as c!"name")).getD []
      ref := ((attr? as c!"ref").map (ref p.freeze)).getD []
      plural := false || (attr? as c!"maxOccurs").any (fun v => v ≠ c!"0") } := by
    simp [groupOf, nameOf]
  rw [he] at hp
  dsimp only at hp ⊢
  rw [hp]

omit hg [Uni] in
theorem choice_on {as : List Attr} (ht : TagOk as) (ho : OccursOk as) (p : PState) (sh : Shared) (hi : I sh) :
    ∃ sh', I sh' ∧ onChoice as ⟨sh, p⟩ =
      .ok () ⟨sh', { p with choice := { plural := repeated as || p.choicePlural } :: p.choice }⟩ := by
  obtain ⟨sh', h1, h2⟩ := loop_local (step := onChoiceAttr) (as := as) (p := p)
    (fun e a ha sh hi => choiceStep_ok p ht.1 ho e a ha sh hi) {} sh hi
  refine ⟨sh', h1, ?_⟩
  unfold onChoice
  rw [Go.bind_apply, h2, choiceFold ht.1]
  have : ((attr? as c!"maxOccurs").map many).getD false = repeated as := by
    unfold repeated
    cases attr? as c!"maxOccurs" <;> rfl
  simp [this]

omit [Uni] in
theorem extension_on {as : List Attr} (hd : Distinct as) (p : PState) (c : ComplexType) (cs : List ComplexType)
    (hc : c.name ≠ []) (sh : Shared) (hi : I sh) :
    ∃ sh', I sh' ∧ onExtension gvt as ⟨sh, { p with complexType := c :: cs }⟩ =
      .ok () ⟨sh', { p with complexType :=
        { c with base := ((attr? as c!"base").map fun t => ref p.freeze (ref p.freeze t)).getD c.base } :: cs }⟩ := by
  unfold onExtension
  induction as generalizing c sh with
  | nil => exact ⟨sh, hi, rfl⟩
  | cons a as ih =>
    rw [forAttrs, attr?_cons]
    by_cases h : a.local = c!"base"
    · obtain ⟨sh1, h1, h2⟩ := resolve_ok hg a.value sh { p with complexType := c :: cs } hi
      obtain ⟨sh2, h3, h4⟩ := assign_ok hg (ref p.freeze a.value) setComplexBase sh1 { p with complexType := c :: cs } h1
      obtain ⟨sh3, h5, h6⟩ := ih hd.tail { c with base := ref p.freeze (ref p.freeze a.value) } hc sh2 h3
      refine ⟨sh3, h5, ?_⟩
      have hn := hd.head
      rw [h] at hn
      rw [hn] at h6
      rw [if_pos h]
      simp only [Go.bind_apply]
      have hs : onExtensionAttr gvt () a ⟨sh, { p with complexType := c :: cs }⟩ =
          .ok () ⟨sh2, { p with complexType := { c with base := ref p.freeze (ref p.freeze a.value) } :: cs }⟩ := by
        unfold onExtensionAttr
        rw [if_pos h]
        refine (Go.bind_apply _ _ _).trans ?_
        rw [h2]
        dsimp only
        rw [Go.bind_apply, show ref ({ p with complexType := c :: cs } : PState).freeze a.value = ref p.freeze a.value from rfl, h4]
        dsimp only [onP_apply, setComplexBase, nameComplex, Stack.setTop]
        rw [if_neg hc]
        rfl
      rw [hs]
      exact h6
    · obtain ⟨sh3, h5, h6⟩ := ih hd.tail c hc sh hi
      refine ⟨sh3, h5, ?_⟩
      rw [if_neg h]
      have hs : onExtensionAttr gvt () a ⟨sh, { p with complexType := c :: cs }⟩ =
          .ok () ⟨sh, { p with complexType := c :: cs }⟩ := by
        unfold onExtensionAttr
        rw [if_neg h]
        rfl
      rw [Go.bind_apply, hs]
      exact h6

end

/-! ## Merging -/

omit [Uni] in
theorem merge_eq (e : Element) (es : List Element) : mergeElement e es = addElement e es := by
  unfold mergeElement
  induction es with
  | nil => rfl
  | cons x xs ih =>
    unfold findElement addElement
    by_cases h : e.name = x.name
    · rw [if_pos h, if_pos h.symm]
      dsimp only
      by_cases h2 : x.type = e.type
      · rw [if_pos h2, if_pos h2]; rfl
      · rw [if_neg h2, if_neg h2]
    · rw [if_neg h, if_neg (fun k => h k.symm), ← ih]
      cases hf : findElement e.name xs with
      | none => rfl
      | some r =>
        obtain ⟨y, i⟩ := r
        dsimp only [Option.map_some]
        by_cases h2 : y.type = e.type
        · rw [if_pos h2, if_pos h2]; rfl
        · rw [if_neg h2, if_neg h2]; rfl

omit [Uni] in
theorem plural_inside (ty : Str → Str) (b : Bool) (as : List Attr) :
    { elementOf ty false as with plural := (elementOf ty false as).plural || b } = elementOf ty b as := by
  simp [elementOf]

omit [Uni] in
theorem gplural_inside (ty : Str → Str) (b : Bool) (as : List Attr) :
    { groupOf ty false as with plural := (groupOf ty false as).plural || b } = groupOf ty b as := by
  simp [groupOf]

omit [Uni] in
theorem place_complex (ty : Str → Str) (as : List Attr) (u : Bool) (heap : List Element) (proto : PTree) (inE cur : Str)
    (inG : Int) (inU inAG : Bool) (st : List SimpleType) (c : ComplexType) (cs : List ComplexType) (el : List Nat)
    (ats : List Attribute) (gr : List Group) (ags : List AttributeGroup) (ch : List Choice) :
    placeElement (elementOf ty false as) u ⟨heap, proto, inE, cur, inG, inU, inAG, st, c :: cs, el, ats, gr, ags, ch⟩ =
      ⟨heap ++ [elementOf ty (PState.choicePlural { choice := ch }) as], proto, inE, cur, inG, inU, inAG, st,
        { c with elements := addElement (elementOf ty (PState.choicePlural { choice := ch }) as) c.elements } :: cs,
        if u then heap.length :: el else el, ats, gr, ags, ch⟩ := by
  unfold placeElement
  rw [show PState.choicePlural ⟨heap, proto, inE, cur, inG, inU, inAG, st, c :: cs, el, ats, gr, ags, ch⟩ =
    PState.choicePlural { choice := ch } from rfl, plural_inside, ← merge_eq]
  cases u <;> rfl

omit [Uni] in
theorem place_group (ty : Str → Str) (as : List Attr) (heap : List Element) (proto : PTree) (inE cur : Str)
    (inG : Int) (hG : inG > 0) (inU inAG : Bool) (st : List SimpleType) (el : List Nat) (ats : List Attribute) (g : Group)
    (gr : List Group) (ags : List AttributeGroup) (ch : List Choice) :
    placeElement (elementOf ty false as) false ⟨heap, proto, inE, cur, inG, inU, inAG, st, [], el, ats, g :: gr, ags, ch⟩ =
      ⟨heap ++ [elementOf ty (PState.choicePlural { choice := ch }) as], proto, inE, cur, inG, inU, inAG, st, [], el, ats,
        { g with elements := g.elements ++ [elementOf ty (PState.choicePlural { choice := ch }) as] } :: gr, ags, ch⟩ := by
  unfold placeElement
  rw [show PState.choicePlural ⟨heap, proto, inE, cur, inG, inU, inAG, st, [], el, ats, g :: gr, ags, ch⟩ =
    PState.choicePlural { choice := ch } from rfl, plural_inside]
  simp only [Bool.false_eq_true, if_false]
  rw [if_pos hG]
  rfl

omit [Uni] in
theorem place_top (ty : Str → Str) (as : List Attr) (u : Bool) (heap : List Element) (proto : PTree) (inE cur : Str)
    (inU inAG : Bool) (st : List SimpleType) (el : List Nat) (ats : List Attribute) (gr : List Group)
    (ags : List AttributeGroup) (ch : List Choice) :
    placeElement (elementOf ty false as) u ⟨heap, proto, inE, cur, 0, inU, inAG, st, [], el, ats, gr, ags, ch⟩ =
      ⟨heap ++ [elementOf ty (PState.choicePlural { choice := ch }) as], proto, inE, cur, 0, inU, inAG, st, [],
        heap.length :: if u then heap.length :: el else el, ats, gr, ags, ch⟩ := by
  unfold placeElement
  rw [show PState.choicePlural ⟨heap, proto, inE, cur, 0, inU, inAG, st, [], el, ats, gr, ags, ch⟩ =
    PState.choicePlural { choice := ch } from rfl, plural_inside]
  cases u <;> rfl

omit [Uni] in
theorem endGroup_other (n : Str) (p : PState) (h : p.currentEle ≠ n) : endGroup n p = p := by
  have : decide (n = p.currentEle) = false := decide_eq_false (fun k => h k.symm)
  simp only [endGroup, this, Bool.false_and, Bool.false_eq_true, if_false]
  rw [if_neg (fun k => h k.symm)]

omit [Uni] in
theorem endGroup_inner (n : Str) (p : PState) (h : p.currentEle = n) (hG : p.inGroup ≠ 1) :
    endGroup n p = { p with inGroup := p.inGroup - 1 } := by
  have : decide (p.inGroup = 1) = false := decide_eq_false hG
  simp only [endGroup, this, Bool.and_false, Bool.false_eq_true, if_false]
  rw [if_pos h.symm]

omit [Uni] in
theorem endGroup_last (n : Str) (p : PState) (h : p.currentEle = n) (hn : n ≠ []) (hG : p.inGroup = 1) :
    endGroup n p = { p.append (p.group.head?.map .group) with group := p.group.tail, currentEle := [], inGroup := 0 } := by
  simp only [endGroup, h, hG, decide_true, Bool.true_and, if_true]
  rw [if_neg hn]
  rfl

/-! ## Extending complex types -/

section
variable (ty : Str → Str) (p : Bool) (c : ComplexType)
omit [Uni]

theorem extend_nil : extend ty p .nil c = c := by simp [extend, bases, elements, attributes, groups, attrGroups]

theorem extend_elem (as : List Attr) (k : Content) :
    extend ty p (.elem as k) c = extend ty p k { c with elements := addElement (elementOf ty p as) c.elements } := rfl

theorem extend_anon (as cas : List Attr) (b k : Content) :
    extend ty p (.anon as cas b k) c = extend ty p k { c with elements := addElement (elementOf ty p as) c.elements } := rfl

theorem extend_group (as : List Attr) (k : Content) :
    extend ty p (.group as k) c = extend ty p k { c with groups := addGroup (groupOf ty p as) c.groups } := rfl

theorem extend_attrGroup (as : List Attr) (k : Content) :
    extend ty p (.attrGroup as k) c = extend ty p k { c with attributeGroup := c.attributeGroup ++ [attrGroupOf ty as] } := by
  simp [extend, bases, elements, attributes, groups, attrGroups]

theorem extend_attribute (as : List Attr) (k : Content) :
    extend ty p (.attribute as k) c = extend ty p k { c with attributes := c.attributes ++ [attributeOf ty as] } := by
  simp [extend, bases, elements, attributes, groups, attrGroups]

theorem extend_attrAnon (as : List Attr) (b : SimpleBody) (k : Content) :
    extend ty p (.attrAnon as b k) c = extend ty p k { c with attributes := c.attributes ++ [attrAnonOf ty as b] } := by
  simp [extend, bases, elements, attributes, groups, attrGroups]

theorem extend_restr (as : List Attr) (fs : List Facet) (b k : Content) :
    extend ty p (.restr as fs b k) c = extend ty p k (extend ty p b c) := by
  simp only [extend, bases, elements, attributes, groups, attrGroups, List.foldl_append, List.append_assoc]
  congr 1
  cases h : (bases ty k).getLast? <;> cases h' : (bases ty b).getLast? <;> simp [List.getLast?_append, h, h']

theorem extend_choice (as : List Attr) (b k : Content) :
    extend ty p (.choice as b k) c = extend ty p k (extend ty (repeated as || p) b c) := by
  simp only [extend, bases, elements, attributes, groups, attrGroups, List.foldl_append, List.append_assoc]
  congr 1
  cases h : (bases ty k).getLast? <;> cases h' : (bases ty b).getLast? <;> simp [List.getLast?_append, h, h']

theorem extend_ext (as : List Attr) (b k : Content) :
    extend ty p (.ext as b k) c = extend ty p k (extend ty p b
      { c with base := ((attr? as c!"base").map fun t => ty (ty t)).getD c.base }) := by
  simp only [extend, bases, elements, attributes, groups, attrGroups, List.foldl_append, List.append_assoc]
  congr 1
  cases h : (bases ty k).getLast? <;> cases h' : (bases ty b).getLast? <;> cases h'' : attr? as c!"base" <;>
    simp [List.getLast?_append, List.getLast?_cons, h, h']

theorem extend_name (b : Content) : (extend ty p b c).name = c.name := rfl

end

/-! ## Simple types -/

section
variable {I : Shared → Prop} {ref : Tree → Str → Str}

omit [Uni] in
theorem restriction_on (hg : Answers I ref gvt) {as : List Attr} (hd : Distinct as) (p : PState) (x : SimpleType) (sh : Shared)
    (hi : I sh) :
    ∃ sh' x', I sh' ∧
      (x.name ≠ [] → x' = { x with base := ((attr? as c!"base").map fun t => ref p.freeze (ref p.freeze t)).getD x.base }) ∧
      x'.base = ((attr? as c!"base").map fun t => ref p.freeze (ref p.freeze t)).getD x.base ∧
      onRestriction gvt as ⟨sh, { p with simpleType := [x] }⟩ = .ok () ⟨sh', { p with simpleType := [x'] }⟩ := by
  unfold onRestriction
  induction as generalizing x sh with
  | nil => exact ⟨sh, x, hi, fun _ => rfl, rfl, rfl⟩
  | cons a as ih =>
    rw [forAttrs, attr?_cons]
    by_cases h : a.local = c!"base"
    · obtain ⟨sh1, h1, h2⟩ := resolve_ok hg a.value sh { p with simpleType := [x] } hi
      obtain ⟨sh2, h3, h4⟩ := assign_ok hg (ref p.freeze a.value) setSimpleBase sh1 { p with simpleType := [x] } h1
      obtain ⟨sh3, x', h5, h6, h7, h8⟩ := ih hd.tail
        (if x.name = [] then { x with base := ref p.freeze (ref p.freeze a.value), name := a.value }
          else { x with base := ref p.freeze (ref p.freeze a.value) }) sh2 h3
      have hn := hd.head
      rw [h] at hn
      rw [hn] at h6 h7
      rw [if_pos h]
      have hs : onRestrictionAttr gvt () a ⟨sh, { p with simpleType := [x] }⟩ =
          .ok () ⟨sh2, { p with simpleType := [if x.name = [] then { x with base := ref p.freeze (ref p.freeze a.value), name := a.value }
            else { x with base := ref p.freeze (ref p.freeze a.value) }] }⟩ := by
        unfold onRestrictionAttr
        rw [if_pos h]
        refine (Go.bind_apply _ _ _).trans ?_
        rw [h2]
        dsimp only
        rw [Go.bind_apply, show ref ({ p with simpleType := [x] } : PState).freeze a.value = ref p.freeze a.value from rfl, h4]
        dsimp only [onP_apply, setSimpleBase, nameSimple, Stack.setTop]
        rfl
      refine ⟨sh3, x', h5, ?_, ?_, ?_⟩
      · intro hx
        rw [if_neg hx] at h6
        exact h6 hx
      · rw [h7]
        dsimp only [Option.map_none, Option.getD_none, Option.map_some, Option.getD_some]
        split <;> rfl
      · rw [Go.bind_apply, hs]
        exact h8
    · obtain ⟨sh3, x', h5, h6, h7, h8⟩ := ih hd.tail x sh hi
      rw [if_neg h]
      refine ⟨sh3, x', h5, h6, h7, ?_⟩
      have hs : onRestrictionAttr gvt () a ⟨sh, { p with simpleType := [x] }⟩ = .ok () ⟨sh, { p with simpleType := [x] }⟩ := by
        unfold onRestrictionAttr
        rw [if_neg h]
        rfl
      rw [Go.bind_apply, hs]
      exact h8

omit [Uni] in
/-- Without a simple type a restriction only asks for its base. -/
theorem restriction_none (hg : Answers I ref gvt) (as : List Attr) (p : PState) (hp : p.simpleType = []) (sh : Shared)
    (hi : I sh) : ∃ sh', I sh' ∧ onRestriction gvt as ⟨sh, p⟩ = .ok () ⟨sh', p⟩ := by
  unfold onRestriction
  induction as generalizing sh with
  | nil => exact ⟨sh, hi, rfl⟩
  | cons a as ih =>
    rw [forAttrs]
    have hs : ∃ sh', I sh' ∧ onRestrictionAttr gvt () a ⟨sh, p⟩ = .ok () ⟨sh', p⟩ := by
      unfold onRestrictionAttr
      split
      · obtain ⟨sh1, h1, h2⟩ := resolve_ok hg a.value sh p hi
        refine ⟨sh1, h1, (Go.bind_apply _ _ _).trans ?_⟩
        rw [h2]
        dsimp only
        rw [hp]
      · exact ⟨sh, hi, rfl⟩
    obtain ⟨sh1, h1, h2⟩ := hs
    obtain ⟨sh2, h3, h4⟩ := ih sh1 h1
    exact ⟨sh2, h3, by rw [Go.bind_apply, h2]; exact h4⟩

omit [Uni] in
theorem list_on (hg : Answers I ref gvt) {as : List Attr} (hd : Distinct as) (p : PState) (x : SimpleType) (sh : Shared)
    (hi : I sh) :
    ∃ sh', I sh' ∧ onList gvt as ⟨sh, { p with simpleType := [x] }⟩ =
      .ok () ⟨sh', { p with simpleType :=
        [{ x with list := true, base := ((attr? as c!"itemType").map (ref p.freeze)).getD x.base }] }⟩ := by
  suffices h : ∀ x sh, I sh → ∃ sh', I sh' ∧ forAttrs (onListAttr gvt) as () ⟨sh, { p with simpleType := [x] }⟩ =
      .ok () ⟨sh', { p with simpleType := [{ x with base := ((attr? as c!"itemType").map (ref p.freeze)).getD x.base }] }⟩ by
    obtain ⟨sh', h1, h2⟩ := h { x with list := true } sh hi
    exact ⟨sh', h1, h2⟩
  induction as with
  | nil => exact fun x sh hi => ⟨sh, hi, rfl⟩
  | cons a as ih =>
    intro x sh hi
    rw [forAttrs, attr?_cons]
    by_cases h : a.local = c!"itemType"
    · obtain ⟨sh2, h3, h4⟩ := assign_ok hg a.value setSimpleBase sh { p with simpleType := [x] } hi
      obtain ⟨sh3, h5, h6⟩ := ih hd.tail { x with base := ref p.freeze a.value } sh2 h3
      refine ⟨sh3, h5, ?_⟩
      have hn := hd.head
      rw [h] at hn
      rw [hn] at h6
      rw [if_pos h, Go.bind_apply]
      have hs : onListAttr gvt () a ⟨sh, { p with simpleType := [x] }⟩ =
          .ok () ⟨sh2, { p with simpleType := [{ x with base := ref p.freeze a.value }] }⟩ := by
        unfold onListAttr
        rw [if_pos h, h4]
        rfl
      rw [hs]
      exact h6
    · obtain ⟨sh3, h5, h6⟩ := ih hd.tail x sh hi
      refine ⟨sh3, h5, ?_⟩
      rw [if_neg h]
      have hs : onListAttr gvt () a ⟨sh, { p with simpleType := [x] }⟩ = .ok () ⟨sh, { p with simpleType := [x] }⟩ := by
        unfold onListAttr
        rw [if_neg h]
        rfl
      rw [Go.bind_apply, hs]
      exact h6

/-- The names a union tag lists. -/
def memberNames (as : List Attr) : List Str := ((attr? as c!"memberTypes").map fun v => splitOn ' ' v).getD []

/-- The member types of these names. -/
def members (ty : Str → Str) (ms : List Str) (m : GoMap Str) : GoMap Str := ms.foldl (fun m t => m.set (Names.localPart t) (ty t)) m

omit [Uni] in
theorem members_on (hg : Answers I ref gvt) (ms : List Str) (p : PState) (x : SimpleType) (sh : Shared) (hi : I sh) :
    ∃ sh', I sh' ∧ addMembers gvt ms ⟨sh, { p with simpleType := [x] }⟩ =
      .ok () ⟨sh', { p with simpleType := [{ x with memberTypes := members (ref p.freeze) ms x.memberTypes }] }⟩ := by
  induction ms generalizing x sh with
  | nil => exact ⟨sh, hi, rfl⟩
  | cons m ms ih =>
    obtain ⟨sh1, h1, h2⟩ := assign_ok hg m (setMember (trimNSPrefix m)) sh { p with simpleType := [x] } hi
    obtain ⟨sh2, h3, h4⟩ := ih { x with memberTypes := x.memberTypes.set (Names.localPart m) (ref p.freeze m) } sh1 h1
    refine ⟨sh2, h3, ?_⟩
    rw [addMembers, Go.bind_apply, h2, Names.localPart_eq]
    exact h4

omit [Uni] in
theorem union_on (hg : Answers I ref gvt) {as : List Attr} (hd : Distinct as) (p : PState) (x : SimpleType) (sh : Shared)
    (hi : I sh) :
    ∃ sh', I sh' ∧ onUnion gvt as ⟨sh, { p with simpleType := [x] }⟩ =
      .ok () ⟨sh', { p with
        inUnion := true
        simpleType := [{ x with union := true, memberTypes := members (ref p.freeze) (memberNames as) [] }] }⟩ := by
  suffices h : ∀ (p : PState) x sh, I sh → ∃ sh', I sh' ∧ forAttrs (onUnionAttr gvt) as () ⟨sh, { p with simpleType := [x] }⟩ =
      .ok () ⟨sh', { p with simpleType := [{ x with memberTypes := members (ref p.freeze) (memberNames as) x.memberTypes }] }⟩ by
    obtain ⟨sh', h1, h2⟩ := h { p with inUnion := true } { x with union := true, memberTypes := [] } sh hi
    exact ⟨sh', h1, h2⟩
  intro p
  induction as with
  | nil => exact fun x sh hi => ⟨sh, hi, rfl⟩
  | cons a as ih =>
    intro x sh hi
    rw [forAttrs, memberNames, attr?_cons]
    by_cases h : a.local = c!"memberTypes"
    · obtain ⟨sh2, h3, h4⟩ := members_on hg (splitOn ' ' a.value) p x sh hi
      obtain ⟨sh3, h5, h6⟩ := ih hd.tail { x with memberTypes := members (ref p.freeze) (splitOn ' ' a.value) x.memberTypes } sh2 h3
      refine ⟨sh3, h5, ?_⟩
      have hn := hd.head
      rw [h] at hn
      rw [memberNames, hn] at h6
      rw [if_pos h, Go.bind_apply]
      have hs : onUnionAttr gvt () a ⟨sh, { p with simpleType := [x] }⟩ =
          .ok () ⟨sh2, { p with simpleType := [{ x with memberTypes := members (ref p.freeze) (splitOn ' ' a.value) x.memberTypes }] }⟩ := by
        unfold onUnionAttr
        rw [if_pos h, h4]
      rw [hs]
      exact h6
    · obtain ⟨sh3, h5, h6⟩ := ih hd.tail x sh hi
      refine ⟨sh3, h5, ?_⟩
      rw [if_neg h]
      have hs : onUnionAttr gvt () a ⟨sh, { p with simpleType := [x] }⟩ = .ok () ⟨sh, { p with simpleType := [x] }⟩ := by
        unfold onUnionAttr
        rw [if_neg h]
        rfl
      rw [Go.bind_apply, hs]
      exact h6

/-- The tags of facets have only end handlers, and those do nothing without elements and attributes. -/
theorem facet_kinds [UniLaws] {t : Str} (ht : t ∈ facetNames) (he : t ≠ c!"enumeration") :
    onKind t = none ∧ ∃ k, endKind t = some k ∧ (k = .facet ∨ k = .pattern) := by
  simp only [facetNames, List.mem_cons, List.not_mem_nil, or_false] at ht
  rcases ht with rfl | rfl | rfl | rfl | rfl | rfl | rfl | rfl | rfl | rfl | rfl | rfl
  · exact absurd rfl he
  all_goals
    rw [onKind_eq _ _ (by decide), endKind_eq _ _ (by decide)]
    decide

/-- An attribute with the rest of the state around it. -/
def withAttr (heap : List Element) (proto : PTree) (inE cur : Str) (inG : Int) (inU inAG : Bool) (st : List SimpleType)
    (cts : List ComplexType) (el : List Nat) (a : Attribute) (ats : List Attribute) (gr : List Group) (ags : List AttributeGroup)
    (ch : List Choice) : PState :=
  ⟨heap, proto, inE, cur, inG, inU, inAG, st, cts, el, a :: ats, gr, ags, ch⟩

/-- Where the facets of an anonymous restriction in an attribute leave the parser: the simple type is still there, or it is
gone and its base has become the type of the attribute. -/
def FacetState (ty : Str → Str) (base : Str) (x : List SimpleType) (t : Str) (cur : Str) : Prop :=
  (∃ y, x = [y] ∧ y.base = base) ∨ (x = [] ∧ t = ty base ∧ cur = [])

theorem facets_attr [UniLaws] (hg : Answers I ref gvt) (fs : List Facet) (hf : FacetsOk fs) (sh : Shared) (hi : I sh)
    (heap : List Element) (proto : PTree) (inE cur : Str) (inG : Int) (inU inAG : Bool) (st : List SimpleType)
    (cts : List ComplexType) (a : Attribute) (ats : List Attribute) (gr : List Group) (ags : List AttributeGroup)
    (ch : List Choice) (base : Str) (h : FacetState (ref (frz heap proto)) base st a.type cur) :
    ∃ sh' inE' cur' st' t', I sh' ∧ FacetState (ref (frz heap proto)) base st' t' cur' ∧
      Runs W gvt (facetTokens fs) ⟨sh, withAttr heap proto inE cur inG inU inAG st cts [] a ats gr ags ch⟩
        ⟨sh', withAttr heap proto inE' cur' inG inU inAG st' cts [] { a with type := t' } ats gr ags ch⟩ := by
  induction fs generalizing sh inE cur st a with
  | nil => exact ⟨sh, inE, cur, st, a.type, hi, h, Runs.nil _⟩
  | cons f fs ih =>
    obtain ⟨k1, k2⟩ := hf f (by simp)
    have hf' : FacetsOk fs := fun g hg => hf g (by simp [hg])
    suffices hone : ∃ sh' cur' st' t', I sh' ∧ FacetState (ref (frz heap proto)) base st' t' cur' ∧
        Runs W gvt (tag f.tag f.as []) ⟨sh, withAttr heap proto inE cur inG inU inAG st cts [] a ats gr ags ch⟩
          ⟨sh', withAttr heap proto f.tag cur' inG inU inAG st' cts [] { a with type := t' } ats gr ags ch⟩ by
      obtain ⟨sh1, cur1, st1, t1, i1, f1, r1⟩ := hone
      obtain ⟨sh2, inE2, cur2, st2, t2, i2, f2, r2⟩ := ih hf' sh1 i1 f.tag cur1 st1 { a with type := t1 } f1
      refine ⟨sh2, inE2, cur2, st2, t2, i2, f2, ?_⟩
      unfold facetTokens
      rw [List.flatMap_cons]
      exact r1.append r2
    by_cases he : f.tag = c!"enumeration"
    · rw [he]
      rcases h with ⟨y, rfl, hy⟩ | ⟨rfl, h2, h3⟩
      · have : ∀ (as : List Attr) (y : SimpleType), ∃ z : SimpleType, z.base = y.base ∧
            onEnumeration as (withAttr heap proto c!"enumeration" cur inG inU inAG [y] cts [] a ats gr ags ch) =
            withAttr heap proto c!"enumeration" cur inG inU inAG [z] cts [] a ats gr ags ch := by
          intro as
          unfold onEnumeration
          induction as with
          | nil => exact fun y => ⟨y, rfl, rfl⟩
          | cons b as ih =>
            intro y
            rw [List.foldl_cons]
            split
            · obtain ⟨z, h1, h2⟩ := ih { y with enum := y.enum ++ [b.value] }
              exact ⟨z, h1, h2⟩
            · exact ih y
        obtain ⟨z, hz1, hz2⟩ := this f.as y
        obtain ⟨sh1, i1, e1⟩ := assign_ok hg z.base setAttributeType sh
          (withAttr heap proto c!"enumeration" cur inG inU inAG [z] cts [] a ats gr ags ch) hi
        refine ⟨sh1, [], [z], ref (frz heap proto) base, i1, .inl ⟨z, rfl, hz1.trans hy⟩, ?_⟩
        refine Runs.tag onKind_enumeration (s1 := ⟨sh, withAttr heap proto c!"enumeration" cur inG inU inAG [z] cts [] a ats gr ags ch⟩)
          ?_ (Runs.nil _) ?_
        · rw [← hz2]
          rfl
        · rw [step, endKind_enumeration]
          show endEnumeration gvt _ = _
          unfold endEnumeration
          rw [Go.bind_apply]
          have : enumAttribute gvt ⟨sh, withAttr heap proto c!"enumeration" cur inG inU inAG [z] cts [] a ats gr ags ch⟩ =
              .ok () ⟨sh1, withAttr heap proto c!"enumeration" [] inG inU inAG [z] cts [] { a with type := ref (frz heap proto) base } ats gr ags ch⟩ := by
            show (assignType gvt z.base setAttributeType >>= fun _ => onP clearCurrent) _ = _
            rw [Go.bind_apply, e1, hz1, hy]
            rfl
          rw [this]
          rfl
      · refine ⟨sh, cur, [], a.type, hi, .inr ⟨rfl, h2, h3⟩, ?_⟩
        refine Runs.tag onKind_enumeration (s1 := ⟨sh, withAttr heap proto c!"enumeration" cur inG inU inAG [] cts [] a ats gr ags ch⟩)
          ?_ (Runs.nil _) ?_
        · have : ∀ as : List Attr, onEnumeration as (withAttr heap proto c!"enumeration" cur inG inU inAG [] cts [] a ats gr ags ch) =
              withAttr heap proto c!"enumeration" cur inG inU inAG [] cts [] a ats gr ags ch := by
            intro as
            unfold onEnumeration
            induction as with
            | nil => rfl
            | cons b as ih =>
              rw [List.foldl_cons]
              split
              · exact ih
              · exact ih
          exact congrArg (fun p => Out.ok () (St.mk sh p)) (this f.as)
        · rw [step, endKind_enumeration]
          rfl
    · obtain ⟨j1, k, j2, j3⟩ := facet_kinds k1 he
      have hon : step W gvt (.start f.tag f.as) ⟨sh, withAttr heap proto inE cur inG inU inAG st cts [] a ats gr ags ch⟩ =
          .ok () ⟨sh, withAttr heap proto f.tag cur inG inU inAG st cts [] a ats gr ags ch⟩ := by
        simp only [step, Go.bind_apply, onP_apply, j1]
        rfl
      rcases j3 with rfl | rfl
      · refine ⟨sh, cur, st, a.type, hi, h, Runs.cons hon (Runs.one ?_)⟩
        rw [step, j2]
        rfl
      · rcases h with ⟨y, rfl, hy⟩ | ⟨rfl, h2, h3⟩
        · obtain ⟨sh1, i1, e1⟩ := assign_ok hg y.base setAttributeType sh
            (withAttr heap proto f.tag cur inG inU inAG [] cts [] a ats gr ags ch) hi
          refine ⟨sh1, [], [], ref (frz heap proto) base, i1, .inr ⟨rfl, rfl, rfl⟩, Runs.cons hon (Runs.one ?_)⟩
          rw [step, j2]
          show endPattern gvt _ = _
          unfold endPattern
          rw [Go.bind_apply]
          have : popToAttribute gvt ⟨sh, withAttr heap proto f.tag cur inG inU inAG [y] cts [] a ats gr ags ch⟩ =
              .ok () ⟨sh1, withAttr heap proto f.tag [] inG inU inAG [] cts [] { a with type := ref (frz heap proto) base } ats gr ags ch⟩ := by
            show (onP popSimpleType >>= fun _ => assignType gvt y.base setAttributeType >>= fun _ => onP clearCurrent) _ = _
            rw [Go.bind_apply]
            show (assignType gvt y.base setAttributeType >>= fun _ => onP clearCurrent)
              ⟨sh, withAttr heap proto f.tag cur inG inU inAG [] cts [] a ats gr ags ch⟩ = _
            rw [Go.bind_apply, e1, hy]
            rfl
          rw [this]
          rfl
        · refine ⟨sh, cur, [], a.type, hi, .inr ⟨rfl, h2, h3⟩, Runs.cons hon (Runs.one ?_)⟩
          rw [step, j2]
          rfl

/-- The anonymous simple type of an attribute gives it its type. -/
theorem attrAnon_on [UniLaws] (a : Attribute) (hg : Answers I ref gvt) (b : SimpleBody) (hb : b.Regular) (sh : Shared)
    (hi : I sh) (heap : List Element) (proto : PTree) (inE cur : Str) (inG : Int) (inAG : Bool) (cts : List ComplexType)
    (el : List Nat) (hq : el = [] ∨ b.Quiet) (ats : List Attribute) (gr : List Group) (ags : List AttributeGroup)
    (ch : List Choice) :
    ∃ sh' inE' cur', I sh' ∧ (cur' = [] ∨ b.Quiet ∧ cur' = c!"simpleType") ∧
      Runs W gvt (tag c!"simpleType" [] b.tokens)
        ⟨sh, withAttr heap proto inE cur inG false inAG [] cts el a ats gr ags ch⟩
        ⟨sh', withAttr heap proto inE' cur' inG false inAG [] cts el { a with type := (attrAnonOf (ref (frz heap proto)) [] b).type } ats gr ags ch⟩ := by
  have hon : ∀ inE, callOn W gvt [] .simpleType
      ⟨sh, { withAttr heap proto inE cur inG false inAG [] cts el a ats gr ags ch with
        inElement := c!"simpleType" }⟩ =
      .ok () ⟨sh, withAttr heap proto c!"simpleType" c!"simpleType" inG false inAG [{}] cts el
        a ats gr ags ch⟩ := fun _ => rfl
  have hend : ∀ sh inE x t, step W gvt (.stop c!"simpleType")
      ⟨sh, withAttr heap proto inE c!"simpleType" inG false inAG [x] cts el { a with type := t } ats gr ags ch⟩ =
      .ok () ⟨sh, withAttr heap proto inE c!"simpleType" inG false inAG [] cts el { a with type := x.base } ats gr ags ch⟩ := by
    intro sh inE x t
    rw [step, endKind_simpleType]
    rfl
  cases b with
  | restriction ras fs =>
    obtain ⟨h1, h2⟩ := hb
    have hel : el = [] := hq.resolve_right id
    subst hel
    obtain ⟨sh1, x, i1, -, hx, r1⟩ := restriction_on hg h1
      (withAttr heap proto c!"restriction" c!"simpleType" inG false inAG [] cts [] a ats gr ags ch)
      {} sh hi
    obtain ⟨sh2, inE2, cur2, st2, t2, i2, f2, r2⟩ := facets_attr (W := W) hg fs h2 sh1 i1 heap proto c!"restriction" c!"simpleType" inG
      false inAG [x] cts a ats gr ags ch x.base (.inl ⟨x, rfl, rfl⟩)
    have hfin : { a with type := (attrAnonOf (ref (frz heap proto)) [] (.restriction ras fs)).type } =
        { a with type := ref (frz heap proto) x.base } := by
      rw [hx]
      rfl
    rw [hfin]
    rcases f2 with ⟨y, rfl, hy⟩ | ⟨rfl, rfl, rfl⟩
    · obtain ⟨sh3, i3, e3⟩ := assign_ok hg y.base setAttributeType sh2
        (withAttr heap proto inE2 cur2 inG false inAG [] cts [] { a with type := t2 } ats gr ags ch) i2
      refine ⟨sh3, inE2, [], i3, .inl rfl, Runs.tag onKind_simpleType (hon inE)
        (Runs.tag onKind_restriction r1 r2 (s3 := ⟨sh3, withAttr heap proto inE2 [] inG false inAG [] cts []
          { a with type := ref (frz heap proto) x.base } ats gr ags ch⟩) ?_) ?_⟩
      · rw [step, endKind_restriction]
        show endRestriction gvt _ = _
        unfold endRestriction
        rw [Go.bind_apply]
        have : popToAttribute gvt ⟨sh2, withAttr heap proto inE2 cur2 inG false inAG [y] cts []
            { a with type := t2 } ats gr ags ch⟩ =
            .ok () ⟨sh3, withAttr heap proto inE2 [] inG false inAG [] cts []
              { a with type := ref (frz heap proto) x.base } ats gr ags ch⟩ := by
          show (onP popSimpleType >>= fun _ => assignType gvt y.base setAttributeType >>= fun _ => onP clearCurrent) _ = _
          rw [Go.bind_apply]
          show (assignType gvt y.base setAttributeType >>= fun _ => onP clearCurrent)
            ⟨sh2, withAttr heap proto inE2 cur2 inG false inAG [] cts [] { a with type := t2 } ats gr ags ch⟩ = _
          rw [Go.bind_apply, e3, hy]
          rfl
        rw [this]
        rfl
      · rw [step, endKind_simpleType]
        rfl
    · refine ⟨sh2, inE2, [], i2, .inl rfl, Runs.tag onKind_simpleType (hon inE) (Runs.tag onKind_restriction r1 r2
        (s3 := ⟨sh2, withAttr heap proto inE2 [] inG false inAG [] cts []
          { a with type := ref (frz heap proto) x.base } ats gr ags ch⟩) ?_) ?_⟩
      · rw [step, endKind_restriction]
        rfl
      · rw [step, endKind_simpleType]
        rfl
  | list las =>
    obtain ⟨sh1, i1, r1⟩ := list_on hg hb
      (withAttr heap proto c!"list" c!"simpleType" inG false inAG [] cts el a ats gr ags ch) {} sh hi
    refine ⟨sh1, c!"list", c!"simpleType", i1, .inr ⟨trivial, rfl⟩, Runs.tag onKind_simpleType
      (s2 := ⟨sh1, withAttr heap proto c!"list" c!"simpleType" inG false inAG
        [{ list := true, base := ((attr? las c!"itemType").map (ref (frz heap proto))).getD [] }] cts el
        a ats gr ags ch⟩) (hon inE)
      (Runs.tag onKind_list r1 (Runs.nil _) ?_) (hend sh1 c!"list"
        { list := true, base := ((attr? las c!"itemType").map (ref (frz heap proto))).getD [] } _)⟩
    rw [step, endKind_list]
    rfl
  | union uas =>
    obtain ⟨sh1, i1, r1⟩ := union_on hg hb
      (withAttr heap proto c!"union" c!"simpleType" inG false inAG [] cts el a ats gr ags ch) {} sh hi
    refine ⟨sh1, c!"union", c!"simpleType", i1, .inr ⟨trivial, rfl⟩, Runs.tag onKind_simpleType
      (s2 := ⟨sh1, withAttr heap proto c!"union" c!"simpleType" inG false inAG
        [{ union := true, memberTypes := members (ref (frz heap proto)) (memberNames uas) [] }] cts el
        a ats gr ags ch⟩) (hon inE)
      (Runs.tag onKind_union r1 (Runs.nil _) ?_) (hend sh1 c!"union"
        { union := true, memberTypes := members (ref (frz heap proto)) (memberNames uas) [] } _)⟩
    rw [step, endKind_union]
    rfl

/-- An element that was just created, on top of the stack, with the rest of the state around it. -/
def withElem (heap : List Element) (e : Element) (proto : PTree) (inE cur : Str) (inG : Int) (inAG : Bool) (st : List SimpleType)
    (cts : List ComplexType) (el : List Nat) (gr : List Group) (ch : List Choice) : PState :=
  ⟨heap ++ [e], proto, inE, cur, inG, false, inAG, st, cts, heap.length :: el, [], gr, [], ch⟩

omit [Uni] in
theorem modify_snoc {α : Type} (l : List α) (x : α) (f : α → α) : (l ++ [x]).modify l.length f = l ++ [f x] := by
  induction l with
  | nil => rfl
  | cons y l ih => simpa using ih

omit [Uni] in
theorem setElementType_snoc (t : Str) (heap : List Element) (e : Element) (proto : PTree) (inE cur : Str) (inG : Int) (inAG : Bool)
    (st : List SimpleType) (cts : List ComplexType) (el : List Nat) (gr : List Group) (ch : List Choice) :
    setElementType t (withElem heap e proto inE cur inG inAG st cts el gr ch) =
      withElem heap { e with type := t } proto inE cur inG inAG st cts el gr ch := by
  unfold setElementType PState.modTopElement withElem
  dsimp only
  rw [modify_snoc]

/-- One facet of an anonymous restriction in an element: it gives the element its type, and every facet but an enumeration
removes the simple type. -/
theorem facet_elem [UniLaws] (hg : Answers I ref gvt) (f : Facet) (k1 : f.tag ∈ facetNames) (sh : Shared) (hi : I sh)
    (heap : List Element) (e : Element) (proto : PTree) (hv : Valid heap proto) (inE cur : Str) (inG : Int) (inAG : Bool)
    (y : SimpleType) (cts : List ComplexType) (el : List Nat) (gr : List Group) (ch : List Choice) :
    ∃ sh' st', I sh' ∧ (if f.tag = c!"enumeration" then ∃ z : SimpleType, st' = [z] ∧ z.base = y.base else st' = []) ∧
      Runs W gvt (tag f.tag f.as []) ⟨sh, withElem heap e proto inE cur inG inAG [y] cts el gr ch⟩
        ⟨sh', withElem heap { e with type := ref (frz heap proto) y.base } proto f.tag [] inG inAG st' cts el gr ch⟩ := by
  have hfr : ∀ (st : List SimpleType) (cur : Str), (withElem heap e proto f.tag cur inG inAG st cts el gr ch).freeze = frz heap proto :=
    fun st cur => frz_heap hv [e]
  by_cases he : f.tag = c!"enumeration"
  · simp only [if_pos he]
    rw [he] at hfr ⊢
    have : ∀ (as : List Attr) (y : SimpleType), ∃ z : SimpleType, z.base = y.base ∧
        onEnumeration as (withElem heap e proto c!"enumeration" cur inG inAG [y] cts el gr ch) =
        withElem heap e proto c!"enumeration" cur inG inAG [z] cts el gr ch := by
      intro as
      unfold onEnumeration
      induction as with
      | nil => exact fun y => ⟨y, rfl, rfl⟩
      | cons b as ih =>
        intro y
        rw [List.foldl_cons]
        split
        · obtain ⟨z, h1, h2⟩ := ih { y with enum := y.enum ++ [b.value] }
          exact ⟨z, h1, h2⟩
        · exact ih y
    obtain ⟨z, hz1, hz2⟩ := this f.as y
    obtain ⟨sh1, i1, e1⟩ := assign_ok hg z.base setElementType sh
      (withElem heap e proto c!"enumeration" cur inG inAG [z] cts el gr ch) hi
    rw [hfr, setElementType_snoc] at e1
    refine ⟨sh1, [z], i1, ⟨z, rfl, hz1⟩, ?_⟩
    refine Runs.tag onKind_enumeration (s1 := ⟨sh, withElem heap e proto c!"enumeration" cur inG inAG [z] cts el gr ch⟩)
      ?_ (Runs.nil _) ?_
    · rw [← hz2]
      rfl
    · rw [step, endKind_enumeration]
      show endEnumeration gvt _ = _
      unfold endEnumeration
      rw [Go.bind_apply]
      show enumElement gvt ⟨sh, withElem heap e proto c!"enumeration" cur inG inAG [z] cts el gr ch⟩ = _
      show (assignType gvt z.base setElementType >>= fun _ => onP clearCurrent) _ = _
      rw [Go.bind_apply, e1, hz1]
      rfl
  · simp only [if_neg he]
    obtain ⟨j1, k, j2, j3⟩ := facet_kinds k1 he
    obtain ⟨sh1, i1, e1⟩ := assign_ok hg y.base setElementType sh
      (withElem heap e proto f.tag cur inG inAG [] cts el gr ch) hi
    rw [hfr, setElementType_snoc] at e1
    have hend : facetEnd gvt ⟨sh, withElem heap e proto f.tag cur inG inAG [y] cts el gr ch⟩ =
        .ok () ⟨sh1, withElem heap { e with type := ref (frz heap proto) y.base } proto f.tag [] inG inAG [] cts el gr ch⟩ := by
      show (onP popSimpleType >>= fun _ => assignType gvt y.base setElementType >>= fun _ => onP clearCurrent) _ = _
      rw [Go.bind_apply]
      show (assignType gvt y.base setElementType >>= fun _ => onP clearCurrent)
        ⟨sh, withElem heap e proto f.tag cur inG inAG [] cts el gr ch⟩ = _
      rw [Go.bind_apply, e1]
      rfl
    refine ⟨sh1, [], i1, rfl, Runs.cons (s' := ⟨sh, withElem heap e proto f.tag cur inG inAG [y] cts el gr ch⟩) ?_ (Runs.one ?_)⟩
    · simp only [step, Go.bind_apply, onP_apply, j1]
      rfl
    · rw [step, j2]
      rcases j3 with rfl | rfl
      · exact hend
      · show endPattern gvt _ = _
        unfold endPattern
        rw [Go.bind_apply]
        exact hend

/-- Without a simple type a facet changes nothing but the name of the last tag. -/
theorem facet_bare [UniLaws] (f : Facet) (k1 : f.tag ∈ facetNames) (sh : Shared) (p : PState) (h1 : p.simpleType = []) :
    Runs W gvt (tag f.tag f.as []) ⟨sh, p⟩ ⟨sh, { p with inElement := f.tag }⟩ := by
  obtain ⟨heap, proto, inE, cur, inG, inU, inAG, st, cts, el, ats, gr, ags, ch⟩ := p
  dsimp only at h1
  subst h1
  by_cases he : f.tag = c!"enumeration"
  · rw [he]
    refine Runs.tag onKind_enumeration (s1 := ⟨sh, ⟨heap, proto, c!"enumeration", cur, inG, inU, inAG, [], cts, el, ats, gr, ags, ch⟩⟩)
      ?_ (Runs.nil _) ?_
    · have : ∀ as : List Attr, onEnumeration as ⟨heap, proto, c!"enumeration", cur, inG, inU, inAG, [], cts, el, ats, gr, ags, ch⟩ =
          ⟨heap, proto, c!"enumeration", cur, inG, inU, inAG, [], cts, el, ats, gr, ags, ch⟩ := by
        intro as
        unfold onEnumeration
        induction as with
        | nil => rfl
        | cons a as ih =>
          rw [List.foldl_cons]
          split
          · exact ih
          · exact ih
      simp only [callOn, onP_apply, this]
    · rw [step, endKind_enumeration]
      show endEnumeration gvt _ = _
      unfold endEnumeration
      rw [Go.bind_apply]
      cases ats <;> cases el <;> rfl
  · obtain ⟨j1, k, j2, j3⟩ := facet_kinds k1 he
    refine Runs.cons (s' := ⟨sh, ⟨heap, proto, f.tag, cur, inG, inU, inAG, [], cts, el, ats, gr, ags, ch⟩⟩) ?_ (Runs.one ?_)
    · simp only [step, Go.bind_apply, onP_apply, j1]
      rfl
    · rw [step, j2]
      rcases j3 with rfl | rfl
      · show facetEnd gvt _ = _
        unfold facetEnd
        cases el <;> rfl
      · show endPattern gvt _ = _
        unfold endPattern
        rw [Go.bind_apply]
        unfold popToAttribute facetEnd
        cases ats <;> cases el <;> rfl

theorem facets_bare [UniLaws] (fs : List Facet) (hf : FacetsOk fs) (sh : Shared) (p : PState) (h1 : p.simpleType = []) :
    ∃ inE, Runs W gvt (facetTokens fs) ⟨sh, p⟩ ⟨sh, { p with inElement := inE }⟩ := by
  induction fs generalizing p with
  | nil => exact ⟨p.inElement, Runs.nil _⟩
  | cons f fs ih =>
    obtain ⟨inE, r⟩ := ih (fun g hg => hf g (by simp [hg])) { p with inElement := f.tag } h1
    refine ⟨inE, ?_⟩
    unfold facetTokens
    rw [List.flatMap_cons]
    exact (facet_bare f (hf f (by simp)).1 sh p h1).append r

/-- The facets of an anonymous restriction in an element. -/
theorem facets_elem [UniLaws] (hg : Answers I ref gvt) (fs : List Facet) (hf : FacetsOk fs) (hne : fs ≠ []) (sh : Shared)
    (hi : I sh) (heap : List Element) (e : Element) (proto : PTree) (hv : Valid heap proto) (inE cur : Str) (inG : Int) (inAG : Bool)
    (y : SimpleType) (cts : List ComplexType) (el : List Nat) (gr : List Group) (ch : List Choice) :
    ∃ sh' inE' st', I sh' ∧ (if leaves fs = .types then ∃ z : SimpleType, st' = [z] else st' = []) ∧
      Runs W gvt (facetTokens fs) ⟨sh, withElem heap e proto inE cur inG inAG [y] cts el gr ch⟩
        ⟨sh', withElem heap { e with type := ref (frz heap proto) y.base } proto inE' [] inG inAG st' cts el gr ch⟩ := by
  induction fs generalizing sh e inE cur y with
  | nil => exact absurd rfl hne
  | cons f fs ih =>
    have hf' : FacetsOk fs := fun g hg => hf g (by simp [hg])
    obtain ⟨sh1, st1, i1, hst, r1⟩ := facet_elem (W := W) hg f (hf f (by simp)).1 sh hi heap e proto hv inE cur inG inAG y cts el gr ch
    unfold facetTokens
    rw [List.flatMap_cons]
    by_cases he : f.tag = c!"enumeration"
    · rw [if_pos he] at hst
      obtain ⟨z, rfl, hz⟩ := hst
      have hl : fs ≠ [] → leaves (f :: fs) = leaves fs := by
        intro _
        unfold leaves
        rw [List.all_cons, he]
        simp
      by_cases hfs : fs = []
      · subst hfs
        refine ⟨sh1, f.tag, [z], i1, ?_, ?_⟩
        · rw [if_pos (by unfold leaves; simp [he])]
          exact ⟨z, rfl⟩
        · simpa using r1
      · obtain ⟨sh2, inE2, st2, i2, hst2, r2⟩ := ih hf' hfs sh1 i1 { e with type := ref (frz heap proto) y.base } f.tag [] z
        rw [hz] at r2
        refine ⟨sh2, inE2, st2, i2, ?_, r1.append r2⟩
        rw [hl hfs]
        exact hst2
    · rw [if_neg he] at hst
      subst hst
      obtain ⟨inE2, r2⟩ := facets_bare (W := W) (gvt := gvt) fs hf' sh1
        (withElem heap { e with type := ref (frz heap proto) y.base } proto f.tag [] inG inAG [] cts el gr ch) rfl
      refine ⟨sh1, inE2, [], i1, ?_, r1.append r2⟩
      rw [if_neg (by unfold leaves; simp [he])]

/-- The elements and simple types that may be on the stacks. -/
def Left : Mode → List Nat → List SimpleType → Prop
  | .clean, el, st => el = [] ∧ st = []
  | .elements, _, st => st = []
  | .types, _, st => ∃ x, st = [x]

omit [Uni] in
theorem Left.none {m : Mode} {el : List Nat} {st : List SimpleType} (h : Left m el st) (hm : m ≠ .types) : st = [] := by
  cases m with
  | clean => exact h.2
  | elements => exact h
  | types => exact absurd rfl hm

omit [Uni] in
theorem Left.push {m : Mode} {el : List Nat} {st : List SimpleType} (h : Left m el st) (el' : List Nat) : Left m.within el' st := by
  cases m with
  | clean => exact h.2
  | elements => exact h
  | types => exact h

/-- The anonymous restriction of an element gives it its type. -/
theorem elemAnon_on [UniLaws] (hg : Answers I ref gvt) {ras : List Attr} {fs : List Facet} (hr : Inline ras fs) (sh : Shared)
    (hi : I sh) (heap : List Element) (e : Element) (proto : PTree) (hv : Valid heap proto) (inE cur : Str) (inG : Int) (inAG : Bool)
    (m : Mode) (st : List SimpleType) (el0 : List Nat) (hl : Left m el0 st) (cts : List ComplexType) (el : List Nat)
    (gr : List Group) (ch : List Choice) :
    ∃ sh' inE' st', I sh' ∧ (∀ el', Left (leaves fs) el' st') ∧
      Runs W gvt (tag c!"simpleType" [] (tag c!"restriction" ras (facetTokens fs)))
        ⟨sh, withElem heap e proto inE cur inG inAG st cts el gr ch⟩
        ⟨sh', restrictionElement (withElem heap { e with type := inlineType (ref (frz heap proto)) ras } proto inE' [] inG
          inAG st' cts el gr ch)⟩ := by
  obtain ⟨h1, h2, h3, h4⟩ := hr
  obtain ⟨x, hx⟩ : ∃ x, onSimpleType [] (withElem heap e proto c!"simpleType" cur inG inAG st cts el gr ch) =
      withElem heap e proto c!"simpleType" c!"simpleType" inG inAG [x] cts el gr ch := by
    have : st = [] ∨ ∃ x, st = [x] := by
      cases m with
      | clean => exact .inl hl.2
      | elements => exact .inl hl
      | types => exact .inr hl
    rcases this with rfl | ⟨x, rfl⟩
    · exact ⟨{}, rfl⟩
    · exact ⟨x, rfl⟩
  obtain ⟨sh1, y, i1, -, hy, r1⟩ := restriction_on hg h1
    (withElem heap e proto c!"restriction" c!"simpleType" inG inAG [] cts el gr ch) x sh hi
  rw [show (withElem heap e proto c!"restriction" c!"simpleType" inG inAG [] cts el gr ch).freeze = frz heap proto from
    frz_heap hv [e]] at hy
  have hy' : ref (frz heap proto) y.base = inlineType (ref (frz heap proto)) ras := by
    rw [hy]
    unfold inlineType
    cases hb : attr? ras c!"base" with
    | none => rw [hb] at h2; cases h2
    | some v => rfl
  obtain ⟨sh2, inE2, st2, i2, hst2, r2⟩ := facets_elem (W := W) hg fs h3 h4 sh1 i1 heap e proto hv c!"restriction" c!"simpleType" inG
    inAG y cts el gr ch
  rw [hy'] at r2
  refine ⟨sh2, inE2, st2, i2, ?_, Runs.tag onKind_simpleType (s1 := ⟨sh, withElem heap e proto c!"simpleType" c!"simpleType" inG
    inAG [x] cts el gr ch⟩) ?_ (Runs.tag onKind_restriction r1 r2 (s3 := ⟨sh2, restrictionElement (withElem heap
      { e with type := inlineType (ref (frz heap proto)) ras } proto inE2 [] inG inAG st2 cts el gr ch)⟩) ?_) ?_⟩
  · intro el'
    cases hm : leaves fs with
    | clean => unfold leaves at hm; split at hm <;> cases hm
    | elements => rw [if_neg (by rw [hm]; decide)] at hst2; exact hst2
    | types => rw [if_pos hm] at hst2; exact hst2
  · rw [← hx]
    rfl
  · rw [step, endKind_restriction]
    show endRestriction gvt _ = _
    unfold endRestriction
    rw [Go.bind_apply]
    rfl
  · rw [step, endKind_simpleType]
    show Out.ok () _ = _
    congr 2
    cases cts <;> cases st2 <;> rfl

/-- The same for the attribute of a tag. -/
theorem attrAnon_run [UniLaws] (hg : Answers I ref gvt) (as : List Attr) (b : SimpleBody) (hb : b.Regular) (sh : Shared)
    (hi : I sh) (heap : List Element) (proto : PTree) (inE cur : Str) (inG : Int) (inAG : Bool) (cts : List ComplexType)
    (el : List Nat) (hq : el = [] ∨ b.Quiet) (ats : List Attribute) (gr : List Group) (ags : List AttributeGroup)
    (ch : List Choice) :
    ∃ sh' inE' cur', I sh' ∧ (cur' = [] ∨ b.Quiet ∧ cur' = c!"simpleType") ∧
      Runs W gvt (tag c!"simpleType" [] b.tokens)
        ⟨sh, withAttr heap proto inE cur inG false inAG [] cts el (attributeOf (ref (frz heap proto)) as) ats gr ags ch⟩
        ⟨sh', withAttr heap proto inE' cur' inG false inAG [] cts el (attrAnonOf (ref (frz heap proto)) as b) ats gr ags ch⟩ :=
  attrAnon_on (attributeOf (ref (frz heap proto)) as) hg b hb sh hi heap proto inE cur inG inAG cts el hq ats gr ags ch

end

/-! ## Contents of complex types -/

section
variable [UniLaws] {I : Shared → Prop} {ref : Tree → Str → Str}

omit [Uni] in
theorem add_names {e : Element} {es : List Element} {seen : List Str} (h : ∀ x ∈ es, x.name ∈ seen) :
    ∀ x ∈ addElement e es, x.name ∈ seen ++ [e.name] := by
  induction es with
  | nil => intro x hx; rw [List.mem_singleton.1 hx]; simp
  | cons y es ih =>
    have ih := ih (fun x hx => h x (List.mem_cons_of_mem _ hx))
    have hy := h y (by simp)
    have hes : ∀ x ∈ es, x.name ∈ seen ++ [e.name] := fun x hx => List.mem_append_left _ (h x (List.mem_cons_of_mem _ hx))
    unfold addElement
    split
    · split
      · intro x hx
        rcases List.mem_cons.1 hx with rfl | hx
        · exact List.mem_append_left _ hy
        · exact hes x hx
      · intro x hx
        rcases List.mem_append.1 hx with hx | hx
        · rcases List.mem_cons.1 hx with rfl | hx
          · exact List.mem_append_left _ hy
          · exact hes x hx
        · rw [List.mem_singleton.1 hx]; simp
    · intro x hx
      rcases List.mem_cons.1 hx with rfl | hx
      · exact List.mem_append_left _ hy
      · exact ih x hx

omit [Uni] in
theorem seen_add {e : Element} {es : List Element} {seen : List Str} {n : Str} (h : ∀ x ∈ es, x.name ∈ seen) (hn : e.name = n) :
    ∀ x ∈ addElement e es, x.name ∈ seen ++ [n] := hn ▸ add_names h

omit [Uni] in
theorem names_elements (ty : Str → Str) (p : Bool) (b : Content) : (elements ty p b).map (·.name) = elementNames b := by
  induction b generalizing p with
  | nil => rfl
  | elem as k ih => simp only [elements, elementNames, List.map_cons, ih]; rfl
  | anon as cas b k _ ih => simp only [elements, elementNames, List.map_cons, ih]; rfl
  | elemAnon as ras fs k ih => simp only [elements, elementNames, List.map_cons, ih]; rfl
  | choice as b k ihb ihk => simp only [elements, elementNames, List.map_append, ihb, ihk]
  | ext as b k ihb ihk => simp only [elements, elementNames, List.map_append, ihb, ihk]
  | restr as fs b k ihb ihk => simp only [elements, elementNames, List.map_append, ihb, ihk]
  | group as k ih => exact ih p
  | attrGroup as k ih => exact ih p
  | «attribute» as k ih => exact ih p
  | attrAnon as b k ih => exact ih p

omit [Uni] in
theorem seen_fold (l : List Element) {es : List Element} {seen : List Str} (h : ∀ x ∈ es, x.name ∈ seen) :
    ∀ x ∈ l.foldl (fun es e => addElement e es) es, x.name ∈ seen ++ l.map (·.name) := by
  induction l generalizing es seen with
  | nil => simpa using h
  | cons e l ih =>
    have := ih (add_names (e := e) h)
    simpa using this

omit [Uni] in
theorem seen_extend {ty : Str → Str} {p : Bool} {b : Content} {c : ComplexType} {seen : List Str} (h : ∀ x ∈ c.elements, x.name ∈ seen) :
    ∀ x ∈ (extend ty p b c).elements, x.name ∈ seen ++ elementNames b := by
  rw [← names_elements ty p b]
  exact seen_fold _ h

omit [Uni] in
theorem add_fresh {e : Element} {es : List Element} (h : ∀ x ∈ es, x.name ≠ e.name) : addElement e es = es ++ [e] := by
  induction es with
  | nil => rfl
  | cons y es ih =>
    unfold addElement
    rw [if_neg (h y (by simp)), ih (fun x hx => h x (List.mem_cons_of_mem _ hx))]
    rfl

omit [Uni] in
theorem setLast_snoc (x y : Element) (es : List Element) : setLast x (es ++ [y]) = es ++ [x] := by
  induction es with
  | nil => rfl
  | cons z es ih =>
    cases es with
    | nil => rfl
    | cons w es => exact congrArg (z :: ·) ih

omit [Uni] in
theorem plain_two {b k : Bool} {el el2 el4 : List Nat} {st st2 st4 : List SimpleType} (h : b = false → el2 = el ∧ st2 = st)
    (h' : k = false → el4 = el2 ∧ st4 = st2) (hbk : (b || k) = false) : el4 = el ∧ st4 = st := by
  obtain ⟨hb, hk⟩ := Bool.or_eq_false_iff.1 hbk
  exact ⟨(h' hk).1.trans (h hb).1, (h' hk).2.trans (h hb).2⟩

omit [Uni] in
theorem after_plain {b : Content} (h : b.inline = false) (m : Mode) : b.after m = m := by
  induction b generalizing m with
  | nil => rfl
  | elem as k ih => exact ih h m
  | anon as cas b k ihb ihk =>
    obtain ⟨h1, h2⟩ := Bool.or_eq_false_iff.1 h
    exact (ihk h2 _).trans (ihb h1 m)
  | elemAnon as ras fs k ih => cases h
  | choice as b k ihb ihk =>
    obtain ⟨h1, h2⟩ := Bool.or_eq_false_iff.1 h
    exact (ihk h2 _).trans (ihb h1 m)
  | ext as b k ihb ihk =>
    obtain ⟨h1, h2⟩ := Bool.or_eq_false_iff.1 h
    exact (ihk h2 _).trans (ihb h1 m)
  | restr as fs b k ihb ihk =>
    obtain ⟨h1, h2⟩ := Bool.or_eq_false_iff.1 h
    exact (ihk h2 _).trans (ihb h1 m)
  | group as k ih => exact ih h m
  | attrGroup as k ih => exact ih h m
  | «attribute» as k ih => exact ih h m
  | attrAnon as b k ih => exact ih h m

/-- Regular contents of a complex type extend it and add the anonymous types inside. -/
theorem content_run (hg : Answers I ref gvt) (hs : Stable ref) (ty : Str → Str) (b : Content) (hb : b.Regular ty) (sh : Shared)
    (hi : I sh) (heap : List Element) (proto : PTree) (inE cur : Str) (inG : Int) (inAG : Bool) (c : ComplexType)
    (cs : List ComplexType) (el : List Nat) (gr : List Group) (ch : List Choice) (hty : ref (frz heap proto) = ty)
    (hv : Valid heap proto) (hn : c.name ≠ []) (hc : cur ≠ c!"group") (m : Mode)
    (st : List SimpleType) (hl : Left m el st) (hq : b.Safe m) (seen : List Str) (hse : ∀ e ∈ c.elements, e.name ∈ seen)
    (ha : b.Apart seen) (pl : Bool) (hp : PState.choicePlural { choice := ch } = pl) :
    ∃ sh' heap' proto' inE' cur' el' st', I sh' ∧ heap <+: heap' ∧ Grown heap proto heap' proto' ((nested ty pl b).map .complex) ∧
      cur' ≠ c!"group" ∧ Left (b.after m) el' st' ∧ (b.inline = false → el' = el ∧ st' = st) ∧
      Runs W gvt b.tokens ⟨sh, ⟨heap, proto, inE, cur, inG, false, inAG, st, c :: cs, el, [], gr, [], ch⟩⟩
        ⟨sh', ⟨heap', proto', inE', cur', inG, false, inAG, st', extend ty pl b c :: cs, el', [], gr, [], ch⟩⟩ := by
  induction b generalizing sh heap proto inE cur c cs el ch pl m st seen with
  | nil => exact ⟨sh, heap, proto, inE, cur, el, st, hi, List.prefix_refl _, Grown.refl hv, hc, hl, fun _ => ⟨rfl, rfl⟩, by rw [extend_nil]; exact Runs.nil _⟩
  | elem as k ih =>
    obtain ⟨h1, h2, h3, h4⟩ := hb
    obtain ⟨sh1, i1, r1⟩ := element_typed hg h1 h2
      (⟨heap, proto, c!"element", cur, inG, false, inAG, st, c :: cs, el, [], gr, [], ch⟩ : PState) (by rw [freeze_eq, hty]; exact h3)
      sh hi
    have g1 : Grown heap proto (heap ++ [elementOf ty pl as]) proto [] := Grown.alloc hv _
    obtain ⟨sh', heap', proto', inE', cur', el', st', i2, x2, g2, hcur, l2, p2, r2⟩ := ih h4 sh1 i1 (heap ++ [elementOf ty pl as]) proto c!"element" cur
      { c with elements := addElement (elementOf ty pl as) c.elements } cs el ch (by rw [g1.tree]; simpa using hty) g1.valid hn
      hc m st hl hq _ (seen_add hse rfl) ha pl hp
    refine ⟨sh', heap', proto', inE', cur', el', st', i2, (List.prefix_append _ _).trans x2, g1.trans g2, hcur, l2, p2, ?_⟩
    refine Runs.append (Runs.tag onKind_element r1 (Runs.nil _) ?_) r2
    rw [step, endKind_element, freeze_eq, hty, place_complex, hp]
    cases el <;> rfl
  | anon as cas b k ihb ihk =>
    obtain ⟨h1, h2, h3, h4, h5, h6⟩ := hb
    obtain ⟨sh1, i1, r1⟩ := element_untyped hg h1 h2 h3
      (⟨heap, proto, c!"element", cur, inG, false, inAG, st, c :: cs, el, [], gr, [], ch⟩ : PState) sh hi
    have g1 : Grown heap proto (heap ++ [elementOf ty pl as]) proto [] := Grown.alloc hv _
    have t1 : ref (frz (heap ++ [elementOf ty pl as]) proto) = ty := by rw [g1.tree]; simpa using hty
    obtain ⟨sh2, heap2, proto2, inE2, cur2, el2, st2, i2, x2, g2, hcur2, l2, p2, r2⟩ := ihb h5 sh1 i1 (heap ++ [elementOf ty pl as]) proto
      c!"complexType" cur { name := nameOf as } ({ c with elements := addElement (elementOf ty pl as) c.elements } :: cs) el ch
      t1 g1.valid h3.2.2 hc m st hl hq.1 [] (by intro e he; cases he) ha.1 pl hp
    have g3 : Grown heap2 proto2 heap2 (proto2 ++ [some (.complex (complexOf ty pl (nameOf as) b))])
        [.complex (complexOf ty pl (nameOf as) b)] :=
      Grown.node (n := .complex (complexOf ty pl (nameOf as) b)) g2.valid (by intro a ha; cases ha)
    have g23 := g2.trans g3
    have t3 : ref (frz heap2 (proto2 ++ [some (.complex (complexOf ty pl (nameOf as) b))])) = ty := by
      rw [g23.tree, hs.silent _ (by
        have := silent_complex (nested ty pl b ++ [complexOf ty pl (nameOf as) b])
        simpa using this)]
      exact t1
    obtain ⟨sh4, heap4, proto4, inE4, cur4, el4, st4, i4, x4, g4, hcur4, l4, p4, r4⟩ := ihk h6 sh2 i2 heap2
      (proto2 ++ [some (.complex (complexOf ty pl (nameOf as) b))]) inE2 []
      { c with elements := addElement (elementOf ty pl as) c.elements } cs el2 ch t3 g3.valid hn (by decide)
      (b.after m) st2 l2 hq.2 _ (seen_add hse rfl) ha.2 pl hp
    refine ⟨sh4, heap4, proto4, inE4, cur4, el4, st4, i4, ((List.prefix_append _ _).trans x2).trans x4, ?_, hcur4, l4, plain_two p2 p4, ?_⟩
    · have := (g1.trans g23).trans g4
      simpa [nested] using this
    · refine Runs.append (Runs.tag onKind_element r1 (s2 := ⟨sh2, ⟨heap2, proto2 ++ [some (.complex (complexOf ty pl (nameOf as) b))], inE2,
        [], inG, false, inAG, st2, { c with elements := addElement (elementOf ty pl as) c.elements } :: cs, el2, [], gr, [], ch⟩⟩) ?_ ?_) r4
      · refine Runs.tag onKind_complexType ?_ r2 ?_
        · rw [freeze_eq, hty, place_complex, hp]
          simp [callOn, onComplexType, onComplexType?, PState.deref, elementOf]
        · rw [step, endKind_complexType]
          rfl
      · rw [step, endKind_element]
        simp only [callEnd, onP_apply, endElement]
  | elemAnon as ras fs k ih =>
    obtain ⟨h1, h2, h3, h5, h6⟩ := hb
    obtain ⟨ha1, ha2⟩ := ha
    obtain ⟨sh1, i1, r1⟩ := element_untyped hg h1 h2 h3
      (⟨heap, proto, c!"element", cur, inG, false, inAG, st, c :: cs, el, [], gr, [], ch⟩ : PState) sh hi
    rw [freeze_eq, hty, place_complex, hp] at r1
    obtain ⟨sh2, inE2, st2, i2, l2, r2⟩ := elemAnon_on (W := W) hg h5 sh1 i1 heap (elementOf ty pl as) proto hv c!"element" cur inG inAG
      m st el hl ({ c with elements := addElement (elementOf ty pl as) c.elements } :: cs) el gr ch
    rw [hty] at r2
    have hf : ∀ e ∈ c.elements, e.name ≠ nameOf as := fun e he h => ha1 (h ▸ hse e he)
    have g1 : Grown heap proto (heap ++ [elemAnonOf ty pl as ras]) proto [] := Grown.alloc hv _
    obtain ⟨sh', heap', proto', inE', cur', el', st', i3, x3, g3, hcur, l3, p3, r3⟩ := ih h6 sh2 i2 (heap ++ [elemAnonOf ty pl as ras]) proto inE2 []
      { c with elements := addElement (elemAnonOf ty pl as ras) c.elements } cs (heap.length :: el) ch (by rw [g1.tree]; simpa using hty)
      g1.valid hn (by decide) (leaves fs) st2 (l2 _) hq _ (seen_add hse rfl) ha2 pl hp
    refine ⟨sh', heap', proto', inE', cur', el', st', i3, (List.prefix_append _ _).trans x3, g1.trans g3, hcur, l3, (fun h => Bool.noConfusion h), ?_⟩
    refine Runs.append (Runs.tag onKind_element r1 r2 ?_) r3
    rw [step, endKind_element]
    show Out.ok () _ = _
    congr 2
    have hset : setLast (((heap ++ [elemAnonOf ty pl as ras])[heap.length]?).getD {}) (addElement (elementOf ty pl as) c.elements) =
        addElement (elemAnonOf ty pl as ras) c.elements := by
      rw [add_fresh (e := elementOf ty pl as) hf, add_fresh (e := elemAnonOf ty pl as ras) hf, List.getElem?_concat_length,
        Option.getD_some, setLast_snoc]
    rw [← hset]
    rfl
  | choice as b k ihb ihk =>
    obtain ⟨h1, h2, h3, h4⟩ := hb
    obtain ⟨sh1, i1, r1⟩ := choice_on (I := I) h1 h2
      (⟨heap, proto, c!"choice", cur, inG, false, inAG, st, c :: cs, el, [], gr, [], ch⟩ : PState) sh hi
    obtain ⟨sh2, heap2, proto2, inE2, cur2, el2, st2, i2, x2, g2, hcur2, l2, p2, r2⟩ := ihb h3 sh1 i1 heap proto c!"choice" cur c cs el
      ({ plural := repeated as || pl } :: ch) hty hv hn hc m st hl hq.1 seen hse ha.1 (repeated as || pl) rfl
    have t2 : ref (frz heap2 proto2) = ty := by rw [g2.tree, hs.silent _ (silent_complex _)]; exact hty
    obtain ⟨sh4, heap4, proto4, inE4, cur4, el4, st4, i4, x4, g4, hcur4, l4, p4, r4⟩ := ihk h4 sh2 i2 heap2 proto2 inE2 cur2
      (extend ty (repeated as || pl) b c) cs el2 ch t2 g2.valid hn hcur2
      (b.after m) st2 l2 hq.2 _ (seen_extend hse) ha.2 pl hp
    refine ⟨sh4, heap4, proto4, inE4, cur4, el4, st4, i4, x2.trans x4, ?_, hcur4, l4, plain_two p2 p4, ?_⟩
    · have := g2.trans g4
      simpa [nested] using this
    · rw [extend_choice]
      subst hp
      refine Runs.append (Runs.tag onKind_choice r1 r2 ?_) r4
      rw [step, endKind_choice]
      rfl
  | group as k ih =>
    obtain ⟨h1, h4⟩ := hb
    have hpl : placeGroup? (groupOf (ref (frz heap proto)) false as)
        (⟨heap, proto, c!"group", cur, inG, false, inAG, st, c :: cs, el, [], gr, [], ch⟩ : PState) =
        some ⟨heap, proto, c!"group", cur, inG, false, inAG, st,
          { c with groups := addGroup (groupOf ty pl as) c.groups } :: cs, el, [], gr, [], ch⟩ := by
      rw [hty]
      subst hp
      unfold placeGroup?
      rw [show PState.choicePlural ⟨heap, proto, c!"group", cur, inG, false, inAG, st, c :: cs, el, [], gr, [], ch⟩ =
        PState.choicePlural { choice := ch } from rfl, gplural_inside]
      unfold inGroups addGroup
      dsimp only
      split <;> rfl
    obtain ⟨sh1, i1, r1⟩ := group_on hg h1
      (⟨heap, proto, c!"group", cur, inG, false, inAG, st, c :: cs, el, [], gr, [], ch⟩ : PState) _ sh hi hpl
    obtain ⟨sh', heap', proto', inE', cur', el', st', i2, x2, g2, hcur, l2, p2, r2⟩ := ih h4 sh1 i1 heap proto c!"group" cur
      { c with groups := addGroup (groupOf ty pl as) c.groups } cs el ch hty hv hn hc m st hl hq seen hse ha pl hp
    refine ⟨sh', heap', proto', inE', cur', el', st', i2, x2, g2, hcur, l2, p2, ?_⟩
    refine Runs.append (Runs.tag onKind_group r1 (Runs.nil _) ?_) r2
    rw [step, endKind_group]
    simp only [callEnd, onP_apply]
    rw [endGroup_other _ _ hc]
  | attrGroup as k ih =>
    obtain ⟨h1, h4⟩ := hb
    obtain ⟨sh1, i1, r1⟩ := attrGroup_on hg h1
      (⟨heap, proto, c!"attributeGroup", cur, inG, false, inAG, st, c :: cs, el, [], gr, [], ch⟩ : PState) sh hi
    obtain ⟨sh', heap', proto', inE', cur', el', st', i2, x2, g2, hcur, l2, p2, r2⟩ := ih h4 sh1 i1 heap proto c!"attributeGroup" cur
      { c with attributeGroup := c.attributeGroup ++ [attrGroupOf ty as] } cs el ch hty hv hn hc m st hl hq seen hse ha pl hp
    refine ⟨sh', heap', proto', inE', cur', el', st', i2, x2, g2, hcur, l2, p2, ?_⟩
    rw [extend_attrGroup]
    refine Runs.append (Runs.tag onKind_attributeGroup r1 (Runs.nil _) ?_) r2
    rw [step, endKind_attributeGroup, freeze_eq, hty]
    rfl
  | «attribute» as k ih =>
    obtain ⟨h1, h4⟩ := hb
    obtain ⟨sh1, i1, r1⟩ := attribute_on hg h1
      (⟨heap, proto, c!"attribute", cur, inG, false, inAG, st, c :: cs, el, [], gr, [], ch⟩ : PState) sh hi
    obtain ⟨sh', heap', proto', inE', cur', el', st', i2, x2, g2, hcur, l2, p2, r2⟩ := ih h4 sh1 i1 heap proto c!"attribute" cur
      { c with attributes := c.attributes ++ [attributeOf ty as] } cs el ch hty hv hn hc m st hl hq seen hse ha pl hp
    refine ⟨sh', heap', proto', inE', cur', el', st', i2, x2, g2, hcur, l2, p2, ?_⟩
    rw [extend_attribute]
    refine Runs.append (Runs.tag onKind_attribute r1 (Runs.nil _) ?_) r2
    rw [step, endKind_attribute, freeze_eq, hty]
    rfl
  | ext as b k ihb ihk =>
    obtain ⟨h1, h3, h4⟩ := hb
    obtain ⟨sh1, i1, r1⟩ := extension_on hg h1.1
      (⟨heap, proto, c!"extension", cur, inG, false, inAG, st, c :: cs, el, [], gr, [], ch⟩ : PState) c cs hn sh hi
    rw [freeze_eq, hty] at r1
    obtain ⟨sh2, heap2, proto2, inE2, cur2, el2, st2, i2, x2, g2, hcur2, l2, p2, r2⟩ := ihb h3 sh1 i1 heap proto c!"extension" cur
      { c with base := ((attr? as c!"base").map fun t => ty (ty t)).getD c.base } cs el ch hty hv hn hc
      m st hl hq.1 seen hse ha.1 pl hp
    have t2 : ref (frz heap2 proto2) = ty := by rw [g2.tree, hs.silent _ (silent_complex _)]; exact hty
    obtain ⟨sh4, heap4, proto4, inE4, cur4, el4, st4, i4, x4, g4, hcur4, l4, p4, r4⟩ := ihk h4 sh2 i2 heap2 proto2 inE2 cur2
      (extend ty pl b { c with base := ((attr? as c!"base").map fun t => ty (ty t)).getD c.base }) cs el2 ch t2 g2.valid hn hcur2
      (b.after m) st2 l2 hq.2 _ (seen_extend (c := { c with base := ((attr? as c!"base").map fun t => ty (ty t)).getD c.base }) hse) ha.2 pl hp
    refine ⟨sh4, heap4, proto4, inE4, cur4, el4, st4, i4, x2.trans x4, ?_, hcur4, l4, plain_two p2 p4, ?_⟩
    · have := g2.trans g4
      simpa [nested] using this
    · rw [extend_ext]
      refine Runs.append (Runs.tag onKind_extension r1 r2 ?_) r4
      rw [step, endKind_extension]
      rfl
  | attrAnon as b k ih =>
    obtain ⟨h1, h2, h4⟩ := hb
    obtain ⟨sh1, i1, r1⟩ := attribute_on hg h1
      (⟨heap, proto, c!"attribute", cur, inG, false, inAG, st, c :: cs, el, [], gr, [], ch⟩ : PState) sh hi
    rw [freeze_eq] at r1
    obtain rfl : st = [] := hl.none (by rcases hq.1 with h | ⟨h, _⟩ <;> rw [h] <;> decide)
    obtain ⟨sh2, inE2, cur2, i2, hcur2, r2⟩ := attrAnon_run (W := W) hg as b h2 sh1 i1 heap proto c!"attribute" cur inG inAG (c :: cs) el
      (by rcases hq.1 with h | ⟨_, h⟩
          · rw [h] at hl; exact .inl hl.1
          · exact .inr h) [] gr [] ch
    rw [hty] at r2 r1
    obtain ⟨sh', heap', proto', inE', cur', el', st', i3, x3, g3, hcur, l3, p3, r3⟩ := ih h4 sh2 i2 heap proto inE2 cur2
      { c with attributes := c.attributes ++ [attrAnonOf ty as b] } cs el ch hty hv hn
      (by rcases hcur2 with h | ⟨_, h⟩ <;> rw [h] <;> decide) m [] hl hq.2 seen hse ha pl hp
    refine ⟨sh', heap', proto', inE', cur', el', st', i3, x3, g3, hcur, l3, p3, ?_⟩
    rw [extend_attrAnon]
    refine Runs.append (Runs.tag onKind_attribute r1 r2 ?_) r3
    rw [step, endKind_attribute]
    rfl
  | restr as fs b k ihb ihk =>
    obtain ⟨h1, h2, h3, h4⟩ := hb
    obtain ⟨rfl, q1, q2, q3⟩ := hq
    obtain ⟨rfl, rfl⟩ := hl
    obtain ⟨sh1, i1, r1⟩ := restriction_none hg as
      (⟨heap, proto, c!"restriction", cur, inG, false, inAG, [], c :: cs, [], [], gr, [], ch⟩ : PState) rfl sh hi
    obtain ⟨inEf, rf⟩ := facets_bare (W := W) (gvt := gvt) fs h2 sh1
      (⟨heap, proto, c!"restriction", cur, inG, false, inAG, [], c :: cs, [], [], gr, [], ch⟩ : PState) rfl
    obtain ⟨sh2, heap2, proto2, inE2, cur2, el2, st2, i2, x2, g2, hcur2, l2, p2, r2⟩ := ihb h3 sh1 i1 heap proto inEf cur c cs [] ch hty hv hn hc
      .clean [] ⟨rfl, rfl⟩ q2 seen hse ha.1 pl hp
    obtain ⟨rfl, rfl⟩ := p2 q1
    have t2 : ref (frz heap2 proto2) = ty := by rw [g2.tree, hs.silent _ (silent_complex _)]; exact hty
    obtain ⟨sh4, heap4, proto4, inE4, cur4, el4, st4, i4, x4, g4, hcur4, l4, p4, r4⟩ := ihk h4 sh2 i2 heap2 proto2 inE2 cur2
      (extend ty pl b c) cs [] ch t2 g2.valid hn hcur2 .clean [] ⟨rfl, rfl⟩ q3 _ (seen_extend hse) ha.2 pl hp
    refine ⟨sh4, heap4, proto4, inE4, cur4, el4, st4, i4, x2.trans x4, ?_, hcur4, ?_, plain_two (fun _ => ⟨rfl, rfl⟩) p4, ?_⟩
    · have := g2.trans g4
      simpa [nested] using this
    · rw [Content.after, after_plain q1]
      exact l4
    · rw [extend_restr]
      refine Runs.append (Runs.tag onKind_restriction r1 (rf.append r2) ?_) r4
      rw [step, endKind_restriction]
      rfl

end

end Xgen.Core
