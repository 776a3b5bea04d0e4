import Verif.Lemmas.CoreRun

/-! # The parser on the declarations of core schemas -/

namespace Xgen.Core
variable [Uni] {W : World} {gvt : Gvt} [UniLaws] {I : Shared → Prop} {ref : Tree → Str → Str}

/-! ## Groups -/

/-- Regular contents of a group extend it. -/
theorem group_run (hg : Answers I ref gvt) (ty : Str → Str) (b : Content) (hb : b.GroupRegular ty) (sh : Shared)
    (hi : I sh) (heap : List Element) (proto : PTree) (inE : Str) (inU inAG : Bool) (g : Group) (gr : List Group)
    (ch : List Choice) (hty : ref (frz heap proto) = ty) (hv : Valid heap proto) (pl : Bool)
    (hp : PState.choicePlural { choice := ch } = pl) :
    ∃ sh' heap' inE', I sh' ∧ Grown heap proto heap' proto [] ∧
      Runs W gvt b.tokens ⟨sh, ⟨heap, proto, inE, c!"group", 1, inU, inAG, [], [], [], [], g :: gr, [], ch⟩⟩
        ⟨sh', ⟨heap', proto, inE', c!"group", 1, inU, inAG, [], [], [], [],
          { g with elements := g.elements ++ elements ty pl b, groups := g.groups ++ groups ty pl b } :: gr, [], ch⟩⟩ := by
  induction b generalizing sh heap inE g ch pl with
  | nil => exact ⟨sh, heap, inE, hi, Grown.refl hv, by simp only [elements, groups, List.append_nil]; exact Runs.nil _⟩
  | elem as k ih =>
    obtain ⟨h1, h2, h3, h4⟩ := hb
    obtain ⟨sh1, i1, r1⟩ := element_typed hg h1 h2
      (⟨heap, proto, c!"element", c!"group", 1, inU, inAG, [], [], [], [], g :: gr, [], ch⟩ : PState)
      (by rw [freeze_eq, hty]; exact h3) sh hi
    have g1 : Grown heap proto (heap ++ [elementOf ty pl as]) proto [] := Grown.alloc hv _
    obtain ⟨sh', heap', inE', i2, g2, r2⟩ := ih h4 sh1 i1 (heap ++ [elementOf ty pl as]) c!"element"
      { g with elements := g.elements ++ [elementOf ty pl as] } ch (by rw [g1.tree]; simpa using hty) g1.valid pl hp
    refine ⟨sh', heap', inE', i2, g1.trans g2, ?_⟩
    simp only [List.append_assoc, List.singleton_append] at r2
    refine Runs.append (Runs.tag onKind_element r1 (Runs.nil _) ?_) r2
    rw [step, endKind_element, freeze_eq, hty, place_group _ _ _ _ _ _ _ (by decide), hp]
    rfl
  | choice as b k ihb ihk =>
    obtain ⟨h1, h2, h3, h4⟩ := hb
    obtain ⟨sh1, i1, r1⟩ := choice_on (I := I) h1 h2
      (⟨heap, proto, c!"choice", c!"group", 1, inU, inAG, [], [], [], [], g :: gr, [], ch⟩ : PState) sh hi
    obtain ⟨sh2, heap2, inE2, i2, g2, r2⟩ := ihb h3 sh1 i1 heap c!"choice" g
      ({ plural := repeated as || pl } :: ch) hty hv (repeated as || pl) rfl
    have t2 : ref (frz heap2 proto) = ty := by rw [g2.tree]; simpa using hty
    obtain ⟨sh4, heap4, inE4, i4, g4, r4⟩ := ihk h4 sh2 i2 heap2 inE2
      { g with elements := g.elements ++ elements ty (repeated as || pl) b
               groups := g.groups ++ groups ty (repeated as || pl) b } ch t2 g2.valid pl hp
    refine ⟨sh4, heap4, inE4, i4, g2.trans g4, ?_⟩
    simp only [List.append_assoc] at r4
    subst hp
    refine Runs.append (Runs.tag onKind_choice r1 r2 ?_) r4
    rw [step, endKind_choice]
    rfl
  | group as k ih =>
    obtain ⟨h1, h4⟩ := hb
    have hpl : placeGroup? (groupOf (ref (frz heap proto)) false as)
        (⟨heap, proto, c!"group", c!"group", 1, inU, inAG, [], [], [], [], g :: gr, [], ch⟩ : PState) =
        some ⟨heap, proto, c!"group", c!"group", 2, inU, inAG, [], [], [], [],
          { g with groups := g.groups ++ [groupOf ty pl as] } :: gr, [], ch⟩ := by
      rw [hty]
      subst hp
      unfold placeGroup?
      rw [show PState.choicePlural ⟨heap, proto, c!"group", c!"group", 1, inU, inAG, [], [], [], [], g :: gr, [], ch⟩ =
        PState.choicePlural { choice := ch } from rfl, gplural_inside]
      rfl
    obtain ⟨sh1, i1, r1⟩ := group_on hg h1
      (⟨heap, proto, c!"group", c!"group", 1, inU, inAG, [], [], [], [], g :: gr, [], ch⟩ : PState) _ sh hi hpl
    obtain ⟨sh', heap', inE', i2, g2, r2⟩ := ih h4 sh1 i1 heap c!"group"
      { g with groups := g.groups ++ [groupOf ty pl as] } ch hty hv pl hp
    refine ⟨sh', heap', inE', i2, g2, ?_⟩
    simp only [List.append_assoc, List.singleton_append] at r2
    refine Runs.append (Runs.tag onKind_group r1 (Runs.nil _) ?_) r2
    rw [step, endKind_group]
    rfl
  | anon => exact hb.elim
  | elemAnon => exact hb.elim
  | attrGroup => exact hb.elim
  | «attribute» => exact hb.elim
  | attrAnon => exact hb.elim
  | ext => exact hb.elim
  | restr => exact hb.elim

/-! ## Attribute groups -/

/-- Regular contents of an attribute group extend it; the references inside become components of their own. -/
theorem attrs_run (hg : Answers I ref gvt) (hs : Stable ref) (ty : Str → Str) (b : Content) (hb : b.AttrRegular) (sh : Shared)
    (hi : I sh) (heap : List Element) (proto : PTree) (inE cur : Str) (inG : Int) (inAG : Bool) (g : AttributeGroup)
    (gs : List AttributeGroup) (hty : ref (frz heap proto) = ty) (hv : Valid heap proto) (m : Mode)
    (el : List Nat) (st : List SimpleType) (hl : Left m el st) (hq : b.Safe m) :
    ∃ sh' proto' inE' cur' inAG', I sh' ∧ Grown heap proto heap proto' ((attrGroups ty b).map .attrGroup) ∧
      Runs W gvt b.tokens ⟨sh, ⟨heap, proto, inE, cur, inG, false, inAG, st, [], el, [], [], g :: gs, []⟩⟩
        ⟨sh', ⟨heap, proto', inE', cur', inG, false, inAG', st, [], el, [], [],
          { g with attributes := g.attributes ++ attributes ty b } :: gs, []⟩⟩ := by
  induction b generalizing sh proto inE cur inAG g with
  | nil =>
    exact ⟨sh, proto, inE, cur, inAG, hi, Grown.refl hv, by simp only [attributes, List.append_nil]; exact Runs.nil _⟩
  | attrGroup as k ih =>
    obtain ⟨h1, h4⟩ := hb
    obtain ⟨sh1, i1, r1⟩ := attrGroup_on hg h1
      (⟨heap, proto, c!"attributeGroup", cur, inG, false, inAG, st, [], el, [], [], g :: gs, []⟩ : PState) sh hi
    have g1 : Grown heap proto heap (proto ++ [some (.attrGroup (attrGroupOf ty as))]) [.attrGroup (attrGroupOf ty as)] :=
      Grown.node (n := .attrGroup (attrGroupOf ty as)) hv (by intro a ha; cases ha)
    obtain ⟨sh', proto', inE', cur', inAG', i2, g2, r2⟩ := ih h4 sh1 i1 _ c!"attributeGroup" [] false g
      (by rw [g1.tree]; exact (hs.silent _ (silent_attrGroup [attrGroupOf ty as])).trans hty) g1.valid hq
    refine ⟨sh', proto', inE', cur', inAG', i2, by have := g1.trans g2; simpa [attrGroups] using this, ?_⟩
    refine Runs.append (Runs.tag onKind_attributeGroup r1 (Runs.nil _) ?_) r2
    rw [step, endKind_attributeGroup, freeze_eq, hty]
    rfl
  | «attribute» as k ih =>
    obtain ⟨h1, h4⟩ := hb
    obtain ⟨sh1, i1, r1⟩ := attribute_on hg h1
      (⟨heap, proto, c!"attribute", cur, inG, false, inAG, st, [], el, [], [], g :: gs, []⟩ : PState) sh hi
    obtain ⟨sh', proto', inE', cur', inAG', i2, g2, r2⟩ := ih h4 sh1 i1 proto c!"attribute" cur inAG
      { g with attributes := g.attributes ++ [attributeOf ty as] } hty hv hq
    refine ⟨sh', proto', inE', cur', inAG', i2, g2, ?_⟩
    simp only [List.append_assoc, List.singleton_append] at r2
    refine Runs.append (Runs.tag onKind_attribute r1 (Runs.nil _) ?_) r2
    rw [step, endKind_attribute, freeze_eq, hty]
    rfl
  | attrAnon as b k ih =>
    obtain ⟨h1, h2, h4⟩ := hb
    obtain ⟨sh1, i1, r1⟩ := attribute_on hg h1
      (⟨heap, proto, c!"attribute", cur, inG, false, inAG, st, [], el, [], [], g :: gs, []⟩ : PState) sh hi
    rw [freeze_eq] at r1
    obtain rfl : st = [] := hl.none (by rcases hq.1 with h | ⟨h, _⟩ <;> rw [h] <;> decide)
    obtain ⟨sh2, inE2, cur2, i2, -, r2⟩ := attrAnon_run (W := W) hg as b h2 sh1 i1 heap proto c!"attribute" cur inG inAG [] el
      (by rcases hq.1 with h | ⟨_, h⟩
          · rw [h] at hl; exact .inl hl.1
          · exact .inr h) [] [] (g :: gs) []
    rw [hty] at r1 r2
    obtain ⟨sh', proto', inE', cur', inAG', i3, g3, r3⟩ := ih h4 sh2 i2 proto inE2 cur2 inAG
      { g with attributes := g.attributes ++ [attrAnonOf ty as b] } hty hv hq.2
    refine ⟨sh', proto', inE', cur', inAG', i3, g3, ?_⟩
    simp only [List.append_assoc, List.singleton_append] at r3
    refine Runs.append (Runs.tag onKind_attribute r1 r2 ?_) r3
    rw [step, endKind_attribute]
    rfl
  | elem => exact hb.elim
  | choice => exact hb.elim
  | group => exact hb.elim
  | anon => exact hb.elim
  | elemAnon => exact hb.elim
  | ext => exact hb.elim
  | restr => exact hb.elim

/-! ## Simple types -/

/-- The state while a named simple type is read. -/
def inSimple (heap : List Element) (proto : PTree) (inE cur : Str) (inU : Bool) (x : SimpleType) (el : List Nat := []) : PState :=
  ⟨heap, proto, inE, cur, 0, inU, false, [x], [], el, [], [], [], []⟩

/-! ### Facets -/

omit [Uni] [UniLaws] in
theorem enum_on {as : List Attr} (hd : Distinct as) (heap : List Element) (proto : PTree) (inE cur : Str) (x : SimpleType) :
    onEnumeration as (inSimple heap proto inE cur false x) =
      inSimple heap proto inE cur false { x with enum := x.enum ++ (attr? as c!"value").toList } := by
  unfold onEnumeration
  induction as generalizing x with
  | nil => simp [attr?_nil]
  | cons a as ih =>
    rw [List.foldl_cons, attr?_cons]
    by_cases h : a.local = c!"value"
    · have hn := hd.head
      rw [h] at hn
      rw [if_pos h, if_pos h]
      have := ih hd.tail { x with enum := x.enum ++ [a.value] }
      rw [hn] at this
      simp only [Option.toList_none, List.append_nil] at this
      exact this
    · rw [if_neg h, if_neg h]
      exact ih hd.tail x

/-- The values of the enumerations among facets. -/
def enumValues (fs : List Facet) : List Str :=
  fs.flatMap fun f => if f.tag = c!"enumeration" then (attr? f.as c!"value").toList else []

theorem facets_run (fs : List Facet) (hf : ∀ f ∈ fs, f.tag ∈ facetNames ∧ Distinct f.as) (sh : Shared) (heap : List Element)
    (proto : PTree) (inE cur : Str) (x : SimpleType) :
    ∃ inE', Runs W gvt (facetTokens fs) ⟨sh, inSimple heap proto inE cur false x⟩
      ⟨sh, inSimple heap proto inE' cur false { x with enum := x.enum ++ enumValues fs }⟩ := by
  induction fs generalizing inE x with
  | nil => exact ⟨inE, by simp only [enumValues, List.flatMap_nil, List.append_nil]; exact Runs.nil _⟩
  | cons f fs ih =>
    obtain ⟨h1, h2⟩ := hf f (by simp)
    by_cases he : f.tag = c!"enumeration"
    · obtain ⟨inE', h3⟩ := ih (fun g hg => hf g (by simp [hg])) c!"enumeration" { x with enum := x.enum ++ (attr? f.as c!"value").toList }
      refine ⟨inE', ?_⟩
      rw [enumValues, List.flatMap_cons, if_pos he, ← List.append_assoc]
      unfold facetTokens
      rw [List.flatMap_cons, he]
      refine Runs.append (Runs.tag onKind_enumeration (s1 := ⟨sh, inSimple heap proto c!"enumeration" cur false
        { x with enum := x.enum ++ (attr? f.as c!"value").toList }⟩) ?_ (Runs.nil _) ?_) h3
      · rw [← enum_on h2]
        rfl
      · rw [step, endKind_enumeration]
        rfl
    · obtain ⟨inE', h3⟩ := ih (fun g hg => hf g (by simp [hg])) f.tag x
      refine ⟨inE', ?_⟩
      rw [enumValues, List.flatMap_cons, if_neg he, List.nil_append]
      unfold facetTokens
      rw [List.flatMap_cons]
      obtain ⟨k1, k, k2, k3⟩ := facet_kinds h1 he
      refine Runs.append (s' := ⟨sh, inSimple heap proto f.tag cur false x⟩) ?_ h3
      refine Runs.cons (s' := ⟨sh, inSimple heap proto f.tag cur false x⟩) ?_ (Runs.one ?_)
      · simp only [step, Go.bind_apply, onP_apply, k1]
        rfl
      · rw [step, k2]
        rcases k3 with rfl | rfl <;> rfl

/-- Regular contents of a simple type complete it. -/
theorem simple_on (w : Str) (hg : Answers I ref gvt) (b : SimpleBody) (hb : b.Regular) (as : List Attr) (hn : nameOf as ≠ [])
    (sh : Shared) (hi : I sh) (heap : List Element) (proto : PTree) (inE cur : Str) (el : List Nat)
    (hq : el = [] ∨ b.Quiet) :
    ∃ sh' inE', I sh' ∧ Runs W gvt b.tokens ⟨sh, inSimple heap proto inE cur false { name := nameOf as, doc := w } el⟩
      ⟨sh', inSimple heap proto inE' cur false { simpleOf (ref (frz heap proto)) as b with doc := w } el⟩ := by
  cases b with
  | restriction ras fs =>
    obtain ⟨h1, h2⟩ := hb
    obtain rfl : el = [] := hq.resolve_right id
    obtain ⟨sh1, x', i1, hx, -, r1⟩ := restriction_on hg h1 (⟨heap, proto, c!"restriction", cur, 0, false, false, [], [], [], [], [], [], []⟩ : PState)
      { name := nameOf as, doc := w } sh hi
    rw [hx hn, freeze_eq] at r1
    obtain ⟨inE', r2⟩ := facets_run (W := W) (gvt := gvt) fs h2 sh1 heap proto c!"restriction" cur
      { name := nameOf as, doc := w, base := ((attr? ras c!"base").map fun t => ref (frz heap proto) (ref (frz heap proto) t)).getD [] }
    refine ⟨sh1, inE', i1, Runs.tag onKind_restriction r1 r2 ?_⟩
    rw [step, endKind_restriction]
    rfl
  | list las =>
    obtain ⟨sh1, i1, r1⟩ := list_on hg hb (⟨heap, proto, c!"list", cur, 0, false, false, [], [], el, [], [], [], []⟩ : PState)
      { name := nameOf as, doc := w } sh hi
    refine ⟨sh1, c!"list", i1, Runs.tag onKind_list r1 (Runs.nil _) ?_⟩
    rw [step, endKind_list]
    rfl
  | union uas =>
    obtain ⟨sh1, i1, r1⟩ := union_on hg hb (⟨heap, proto, c!"union", cur, 0, false, false, [], [], el, [], [], [], []⟩ : PState)
      { name := nameOf as, doc := w } sh hi
    refine ⟨sh1, c!"union", i1, Runs.tag onKind_union r1 (Runs.nil _) ?_⟩
    rw [step, endKind_union]
    rfl

/-- The same without documentation. -/
theorem simple_run (hg : Answers I ref gvt) (b : SimpleBody) (hb : b.Regular) (as : List Attr) (hn : nameOf as ≠ [])
    (sh : Shared) (hi : I sh) (heap : List Element) (proto : PTree) (inE cur : Str) (el : List Nat)
    (hq : el = [] ∨ b.Quiet) :
    ∃ sh' inE', I sh' ∧ Runs W gvt b.tokens ⟨sh, inSimple heap proto inE cur false { name := nameOf as } el⟩
      ⟨sh', inSimple heap proto inE' cur false (simpleOf (ref (frz heap proto)) as b) el⟩ := by
  obtain ⟨sh', inE', h1, h2⟩ := simple_on (W := W) [] hg b hb as hn sh hi heap proto inE cur el hq
  refine ⟨sh', inE', h1, ?_⟩
  cases b <;> exact h2

/-! ## Declarations -/

/-- The component of a group declaration. -/
def groupDecl (ty : Str → Str) (as : List Attr) (b : Content) : Group :=
  { name := (groupOf ty false as).name, plural := (groupOf ty false as).plural, ref := (groupOf ty false as).ref,
    elements := elements ty false b, groups := groups ty false b }

omit [UniLaws] in
theorem Runs.congr {ts : List Token} {s s' t : St} (h : s = s') (k : Runs W gvt ts s' t) : Runs W gvt ts s t := h ▸ k

omit [Uni] [UniLaws] in
theorem lastNamed_none {as : List Attr} {n init : Str} (h : attr? as n = none) : lastNamed n as init = init := by
  unfold lastNamed
  induction as with
  | nil => rfl
  | cons a as ih =>
    rw [attr?_cons] at h
    split at h
    · cases h
    · rename_i hne
      rw [List.foldl_cons, if_neg hne]
      exact ih h

/-- The state between top-level declarations. -/
def idle (heap : List Element) (proto : PTree) (inE : Str) : PState := { heap := heap, proto := proto, inElement := inE }

omit [Uni] [UniLaws] in
theorem Named.lastNamed {as : List Attr} (h : Named as) (init : Str) : lastNamed c!"name" as init = nameOf as := by
  obtain ⟨⟨h1, _⟩, h2, h3⟩ := h
  rw [lastNamed_eq h1]
  unfold nameOf at *
  rw [h3] at h2 ⊢
  cases hc : attr? as c!"name" with
  | none => rw [hc] at h2; exact absurd rfl h2
  | some v => rfl

/-- The state between top-level declarations, with what may be left behind. -/
def resting (heap : List Element) (proto : PTree) (inE : Str) (el : List Nat) (st : List SimpleType) : PState :=
  { heap := heap, proto := proto, inElement := inE, element := el, simpleType := st }

/-- Every regular declaration adds its components and leaves behind what is expected. -/
theorem decl_rest (hg : Answers I ref gvt) (hs : Stable ref) (d : Decl) (sh : Shared) (hi : I sh) (heap : List Element)
    (proto : PTree) (inE : Str) (hv : Valid heap proto) (hd : d.Regular (ref (frz heap proto))) (m : Mode)
    (el : List Nat) (st : List SimpleType) (hl : Left m el st) (hq : d.Safe m) :
    ∃ sh' heap' proto' inE' el' st', I sh' ∧ Grown heap proto heap' proto' (d.nodes (ref (frz heap proto))) ∧
      Left (d.after m) el' st' ∧
      Runs W gvt d.tokens ⟨sh, resting heap proto inE el st⟩ ⟨sh', resting heap' proto' inE' el' st'⟩ := by
  cases d with
  | simple as b =>
    obtain ⟨h1, h2⟩ := hd
    obtain ⟨sh1, inE1, i1, r1⟩ := simple_run (W := W) hg b h2 as h1.2.1 sh hi heap proto c!"simpleType" c!"simpleType" el
      (by rcases hq with h | ⟨_, h⟩
          · rw [h] at hl; exact .inl hl.1
          · exact .inr h)
    obtain rfl : st = [] := hl.none (by rcases hq with h | ⟨h, _⟩ <;> rw [h] <;> decide)
    refine ⟨sh1, heap, _, inE1, el, [], i1, Grown.node (n := .simple (simpleOf (ref (frz heap proto)) as b)) hv (by intro a ha; cases ha),
      hl, Runs.tag onKind_simpleType ?_ r1 ?_⟩
    · simp only [callOn, onP_apply]
      simp only [onSimpleType, resting, List.isEmpty_nil, if_true, Stack.setTop, h1.lastNamed]
      rfl
    · rw [step, endKind_simpleType]
      rfl
  | complex as b =>
    obtain ⟨h1, h2, h5⟩ := hd
    obtain ⟨sh1, heap1, proto1, inE1, cur1, el1, st1, i1, _, g1, hc, l1, _, r1⟩ := content_run (W := W) hg hs _ b h2 sh hi heap proto c!"complexType"
      c!"complexType" 0 false { name := nameOf as } [] el [] [] rfl hv h1.2.1 (by decide) m st hl hq [] (by intro e he; cases he) h5 false rfl
    refine ⟨sh1, heap1, _, inE1, el1, st1, i1, g1.trans (Grown.node (n := .complex (complexOf (ref (frz heap proto)) false (nameOf as) b))
      g1.valid (by intro a ha; cases ha)), l1, Runs.tag onKind_complexType ?_ r1 ?_⟩
    · simp only [callOn, onComplexType, onComplexType?, resting, h1.lastNamed]
      rw [if_neg h1.2.1]
    · rw [step, endKind_complexType]
      rfl
  | element as =>
    obtain ⟨h1, h2, h3⟩ := hd
    obtain ⟨sh1, i1, r1⟩ := element_typed hg h1 h2 (resting heap proto c!"element" el st) h3 sh hi
    have g1 := Grown.alloc hv (elementOf (ref (frz heap proto)) false as)
    have g2 := g1.trans (Grown.node (n := .elem heap.length) g1.valid (by
      intro a ha; injection ha with ha; rw [← ha, List.length_append]; simp))
    refine ⟨sh1, heap ++ [elementOf (ref (frz heap proto)) false as], proto ++ [some (.elem heap.length)], c!"element", el, st, i1, ?_, hl,
      Runs.tag onKind_element r1 (Runs.nil _) ?_⟩
    rotate_left
    · rw [step, endKind_element, freeze_eq, resting, place_top]
      rfl
    · simpa [Decl.nodes, Node.deref] using g2
  | anon as cas b =>
    obtain ⟨h1, h2, h3, h4, h5, h6⟩ := hd
    obtain ⟨q1, q2⟩ := hq
    obtain ⟨sh1, i1, r1⟩ := element_untyped hg h1 h2 h3 (resting heap proto c!"element" el st) sh hi
    have g1 := Grown.alloc hv (elementOf (ref (frz heap proto)) false as)
    have t1 : ref (frz (heap ++ [elementOf (ref (frz heap proto)) false as]) proto) = ref (frz heap proto) := by
      rw [g1.tree]; simp
    obtain ⟨sh2, heap2, proto2, inE2, cur2, el2, st2, i2, hx, g2, hc, l2, p2, r2⟩ := content_run (W := W) hg hs _ b h5 sh1 i1
      (heap ++ [elementOf (ref (frz heap proto)) false as]) proto c!"complexType"
      c!"complexType" 0 false { name := nameOf as } [] (heap.length :: el) [] [] t1 g1.valid h3.2.2 (by decide) m.within st (hl.push _) q1 []
      (by intro e he; cases he) h6 false rfl
    obtain ⟨rfl, rfl⟩ := p2 q2
    have g3 := Grown.node (n := .complex (complexOf (ref (frz heap proto)) false (nameOf as) b)) g2.valid (by intro a ha; cases ha)
    have hlen : heap.length < heap2.length := by
      obtain ⟨e, he⟩ := hx
      rw [← he]
      simp
    have he : heap2[heap.length]? = some (elementOf (ref (frz heap proto)) false as) := by
      obtain ⟨e, he⟩ := hx
      rw [← he]
      simp
    have g4 := Grown.node (n := .elem heap.length) g3.valid (by intro a ha; injection ha with ha; rw [← ha]; exact hlen)
    refine ⟨sh2, heap2, proto2 ++ [some (.complex (complexOf (ref (frz heap proto)) false (nameOf as) b))] ++ [some (.elem heap.length)],
      inE2, el, st2, i2, ?_, hl, Runs.tag (s2 := ⟨sh2, resting heap2
        (proto2 ++ [some (.complex (complexOf (ref (frz heap proto)) false (nameOf as) b))]) inE2 (heap.length :: el) st2⟩) onKind_element r1 (Runs.tag onKind_complexType ?_ r2 ?_) ?_⟩
    rotate_left
    · rw [freeze_eq, resting, place_top]
      have hn : lastNamed c!"name" cas [] = [] := by rw [lastNamed_none h4]
      simp only [callOn, onComplexType, onComplexType?, hn, if_true]
      simp [PState.deref, PState.choicePlural, elementOf]
    · rw [step, endKind_complexType]
      rfl
    · rw [step, endKind_element]
      rfl
    · have := ((g1.trans g2).trans g3).trans g4
      simpa [Decl.nodes, Node.deref, he, complexOf] using this
  | elemAnon as ras fs =>
    obtain ⟨h1, h2, h3, h4⟩ := hd
    obtain ⟨sh1, i1, r1⟩ := element_untyped hg h1 h2 h3 (resting heap proto c!"element" el st) sh hi
    rw [freeze_eq, resting, place_top] at r1
    obtain ⟨sh2, inE2, st2, i2, l2, r2⟩ := elemAnon_on (W := W) hg h4 sh1 i1 heap (elementOf (ref (frz heap proto)) false as) proto hv
      c!"element" [] 0 false m st el hl [] (heap.length :: el) [] []
    have g1 := Grown.alloc hv (elemAnonOf (ref (frz heap proto)) false as ras)
    have g2 := g1.trans (Grown.node (n := .elem heap.length) g1.valid (by
      intro a ha; injection ha with ha; rw [← ha, List.length_append]; simp))
    refine ⟨sh2, heap ++ [elemAnonOf (ref (frz heap proto)) false as ras], proto ++ [some (.elem heap.length)], inE2, heap.length :: el,
      st2, i2, ?_, l2 _, Runs.tag onKind_element r1 r2 ?_⟩
    · simpa [Decl.nodes, Node.deref] using g2
    · rw [step, endKind_element]
      rfl
  | group as b =>
    obtain ⟨h1, h2⟩ := hd
    obtain rfl : m = .clean := hq
    obtain ⟨rfl, rfl⟩ := hl
    obtain ⟨sh1, i1, r1⟩ := group_on hg h1.1 (resting heap proto c!"group" [] []) _ sh hi rfl
    obtain ⟨sh2, heap2, inE2, i2, g2, r2⟩ := group_run (W := W) hg _ b h2 sh1 i1 heap proto c!"group" false false
      { name := (groupOf (ref (frz heap proto)) false as).name
        plural := (groupOf (ref (frz heap proto)) false as).plural
        ref := (groupOf (ref (frz heap proto)) false as).ref } [] [] rfl hv false rfl
    have g3 := Grown.node (n := .group (groupDecl (ref (frz heap proto)) as b)) g2.valid (by intro a ha; cases ha)
    refine ⟨sh2, heap2, _, inE2, [], [], i2, by have := g2.trans g3; simpa [Decl.nodes, Node.deref, groupDecl] using this,
      ⟨rfl, rfl⟩,
      Runs.tag onKind_group r1 (Runs.congr ?_ r2) ?_⟩
    · simp [resting, PState.choicePlural, freeze_eq]
    · rw [step, endKind_group]
      simp [callEnd, endGroup, PState.append, resting]
  | attrGroup as b =>
    obtain ⟨h1, h2⟩ := hd
    obtain ⟨sh1, i1, r1⟩ := attrGroup_on hg h1 (resting heap proto c!"attributeGroup" el st) sh hi
    obtain ⟨sh2, proto2, inE2, cur2, inAG2, i2, g2, r2⟩ := attrs_run (W := W) hg hs _ b h2 sh1 i1 heap proto c!"attributeGroup"
      c!"attributeGroup" 0 true (attrGroupOf (ref (frz heap proto)) as) [] rfl hv m el st hl hq
    have g3 := Grown.node (n := .attrGroup { attrGroupOf (ref (frz heap proto)) as with attributes := attributes (ref (frz heap proto)) b })
      g2.valid (by intro a ha; cases ha)
    refine ⟨sh2, heap, _, inE2, el, st, i2, by have := g2.trans g3; simpa [Decl.nodes, Node.deref] using this,
      hl, Runs.tag onKind_attributeGroup r1 r2 ?_⟩
    rw [step, endKind_attributeGroup]
    rfl
  | «attribute» as =>
    obtain ⟨sh1, i1, r1⟩ := attribute_on hg hd (resting heap proto c!"attribute" el st) sh hi
    refine ⟨sh1, heap, _, c!"attribute", el, st, i1, Grown.node (n := .attr (attributeOf (ref (frz heap proto)) as)) hv (by intro a ha; cases ha),
      hl, Runs.tag onKind_attribute r1 (Runs.nil _) ?_⟩
    rw [step, endKind_attribute]
    rfl
  | attrAnon as ras fs =>
    obtain ⟨h1, h2⟩ := hd
    obtain rfl : m = .clean := hq
    obtain ⟨rfl, rfl⟩ := hl
    obtain ⟨sh1, i1, r1⟩ := attribute_on hg h1 (resting heap proto c!"attribute" [] []) sh hi
    obtain ⟨sh2, inE2, cur2, i2, hc, r2⟩ := attrAnon_run (W := W) hg as (.restriction ras fs) h2 sh1 i1 heap proto c!"attribute" [] 0 false
      [] [] (.inl rfl) [] [] [] []
    obtain rfl : cur2 = [] := hc.resolve_right fun h => h.1
    refine ⟨sh2, heap, _, inE2, [], [], i2, Grown.node (n := .attr (attrAnonOf (ref (frz heap proto)) as (.restriction ras fs))) hv
      (by intro a ha; cases ha), ⟨rfl, rfl⟩, Runs.tag onKind_attribute r1 r2 ?_⟩
    rw [step, endKind_attribute]
    rfl

/-- Declarations that leave nothing behind, from an idle parser to an idle parser. -/
theorem decl_run (hg : Answers I ref gvt) (hs : Stable ref) (d : Decl) (sh : Shared) (hi : I sh) (heap : List Element)
    (proto : PTree) (inE : Str) (hv : Valid heap proto) (hd : d.Regular (ref (frz heap proto))) (hq : d.Safe .clean)
    (hn : d.after .clean = .clean) :
    ∃ sh' heap' proto' inE', I sh' ∧ Grown heap proto heap' proto' (d.nodes (ref (frz heap proto))) ∧
      Runs W gvt d.tokens ⟨sh, idle heap proto inE⟩ ⟨sh', idle heap' proto' inE'⟩ := by
  obtain ⟨sh', heap', proto', inE', el', st', h1, h2, h3, h4⟩ := decl_rest (W := W) hg hs d sh hi heap proto inE hv hd .clean [] []
    ⟨rfl, rfl⟩ hq
  rw [hn] at h3
  obtain ⟨rfl, rfl⟩ := h3
  exact ⟨sh', heap', proto', inE', h1, h2, h4⟩

end Xgen.Core
