import Verif.Lemmas.CoreDecl
import Verif.Spec.Doc

/-! # The parser on documented declarations of core schemas -/

namespace Xgen.Core
variable [Uni] {W : World} {gvt : Gvt} [UniLaws] {I : Shared → Prop} {ref : Tree → Str → Str}

omit [Uni] [UniLaws] in
theorem docFrom_cons (w x : Str) (xs : List Str) :
    docFrom w (x :: xs) = docFrom (if trimSpace x = [] then w else trimSpace x) xs := by
  unfold docFrom
  rw [List.map_cons]
  by_cases h : trimSpace x = []
  · rw [List.filter_cons_of_neg (by simp [h]), if_pos h]
  · rw [List.filter_cons_of_pos (by simp [h]), if_neg h, List.getLast?_cons]
    rfl

omit [UniLaws] in
/-- Text right inside a tag, if non-blank text sets one entry of the state. -/
theorem texts_run (f : Str → PState) (h : ∀ w x, trimSpace x ≠ [] → onCharData x (f w) = f (trimSpace x)) (sh : Shared)
    (xs : List Str) (w : Str) : Runs W gvt (xs.map .text) ⟨sh, f w⟩ ⟨sh, f (docFrom w xs)⟩ := by
  induction xs generalizing w with
  | nil => exact Runs.nil _
  | cons x xs ih =>
    rw [docFrom_cons, List.map_cons]
    refine Runs.cons (s' := ⟨sh, f (if trimSpace x = [] then w else trimSpace x)⟩) ?_ (ih _)
    show Out.ok () (⟨sh, onCharData x (f w)⟩ : St) = _
    by_cases hx : trimSpace x = []
    · rw [if_pos hx]
      unfold onCharData
      rw [if_pos hx]
    · rw [if_neg hx, h _ _ hx]

omit [Uni] [UniLaws] in
theorem docLast_snoc (w : Str) (ns : List (Node Element)) (n : Node Element) : docLast w (ns ++ [n]) = ns ++ [setDoc w n] := by
  induction ns with
  | nil => rfl
  | cons m ns ih =>
    cases ns with
    | nil => rfl
    | cons k ns => exact congrArg (m :: ·) ih

omit [Uni] [UniLaws] in
/-- Text inside an open top-level element. -/
theorem elem_text (heap : List Element) (proto : PTree) (e : Element) (w : Str) (el : List Nat) (x : Str) (hx : trimSpace x ≠ []) :
    onCharData x ⟨heap ++ [{ e with doc := w }], proto, c!"element", [], 0, false, false, [], [], heap.length :: el, [], [], [], []⟩ =
      ⟨heap ++ [{ e with doc := trimSpace x }], proto, c!"element", [], 0, false, false, [], [], heap.length :: el, [], [], [], []⟩ := by
  unfold onCharData
  rw [if_neg hx]
  have := modify_snoc heap { e with doc := w } fun e => { e with doc := trimSpace x }
  simp [charDataBelow, PState.modTopElement, this]

/-- Every regular declaration that leaves nothing behind, with text right after its first tag, adds its components with that documentation and leaves
the parser idle. -/
theorem decl_doc (hg : Answers I ref gvt) (hs : Stable ref) (d : Decl) (xs : List Str) (sh : Shared) (hi : I sh)
    (heap : List Element) (proto : PTree) (inE : Str) (hv : Valid heap proto) (hd : d.Regular (ref (frz heap proto)))
    (hq : d.Safe .clean) (hn : d.after .clean = .clean) :
    ∃ sh' heap' proto' inE', I sh' ∧ Grown heap proto heap' proto' (docLast (docOf xs) (d.nodes (ref (frz heap proto)))) ∧
      Runs W gvt (documented d xs) ⟨sh, idle heap proto inE⟩ ⟨sh', idle heap' proto' inE'⟩ := by
  have htag : ∀ n as inner, (Token.start n as :: (xs.map Token.text ++ (inner ++ [Token.stop n]))) =
      tag n as (xs.map Token.text ++ inner) := by
    intro n as inner; simp [tag]
  cases d with
  | simple as b =>
    obtain ⟨h1, h2⟩ := hd
    obtain ⟨sh1, inE1, i1, r1⟩ := simple_on (W := W) (docOf xs) hg b h2 as h1.2.1 sh hi heap proto c!"simpleType" c!"simpleType" []
      (.inl rfl)
    have r0 := texts_run (W := W) (gvt := gvt) (fun w => inSimple heap proto c!"simpleType" c!"simpleType" false { name := nameOf as, doc := w })
      (fun w x hx => by unfold onCharData; rw [if_neg hx]; rfl) sh xs []
    refine ⟨sh1, heap, _, inE1, i1, Grown.node (n := .simple { simpleOf (ref (frz heap proto)) as b with doc := docOf xs }) hv
      (by intro a ha; cases ha), ?_⟩
    show Runs W gvt (Token.start c!"simpleType" as :: (xs.map Token.text ++ (b.tokens ++ [Token.stop c!"simpleType"]))) _ _
    rw [htag]
    refine Runs.tag onKind_simpleType ?_ (r0.append r1) ?_
    · simp only [callOn, onP_apply]
      simp only [onSimpleType, idle, List.isEmpty_nil, if_true, Stack.setTop, h1.lastNamed]
      rfl
    · rw [step, endKind_simpleType]
      rfl
  | complex as b =>
    obtain ⟨h1, h2, h5⟩ := hd
    obtain ⟨sh1, heap1, proto1, inE1, cur1, el1, st1, i1, _, g1, hc, l1, _, r1⟩ := content_run (W := W) hg hs _ b h2 sh hi heap proto c!"complexType"
      c!"complexType" 0 false { name := nameOf as, doc := docOf xs } [] [] [] [] rfl hv h1.2.1 (by decide) .clean [] ⟨rfl, rfl⟩
      hq [] (by intro e he; cases he) h5 false rfl
    rw [show b.after .clean = .clean from hn] at l1
    obtain ⟨rfl, rfl⟩ := l1
    have r0 := texts_run (W := W) (gvt := gvt) (fun w => ⟨heap, proto, c!"complexType", c!"complexType", 0, false, false, [],
      [{ name := nameOf as, doc := w }], [], [], [], [], []⟩)
      (fun w x hx => by unfold onCharData; rw [if_neg hx]; rfl) sh xs []
    have g2 := g1.trans (Grown.node (n := .complex { complexOf (ref (frz heap proto)) false (nameOf as) b with doc := docOf xs })
      g1.valid (by intro a ha; cases ha))
    refine ⟨sh1, heap1, _, inE1, i1, by rw [Decl.nodes, docLast_snoc]; exact g2, ?_⟩
    show Runs W gvt (Token.start c!"complexType" as :: (xs.map Token.text ++ (b.tokens ++ [Token.stop c!"complexType"]))) _ _
    rw [htag]
    refine Runs.tag onKind_complexType ?_ (r0.append r1) ?_
    · simp only [callOn, onComplexType, onComplexType?, idle, h1.lastNamed]
      rw [if_neg h1.2.1]
    · rw [step, endKind_complexType]
      rfl
  | element as =>
    obtain ⟨h1, h2, h3⟩ := hd
    obtain ⟨sh1, i1, r1⟩ := element_typed hg h1 h2 (idle heap proto c!"element") h3 sh hi
    have g1 := Grown.alloc hv { elementOf (ref (frz heap proto)) false as with doc := docOf xs }
    have g2 := g1.trans (Grown.node (n := .elem heap.length) g1.valid (by
      intro a ha; injection ha with ha; rw [← ha, List.length_append]; simp))
    have r0 := texts_run (W := W) (gvt := gvt) (fun w => ⟨heap ++ [{ elementOf (ref (frz heap proto)) false as with doc := w }], proto,
      c!"element", [], 0, false, false, [], [], [heap.length], [], [], [], []⟩)
      (fun w x hx => elem_text _ _ _ _ _ x hx) sh1 xs []
    refine ⟨sh1, heap ++ [{ elementOf (ref (frz heap proto)) false as with doc := docOf xs }], proto ++ [some (.elem heap.length)],
      c!"element", i1, by simpa [Decl.nodes, Node.deref, docLast, setDoc] using g2, ?_⟩
    show Runs W gvt (Token.start c!"element" as :: (xs.map Token.text ++ ([] ++ [Token.stop c!"element"]))) _ _
    rw [htag, List.append_nil]
    rw [freeze_eq, idle, place_top] at r1
    refine Runs.tag onKind_element r1 r0 ?_
    rw [step, endKind_element]
    rfl
  | anon as cas b =>
    obtain ⟨h1, h2, h3, h4, h5, h6⟩ := hd
    obtain ⟨q1, q2⟩ := hq
    obtain ⟨sh1, i1, r1⟩ := element_untyped hg h1 h2 h3 (idle heap proto c!"element") sh hi
    have g1 := Grown.alloc hv { elementOf (ref (frz heap proto)) false as with doc := docOf xs }
    have t1 : ref (frz (heap ++ [{ elementOf (ref (frz heap proto)) false as with doc := docOf xs }]) proto) = ref (frz heap proto) := by
      rw [g1.tree]; simp
    obtain ⟨sh2, heap2, proto2, inE2, cur2, el2, st2, i2, hx, g2, hc, l2, p2, r2⟩ := content_run (W := W) hg hs _ b h5 sh1 i1
      (heap ++ [{ elementOf (ref (frz heap proto)) false as with doc := docOf xs }]) proto c!"complexType"
      c!"complexType" 0 false { name := nameOf as } [] [heap.length] [] [] t1 g1.valid h3.2.2 (by decide) .elements [] rfl
      q1 [] (by intro e he; cases he) h6 false rfl
    obtain ⟨rfl, rfl⟩ := p2 q2
    have g3 := Grown.node (n := .complex (complexOf (ref (frz heap proto)) false (nameOf as) b)) g2.valid (by intro a ha; cases ha)
    have hl : heap.length < heap2.length := by
      obtain ⟨e, he⟩ := hx
      rw [← he]
      simp
    have he : heap2[heap.length]? = some { elementOf (ref (frz heap proto)) false as with doc := docOf xs } := by
      obtain ⟨e, he⟩ := hx
      rw [← he]
      simp
    have g4 := Grown.node (n := .elem heap.length) g3.valid (by intro a ha; injection ha with ha; rw [← ha]; exact hl)
    have r0 := texts_run (W := W) (gvt := gvt) (fun w => ⟨heap ++ [{ elementOf (ref (frz heap proto)) false as with doc := w }], proto,
      c!"element", [], 0, false, false, [], [], [heap.length, heap.length], [], [], [], []⟩)
      (fun w x hx => elem_text _ _ _ _ _ x hx) sh1 xs []
    rw [freeze_eq, idle, place_top] at r1
    refine ⟨sh2, heap2, proto2 ++ [some (.complex (complexOf (ref (frz heap proto)) false (nameOf as) b))] ++ [some (.elem heap.length)],
      inE2, i2, ?_, ?_⟩
    · have := ((g1.trans g2).trans g3).trans g4
      rw [Decl.nodes, show ∀ (l : List (Node Element)) x y, l ++ [x, y] = l ++ [x] ++ [y] by simp, docLast_snoc]
      simpa [Node.deref, he, complexOf, setDoc] using this
    show Runs W gvt (Token.start c!"element" as :: (xs.map Token.text ++ (tag c!"complexType" cas b.tokens ++ [Token.stop c!"element"]))) _ _
    rw [htag]
    refine Runs.tag (s2 := ⟨sh2, { idle heap2 (proto2 ++ [some (.complex (complexOf (ref (frz heap proto)) false (nameOf as) b))])
        inE2 with element := [heap.length] }⟩) onKind_element r1 (r0.append (Runs.tag onKind_complexType ?_ r2 ?_)) ?_
    · have hn : lastNamed c!"name" cas [] = [] := by rw [lastNamed_none h4]
      simp only [callOn, onComplexType, onComplexType?, hn, if_true]
      simp [PState.deref, elementOf, docOf]
    · rw [step, endKind_complexType]
      rfl
    · rw [step, endKind_element]
      rfl
  | elemAnon as ras fs =>
    replace hn : leaves fs = .clean := hn
    unfold leaves at hn
    split at hn <;> cases hn
  | group as b =>
    obtain ⟨h1, h2⟩ := hd
    obtain ⟨sh1, i1, r1⟩ := group_on hg h1.1 (idle heap proto c!"group") _ sh hi rfl
    obtain ⟨sh2, heap2, inE2, i2, g2, r2⟩ := group_run (W := W) hg _ b h2 sh1 i1 heap proto c!"group" false false
      { name := (groupOf (ref (frz heap proto)) false as).name
        plural := (groupOf (ref (frz heap proto)) false as).plural
        ref := (groupOf (ref (frz heap proto)) false as).ref } [] [] rfl hv false rfl
    have g3 := Grown.node (n := .group (groupDecl (ref (frz heap proto)) as b)) g2.valid (by intro a ha; cases ha)
    have r0 := texts_run (W := W) (gvt := gvt) (fun _ => ⟨heap, proto, c!"group", c!"group", 1, false, false, [], [], [], [],
      [{ name := (groupOf (ref (frz heap proto)) false as).name
         plural := (groupOf (ref (frz heap proto)) false as).plural
         ref := (groupOf (ref (frz heap proto)) false as).ref }], [], []⟩)
      (fun w x hx => by unfold onCharData; rw [if_neg hx]; rfl) sh1 xs []
    refine ⟨sh2, heap2, _, inE2, i2, by have := g2.trans g3; simpa [Decl.nodes, Node.deref, groupDecl, docLast, setDoc] using this, ?_⟩
    show Runs W gvt (Token.start c!"group" as :: (xs.map Token.text ++ (b.tokens ++ [Token.stop c!"group"]))) _ _
    rw [htag]
    refine Runs.tag onKind_group r1 (Runs.congr ?_ (r0.append r2)) ?_
    · simp [idle, PState.choicePlural, freeze_eq]
    · rw [step, endKind_group]
      simp [callEnd, endGroup, PState.append, idle, groupDecl]
  | attrGroup as b =>
    obtain ⟨h1, h2⟩ := hd
    obtain ⟨sh1, i1, r1⟩ := attrGroup_on hg h1 (idle heap proto c!"attributeGroup") sh hi
    obtain ⟨sh2, proto2, inE2, cur2, inAG2, i2, g2, r2⟩ := attrs_run (W := W) hg hs _ b h2 sh1 i1 heap proto c!"attributeGroup"
      c!"attributeGroup" 0 true { attrGroupOf (ref (frz heap proto)) as with doc := docOf xs } [] rfl hv .clean [] []
      ⟨rfl, rfl⟩ hq
    have g3 := Grown.node (n := .attrGroup { attrGroupOf (ref (frz heap proto)) as with
      attributes := attributes (ref (frz heap proto)) b, doc := docOf xs }) g2.valid (by intro a ha; cases ha)
    have r0 := texts_run (W := W) (gvt := gvt) (fun w => ⟨heap, proto, c!"attributeGroup", c!"attributeGroup", 0, false, true, [], [], [], [], [],
      [{ attrGroupOf (ref (frz heap proto)) as with doc := w }], []⟩)
      (fun w x hx => by unfold onCharData; rw [if_neg hx]) sh1 xs []
    refine ⟨sh2, heap, _, inE2, i2, by rw [Decl.nodes, docLast_snoc]; exact g2.trans g3, ?_⟩
    show Runs W gvt (Token.start c!"attributeGroup" as :: (xs.map Token.text ++ (b.tokens ++ [Token.stop c!"attributeGroup"]))) _ _
    rw [htag]
    refine Runs.tag onKind_attributeGroup r1 (r0.append r2) ?_
    rw [step, endKind_attributeGroup]
    rfl
  | «attribute» as =>
    obtain ⟨sh1, i1, r1⟩ := attribute_on hg hd (idle heap proto c!"attribute") sh hi
    have r0 := texts_run (W := W) (gvt := gvt) (fun w => ⟨heap, proto, c!"attribute", [], 0, false, false, [], [], [],
      [{ attributeOf (ref (frz heap proto)) as with doc := w }], [], [], []⟩)
      (fun w x hx => by unfold onCharData; rw [if_neg hx]; rfl) sh1 xs []
    refine ⟨sh1, heap, _, c!"attribute", i1, Grown.node (n := .attr { attributeOf (ref (frz heap proto)) as with doc := docOf xs }) hv
      (by intro a ha; cases ha), ?_⟩
    show Runs W gvt (Token.start c!"attribute" as :: (xs.map Token.text ++ ([] ++ [Token.stop c!"attribute"]))) _ _
    rw [htag, List.append_nil]
    refine Runs.tag onKind_attribute r1 r0 ?_
    rw [step, endKind_attribute]
    rfl
  | attrAnon as ras fs =>
    obtain ⟨h1, h2⟩ := hd
    obtain ⟨sh1, i1, r1⟩ := attribute_on hg h1 (idle heap proto c!"attribute") sh hi
    obtain ⟨sh2, inE2, cur2, i2, hc, r2⟩ := attrAnon_on (W := W) { attributeOf (ref (frz heap proto)) as with doc := docOf xs } hg
      (.restriction ras fs) h2 sh1 i1 heap proto c!"attribute" [] 0 false [] [] (.inl rfl) [] [] [] []
    obtain rfl : cur2 = [] := hc.resolve_right fun h => h.1
    have r0 := texts_run (W := W) (gvt := gvt) (fun w => ⟨heap, proto, c!"attribute", [], 0, false, false, [], [], [],
      [{ attributeOf (ref (frz heap proto)) as with doc := w }], [], [], []⟩)
      (fun w x hx => by unfold onCharData; rw [if_neg hx]; rfl) sh1 xs []
    refine ⟨sh2, heap, _, inE2, i2, Grown.node (n := .attr { attrAnonOf (ref (frz heap proto)) as (.restriction ras fs) with doc := docOf xs }) hv
      (by intro a ha; cases ha), ?_⟩
    show Runs W gvt (Token.start c!"attribute" as :: (xs.map Token.text ++
      (tag c!"simpleType" [] (tag c!"restriction" ras (facetTokens fs)) ++ [Token.stop c!"attribute"]))) _ _
    rw [htag]
    refine Runs.tag onKind_attribute r1 (r0.append r2) ?_
    rw [step, endKind_attribute]
    rfl

end Xgen.Core
