import Verif.Lemmas.CoreDecl
import Verif.Props.C07
import Verif.Props.C27
import Verif.Props.C31
import Verif.Props.C32
import Verif.Props.C57

/-! # C40: parsing a core schema yields exactly its declarations -/

namespace Xgen.C40
open Core
variable [Uni] [UniLaws]

/-! ## Specification of type references -/

/-- What a type reference means after the components `t`: a built-in type by the table of the language, else the type of
the first component declared under that local name, else the local name itself.  (The first component is chosen among
simple types that are neither lists nor unions, attributes and elements alike, see C07.) -/
def typeRef (lang : Str) (extract : Bool) (t : Tree) (v : Str) : Str :=
  match getBuildInTypeByLang (Names.localPart v) lang with
  | some b => b
  | none =>
    match (t.filterMap C07.declares).find? (fun d => d.1 = Names.localPart v) with
    | some d => if d.2 = [] && !extract then Names.localPart v else d.2
    | none => Names.localPart v

omit [Uni] [UniLaws] in
theorem typeRef_stable (lang : Str) (extract : Bool) : Core.Stable (typeRef lang extract) := by
  intro t v
  constructor <;> intro c <;> simp [typeRef, List.filterMap_append, C07.declares]

/-! ## Documents without imports and includes -/

/-- The registries a parse starts with and the place of its file: nothing included or imported so far, and the directory
of the file exists (or types of other files are not asked for at all). -/
def Alone (W : World) (cfg : Cfg) (sh : Shared) : Prop :=
  cfg.extract = true ∨
    (sh.includeMap = [] ∧ sh.nsLoc = [] ∧ W.isURL [] = false ∧ W.fs.get? (pathDir cfg.filePath) = some .dir)

/-- The shared state `sh`, except for the name-space prefixes and the count of iteration choices. -/
def Like (sh0 sh : Shared) : Prop := ∃ ns k, sh = { sh0 with localNS := ns, tick := k }

omit [UniLaws] in
theorem answers (W : World) (rec : Cfg → Go Shared Tree) (cfg : Cfg) (sh0 : Shared) (ha : Alone W cfg sh0) :
    Answers (Like sh0) (typeRef cfg.lang cfg.extract) (gvtOf W rec cfg) := by
  rintro v sh p ⟨ns, k, rfl⟩
  unfold gvtOf getValueType typeRef
  rw [← Names.localPart_eq]
  dsimp only
  cases hb : getBuildInTypeByLang (trimNSPrefix v) cfg.lang with
  | some t => exact ⟨_, ⟨ns, k, rfl⟩, rfl⟩
  | none =>
    dsimp only
    rw [C07.resolves_to_first]
    have hj : pathJoin cfg.fileDir [] = pathDir cfg.filePath := pathJoin_dir_nil _
    have hout : cfg.extract = false → ∀ vt, resolveOutside W rec cfg v vt { sh0 with localNS := ns, tick := k } =
        .ok (trimNSPrefix v, none) { sh0 with localNS := ns, tick := k + 1 } := by
      intro hx vt
      obtain ⟨h1, h2, h3, h4⟩ := ha.resolve_left (by rw [hx]; decide)
      have h5 : sh0.nsLoc.getStr (GoMap.getStr ns (getNSPrefix v)) = [] := by rw [h2]; rfl
      simp only [resolveOutside, h5, h3, Bool.false_eq_true, if_false, hj, h4, h1, GoMap.keys, List.map_nil,
        List.length_nil, includeLoop, nextKey]
      simp
    cases hf : (p.freeze.filterMap C07.declares).find? (fun d => d.1 = trimNSPrefix v) with
    | some d =>
      dsimp only
      by_cases h1 : d.2 = trimNSPrefix v
      · simp only [h1, ne_eq, not_true_eq_false, decide_false, Bool.false_and, Bool.false_eq_true, if_false]
        cases hx : cfg.extract with
        | true => exact ⟨_, ⟨ns, k, rfl⟩, by simp⟩
        | false =>
          refine ⟨_, ⟨ns, k + 1, rfl⟩, ?_⟩
          simp only [Bool.false_eq_true, if_false, hout hx, Bool.not_false, Bool.and_true]
          split <;> rfl
      by_cases h2 : d.2 = []
      · simp only [h2, ne_eq, not_true_eq_false, decide_false, Bool.and_false, Bool.false_eq_true, if_false, decide_true, Bool.true_and]
        cases hx : cfg.extract with
        | true => exact ⟨_, ⟨ns, k, rfl⟩, by simp⟩
        | false =>
          refine ⟨_, ⟨ns, k + 1, rfl⟩, ?_⟩
          simp [hout hx]
      · refine ⟨_, ⟨ns, k, rfl⟩, ?_⟩
        simp [h1, h2]
    | none =>
      simp only [ne_eq, not_true_eq_false, decide_false, Bool.false_and, Bool.false_eq_true, if_false]
      cases hx : cfg.extract with
      | true => exact ⟨_, ⟨ns, k, rfl⟩, by simp⟩
      | false =>
        refine ⟨_, ⟨ns, k + 1, rfl⟩, ?_⟩
        simp [hout hx]

/-! ## Whole schemas -/

/-- All declarations of a regular schema. -/
theorem decls_rest {W : World} {gvt : Gvt} {I : Shared → Prop} {ref : Tree → Str → Str} (hg : Answers I ref gvt)
    (hs : Core.Stable ref) (ds : List Decl) (sh : Shared) (hi : I sh) (heap : List Element) (proto : PTree) (inE : Str)
    (hv : Valid heap proto) (hd : Placed ref (frz heap proto) ds) (m : Mode) (el : List Nat) (st : List SimpleType)
    (hl : Left m el st) (hq : Safe m ds) :
    ∃ sh' heap' proto' inE' el' st', I sh' ∧ Valid heap' proto' ∧ frz heap' proto' = treeOf ref (frz heap proto) ds ∧
      Runs W gvt (ds.flatMap Decl.tokens) ⟨sh, resting heap proto inE el st⟩ ⟨sh', resting heap' proto' inE' el' st'⟩ := by
  induction ds generalizing sh heap proto inE m el st with
  | nil => exact ⟨sh, heap, proto, inE, el, st, hi, hv, rfl, Runs.nil _⟩
  | cons d ds ih =>
    obtain ⟨h1, h2⟩ := hd
    obtain ⟨q1, q2⟩ := hq
    obtain ⟨sh1, heap1, proto1, inE1, el1, st1, i1, g1, l1, r1⟩ := decl_rest (W := W) hg hs d sh hi heap proto inE hv h1 m el st hl q1
    obtain ⟨sh2, heap2, proto2, inE2, el2, st2, i2, v2, t2, r2⟩ := ih sh1 i1 heap1 proto1 inE1 g1.valid (by rw [g1.tree]; exact h2)
      (d.after m) el1 st1 l1 q2
    exact ⟨sh2, heap2, proto2, inE2, el2, st2, i2, v2, by rw [t2, g1.tree, treeOf], r1.append r2⟩

/-- The same from an idle parser. -/
theorem decls_run {W : World} {gvt : Gvt} {I : Shared → Prop} {ref : Tree → Str → Str} (hg : Answers I ref gvt)
    (hs : Core.Stable ref) (ds : List Decl) (sh : Shared) (hi : I sh) (heap : List Element) (proto : PTree) (inE : Str)
    (hv : Valid heap proto) (hd : Regular ref (frz heap proto) ds) :
    ∃ sh' heap' proto' inE' el' st', I sh' ∧ Valid heap' proto' ∧ frz heap' proto' = treeOf ref (frz heap proto) ds ∧
      Runs W gvt (ds.flatMap Decl.tokens) ⟨sh, idle heap proto inE⟩ ⟨sh', resting heap' proto' inE' el' st'⟩ :=
  decls_rest hg hs ds sh hi heap proto inE hv hd.placed .clean [] [] ⟨rfl, rfl⟩ hd.safe

omit [Uni] [UniLaws] in
theorem onSchema_like {sh0 sh : Shared} (h : Like sh0 sh) (as : List Attr) : Like sh0 (onSchema as sh) := by
  unfold onSchema
  induction as generalizing sh with
  | nil => exact h
  | cons a as ih =>
    rw [List.foldl_cons]
    refine ih ?_
    obtain ⟨ns, k, rfl⟩ := h
    split
    · exact ⟨_, k, rfl⟩
    · exact ⟨ns, k, rfl⟩

/-- The tags of a regular schema, read by a parser in its initial state. -/
theorem schema_run (W : World) (rec : Cfg → Go Shared Tree) (cfg : Cfg) (as : List Attr) (ds : List Decl) (sh : Shared)
    (ha : Alone W cfg sh) (hd : Regular (typeRef cfg.lang cfg.extract) [] ds) :
    ∃ sh' p, Like sh sh' ∧ p.freeze = treeOf (typeRef cfg.lang cfg.extract) [] ds ∧
      Runs W (gvtOf W rec cfg) (schemaTokens as ds) ⟨sh, {}⟩ ⟨sh', p⟩ := by
  obtain ⟨sh1, heap1, proto1, inE1, el1, st1, i1, v1, t1, r1⟩ := decls_run (W := W) (answers W rec cfg sh ha)
    (typeRef_stable cfg.lang cfg.extract) ds (onSchema as sh) (onSchema_like ⟨sh.localNS, sh.tick, rfl⟩ as) [] [] c!"schema"
    (by intro a h; cases h) hd
  refine ⟨sh1, resting heap1 proto1 inE1 el1 st1, i1, t1, Runs.tag onKind_schema rfl r1 ?_⟩
  rw [step, endKind_schema]
  rfl

/-! ## White space -/

/-- Text that is not only white space, and everything else. -/
def visible : Token → Bool
  | .text x => !x.all isSpace
  | _ => true

omit [UniLaws] in
theorem run_visible (W : World) (gvt : Gvt) (toks : List Token) : run W gvt (toks.filter visible) = run W gvt toks := by
  induction toks with
  | nil => rfl
  | cons t ts ih =>
    by_cases h : visible t = true
    · rw [List.filter_cons_of_pos h]
      funext s
      simp only [run, ih]
    · rw [List.filter_cons_of_neg h, ih]
      cases t with
      | text x =>
        funext s
        have hx : ∀ c ∈ x, isSpace c = true := by simpa [visible] using h
        simp only [run, step, Go.bind_apply, onP_apply, C31.space x hx]
      | start n as => exact absurd rfl h
      | stop n => exact absurd rfl h
      | other => exact absurd rfl h

/-- What remains of a document without white space, comments and the tags that have no handler. -/
def skeleton (toks : List Token) : List Token := C32.strip (toks.filter visible)

omit [UniLaws] in
theorem parseOpen_skeleton (W : World) (rec : Cfg → Go Shared Tree) (cfg : Cfg) (toks : List Token) (hn : C32.NamesOk toks)
    (sh : Shared) : parseOpen W rec cfg (skeleton toks) sh = parseOpen W rec cfg toks sh := by
  unfold skeleton
  rw [C32.parseOpen_strip W rec cfg (toks.filter visible) (fun n as h => hn n as (List.mem_filter.1 h).1)]
  unfold parseOpen
  rw [run_visible]

/-! ## C40 -/

/-- The tags of core schemas. -/
def tagNames : List Str :=
  [c!"simpleType", c!"complexType", c!"element", c!"group", c!"attributeGroup", c!"attribute", c!"restriction", c!"list",
   c!"union", c!"choice", c!"extension"] ++ facetNames

/-- Start tags with such names. -/
def Tagged (P : Str → Prop) (toks : List Token) : Prop := ∀ n as, Token.start n as ∈ toks → P n

omit [Uni] [UniLaws] in
theorem tag_names {P : Str → Prop} {n : Str} {as : List Attr} {inner : List Token} (hn : P n) (h : Tagged P inner) : Tagged P (tag n as inner) := by
  intro m bs hm
  simp only [tag, List.mem_cons, List.mem_append, List.not_mem_nil, or_false, Token.start.injEq, reduceCtorEq] at hm
  rcases hm with ⟨rfl, _⟩ | hm
  · exact hn
  · exact h m bs hm

omit [Uni] [UniLaws] in
theorem append_names {P : Str → Prop} {xs ys : List Token} (h : Tagged P xs) (k : Tagged P ys) : Tagged P (xs ++ ys) := by
  intro m bs hm
  rcases List.mem_append.1 hm with hm | hm
  · exact h m bs hm
  · exact k m bs hm

omit [Uni] [UniLaws] in
theorem nil_names {P : Str → Prop} : Tagged P [] := by intro m bs hm; cases hm

omit [Uni] [UniLaws] in
theorem flatMap_names {P : Str → Prop} {α : Type} {f : α → List Token} {l : List α} (h : ∀ x ∈ l, Tagged P (f x)) : Tagged P (l.flatMap f) := by
  intro m bs hm
  obtain ⟨x, hx, hm⟩ := List.mem_flatMap.1 hm
  exact h x hx m bs hm

omit [Uni] [UniLaws] in
theorem facet_names {P : Str → Prop} (hP : ∀ n ∈ tagNames, P n) {fs : List Facet} (hf : FacetsOk fs) : Tagged P (facetTokens fs) := by
  exact flatMap_names fun f h => tag_names (hP _ (List.mem_append_right _ (hf f h).1)) nil_names

omit [Uni] [UniLaws] in
theorem simple_names {P : Str → Prop} (hP : ∀ n ∈ tagNames, P n) {b : SimpleBody} (hb : b.Regular) : Tagged P b.tokens := by
  cases b with
  | restriction ras fs => exact tag_names (hP _ (by decide)) (facet_names hP hb.2)
  | list => exact tag_names (hP _ (by decide)) nil_names
  | union => exact tag_names (hP _ (by decide)) nil_names

omit [Uni] [UniLaws] in
theorem content_names {P : Str → Prop} (hP : ∀ n ∈ tagNames, P n) {ty : Str → Str} {b : Content} (hb : b.Regular ty ∨ b.GroupRegular ty ∨ b.AttrRegular) :
    Tagged P b.tokens := by
  induction b with
  | nil => exact nil_names
  | elem as k ih =>
    refine append_names (tag_names (hP _ (by decide)) nil_names) (ih ?_)
    rcases hb with h | h | h
    · exact .inl h.2.2.2
    · exact .inr (.inl h.2.2.2)
    · exact h.elim
  | anon as cas b k ihb ihk =>
    rcases hb with h | h | h
    · exact append_names (tag_names (hP _ (by decide)) (tag_names (hP _ (by decide)) (ihb (.inl h.2.2.2.2.1)))) (ihk (.inl h.2.2.2.2.2))
    · exact h.elim
    · exact h.elim
  | elemAnon as ras fs k ih =>
    rcases hb with h | h | h
    · exact append_names (tag_names (hP _ (by decide)) (tag_names (hP _ (by decide)) (tag_names (hP _ (by decide))
        (facet_names hP h.2.2.2.1.2.2.1)))) (ih (.inl h.2.2.2.2))
    · exact h.elim
    · exact h.elim
  | choice as b k ihb ihk =>
    rcases hb with h | h | h
    · exact append_names (tag_names (hP _ (by decide)) (ihb (.inl h.2.2.1))) (ihk (.inl h.2.2.2))
    · exact append_names (tag_names (hP _ (by decide)) (ihb (.inr (.inl h.2.2.1)))) (ihk (.inr (.inl h.2.2.2)))
    · exact h.elim
  | group as k ih =>
    refine append_names (tag_names (hP _ (by decide)) nil_names) (ih ?_)
    rcases hb with h | h | h
    · exact .inl h.2
    · exact .inr (.inl h.2)
    · exact h.elim
  | attrGroup as k ih =>
    refine append_names (tag_names (hP _ (by decide)) nil_names) (ih ?_)
    rcases hb with h | h | h
    · exact .inl h.2
    · exact h.elim
    · exact .inr (.inr h.2)
  | «attribute» as k ih =>
    refine append_names (tag_names (hP _ (by decide)) nil_names) (ih ?_)
    rcases hb with h | h | h
    · exact .inl h.2
    · exact h.elim
    · exact .inr (.inr h.2)
  | attrAnon as b k ih =>
    rcases hb with h | h | h
    · exact append_names (tag_names (hP _ (by decide)) (tag_names (hP _ (by decide)) (simple_names hP h.2.1))) (ih (.inl h.2.2))
    · exact h.elim
    · exact append_names (tag_names (hP _ (by decide)) (tag_names (hP _ (by decide)) (simple_names hP h.2.1))) (ih (.inr (.inr h.2.2)))
  | ext as b k ihb ihk =>
    rcases hb with h | h | h
    · exact append_names (tag_names (hP _ (by decide)) (ihb (.inl h.2.1))) (ihk (.inl h.2.2))
    · exact h.elim
    · exact h.elim
  | restr as fs b k ihb ihk =>
    rcases hb with h | h | h
    · exact append_names (tag_names (hP _ (by decide)) (append_names (facet_names hP h.2.1) (ihb (.inl h.2.2.1)))) (ihk (.inl h.2.2.2))
    · exact h.elim
    · exact h.elim

omit [Uni] [UniLaws] in
theorem decl_names {P : Str → Prop} (hP : ∀ n ∈ tagNames, P n) {ty : Str → Str} (d : Decl) (hd : d.Regular ty) : Tagged P d.tokens := by
  cases d with
  | simple as b => exact tag_names (hP _ (by decide)) (simple_names hP hd.2)
  | complex as b => exact tag_names (hP _ (by decide)) (content_names hP (.inl hd.2.1))
  | element as => exact tag_names (hP _ (by decide)) nil_names
  | anon as cas b => exact tag_names (hP _ (by decide)) (tag_names (hP _ (by decide)) (content_names hP (.inl hd.2.2.2.2.1)))
  | elemAnon as ras fs =>
    exact tag_names (hP _ (by decide)) (tag_names (hP _ (by decide)) (tag_names (hP _ (by decide)) (facet_names hP hd.2.2.2.2.2.1)))
  | group as b => exact tag_names (hP _ (by decide)) (content_names hP (.inr (.inl hd.2)))
  | attrGroup as b => exact tag_names (hP _ (by decide)) (content_names hP (ty := ty) (.inr (.inr hd.2)))
  | «attribute» as => exact tag_names (hP _ (by decide)) nil_names
  | attrAnon as ras fs => exact tag_names (hP _ (by decide)) (tag_names (hP _ (by decide)) (tag_names (hP _ (by decide)) (facet_names hP hd.2.2)))

omit [Uni] [UniLaws] in
theorem schema_names {ref : Tree → Str → Str} {t : Tree} {as : List Attr} {ds : List Decl} (hd : Regular ref t ds) :
    C32.NamesOk (schemaTokens as ds) := by
  refine tag_names (by decide) ?_
  replace hd := hd.placed
  induction ds generalizing t with
  | nil => exact nil_names
  | cons d ds ih => exact append_names (decl_names (by decide) d hd.1) (ih hd.2)

/-- C40 for one open document: the tree is the declarative translation of the schema. -/
theorem open_tree (W : World) (rec : Cfg → Go Shared Tree) (cfg : Cfg) (toks : List Token) (hn : C32.NamesOk toks)
    (as : List Attr) (ds : List Decl) (ht : skeleton toks = skeleton (schemaTokens as ds)) (sh : Shared)
    (ha : Alone W cfg sh) (hd : Regular (typeRef cfg.lang cfg.extract) [] ds) :
    ∃ sh', Like (beginParse cfg sh) sh' ∧
      parseOpen W rec cfg toks sh = finish W cfg (treeOf (typeRef cfg.lang cfg.extract) [] ds) sh' := by
  rw [← parseOpen_skeleton W rec cfg toks hn, ht, parseOpen_skeleton W rec cfg _ (schema_names hd)]
  have hb : Alone W cfg (beginParse cfg sh) := by
    rcases ha with h | h
    · exact .inl h
    · refine .inr ?_
      unfold beginParse
      dsimp only
      split <;> exact h
  obtain ⟨sh', p, h1, h2, h3⟩ := schema_run W rec cfg as ds (beginParse cfg sh) hb hd
  refine ⟨sh', h1, ?_⟩
  unfold parseOpen
  rw [h3]
  dsimp only
  rw [h2]

/-- C40: `Parse` of a file that contains a regular schema — with white space, comments and tags without handlers anywhere —
builds exactly the translation of its declarations: it is returned, and given to the generator unless only the types are
asked for. -/
theorem schema_tree (W : World) (cfg : Cfg) (toks : List Token) (hf : W.fs.get? cfg.filePath = some (.file toks))
    (hn : C32.NamesOk toks) (as : List Attr) (ds : List Decl) (ht : skeleton toks = skeleton (schemaTokens as ds))
    (sh : Shared) (ha : Alone W cfg sh) (hd : Regular (typeRef cfg.lang cfg.extract) [] ds) :
    ∃ sh', Like (beginParse cfg sh) sh' ∧
      Parse W cfg sh = finish W cfg (treeOf (typeRef cfg.lang cfg.extract) [] ds) sh' := by
  rw [C22.Parse_eq]
  unfold parseWith
  rw [hf]
  exact open_tree W (Parse W) cfg toks hn as ds ht sh ha hd

/-- In extract mode the translation is the result. -/
theorem extracted (W : World) (cfg : Cfg) (hx : cfg.extract = true) (toks : List Token)
    (hf : W.fs.get? cfg.filePath = some (.file toks)) (hn : C32.NamesOk toks) (as : List Attr) (ds : List Decl)
    (ht : skeleton toks = skeleton (schemaTokens as ds)) (sh : Shared) (hd : Regular (typeRef cfg.lang true) [] ds) :
    ∃ sh', Parse W cfg sh = .ok (treeOf (typeRef cfg.lang true) [] ds) sh' := by
  obtain ⟨sh', _, h⟩ := schema_tree W cfg toks hf hn as ds ht sh (.inl hx) (by rw [hx]; exact hd)
  rw [hx] at h
  exact ⟨sh', by rw [h]; unfold finish; rw [if_pos hx]⟩

/-- The run of a parser over a schema with text. -/
theorem documented_run (W : World) (cfg : Cfg) (toks : List Token)
    (hn : C32.NamesOk toks) (as : List Attr) (ds : List Decl)
    (ht : skeleton (C57.noText toks) = skeleton (schemaTokens as ds))
    (sh : Shared) (ha : Alone W cfg sh) (hd : Regular (typeRef cfg.lang cfg.extract) [] ds) :
    ∃ u s, run W (gvtOf W (Parse W) cfg) toks ⟨beginParse cfg sh, {}⟩ = .ok u s ∧ Like (beginParse cfg sh) s.sh ∧
      C57.bare s.p.freeze = C57.bare (treeOf (typeRef cfg.lang cfg.extract) [] ds) := by
  have hb : Alone W cfg (beginParse cfg sh) := by
    rcases ha with h | h
    · exact .inl h
    · refine .inr ?_
      unfold beginParse
      dsimp only
      split <;> exact h
  -- the run without text
  have hn' : C32.NamesOk (C57.noText toks) := fun n as h => hn n as (List.mem_filter.1 h).1
  obtain ⟨sh', p, h1, h2, h3⟩ := schema_run W (Parse W) cfg as ds (beginParse cfg sh) hb hd
  have hblind := C32.gvtOf_blind W (Parse W) cfg
  have hsim : C32.Sim ⟨beginParse cfg sh, {}⟩ ⟨beginParse cfg sh, {}⟩ := ⟨⟨[], rfl⟩, .inl rfl⟩
  have r1 := C32.run_strip W hblind ((C57.noText toks).filter visible) (fun n as h => hn' n as (List.mem_filter.1 h).1) _ _ hsim
  have r2 := C32.run_strip W hblind ((schemaTokens as ds).filter visible)
    (fun n bs h => schema_names hd n bs (List.mem_filter.1 h).1) _ _ hsim
  rw [run_visible] at r1 r2
  rw [show C32.strip ((C57.noText toks).filter visible) = C32.strip ((schemaTokens as ds).filter visible) from ht] at r1
  rw [show run W (gvtOf W (Parse W) cfg) (schemaTokens as ds) _ = _ from h3] at r2
  have r3 := C57.run_noText W (C57.respects_eq _) (C57.gvtOf_same W (Parse W) cfg) toks ⟨beginParse cfg sh, {}⟩ ⟨beginParse cfg sh, {}⟩ ⟨rfl, rfl⟩
  revert r1 r2 r3
  cases run W (gvtOf W (Parse W) cfg) (C32.strip ((schemaTokens as ds).filter visible)) ⟨beginParse cfg sh, {}⟩ with
  | err e t => intro _ h; exact h.elim
  | halt e t => intro _ h; exact h.elim
  | ok u t =>
    cases run W (gvtOf W (Parse W) cfg) (C57.noText toks) ⟨beginParse cfg sh, {}⟩ with
    | err e t => intro h; exact h.elim
    | halt e t => intro h; exact h.elim
    | ok u' t' =>
      cases run W (gvtOf W (Parse W) cfg) toks ⟨beginParse cfg sh, {}⟩ with
      | err e t => intro _ _ h; exact h.elim
      | halt e t => intro _ _ h; exact h.elim
      | ok u'' t'' =>
        rintro ⟨-, n, h4⟩ ⟨-, m, h5⟩ ⟨-, h6, h7⟩
        have h8 : t'.p.freeze = p.freeze := by
          have e1 : t.p.freeze = t'.p.freeze := by rw [h4]; rfl
          have e2 : t.p.freeze = p.freeze := by rw [h5]; rfl
          exact e1.symm.trans e2
        have h9 : t'.sh = sh' := by
          have e1 : t.sh = t'.sh := by rw [h4]; rfl
          have e2 : t.sh = sh' := by rw [h5]; rfl
          exact e1.symm.trans e2
        refine ⟨u'', t'', rfl, ?_, ?_⟩
        · rw [h6, h9]; exact h1
        · rw [← C57.freeze_erase, h7, C57.freeze_erase, h8, h2]

/-- C40 with documentation: text may occur anywhere; the tree is the translation up to documentation. -/
theorem documented_tree (W : World) (cfg : Cfg) (toks : List Token) (hf : W.fs.get? cfg.filePath = some (.file toks))
    (hn : C32.NamesOk toks) (as : List Attr) (ds : List Decl)
    (ht : skeleton (C57.noText toks) = skeleton (schemaTokens as ds))
    (sh : Shared) (ha : Alone W cfg sh) (hd : Regular (typeRef cfg.lang cfg.extract) [] ds) :
    ∃ t sh', Like (beginParse cfg sh) sh' ∧ C57.bare t = C57.bare (treeOf (typeRef cfg.lang cfg.extract) [] ds) ∧
      Parse W cfg sh = finish W cfg t sh' := by
  obtain ⟨u, s, h1, h2, h3⟩ := documented_run W cfg toks hn as ds ht sh ha hd
  refine ⟨s.p.freeze, s.sh, h2, h3, ?_⟩
  rw [C22.Parse_eq]
  unfold parseWith
  rw [hf]
  dsimp only
  unfold parseOpen
  rw [h1]

/-! ## Example -/

instance (as : List Attr) : Decidable (TagOk as) := by unfold TagOk Distinct RefAlone; infer_instance
instance (as : List Attr) : Decidable (OccursOk as) :=
  match h : attr? as c!"maxOccurs" with
  | none => .isTrue (by unfold OccursOk; rw [h]; intro v hv; cases hv)
  | some v =>
    if k : Occurs.Legal v then .isTrue (by unfold OccursOk; rw [h]; intro w hw; cases hw; exact k)
    else .isFalse (by unfold OccursOk; rw [h]; intro hw; exact k (hw v rfl))
instance (ty : Str → Str) (as : List Attr) : Decidable (Typed ty as) :=
  match h : (attr? as c!"ref").or (attr? as c!"type") with
  | none => .isFalse (by unfold Typed; rw [h]; rintro ⟨t, ht, _⟩; cases ht)
  | some t =>
    if k : ty t ≠ [] then .isTrue ⟨t, h, k⟩
    else .isFalse (by unfold Typed; rw [h]; rintro ⟨u, hu, hv⟩; cases hu; exact k hv)
instance (as : List Attr) : Decidable (Untyped as) := by unfold Untyped; infer_instance
instance (as : List Attr) : Decidable (Named as) := by unfold Named; infer_instance

instance (fs : List Facet) : Decidable (FacetsOk fs) := by unfold FacetsOk Distinct; infer_instance
instance (b : SimpleBody) : Decidable b.Regular := by
  cases b <;> unfold SimpleBody.Regular Distinct <;> infer_instance
instance (b : SimpleBody) : Decidable b.Quiet := by
  cases b <;> unfold SimpleBody.Quiet <;> infer_instance

instance (ras : List Attr) (fs : List Facet) : Decidable (Inline ras fs) := by unfold Inline Distinct; infer_instance

/-- Decides `Content.Regular`. -/
def decRegular (ty : Str → Str) : (b : Content) → Decidable (b.Regular ty)
  | .nil => .isTrue trivial
  | .elem _ k => @instDecidableAnd _ _ inferInstance (@instDecidableAnd _ _ inferInstance (@instDecidableAnd _ _ inferInstance (decRegular ty k)))
  | .anon _ _ b k => @instDecidableAnd _ _ inferInstance (@instDecidableAnd _ _ inferInstance (@instDecidableAnd _ _ inferInstance
      (@instDecidableAnd _ _ inferInstance (@instDecidableAnd _ _ (decRegular ty b) (decRegular ty k)))))
  | .elemAnon _ _ _ k => @instDecidableAnd _ _ inferInstance (@instDecidableAnd _ _ inferInstance (@instDecidableAnd _ _ inferInstance
      (@instDecidableAnd _ _ inferInstance (decRegular ty k))))
  | .choice _ b k => @instDecidableAnd _ _ inferInstance (@instDecidableAnd _ _ inferInstance (@instDecidableAnd _ _ (decRegular ty b) (decRegular ty k)))
  | .group _ k => @instDecidableAnd _ _ inferInstance (decRegular ty k)
  | .attrGroup _ k => @instDecidableAnd _ _ inferInstance (decRegular ty k)
  | .attribute _ k => @instDecidableAnd _ _ inferInstance (decRegular ty k)
  | .attrAnon _ _ k => @instDecidableAnd _ _ inferInstance (@instDecidableAnd _ _ inferInstance (decRegular ty k))
  | .ext _ b k => @instDecidableAnd _ _ inferInstance (@instDecidableAnd _ _ (decRegular ty b) (decRegular ty k))
  | .restr as _ b k => @instDecidableAnd _ _ (inferInstanceAs (Decidable ((as.map (·.local)).Nodup))) (@instDecidableAnd _ _ inferInstance
      (@instDecidableAnd _ _ (decRegular ty b) (decRegular ty k)))

/-- Decides `Content.Safe`. -/
def decSafe : (b : Content) → (m : Mode) → Decidable (b.Safe m)
  | .nil, _ => .isTrue trivial
  | .elem _ k, m => decSafe k m
  | .anon _ _ b k, m => @instDecidableAnd _ _ (decSafe b m) (decSafe k (b.after m))
  | .elemAnon _ _ fs k, _ => decSafe k (leaves fs)
  | .choice _ b k, m => @instDecidableAnd _ _ (decSafe b m) (decSafe k (b.after m))
  | .group _ k, m => decSafe k m
  | .attrGroup _ k, m => decSafe k m
  | .attribute _ k, m => decSafe k m
  | .attrAnon _ _ k, m => @instDecidableAnd _ _ inferInstance (decSafe k m)
  | .ext _ b k, m => @instDecidableAnd _ _ (decSafe b m) (decSafe k (b.after m))
  | .restr _ _ b k, m => @instDecidableAnd _ _ inferInstance (@instDecidableAnd _ _ inferInstance (@instDecidableAnd _ _ (decSafe b m) (decSafe k m)))

/-- Decides `Content.Apart`. -/
def decApart : (b : Content) → (ns : List Str) → Decidable (b.Apart ns)
  | .nil, _ => .isTrue trivial
  | .elem _ k, _ => decApart k _
  | .anon _ _ b k, _ => @instDecidableAnd _ _ (decApart b []) (decApart k _)
  | .elemAnon as _ _ k, ns => @instDecidableAnd _ _ (inferInstanceAs (Decidable (nameOf as ∉ ns))) (decApart k _)
  | .choice _ b k, ns => @instDecidableAnd _ _ (decApart b ns) (decApart k _)
  | .group _ k, ns => decApart k ns
  | .attrGroup _ k, ns => decApart k ns
  | .attribute _ k, ns => decApart k ns
  | .attrAnon _ _ k, ns => decApart k ns
  | .ext _ b k, ns => @instDecidableAnd _ _ (decApart b ns) (decApart k _)
  | .restr _ _ b k, ns => @instDecidableAnd _ _ (decApart b ns) (decApart k _)

/-- Decides `Content.GroupRegular`. -/
def decGroup (ty : Str → Str) : (b : Content) → Decidable (b.GroupRegular ty)
  | .nil => .isTrue trivial
  | .elem _ k => @instDecidableAnd _ _ inferInstance (@instDecidableAnd _ _ inferInstance (@instDecidableAnd _ _ inferInstance (decGroup ty k)))
  | .anon .. => .isFalse id
  | .elemAnon .. => .isFalse id
  | .choice _ b k => @instDecidableAnd _ _ inferInstance (@instDecidableAnd _ _ inferInstance (@instDecidableAnd _ _ (decGroup ty b) (decGroup ty k)))
  | .group _ k => @instDecidableAnd _ _ inferInstance (decGroup ty k)
  | .attrGroup .. => .isFalse id
  | .attribute .. => .isFalse id
  | .attrAnon .. => .isFalse id
  | .ext .. => .isFalse id
  | .restr .. => .isFalse id

/-- Decides `Content.AttrRegular`. -/
def decAttr : (b : Content) → Decidable b.AttrRegular
  | .nil => .isTrue trivial
  | .elem .. => .isFalse id
  | .anon .. => .isFalse id
  | .elemAnon .. => .isFalse id
  | .choice .. => .isFalse id
  | .group .. => .isFalse id
  | .attrGroup _ k => @instDecidableAnd _ _ inferInstance (decAttr k)
  | .attribute _ k => @instDecidableAnd _ _ inferInstance (decAttr k)
  | .attrAnon _ _ k => @instDecidableAnd _ _ inferInstance (@instDecidableAnd _ _ inferInstance (decAttr k))
  | .ext .. => .isFalse id
  | .restr .. => .isFalse id

instance (ty : Str → Str) (d : Decl) : Decidable (d.Regular ty) := by
  cases d <;> unfold Decl.Regular
  case complex as b => exact @instDecidableAnd _ _ inferInstance (@instDecidableAnd _ _ (decRegular ty b) (decApart b []))
  case anon as cas b =>
    exact @instDecidableAnd _ _ inferInstance (@instDecidableAnd _ _ inferInstance (@instDecidableAnd _ _ inferInstance
      (@instDecidableAnd _ _ inferInstance (@instDecidableAnd _ _ (decRegular ty b) (decApart b [])))))
  case group as b => exact @instDecidableAnd _ _ inferInstance (decGroup ty b)
  case attrAnon as ras fs =>
    exact @instDecidableAnd _ _ inferInstance (@instDecidableAnd _ _ (by unfold Distinct; infer_instance) inferInstance)
  case attrGroup as b => exact @instDecidableAnd _ _ inferInstance (decAttr b)
  all_goals infer_instance

instance (d : Decl) (m : Mode) : Decidable (d.Safe m) := by
  cases d <;> unfold Decl.Safe
  case complex as b => exact decSafe b m
  case anon as cas b => exact @instDecidableAnd _ _ (decSafe b m.within) inferInstance
  case attrGroup as b => exact decSafe b m
  all_goals infer_instance

/-- Decides `Placed`. -/
def decPlaced (ref : Tree → Str → Str) : (t : Tree) → (ds : List Decl) → Decidable (Placed ref t ds)
  | _, [] => .isTrue trivial
  | t, d :: ds => @instDecidableAnd _ _ inferInstance (decPlaced ref (t ++ (d.nodes (ref t)).map some) ds)

/-- Decides `Safe`. -/
def decSafeAll : (m : Mode) → (ds : List Decl) → Decidable (Safe m ds)
  | _, [] => .isTrue trivial
  | m, d :: ds => @instDecidableAnd _ _ inferInstance (decSafeAll (d.after m) ds)

instance (ref : Tree → Str → Str) (t : Tree) (ds : List Decl) : Decidable (Regular ref t ds) :=
  @decidable_of_iff _ (Placed ref t ds ∧ Safe .clean ds) ⟨fun h => ⟨h.1, h.2⟩, fun h => ⟨h.placed, h.safe⟩⟩
    (@instDecidableAnd _ _ (decPlaced ref t ds) (decSafeAll .clean ds))

/-- An enumeration, a complex type with an anonymous one inside a choice and an attribute with an anonymous enumeration, an
extension of it, a restriction of it, a union, a list, a group, an attribute group, an element with an anonymous complex type,
attributes, and — in the end, because of what they leave behind — a complex type with elements of anonymous simple types and such
an element. -/
def schema : List Decl :=
  let a (l : List (String × String)) : List Attr := l.map fun x => { «local» := x.1.toList, value := x.2.toList }
  [ .simple (a [("name", "Color")]) (.restriction (a [("base", "xs:string")])
      [⟨c!"pattern", a [("value", "[a-z]*")]⟩, ⟨c!"enumeration", a [("value", "red")]⟩, ⟨c!"enumeration", a [("value", "blue")]⟩]),
    .complex (a [("name", "Car")])
      (.elem (a [("name", "paint"), ("type", "Color")])
        (.choice (a [("maxOccurs", "unbounded")])
          (.anon (a [("name", "wheel")]) [] (.elem (a [("name", "size"), ("type", "xs:int"), ("maxOccurs", "1")]) .nil)
            (.elem (a [("ref", "door")]) .nil))
          (.attribute (a [("name", "plate"), ("type", "xs:string"), ("use", "required")])
            (.attrAnon (a [("name", "gear")]) (.restriction (a [("base", "xs:string")])
              [⟨c!"enumeration", a [("value", "manual")]⟩, ⟨c!"pattern", a [("value", "[a-z]*")]⟩]) .nil)))),
    .complex (a [("name", "Cart")])
      (.restr (a [("base", "Car")]) [] (.elem (a [("name", "paint"), ("type", "Color")]) .nil) .nil),
    .complex (a [("name", "Taxi")])
      (.ext (a [("base", "Car")]) (.elem (a [("name", "fare"), ("type", "xs:decimal")]) (.attrGroup (a [("ref", "meta")]) .nil)) .nil),
    .simple (a [("name", "Either")]) (.union (a [("memberTypes", "xs:int Color")])),
    .simple (a [("name", "Many")]) (.list (a [("itemType", "xs:int")])),
    .group (a [("name", "Parts")]) (.elem (a [("name", "p"), ("type", "xs:string")]) .nil),
    .attrGroup (a [("name", "meta")]) (.attribute (a [("name", "id"), ("type", "xs:ID")]) .nil),
    .anon (a [("name", "door")]) [] (.group (a [("ref", "Parts")]) .nil),
    .attribute (a [("name", "lang"), ("type", "xs:language")]),
    .attrAnon (a [("name", "version")]) (a [("base", "xs:decimal")]) [⟨c!"fractionDigits", a [("value", "1")]⟩],
    .element (a [("name", "root"), ("type", "Car")]),
    .complex (a [("name", "Box")])
      (.elemAnon (a [("name", "size"), ("maxOccurs", "3")]) (a [("base", "xs:string")])
          [⟨c!"enumeration", a [("value", "small")]⟩, ⟨c!"enumeration", a [("value", "large")]⟩]
        (.elem (a [("name", "lid"), ("type", "Color")])
          (.elemAnon (a [("name", "weight")]) (a [("base", "xs:decimal")]) [⟨c!"minExclusive", a [("value", "0")]⟩]
            (.attribute (a [("name", "label"), ("type", "xs:string")]) .nil)))),
    .simple (a [("name", "Weights")]) (.list (a [("itemType", "xs:decimal")])),
    .elemAnon (a [("name", "year")]) (a [("base", "xs:int")]) [⟨c!"minInclusive", a [("value", "1900")]⟩],
    .anon (a [("name", "store")]) [] (.elem (a [("name", "box"), ("type", "Box"), ("maxOccurs", "unbounded")]) .nil) ]

example : Regular (typeRef c!"Go" false) [] schema := by decide +kernel

open Ex in
/-- The first declarations with white space, a comment, a sequence and annotations around them. -/
def document : List Token :=
  [txt "\n", .other, on "schema" [("xmlns:xs", "http://www.w3.org/2001/XMLSchema")], txt "\n  "] ++
  [on "simpleType" [("name", "Color")], txt "\n", on "restriction" [("base", "xs:string")], .other] ++
  leaf "enumeration" [("value", "red")] ++ [txt " "] ++ leaf "enumeration" [("value", "blue")] ++ [off "restriction", off "simpleType"] ++
  [on "complexType" [("name", "Car")], on "sequence" [("minOccurs", "0")]] ++ leaf "element" [("name", "paint"), ("type", "Color")] ++
  [txt "\n", off "sequence", off "complexType", off "schema", txt "\n"]

/-- Its declarations. -/
def declarations : List Decl :=
  let a (l : List (String × String)) : List Attr := l.map fun x => { «local» := x.1.toList, value := x.2.toList }
  [ .simple (a [("name", "Color")]) (.restriction (a [("base", "xs:string")])
      [⟨c!"enumeration", a [("value", "red")]⟩, ⟨c!"enumeration", a [("value", "blue")]⟩]),
    .complex (a [("name", "Car")]) (.elem (a [("name", "paint"), ("type", "Color")]) .nil) ]

/-- Its root tag. -/
def root : List Attr := [{ space := c!"xmlns", «local» := c!"xs", value := c!"http://www.w3.org/2001/XMLSchema" }]

example : @skeleton asciiUni document = @skeleton asciiUni (schemaTokens root declarations) := by decide +kernel
example : Regular (typeRef c!"Go" false) [] declarations := by decide +kernel
example : C32.NamesOk document := by
  intro n as h
  simp only [document, Ex.on, Ex.off, Ex.leaf, Ex.txt, List.mem_cons, List.mem_append, List.not_mem_nil, or_false, Token.start.injEq,
    reduceCtorEq, false_or] at h
  rintro rfl
  simp at h
example : Alone (Ex.world [("a.xsd", document)]) { filePath := c!"a.xsd", lang := c!"Go" } {} :=
  .inr ⟨rfl, rfl, by decide, by decide⟩
example : treeOf (typeRef c!"Go" false) [] declarations =
    [ some (.simple { name := c!"Color", base := c!"string", enum := [c!"red", c!"blue"] }),
      some (.complex { name := c!"Car", elements := [{ name := c!"paint", type := c!"string" }] }) ] := by decide +kernel

open Ex in
/-- The document with annotations. -/
def annotated : List Token :=
  [on "schema" [("xmlns:xs", "http://www.w3.org/2001/XMLSchema")], txt "\n  "] ++
  [on "simpleType" [("name", "Color")], on "annotation" [], on "documentation" [], txt "A colour.", off "documentation", off "annotation"] ++
  [on "restriction" [("base", "xs:string")]] ++
  leaf "enumeration" [("value", "red")] ++ [txt " warm "] ++ leaf "enumeration" [("value", "blue")] ++ [off "restriction", off "simpleType"] ++
  [on "complexType" [("name", "Car")], txt "Drives.", on "sequence" [("minOccurs", "0")]] ++ leaf "element" [("name", "paint"), ("type", "Color")] ++
  [txt "\n", off "sequence", off "complexType", txt "end", off "schema", txt "\n"]

example : @skeleton asciiUni (C57.noText annotated) = @skeleton asciiUni (schemaTokens root declarations) := by decide +kernel
example : @skeleton asciiUni annotated ≠ @skeleton asciiUni (schemaTokens root declarations) := by decide +kernel

end Xgen.C40
