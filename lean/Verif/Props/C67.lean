import Verif.Lemmas.CoreDoc
import Verif.Props.C59

/-! # C67: the documentation of a declaration becomes the comment above it

Partial: text right inside the first tag of a top-level declaration, as `<annotation><documentation>` puts it, is the
documentation of the component and, in the languages and for the kinds of components that get a comment at all, the comment of
its declaration.  False for groups, whose documentation is lost; for elements with an anonymous complex type, whose declaration
is that of the type; and for members: the documentation of an element inside a complex type replaces that of the type.  All four
are witnessed. -/

namespace Xgen.C67
open Core C40
open C57 (bare noDocNode)
open C31 (noDocE)
open Decl (nodeName Lang declared named)
variable [Uni] [UniLaws]

/-! ## Parsing -/

/-- References do not depend on documentation. -/
def Blind (ref : Tree → Str → Str) : Prop := ∀ t, ref (bare t) = ref t

omit [Uni] [UniLaws] in
theorem typeRef_blind (lang : Str) (extract : Bool) : Blind (typeRef lang extract) := by
  intro t
  funext v
  unfold typeRef
  rw [C59.declares_bare]

omit [Uni] [UniLaws] in
theorem bare_append (s t : Tree) : bare (s ++ t) = bare s ++ bare t := List.map_append

omit [Uni] [UniLaws] in
theorem bare_docLast (w : Str) (ns : List (Node Element)) : bare ((docLast w ns).map some) = bare (ns.map some) := by
  induction ns with
  | nil => rfl
  | cons n ns ih =>
    cases ns with
    | nil => cases n <;> rfl
    | cons m ns => exact congrArg (_ :: ·) ih

/-- No declaration leaves anything behind (elements with anonymous restrictions do). -/
def Plain (ds : List Decl) : Prop := ∀ d ∈ ds, d.after .clean = .clean

instance (ds : List Decl) : Decidable (Plain ds) := by unfold Plain; exact inferInstance

omit [Uni] in
/-- The documented declarations of a regular schema, from an idle parser to an idle parser. -/
theorem decls_doc [Uni] {W : World} {gvt : Gvt} {I : Shared → Prop} {ref : Tree → Str → Str} [UniLaws] (hg : Answers I ref gvt)
    (hs : Core.Stable ref) (hb : Blind ref) (ds : List (Decl × List Str)) (sh : Shared) (hi : I sh) (heap : List Element)
    (proto : PTree) (inE : Str) (hv : Valid heap proto) (t : Tree) (ht : bare (frz heap proto) = bare t)
    (hd : Regular ref t (ds.map (·.1))) (hp : Plain (ds.map (·.1))) :
    ∃ sh' heap' proto' inE', I sh' ∧ Valid heap' proto' ∧ frz heap' proto' = treeDoc ref (frz heap proto) ds ∧
      Runs W gvt (ds.flatMap fun d => documented d.1 d.2) ⟨sh, idle heap proto inE⟩ ⟨sh', idle heap' proto' inE'⟩ := by
  induction ds generalizing sh heap proto inE t with
  | nil => exact ⟨sh, heap, proto, inE, hi, hv, rfl, Runs.nil _⟩
  | cons d ds ih =>
    obtain ⟨⟨h1, h2⟩, q1, q2⟩ := hd
    have hn : d.1.after .clean = .clean := hp d.1 (by simp)
    have hr : ref t = ref (frz heap proto) := by rw [← hb t, ← ht, hb]
    rw [hr] at h1 h2
    rw [show d.fst.after .clean = _ from hn] at q2
    obtain ⟨sh1, heap1, proto1, inE1, i1, g1, r1⟩ := decl_doc (W := W) hg hs d.1 d.2 sh hi heap proto inE hv h1 q1 hn
    obtain ⟨sh2, heap2, proto2, inE2, i2, v2, t2, r2⟩ := ih sh1 i1 heap1 proto1 inE1 g1.valid _
      (by rw [g1.tree, bare_append, bare_docLast, ht, bare_append]) ⟨h2, q2⟩ fun e he => hp e (by simp only [List.map_cons, List.mem_cons, he, or_true])
    exact ⟨sh2, heap2, proto2, inE2, i2, v2, by rw [t2, g1.tree, treeDoc], r1.append r2⟩

omit [Uni] [UniLaws] in
theorem documented_names {ref : Tree → Str → Str} {t : Tree} {as : List Attr} {ds : List (Decl × List Str)}
    (hd : Regular ref t (ds.map (·.1))) : C32.NamesOk (documentedTokens as ds) := by
  refine tag_names (by decide) ?_
  replace hd := hd.placed
  induction ds generalizing t with
  | nil => exact nil_names
  | cons d ds ih =>
    refine append_names ?_ (ih hd.2)
    have h := decl_names (P := fun n => n ≠ []) (by decide) d.1 hd.1
    intro n bs hm
    replace hm : Token.start n bs ∈ documented d.1 d.2 := hm
    unfold documented at hm
    split at hm
    · cases hm
    · rename_i e
      rw [e] at h
      rcases List.mem_cons.1 hm with hm | hm
      · exact h n bs (by rw [hm]; exact List.mem_cons_self)
      · rcases List.mem_append.1 hm with hm | hm
        · obtain ⟨x, _, hx⟩ := List.mem_map.1 hm
          cases hx
        · exact h n bs (List.mem_cons_of_mem _ hm)

/-- C67, parsing: `Parse` of a file that contains a regular schema with documentation right inside the top-level declarations
builds the translation of the declarations, each with its documentation. -/
theorem tree_partial (W : World) (cfg : Cfg) (toks : List Token) (hf : W.fs.get? cfg.filePath = some (.file toks))
    (hn : C32.NamesOk toks) (as : List Attr) (ds : List (Decl × List Str)) (ht : skeleton toks = skeleton (documentedTokens as ds))
    (sh : Shared) (ha : Alone W cfg sh) (hd : Regular (typeRef cfg.lang cfg.extract) [] (ds.map (·.1))) (hp : Plain (ds.map (·.1))) :
    ∃ sh', Like (beginParse cfg sh) sh' ∧
      Parse W cfg sh = finish W cfg (treeDoc (typeRef cfg.lang cfg.extract) [] ds) sh' := by
  rw [C22.Parse_eq]
  unfold parseWith
  rw [hf]
  dsimp only
  rw [← parseOpen_skeleton W _ cfg toks hn, ht, parseOpen_skeleton W _ cfg _ (documented_names hd)]
  have hb : Alone W cfg (beginParse cfg sh) := by
    rcases ha with h | h
    · exact .inl h
    · refine .inr ?_
      unfold beginParse
      dsimp only
      split <;> exact h
  obtain ⟨sh1, heap1, proto1, inE1, i1, v1, t1, r1⟩ := decls_doc (W := W) (answers W (Parse W) cfg _ hb)
    (typeRef_stable cfg.lang cfg.extract) (typeRef_blind cfg.lang cfg.extract) ds (onSchema as (beginParse cfg sh))
    (onSchema_like ⟨_, _, rfl⟩ as) [] [] c!"schema" (by intro a h; cases h) [] rfl hd hp
  refine ⟨sh1, i1, ?_⟩
  have r : Runs W (gvtOf W (Parse W) cfg) (documentedTokens as ds) ⟨beginParse cfg sh, {}⟩ ⟨sh1, idle heap1 proto1 inE1⟩ := by
    refine Runs.tag onKind_schema rfl r1 ?_
    rw [step, endKind_schema]
    rfl
  unfold parseOpen
  rw [r]
  dsimp only
  rw [show (idle heap1 proto1 inE1).freeze = frz heap1 proto1 from rfl, t1]
  rfl

/-! ## Comments -/

/-- The comment above a declaration: the name, and the documentation line by line, without tabs. -/
def comment (name doc : Str) : Str :=
  c!"\r\n// " ++ name ++
    (if doc = [] then c!" ..." else c!" is " ++ List.intercalate c!"\r\n// " ((splitOn '\n' doc).map fun l => l.filter (· ≠ '\t'))) ++
    c!"\r\n"

omit [Uni] [UniLaws] in
theorem splitOn_ne (sep : Char) (s : Str) : splitOn sep s ≠ [] := by
  cases s with
  | nil => simp [splitOn]
  | cons c s =>
    unfold splitOn
    split
    · simp
    · split <;> simp

omit [Uni] [UniLaws] in
theorem docReplace_eq (doc : Str) :
    docReplace c!"//" doc = List.intercalate c!"\r\n// " ((splitOn '\n' doc).map fun l => l.filter (· ≠ '\t')) := by
  induction doc with
  | nil => rfl
  | cons c cs ih =>
    obtain ⟨l, ls, e⟩ := List.exists_cons_of_ne_nil (splitOn_ne '\n' cs)
    unfold docReplace splitOn
    rw [ih, e]
    by_cases h : c = '\n'
    · rw [if_pos h, if_pos h]
      simp [List.intercalate]
    · rw [if_neg h, if_neg h]
      dsimp only
      by_cases h2 : c = '\t'
      · rw [if_pos h2, List.map_cons, List.map_cons, List.filter_cons_of_neg (by simp [h2])]
      · rw [if_neg h2, List.map_cons, List.map_cons, List.filter_cons_of_pos (by simp [h2])]
        cases ls <;> simp [List.intercalate]

omit [Uni] [UniLaws] in
theorem comment_eq (name doc : Str) : genFieldComment name doc c!"//" = comment name doc := by
  unfold genFieldComment comment
  rw [docReplace_eq]
  split <;> simp

/-- The documentation of a component. -/
def nodeDoc : Node Element → Str
  | .simple v => v.doc
  | .attr v => v.doc
  | .elem v => v.doc
  | .complex v => v.doc
  | .group v => v.doc
  | .attrGroup v => v.doc

/-- A union with named members. -/
def isUnion (v : SimpleType) : Bool := !v.list && v.union && v.memberTypes.length > 0

/-- The components whose declarations have comments: all, except elements in C, elements, attributes and lists in Java, and
unions in Rust. -/
def commented (lang : Str) (n : Node Element) : Bool :=
  match n with
  | .elem _ => lang ≠ c!"C" && lang ≠ c!"Java"
  | .attr _ => lang ≠ c!"Java"
  | .simple v => !(lang = c!"Java" && v.list) && !(lang = c!"Rust" && isUnion v)
  | _ => true

/-- The languages. -/
def langOf (lang : Str) (t : Tree) : Lang :=
  if lang = c!"Go" then C15.goLang t else if lang = c!"C" then C15.cLang t else if lang = c!"Java" then C15.javaLang t
  else if lang = c!"Rust" then C15.rustLang t else C15.tsLang t

/-- The declarations a generator writes. -/
def bodyOf (lang : Str) (t : Tree) : Str :=
  if lang = c!"Go" then (goGen t).field else if lang = c!"C" then (cGen t).field else if lang = c!"Java" then (javaGen t).field
  else if lang = c!"Rust" then (rustGen t).field else (tsGen t).field

/-- A text that begins with a comment, possibly after an empty line. -/
def Heads (c text : Str) : Prop := ∃ rest, text = c ++ rest ∨ text = c!"\n" ++ c ++ rest

omit [UniLaws] in
/-- The declaration of a component begins with its comment. -/
theorem text_heads (lang : Str) (t : Tree) (n : Node Element) (fn : Str) (h : commented lang n = true) :
    Heads (comment fn (nodeDoc n)) ((langOf lang t).text n fn) := by
  rw [← comment_eq]
  unfold langOf
  split
  · cases n <;> exact ⟨_, .inl (by simp [C15.goLang, goDecl, nodeDoc]; rfl)⟩
  split
  · rename_i hl
    subst hl
    cases n with
    | elem v => simp [commented] at h
    | simple v =>
      simp only [C15.cLang, nodeDoc]
      split
      · exact ⟨_, .inl (by rw [List.append_assoc])⟩
      · split
        · exact ⟨_, .inl (by simp [cDecl]; rfl)⟩
        · exact ⟨_, .inl (by simp; rfl)⟩
    | attr v => exact ⟨_, .inl (by simp [C15.cLang, nodeDoc]; rfl)⟩
    | complex v => exact ⟨_, .inl (by simp [C15.cLang, nodeDoc, cDecl]; rfl)⟩
    | group v => exact ⟨_, .inl (by simp [C15.cLang, nodeDoc, cDecl]; rfl)⟩
    | attrGroup v => exact ⟨_, .inl (by simp [C15.cLang, nodeDoc, cDecl]; rfl)⟩
  split
  · rename_i hl
    subst hl
    cases n with
    | elem v => simp [commented] at h
    | attr v => simp [commented] at h
    | simple v =>
      simp only [C15.javaLang, nodeDoc]
      split
      · rename_i hv
        simp [commented, hv] at h
      · split
        · exact ⟨_, .inl (by simp [javaDecl]; rfl)⟩
        · exact ⟨_, .inl rfl⟩
    | complex v => exact ⟨_, .inl (by simp [C15.javaLang, nodeDoc]; rfl)⟩
    | group v => exact ⟨_, .inl (by simp [C15.javaLang, nodeDoc, javaDecl]; rfl)⟩
    | attrGroup v => exact ⟨_, .inl (by simp [C15.javaLang, nodeDoc, javaDecl]; rfl)⟩
  split
  · rename_i hl
    subst hl
    cases n with
    | simple v =>
      simp only [C15.rustLang, nodeDoc]
      split
      · exact ⟨_, .inr (by rw [rustDecl])⟩
      · split
        · rename_i h1 h2
          simp [commented, isUnion] at h h2
          simp_all
        · exact ⟨_, .inr (by rw [rustDecl])⟩
    | elem v => exact ⟨_, .inr (by simp [C15.rustLang, nodeDoc, rustDecl]; rfl)⟩
    | attr v => exact ⟨_, .inr (by simp [C15.rustLang, nodeDoc, rustDecl]; rfl)⟩
    | complex v => exact ⟨_, .inr (by simp [C15.rustLang, nodeDoc, rustDecl]; rfl)⟩
    | group v => exact ⟨_, .inr (by simp [C15.rustLang, nodeDoc, rustDecl]; rfl)⟩
    | attrGroup v => exact ⟨_, .inr (by simp [C15.rustLang, nodeDoc, rustDecl]; rfl)⟩
  · cases n with
    | simple v =>
      simp only [C15.tsLang, nodeDoc]
      split
      · exact ⟨_, .inl (by simp [tsComment]; rfl)⟩
      · split
        · exact ⟨_, .inl (by simp [tsClass, tsComment]; rfl)⟩
        · split
          · exact ⟨_, .inl (by simp [tsComment]; rfl)⟩
          · exact ⟨_, .inl (by simp [tsAlias, tsComment]; rfl)⟩
    | elem v => exact ⟨_, .inl (by simp [C15.tsLang, nodeDoc, tsAlias, tsComment]; rfl)⟩
    | attr v => exact ⟨_, .inl (by simp [C15.tsLang, nodeDoc, tsAlias, tsComment]; rfl)⟩
    | complex v => exact ⟨_, .inl (by simp [C15.tsLang, nodeDoc, tsComment]; rfl)⟩
    | group v => exact ⟨_, .inl (by simp [C15.tsLang, nodeDoc, tsClass, tsComment]; rfl)⟩
    | attrGroup v => exact ⟨_, .inl (by simp [C15.tsLang, nodeDoc, tsClass, tsComment]; rfl)⟩

/-! ## Which declarations are shown -/

/-- The names of the components of a declaration. -/
def names (d : Decl) : List Str := (d.nodes id).map nodeName

omit [Uni] [UniLaws] in
theorem attrGroups_names (ty ty' : Str → Str) (b : Content) :
    (attrGroups ty b).map (·.name) = (attrGroups ty' b).map (·.name) := by
  induction b with
  | nil => rfl
  | attrGroup as k ih => simp [attrGroups, ih, attrGroupOf]
  | choice as b k ihb ih => simp [attrGroups, ihb, ih]
  | ext as b k ihb ih => simp [attrGroups, ihb, ih]
  | restr as fs b k ihb ih => simp [attrGroups, ihb, ih]
  | anon as cas b k ihb ih => simp [attrGroups, ih]
  | elem as k ih => exact ih
  | elemAnon as ras fs k ih => exact ih
  | group as k ih => exact ih
  | «attribute» as k ih => exact ih
  | attrAnon as b k ih => exact ih

omit [Uni] [UniLaws] in
theorem nodes_names (ty : Str → Str) (d : Decl) : (d.nodes ty).map nodeName = names d := by
  have h1 : ∀ b, ((nested ty false b).map Node.complex).map nodeName = ((nested id false b).map Node.complex).map nodeName := by
    intro b
    have h : ∀ l : List ComplexType, (l.map Node.complex).map nodeName = l.map (·.name) := fun l => by
      rw [List.map_map]; rfl
    rw [h, h, C59.nested_names, C59.nested_names]
  have h2 : ∀ b, ((attrGroups ty b).map Node.attrGroup).map nodeName = ((attrGroups id b).map Node.attrGroup).map nodeName := by
    intro b
    have h : ∀ l : List AttributeGroup, (l.map Node.attrGroup).map nodeName = l.map (·.name) := fun l => by
      rw [List.map_map]; rfl
    rw [h, h, attrGroups_names]
  unfold names
  cases d with
  | simple as b => cases b <;> rfl
  | complex as b => rw [Core.Decl.nodes, List.map_append, h1, Core.Decl.nodes, List.map_append]; rfl
  | anon as cas b => rw [Core.Decl.nodes, List.map_append, h1, Core.Decl.nodes, List.map_append]; rfl
  | attrGroup as b => rw [Core.Decl.nodes, List.map_append, h2, Core.Decl.nodes, List.map_append]; rfl
  | _ => rfl

/-- Whether the declaration of a component gets its documentation as a comment. -/
def hasComment (lang : Str) : Decl → Bool
  | .simple _ (.list _) => lang ≠ c!"Java"
  | .simple _ (.union _) => lang ≠ c!"Rust"
  | .simple _ (.restriction _ _) => true
  | .complex _ _ => true
  | .element _ => lang ≠ c!"C" && lang ≠ c!"Java"
  | .elemAnon .. => false
  | .attrGroup _ _ => true
  | .attribute _ => lang ≠ c!"Java"
  | .attrAnon _ _ _ => lang ≠ c!"Java"
  | .anon _ _ _ => false
  | .group _ _ => false

/-- The name of a declaration. -/
def title : Decl → Str
  | .simple as _ => nameOf as
  | .complex as _ => nameOf as
  | .element as => nameOf as
  | .elemAnon as _ _ => nameOf as
  | .anon as _ _ => nameOf as
  | .group as _ => nameOf as
  | .attrGroup as _ => nameOf as
  | .attribute as => nameOf as
  | .attrAnon as _ _ => nameOf as

omit [Uni] [UniLaws] in
/-- The last component of a documented declaration. -/
theorem last_node (ty : Str → Str) (d : Decl) (lang w : Str) (h : hasComment lang d = true) :
    ∃ l n, docLast w (d.nodes ty) = l ++ [n] ∧ nodeName n = title d ∧ nodeDoc n = w ∧ commented lang n = true ∧
      names d = l.map nodeName ++ [title d] := by
  have hn := nodes_names ty d
  suffices ∃ l n, d.nodes ty = l ++ [n] ∧ nodeName n = title d ∧ nodeName (setDoc w n) = title d ∧ nodeDoc (setDoc w n) = w ∧
      commented lang (setDoc w n) = true by
    obtain ⟨l, n, h1, h2, h3, h4, h5⟩ := this
    refine ⟨l, setDoc w n, by rw [h1, docLast_snoc], h3, h4, h5, ?_⟩
    rw [← hn, h1, List.map_append, List.map_cons, h2]
    rfl
  cases d with
  | simple as b =>
    refine ⟨[], _, rfl, by cases b <;> rfl, by cases b <;> rfl, rfl, ?_⟩
    cases b with
    | restriction ras fs => simp [setDoc, simpleOf, commented, isUnion]
    | list las =>
      have h' : lang ≠ c!"Java" := by simpa [hasComment] using h
      simp [setDoc, simpleOf, commented, isUnion, h']
    | union uas =>
      have h' : lang ≠ c!"Rust" := by simpa [hasComment] using h
      simp [setDoc, simpleOf, commented, isUnion, h']
  | complex as b => exact ⟨_, _, rfl, rfl, rfl, rfl, rfl⟩
  | element as => exact ⟨[], _, rfl, rfl, rfl, rfl, h⟩
  | elemAnon as ras fs => exact absurd h (by simp [hasComment])
  | anon as cas b => exact absurd h (by simp [hasComment])
  | group as b => exact absurd h (by simp [hasComment])
  | attrGroup as b => exact ⟨_, _, rfl, rfl, rfl, rfl, rfl⟩
  | «attribute» as => exact ⟨[], _, rfl, rfl, rfl, rfl, h⟩
  | attrAnon as ras fs => exact ⟨[], _, rfl, rfl, rfl, rfl, h⟩

omit [Uni] [UniLaws] in
theorem mem_declared (L : Lang) (l : List (Node Element)) (n : Node Element) (r : List (Node Element))
    (h : ∀ m ∈ l, nodeName m ≠ nodeName n) : n ∈ declared L (l ++ n :: r) := by
  induction l with
  | nil => exact List.mem_cons_self
  | cons m l ih =>
    have h1 := ih fun m' hm => h m' (List.mem_cons_of_mem _ hm)
    have h2 : nodeName n ≠ nodeName m := fun e => h m List.mem_cons_self e.symm
    rw [List.cons_append, declared]
    refine List.mem_cons_of_mem _ ?_
    split
    · exact h1
    · exact List.mem_filter.2 ⟨h1, by simp [h2]⟩

omit [Uni] [UniLaws] in
theorem mem_named (L : Lang) (used : List Str) (ns : List (Node Element)) (n : Node Element) (h : n ∈ ns) :
    ∃ fn, (n, fn) ∈ named L used ns ∧ ∃ k, fn = C14.numbered (L.base n) k := by
  induction ns generalizing used with
  | nil => cases h
  | cons m ns ih =>
    rw [named]
    by_cases e : n = m
    · subst e
      refine ⟨_, List.mem_cons_self, ?_⟩
      unfold Decl.finalName
      split
      · exact ⟨_, rfl⟩
      · exact ⟨1, rfl⟩
    · obtain ⟨fn, h1, h2⟩ := ih _ ((List.mem_cons.1 h).resolve_left e)
      exact ⟨fn, List.mem_cons_of_mem _ h1, h2⟩

omit [Uni] [UniLaws] in
theorem treeDoc_append (ref : Tree → Str → Str) (ds es : List (Decl × List Str)) : ∀ t,
    treeDoc ref t (ds ++ es) = treeDoc ref (treeDoc ref t ds) es := by
  induction ds with
  | nil => intro t; rfl
  | cons d ds ih => intro t; exact ih _

omit [Uni] [UniLaws] in
theorem treeDoc_prefix (ref : Tree → Str → Str) (ds : List (Decl × List Str)) : ∀ t, ∃ r, treeDoc ref t ds = t ++ r := by
  induction ds with
  | nil => intro t; exact ⟨[], by simp [treeDoc]⟩
  | cons d ds ih =>
    intro t
    obtain ⟨r, e⟩ := ih (t ++ (docLast (docOf d.2) (d.1.nodes (ref t))).map some)
    exact ⟨_, by rw [treeDoc, e, List.append_assoc]⟩

omit [Uni] [UniLaws] in
theorem docLast_names (w : Str) (ns : List (Node Element)) : (docLast w ns).map nodeName = ns.map nodeName := by
  induction ns with
  | nil => rfl
  | cons n ns ih =>
    cases ns with
    | nil => cases n <;> rfl
    | cons m ns => exact congrArg (_ :: ·) ih

omit [Uni] [UniLaws] in
theorem nodes_some (ns : List (Node Element)) : Xgen.Decl.nodes (ns.map some) = ns := by
  induction ns with
  | nil => rfl
  | cons n ns ih => exact congrArg (n :: ·) ih

omit [Uni] [UniLaws] in
theorem nodes_append (s t : Tree) : Xgen.Decl.nodes (s ++ t) = Xgen.Decl.nodes s ++ Xgen.Decl.nodes t := List.filterMap_append

omit [Uni] [UniLaws] in
theorem treeDoc_names (ref : Tree → Str → Str) (ds : List (Decl × List Str)) : ∀ t,
    (Xgen.Decl.nodes (treeDoc ref t ds)).map nodeName = (Xgen.Decl.nodes t).map nodeName ++ ds.flatMap fun d => names d.1 := by
  induction ds with
  | nil => intro t; simp [treeDoc]
  | cons d ds ih =>
    intro t
    rw [treeDoc, ih, nodes_append, nodes_some, List.map_append, docLast_names, nodes_names, List.flatMap_cons, List.append_assoc]

omit [Uni] [UniLaws] in
theorem no_enumList (ref : Tree → Str → Str) (ds : List (Decl × List Str)) : ∀ t,
    (∀ n ∈ Xgen.Decl.nodes t, C15.isEnumList n = false) → ∀ n ∈ Xgen.Decl.nodes (treeDoc ref t ds), C15.isEnumList n = false := by
  have hset : ∀ w (ns : List (Node Element)), (∀ n ∈ ns, C15.isEnumList n = false) → ∀ n ∈ docLast w ns, C15.isEnumList n = false := by
    intro w ns
    induction ns with
    | nil => intro _ n hn; cases hn
    | cons m ns ih =>
      intro h
      cases ns with
      | nil =>
        intro n hn
        rw [List.mem_singleton.1 hn]
        have := h m List.mem_cons_self
        cases m <;> exact this
      | cons k ns =>
        intro n hn
        rcases List.mem_cons.1 hn with rfl | hn
        · exact h _ List.mem_cons_self
        · exact ih (fun n hn => h n (List.mem_cons_of_mem _ hn)) n hn
  have hd : ∀ ty (d : Decl), ∀ n ∈ d.nodes ty, C15.isEnumList n = false := by
    intro ty d n hn
    cases d with
    | simple as b =>
      rw [List.mem_singleton.1 hn]
      cases b <;> simp [simpleOf, C15.isEnumList]
    | complex as b =>
      rcases List.mem_append.1 hn with h | h
      · obtain ⟨c, _, rfl⟩ := List.mem_map.1 h; rfl
      · rw [List.mem_singleton.1 h]; rfl
    | anon as cas b =>
      rcases List.mem_append.1 hn with h | h
      · obtain ⟨c, _, rfl⟩ := List.mem_map.1 h; rfl
      · rcases List.mem_cons.1 h with rfl | h
        · rfl
        · rw [List.mem_singleton.1 h]; rfl
    | attrGroup as b =>
      rcases List.mem_append.1 hn with h | h
      · obtain ⟨c, _, rfl⟩ := List.mem_map.1 h; rfl
      · rw [List.mem_singleton.1 h]; rfl
    | _ => rw [List.mem_singleton.1 hn]; rfl
  induction ds with
  | nil => intro t h; exact h
  | cons d ds ih =>
    intro t h
    refine ih _ ?_
    rw [nodes_append, nodes_some]
    intro n hn
    rcases List.mem_append.1 hn with hn | hn
    · exact h n hn
    · exact hset _ _ (hd _ _) n hn

omit [UniLaws] in
theorem body_eq (lang : Str) (t : Tree) (h : ∀ n ∈ Xgen.Decl.nodes t, C15.isEnumList n = false) :
    bodyOf lang t = (named (langOf lang t) [] (declared (langOf lang t) (Xgen.Decl.nodes t))).flatMap
      fun x => (langOf lang t).text x.1 x.2 := by
  obtain ⟨h1, h2, h3, h4, h5⟩ := C15.files t
  unfold bodyOf langOf
  split
  · exact h1
  split
  · exact h2
  split
  · exact h3
  split
  · exact h4
  · exact h5 (.of_none h)

omit [UniLaws] in
/-- C67, generation: among the declarations of any of the languages there is one under the name of a documented declaration
(possibly with a number), and the comment above it is the documentation - if the name was not taken by an earlier component, and
the language has comments for components of this kind. -/
theorem comment_partial (lang : Str) (ref : Tree → Str → Str) (pre post : List (Decl × List Str)) (d : Decl) (xs : List Str)
    (h : hasComment lang d = true) (h1 : ∀ e ∈ pre, title d ∉ names e.1) (h2 : title d ∉ (names d).dropLast) :
    ∃ n fn k a text b, Xgen.Decl.nodeName n = title d ∧
      fn = C14.numbered ((langOf lang (treeDoc ref [] (pre ++ (d, xs) :: post))).base n) k ∧
      bodyOf lang (treeDoc ref [] (pre ++ (d, xs) :: post)) = a ++ text ++ b ∧ Heads (comment fn (docOf xs)) text ∧
      text = (langOf lang (treeDoc ref [] (pre ++ (d, xs) :: post))).text n fn := by
  rw [body_eq _ _ (no_enumList ref _ [] (by intro n hn; cases hn))]
  generalize hL : langOf lang (treeDoc ref [] (pre ++ (d, xs) :: post)) = L
  obtain ⟨l, n, e1, e2, e3, e4, e5⟩ := last_node (ref (treeDoc ref [] pre)) d lang (docOf xs) h
  obtain ⟨r, er⟩ := treeDoc_prefix ref post (treeDoc ref [] pre ++ (docLast (docOf xs) (d.nodes (ref (treeDoc ref [] pre)))).map some)
  have htree : Xgen.Decl.nodes (treeDoc ref [] (pre ++ (d, xs) :: post)) =
      (Xgen.Decl.nodes (treeDoc ref [] pre) ++ l) ++ n :: Xgen.Decl.nodes r := by
    rw [treeDoc_append, treeDoc, er, e1, nodes_append, nodes_append, nodes_some]
    simp
  have hmem : n ∈ declared L (Xgen.Decl.nodes (treeDoc ref [] (pre ++ (d, xs) :: post))) := by
    rw [htree]
    refine mem_declared L _ n _ fun m hm => ?_
    rw [e2]
    rcases List.mem_append.1 hm with hm | hm
    · intro e
      have := List.mem_map_of_mem (f := nodeName) hm
      rw [treeDoc_names, e] at this
      rcases List.mem_append.1 this with hm | hm
      · cases hm
      · obtain ⟨x, hx, hx'⟩ := List.mem_flatMap.1 hm
        exact h1 x hx hx'
    · intro e
      rw [e5, List.dropLast_concat] at h2
      exact h2 (e ▸ List.mem_map_of_mem hm)
  obtain ⟨fn, h3, k, h4⟩ := mem_named L [] _ n hmem
  obtain ⟨p, q, hpq⟩ := List.append_of_mem h3
  refine ⟨n, fn, k, p.flatMap fun x => L.text x.1 x.2, L.text n fn, q.flatMap fun x => L.text x.1 x.2, e2, h4, ?_, ?_, rfl⟩
  · rw [hpq]
    simp
  · rw [← e3, ← hL]
    exact text_heads lang _ n fn e4

/-! ## Files -/

omit [UniLaws] in
/-- The source of a tree is a header and the declarations. -/
theorem source_body {W : World} {lang pkg : Str} {t : Tree} {text : Str} (h : C24.IsOutput W lang pkg t text) :
    ∃ source head, source = head ++ bodyOf lang t ∧ (lang = c!"Go" → W.gofmt source = some text) ∧ (lang ≠ c!"Go" → text = source) := by
  rcases h with ⟨rfl, h⟩ | ⟨rfl, rfl⟩ | ⟨rfl, rfl⟩ | ⟨rfl, rfl⟩ | ⟨rfl, rfl⟩
  · exact ⟨_, _, rfl, fun _ => h, fun h => absurd rfl h⟩
  · exact ⟨_, copyright ++ c!"\n", rfl, fun h => absurd h (by decide), fun _ => rfl⟩
  · exact ⟨_, _, rfl, fun h => absurd h (by decide), fun _ => rfl⟩
  · exact ⟨_, _, rfl, fun h => absurd h (by decide), fun _ => rfl⟩
  · exact ⟨_, copyright ++ c!"\n", rfl, fun h => absurd h (by decide), fun _ => rfl⟩

/-- C67: whenever `Parse` succeeds on such a file, the last file written is the output of this schema - for Go, after formatting
- and contains, under the name of the documented declaration, a declaration whose comment is the documentation. -/
theorem file_partial (W : World) (cfg : Cfg) (ext : Str) (hl : (cfg.lang, ext) ∈ C24.extensions) (hx : cfg.extract = false)
    (toks : List Token) (hf : W.fs.get? cfg.filePath = some (.file toks)) (hn : C32.NamesOk toks) (as : List Attr)
    (pre post : List (Decl × List Str)) (d : Decl) (xs : List Str)
    (ht : skeleton toks = skeleton (documentedTokens as (pre ++ (d, xs) :: post))) (sh : Shared) (ha : Alone W cfg sh)
    (hd : Regular (typeRef cfg.lang false) [] ((pre ++ (d, xs) :: post).map (·.1))) (hp : Plain ((pre ++ (d, xs) :: post).map (·.1)))
    (hc : hasComment cfg.lang d = true) (h1 : ∀ e ∈ pre, title d ∉ names e.1) (h2 : title d ∉ (names d).dropLast)
    (t : Tree) (sh' : Shared) (hok : Parse W cfg sh = .ok t sh') :
    t = treeDoc (typeRef cfg.lang false) [] (pre ++ (d, xs) :: post) ∧
    ∃ before text source, sh'.outputs = before ++ [(C24.documentedPath cfg ext, text)] ∧
      (cfg.lang = c!"Go" → W.gofmt source = some text) ∧ (cfg.lang ≠ c!"Go" → text = source) ∧
      ∃ n fn k a decl b, Xgen.Decl.nodeName n = title d ∧ fn = C14.numbered ((langOf cfg.lang t).base n) k ∧
        source = a ++ decl ++ b ∧ Heads (comment fn (docOf xs)) decl ∧ decl = (langOf cfg.lang t).text n fn := by
  obtain ⟨sh1, _, e⟩ := tree_partial W cfg toks hf hn as _ ht sh ha (by rw [hx]; exact hd) hp
  rw [hx] at e
  have et : t = treeDoc (typeRef cfg.lang false) [] (pre ++ (d, xs) :: post) := by
    rw [e] at hok
    unfold finish at hok
    rw [if_neg (by rw [hx]; decide)] at hok
    dsimp only at hok
    split at hok
    · split at hok
      · cases hok; rfl
      · cases hok
      · cases hok
    · cases hok
  refine ⟨et, ?_⟩
  obtain ⟨-, -, h⟩ := C24.success W cfg sh sh' t toks hx hf hok
  obtain ⟨before, text, h3, h4⟩ := h ext hl
  obtain ⟨source, head, h5, h6, h7⟩ := source_body h3
  obtain ⟨n, fn, k, a, decl, b, k1, k2, k3, k4, k5⟩ := comment_partial cfg.lang (typeRef cfg.lang false) pre post d xs hc h1 h2
  rw [← et] at k2 k3 k5
  refine ⟨before, text, source, h4, h6, h7, n, fn, k, head ++ a, decl, b, k1, k2, ?_, k4, k5⟩
  rw [h5, k3]
  simp

/-! ## Example -/

open Ex in
/-- A documented simple type, complex type and element. -/
def document : List Token :=
  [on "schema" [("xmlns:xs", "http://www.w3.org/2001/XMLSchema")], txt "\n  "] ++
  [on "simpleType" [("name", "Color")], txt "\n", on "annotation" [], on "documentation" [], txt " A colour.\n\tOr none. ",
   off "documentation", off "annotation"] ++
  [on "restriction" [("base", "xs:string")]] ++
  leaf "enumeration" [("value", "red")] ++ leaf "enumeration" [("value", "blue")] ++ [off "restriction", off "simpleType"] ++
  [on "complexType" [("name", "Car")], txt "Drives.", on "sequence" [("minOccurs", "0")]] ++ leaf "element" [("name", "paint"), ("type", "Color")] ++
  [txt "\n", off "sequence", off "complexType", on "element" [("name", "root"), ("type", "Car")], txt "The root.", off "element", off "schema", txt "\n"]

/-- Its declarations. -/
def declarations : List (Decl × List Str) :=
  [(C40.declarations[0], [c!"\n", c!" A colour.\n\tOr none. "]), (C40.declarations[1], [c!"Drives."]),
   (.element [{ «local» := c!"name", value := c!"root" }, { «local» := c!"type", value := c!"Car" }], [c!"The root."])]

example : @skeleton asciiUni document = @skeleton asciiUni (documentedTokens C40.root declarations) := by decide +kernel
example : Regular (typeRef c!"Go" false) [] (declarations.map (·.1)) := by decide +kernel
example : Plain (declarations.map (·.1)) := by decide +kernel
example : docOf declarations[0].2 = c!"A colour.\n\tOr none." := by decide +kernel
example : comment c!"Color" c!"A colour.\n\tOr none." = c!"\r\n// Color is A colour.\r\n// Or none.\r\n" := by decide +kernel
example : treeDoc (typeRef c!"Go" false) [] declarations =
    [ some (.simple { doc := c!"A colour.\n\tOr none.", name := c!"Color", base := c!"string", enum := [c!"red", c!"blue"] }),
      some (.complex { doc := c!"Drives.", name := c!"Car", elements := [{ name := c!"paint", type := c!"string" }] }),
      some (.elem { doc := c!"The root.", name := c!"root", type := c!"Car" }) ] := by decide +kernel
example : (declarations.map fun d => (hasComment c!"Go" d.1, title d.1, names d.1)) =
    [(true, c!"Color", [c!"Color"]), (true, c!"Car", [c!"Car"]), (true, c!"root", [c!"root"])] := by decide +kernel

/-- The documentation in the tree of a document. -/
def docsIn (toks : List Token) : Option (List (Str × Str)) :=
  match Ex.parse (Ex.world [("a.xsd", toks)]) "a.xsd" "Go" with
  | .ok t _ => some ((Xgen.Decl.nodes t).map fun n => (nodeName n, nodeDoc n))
  | _ => none

/-- The text written for a document. -/
def written (toks : List Token) : Option Str :=
  match Ex.parse (Ex.world [("a.xsd", toks)]) "a.xsd" "Go" with
  | .ok _ sh => sh.outputs.getLast?.map (·.2)
  | _ => none

/-- Whether a piece occurs in a text. -/
def occurs (p : Str) : Str → Bool
  | [] => p.isPrefixOf []
  | c :: cs => p.isPrefixOf (c :: cs) || occurs p cs

example : docsIn document = some [(c!"Color", c!"A colour.\n\tOr none."), (c!"Car", c!"Drives."), (c!"root", c!"The root.")] ∧
    (written document).map (occurs c!"\r\n// Car is Drives.\r\ntype Car struct {\n") = some true := by decide +kernel

/-! ## What goes wrong -/

open Ex in
/-- The documentation of a group is lost. -/
theorem group_lost : docsIn ([on "schema", on "group" [("name", "Parts")], on "annotation", on "documentation", txt "All parts.",
      off "documentation", off "annotation"] ++ leaf "element" [("name", "p"), ("type", "xs:string")] ++ [off "group", off "schema"]) =
    some [(c!"Parts", [])] := by decide +kernel

open Ex in
/-- The documentation of an element with an anonymous complex type reaches the component, but not the file: the type is
declared first under the same name. -/
theorem anonymous_lost :
    let doc := [on "schema", on "element" [("name", "door")], on "annotation", on "documentation", txt "Opens.",
      off "documentation", off "annotation", on "complexType"] ++ leaf "element" [("name", "p"), ("type", "xs:string")] ++
      [off "complexType", off "element", off "schema"]
    docsIn doc = some [(c!"door", []), (c!"door", c!"Opens.")] ∧ (written doc).map (occurs c!"Opens.") = some false := by decide +kernel

open Ex in
/-- The documentation of an element replaces that of the complex type around it, also in the file. -/
theorem member_replaces :
    let doc := [on "schema", on "complexType" [("name", "Car")], txt "Drives.", on "element" [("name", "paint"), ("type", "xs:string")],
      txt "Shiny.", off "element", off "complexType", off "schema"]
    docsIn doc = some [(c!"Car", c!"Shiny.")] ∧
      (written doc).map (occurs c!"// Car is Shiny.\r\ntype Car struct {\n") = some true := by decide +kernel

open Ex in
/-- The documentation of an enumeration value replaces that of the simple type, that of an attribute the one of the attribute
group around it. -/
theorem inner_replaces :
    docsIn ([on "schema", on "simpleType" [("name", "Color")], txt "A colour.", on "restriction" [("base", "xs:string")],
      on "enumeration" [("value", "red")], txt "Warm.", off "enumeration", off "restriction", off "simpleType",
      on "attributeGroup" [("name", "meta")], txt "Data.", on "attribute" [("name", "id"), ("type", "xs:ID")], txt "The key.",
      off "attribute", off "attributeGroup", off "schema"]) = some [(c!"Color", c!"Warm."), (c!"meta", c!"The key.")] := by decide +kernel

end Xgen.C67
