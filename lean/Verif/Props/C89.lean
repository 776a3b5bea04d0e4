import Verif.Props.C09
import Verif.Props.C64
import Verif.Props.C88
import Verif.Props.C90

/-! # C89: documentation has no influence on the code

The lines of a generated file that are neither blank nor comments are the same whatever the texts in the schema are.  This
needs names without line feeds. -/

namespace Xgen.C89
open Decl C15
open C57 (bare noDocNode)
open C31 (noDocE)
open C67 (langOf bodyOf)
open C88 (source)

section
variable [Uni]

/-! ## Specification -/

/-- A line with code: not blank, and not a comment. -/
def isCode (l : Str) : Bool := !(l = [] || l = c!"\r" || c!"//".isPrefixOf l)

/-- The lines with code. -/
def code (text : Str) : List Str := (splitOn '\n' text).filter isCode

/-! ## Comments -/

omit [Uni] in
theorem code_cut (a b : Str) : code (a ++ '\n' :: b) = code a ++ code b := by
  unfold code
  rw [splitOn_append_cons, List.filter_append]

/-- Texts that can replace each other without effect on the code. -/
def Same (a b : Str) : Prop := ∀ x y, code (x ++ a ++ y) = code (x ++ b ++ y)

omit [Uni] in
theorem Same.refl (a : Str) : Same a a := fun _ _ => rfl

omit [Uni] in
theorem Same.append {a a' b b' : Str} (h : Same a a') (h' : Same b b') : Same (a ++ b) (a' ++ b') := fun x y => by
  have h1 := h x (b ++ y)
  have h2 := h' (x ++ a') y
  simp only [List.append_assoc] at h1 h2 ⊢
  rw [h1, h2]

omit [Uni] in
theorem Same.code {a b : Str} (h : Same a b) : code a = code b := by
  have := h [] []
  simpa using this

omit [Uni] in
theorem Same.flatMap {α : Type} {l : List α} {f g : α → Str} (h : ∀ x ∈ l, Same (f x) (g x)) : Same (l.flatMap f) (l.flatMap g) := by
  induction l with
  | nil => exact .refl _
  | cons a l ih =>
    rw [List.flatMap_cons, List.flatMap_cons]
    exact (h a (by simp)).append (ih fun x hx => h x (by simp [hx]))

omit [Uni] in
/-- The text of a comment between its first and its last line feed. -/
theorem comment_inner (name doc : Str) (hn : '\n' ∉ name) : ∃ c, genFieldComment name doc c!"//" = c!"\r" ++ '\n' :: (c ++ c!"\n") ∧ code c = [] := by
  have h := C09.comment_lines name doc c!"//" hn (by decide)
  have key : ∀ c, genFieldComment name doc c!"//" = c!"\r" ++ '\n' :: (c ++ c!"\n") → code c = [] := by
    intro c e
    rw [e, splitOn_append_cons, show c ++ c!"\n" = c ++ '\n' :: [] from rfl, splitOn_append_cons] at h
    unfold code
    rw [List.filter_eq_nil_iff]
    intro l hl
    have := h l (by simp [hl])
    simp only [isCode, Bool.not_eq_true', Bool.not_eq_false, Bool.or_eq_true, decide_eq_true_eq, List.isPrefixOf_iff_prefix, Bool.not_eq_eq_eq_not, Bool.not_true]
    rcases this with (h | h) | h
    · simp [h]
    · simp [h]
    · obtain ⟨r, rfl⟩ := h
      simp
  unfold genFieldComment at key ⊢
  split
  · rename_i hd
    rw [if_pos hd] at key
    exact ⟨c!"//" ++ c!" " ++ name ++ c!" ...\r", by simp, key _ (by simp)⟩
  · rename_i hd
    rw [if_neg hd] at key
    exact ⟨c!"//" ++ c!" " ++ name ++ c!" is " ++ docReplace c!"//" doc ++ c!"\r", by simp, key _ (by simp)⟩

omit [Uni] in
theorem comment_same (name doc doc' : Str) (hn : '\n' ∉ name) : Same (genFieldComment name doc c!"//") (genFieldComment name doc' c!"//") := by
  obtain ⟨c, e, h⟩ := comment_inner name doc hn
  obtain ⟨c', e', h'⟩ := comment_inner name doc' hn
  intro x y
  rw [e, e']
  have k : ∀ c, code c = [] → code (x ++ (c!"\r" ++ '\n' :: (c ++ c!"\n")) ++ y) = code (x ++ c!"\r") ++ code y := by
    intro c hc
    rw [show x ++ (c!"\r" ++ '\n' :: (c ++ c!"\n")) ++ y = (x ++ c!"\r") ++ '\n' :: (c ++ '\n' :: y) by simp, code_cut, code_cut, hc]
    rfl
  rw [k c h, k c' h']

/-! ## Declarations -/

/-- Texts of which the second differs from the first only in that comments have lost their documentation; `P` holds of the names and
documentations of these comments. -/
inductive Alike (P : Str → Str → Prop) : Str → Str → Prop
  | refl (a : Str) : Alike P a a
  | append {a a' b b' : Str} : Alike P a a' → Alike P b b' → Alike P (a ++ b) (a' ++ b')
  | comment {name doc : Str} : P name doc → Alike P (genFieldComment name doc c!"//") (genFieldComment name [] c!"//")

omit [Uni] in
theorem Alike.flatMap {P : Str → Str → Prop} {α : Type} {l : List α} {f g : α → Str} (h : ∀ x ∈ l, Alike P (f x) (g x)) :
    Alike P (l.flatMap f) (l.flatMap g) := by
  induction l with
  | nil => exact .refl _
  | cons a l ih =>
    rw [List.flatMap_cons, List.flatMap_cons]
    exact (h a (by simp)).append (ih fun x hx => h x (by simp [hx]))

omit [Uni] in
theorem Alike.same {P : Str → Str → Prop} (hP : ∀ name doc, P name doc → '\n' ∉ name) {a b : Str} (h : Alike P a b) : Same a b := by
  induction h with
  | refl a => exact .refl a
  | append _ _ h1 h2 => exact h1.append h2
  | comment h => exact comment_same _ _ _ (hP _ _ h)

section
variable {P : Str → Str → Prop}

omit [Uni] in
theorem head_alike {name doc : Str} (hn : P name doc) (rest : Str) :
    Alike P (genFieldComment name doc c!"//" ++ rest) (genFieldComment name [] c!"//" ++ rest) :=
  (Alike.comment hn).append (.refl _)

theorem go_alike (t : Tree) (n : Node Element) {fn : Str} (hn : P fn (C67.nodeDoc n)) : Alike P ((goLang t).text n fn) ((goLang t).text (noDocNode noDocE n) fn) := by
  cases n <;> simp only [goLang, goDecl, noDocNode, C31.noDocS, C31.noDocC, C31.noDocG, C31.noDocAG, C31.noDocA, C31.noDocE, goComplexContent,
    List.flatMap_map, List.append_assoc]
  all_goals exact head_alike hn _

theorem c_alike (t : Tree) (n : Node Element) {fn : Str} (hn : P fn (C67.nodeDoc n)) : Alike P ((cLang t).text n fn) ((cLang t).text (noDocNode noDocE n) fn) := by
  cases n <;> simp only [cLang, cDecl, noDocNode, C31.noDocS, C31.noDocC, C31.noDocG, C31.noDocAG, C31.noDocA, C31.noDocE, cComplexContent,
    List.flatMap_map, List.append_assoc]
  case simple v =>
    split
    · exact head_alike hn _
    split
    · exact head_alike hn _
    · exact head_alike hn _
  case elem v => exact .refl _
  all_goals exact head_alike hn _

theorem java_alike (t : Tree) (n : Node Element) {fn : Str} (hn : P fn (C67.nodeDoc n)) :
    Alike P ((javaLang t).text n fn) ((javaLang t).text (noDocNode noDocE n) fn) := by
  cases n <;> simp only [javaLang, javaDecl, noDocNode, C31.noDocS, C31.noDocC, C31.noDocG, C31.noDocAG, C31.noDocA, C31.noDocE, javaComplexContent,
    List.flatMap_map, List.append_assoc]
  case simple v =>
    split
    · exact .refl _
    split
    · exact head_alike hn _
    · exact head_alike hn _
  case elem v => exact .refl _
  case attr v => exact .refl _
  all_goals exact head_alike hn _

theorem rust_alike (t : Tree) (n : Node Element) {fn : Str} (hn : P fn (C67.nodeDoc n)) :
    Alike P ((rustLang t).text n fn) ((rustLang t).text (noDocNode noDocE n) fn) := by
  have k : ∀ rest : Str, Alike P (c!"\n" ++ (genFieldComment fn (C67.nodeDoc n) c!"//" ++ rest)) (c!"\n" ++ (genFieldComment fn [] c!"//" ++ rest)) :=
    fun rest => (Alike.refl _).append (head_alike hn rest)
  cases n <;> simp only [rustLang, rustDecl, noDocNode, C31.noDocS, C31.noDocC, C31.noDocG, C31.noDocAG, C31.noDocA, C31.noDocE, rustComplexContent,
    List.flatMap_map, List.append_assoc]
  case simple v =>
    split
    · exact k _
    split
    · exact .refl _
    · exact k _
  all_goals exact k _

theorem ts_alike (t : Tree) (n : Node Element) {fn : Str} (hn : P fn (C67.nodeDoc n)) : Alike P ((tsLang t).text n fn) ((tsLang t).text (noDocNode noDocE n) fn) := by
  cases n <;> simp only [tsLang, tsClass, tsAlias, tsComment, noDocNode, C31.noDocS, C31.noDocC, C31.noDocG, C31.noDocAG, C31.noDocA, C31.noDocE,
    tsComplexContent, List.flatMap_map, List.append_assoc]
  case simple v =>
    split
    · exact head_alike hn _
    split
    · exact head_alike hn _
    split
    · exact head_alike hn _
    · exact head_alike hn _
  all_goals exact head_alike hn _

theorem text_alike (lang : Str) (t : Tree) (n : Node Element) {fn : Str} (hn : P fn (C67.nodeDoc n)) :
    Alike P ((langOf lang t).text n fn) ((langOf lang t).text (noDocNode noDocE n) fn) := by
  unfold langOf
  split
  · exact go_alike t n hn
  split
  · exact c_alike t n hn
  split
  · exact java_alike t n hn
  split
  · exact rust_alike t n hn
  · exact ts_alike t n hn

/-! ## Files -/

theorem base_nl [UniLaws] (lang : Str) (t : Tree) (n : Node Element) (h : '\n' ∉ nodeName n) : '\n' ∉ (langOf lang t).base n := by
  unfold langOf
  split
  · exact goName_absent (by decide) h
  split
  · exact cName_absent (by decide) h
  split
  · exact cName_absent (by decide) h
  split
  · cases n with
    | elem v => exact rustFieldName_absent (by decide) (by decide) h
    | attr v => exact rustFieldName_absent (by decide) (by decide) h
    | _ => exact rustStructName_absent (by decide) h
  · exact cName_absent (by decide) h

theorem lang_bare (lang : Str) (t : Tree) (n : Node Element) : (langOf lang t).base (noDocNode noDocE n) = (langOf lang t).base n ∧
    (langOf lang t).unique (noDocNode noDocE n) = (langOf lang t).unique n ∧ (langOf lang t).free (noDocNode noDocE n) = (langOf lang t).free n := by
  unfold langOf
  split
  · cases n <;> exact ⟨rfl, rfl, rfl⟩
  split
  · cases n <;> exact ⟨rfl, rfl, rfl⟩
  split
  · cases n <;> exact ⟨rfl, rfl, rfl⟩
  split
  · cases n <;> exact ⟨rfl, rfl, rfl⟩
  · cases n <;> exact ⟨rfl, rfl, rfl⟩

omit [Uni] in
theorem declared_map {L : Lang} {f : Node Element → Node Element} (h1 : ∀ n, L.free (f n) = L.free n) (h2 : ∀ n, nodeName (f n) = nodeName n)
    (ns : List (Node Element)) : declared L (ns.map f) = (declared L ns).map f := by
  induction ns with
  | nil => rfl
  | cons n ns ih =>
    rw [List.map_cons, declared, declared, ih, h1, List.map_cons]
    congr 1
    by_cases h : L.free n = true
    · rw [if_pos h, if_pos h]
    · rw [if_neg h, if_neg h, List.filter_map]
      congr 1
      apply List.filter_congr
      intro m _
      simp only [Function.comp, h1, h2]

omit [Uni] in
theorem named_map {L : Lang} {f : Node Element → Node Element} (h1 : ∀ n, L.base (f n) = L.base n) (h2 : ∀ n, L.unique (f n) = L.unique n)
    (ns : List (Node Element)) : ∀ used, named L used (ns.map f) = (named L used ns).map fun x => (f x.1, x.2) := by
  induction ns with
  | nil => intro used; rfl
  | cons n ns ih =>
    intro used
    have e : finalName L used (f n) = finalName L used n := by simp only [finalName, h1, h2]
    rw [List.map_cons, named, named, ih, h1, h2, List.map_cons, e]

/-- The declarations of a tree without documentation. -/
theorem named_bare (lang : Str) (t : Tree) : named (langOf lang (bare t)) [] (declared (langOf lang (bare t)) (nodes (bare t))) =
    (named (langOf lang t) [] (declared (langOf lang t) (nodes t))).map fun x => (noDocNode noDocE x.1, x.2) := by
  obtain ⟨e1, e2, e3⟩ := C88.lang_same lang (bare t) t
  rw [C88.named_of e1 e2, C88.declared_of e3, C59.nodes_bare, declared_map (fun n => (lang_bare lang t n).2.2) C59.name_bare,
    named_map (fun n => (lang_bare lang t n).1) fun n => (lang_bare lang t n).2.1]

/-- Names without line feeds. -/
def Flat (t : Tree) : Prop := ∀ n ∈ nodes t, '\n' ∉ nodeName n

/-! ### TypeScript, where the declared components are not a function of the names alone (C15) -/

omit [Uni] in
theorem resolve_bare (t : Tree) : resolveIn (bare t) = resolveIn t := funext fun x => C57.base_bare _ t

omit [Uni] in
theorem member_bare (t : Tree) : memberType (bare t) = memberType t := funext fun m => by
  unfold memberType
  rw [C57.base_bare]

theorem tsStep_bare (t : Tree) : tsStep (bare t) = tsStep t := by
  have e1 : tsMemberLine (bare t) = tsMemberLine t := funext fun m => by simp only [tsMemberLine, member_bare]
  have e2 : tsAttrGroupLine (bare t) = tsAttrGroupLine t := funext fun m => by simp only [tsAttrGroupLine, resolve_bare]
  have e3 : tsAttrLine (bare t) = tsAttrLine t := funext fun m => by simp only [tsAttrLine, resolve_bare]
  have e4 : tsGroupLine (bare t) = tsGroupLine t := funext fun m => by simp only [tsGroupLine, resolve_bare]
  have e5 : tsElemLine (bare t) = tsElemLine t := funext fun m => by simp only [tsElemLine, resolve_bare]
  funext n g
  cases n <;> simp only [tsStep, tsSimpleType, tsAttribute, tsElement, tsComplexType, tsGroup, tsAttributeGroup, tsComplexContent, tsExtends,
    tsValueLine, resolve_bare, e1, e2, e3, e4, e5]

/-- Generators that have written texts that are alike. -/
structure Abreast (P : Str → Str → Prop) (g g' : Gen) : Prop where
  ast : g.ast = g'.ast
  count : g.count = g'.count
  field : Alike P g.field g'.field

theorem unique_abreast {g g' : Gen} (h : Abreast P g g') (x : Str) :
    (uniqueName x g).1 = (uniqueName x g').1 ∧ Abreast P (uniqueName x g).2 (uniqueName x g').2 := by
  unfold uniqueName
  dsimp only
  rw [h.count]
  exact ⟨rfl, h.ast, rfl, h.field⟩

/-- A property of names that numbering keeps. -/
def Numbered (B : Str → Prop) : Prop := ∀ x k, B x → B (x ++ decimal k)

omit [Uni] in
theorem unique_keeps {B : Str → Prop} (hB : Numbered B) {x : Str} (hx : B x) (g : Gen) : B (uniqueName x g).1 := by
  unfold uniqueName
  dsimp only
  split
  · exact hB _ _ hx
  · exact hx

omit [Uni] in
theorem named_keeps {B : Str → Prop} (hB : Numbered B) {L : Lang} {used : List Str} {ns : List (Node Element)}
    {y : Node Element × Str} (hy : y ∈ named L used ns) (h : B (L.base y.1)) : B y.2 := by
  induction ns generalizing used with
  | nil => cases hy
  | cons n ns ih =>
    rw [named] at hy
    rcases List.mem_cons.1 hy with rfl | hy
    · simp only [finalName, C14.numbered]
      split
      · split
        · exact h
        · exact hB _ _ h
      · exact h
    · exact ih hy

omit [Uni] in
theorem absent_numbered {c : Char} (hc : c.isDigit = false) : Numbered (c ∉ ·) := by
  intro x k hx hm
  rcases List.mem_append.1 hm with hm | hm
  · exact hx hm
  · have := C14.decimal_digits _ _ hm
    rw [hc] at this
    cases this

theorem emit_abreast {g g' : Gen} (h : Abreast P g g') {x doc : Str} (hx : P (uniqueName x g).1 doc) (name content : Str) (rest : Str → Str) :
    Abreast P ((uniqueName x g).2.emit name content (tsComment (uniqueName x g).1 doc ++ rest (uniqueName x g).1))
      ((uniqueName x g').2.emit name content (tsComment (uniqueName x g').1 [] ++ rest (uniqueName x g').1)) := by
  obtain ⟨h1, h2⟩ := unique_abreast h x
  rw [← h1]
  refine ⟨?_, h2.count, ?_⟩
  · show GoMap.set _ _ _ = GoMap.set _ _ _
    rw [h2.ast]
  · exact h2.field.append (head_alike hx _)

theorem tsStep_alike (t : Tree) (n : Node Element) {g g' : Gen} (hx : P (uniqueName (tsName (nodeName n)) g).1 (C67.nodeDoc n))
    (h : Abreast P g g') : Abreast P (tsStep t n g) (tsStep t (noDocNode noDocE n) g') := by
  have key : ∀ (content : Str) (rest : Str → Str), Abreast P
      (if g.ast.has (nodeName n) then g else (uniqueName (tsName (nodeName n)) g).2.emit (nodeName n) content
        (tsComment (uniqueName (tsName (nodeName n)) g).1 (C67.nodeDoc n) ++ rest (uniqueName (tsName (nodeName n)) g).1))
      (if g'.ast.has (nodeName n) then g' else (uniqueName (tsName (nodeName n)) g').2.emit (nodeName n) content
        (tsComment (uniqueName (tsName (nodeName n)) g').1 [] ++ rest (uniqueName (tsName (nodeName n)) g').1)) := by
    intro content rest
    rw [h.ast]
    split
    · exact h
    · exact emit_abreast h hx _ _ rest
  cases n with
  | simple v =>
    simp only [tsStep, tsSimpleType, noDocNode, C31.noDocS, tsClass, tsAlias, List.append_assoc]
    rw [h.ast]
    split
    · exact emit_abreast h hx _ _ fun f => c!"export type " ++ (f ++ _)
    split
    · have := key (c!" {\n" ++ ((toSortedPairs v.memberTypes).flatMap (tsMemberLine t) ++ c!"}\n")) fun f => c!"export class " ++ (f ++
        (c!" {\n" ++ ((toSortedPairs v.memberTypes).flatMap (tsMemberLine t) ++ c!"}\n")))
      rw [h.ast] at this
      exact this
    split
    · obtain ⟨h1, h2⟩ := unique_abreast h (tsName v.name)
      refine ⟨h2.ast, h2.count, ?_⟩
      rw [← h1]
      exact h2.field.append (head_alike hx _)
    · have := key (c!" " ++ (genTypeScriptFieldType (resolveIn t v.base) false ++ c!";\n")) fun f => c!"export type " ++ (f ++
        (c!" =" ++ (c!" " ++ (genTypeScriptFieldType (resolveIn t v.base) false ++ c!";\n"))))
      rw [h.ast] at this
      exact this
  | attr v =>
    simp only [tsStep, tsAttribute, noDocNode, C31.noDocA, tsAlias, List.append_assoc]
    exact key _ fun f => c!"export type " ++ (f ++ _)
  | elem v =>
    simp only [tsStep, tsElement, noDocNode, C31.noDocE, tsAlias, List.append_assoc]
    exact key _ fun f => c!"export type " ++ (f ++ _)
  | complex v =>
    simp only [tsStep, tsComplexType, noDocNode, C31.noDocC, C31.noDocE, C31.noDocA, C31.noDocAG, tsComplexContent, List.flatMap_map, List.append_assoc]
    exact key _ fun f => c!"export class " ++ (f ++ _)
  | group v =>
    simp only [tsStep, tsGroup, noDocNode, C31.noDocG, C31.noDocE, tsClass, List.flatMap_map, List.append_assoc]
    exact key _ fun f => c!"export class " ++ (f ++ _)
  | attrGroup v =>
    simp only [tsStep, tsAttributeGroup, noDocNode, C31.noDocAG, C31.noDocA, tsClass, List.flatMap_map, List.append_assoc]
    exact key _ fun f => c!"export class " ++ (f ++ _)

/-- `P` holds of every documentation of the tree and every name in `B`, which numbering keeps and in which the names of the language are. -/
structure Fits (P : Str → Str → Prop) (B : Str → Prop) (lang : Str) (t : Tree) : Prop where
  numbered : Numbered B
  base : ∀ n ∈ nodes t, B ((langOf lang t).base n)
  holds : ∀ n ∈ nodes t, ∀ fn, B fn → P fn (C67.nodeDoc n)

theorem ts_body {B : Str → Prop} (t : Tree) (ht : Fits P B c!"TypeScript" t) : Alike P (tsGen t).field (tsGen (bare t)).field := by
  unfold tsGen
  rw [genLoop_nodes, genLoop_nodes, C59.nodes_bare, tsStep_bare]
  have key : ∀ (ns : List (Node Element)), (∀ n ∈ ns, n ∈ nodes t) → ∀ g g', Abreast P g g' →
      Abreast P (ns.foldl (fun g n => tsStep t n g) g) ((ns.map (noDocNode noDocE)).foldl (fun g n => tsStep t n g) g') := by
    intro ns
    induction ns with
    | nil => exact fun _ g g' h => h
    | cons n ns ih =>
      intro hns g g' h
      have hn := hns n (by simp)
      exact ih (fun m hm => hns m (by simp [hm])) _ _
        (tsStep_alike t n (ht.holds n hn _ (unique_keeps ht.numbered (ht.base n hn) g)) h)
  exact (key (nodes t) (fun _ h => h) _ _ ⟨rfl, rfl, .refl _⟩).field

/-! ### All languages -/

theorem body_alike {B : Str → Prop} (lang : Str) (hl : lang ∈ C41.langs) (t : Tree) (ht : Fits P B lang t) :
    Alike P (bodyOf lang t) (bodyOf lang (bare t)) := by
  by_cases hT : lang = c!"TypeScript"
  · subst hT
    exact ts_body t ht
  rw [C88.body_named lang t (fun h => absurd h hT) hl, C88.body_named lang (bare t) (fun h => absurd h hT) hl, named_bare, List.flatMap_map]
  refine .flatMap fun x hx => ?_
  have h1 : x.1 ∈ nodes t := by
    refine (declared_sublist (langOf lang t) (nodes t)).subset ?_
    rw [← map_fst_named (langOf lang t) [] (declared (langOf lang t) (nodes t))]
    exact List.mem_map_of_mem hx
  have h2 : P x.2 (C67.nodeDoc x.1) := ht.holds x.1 h1 _ (named_keeps ht.numbered hx (ht.base x.1 h1))
  have h3 : (langOf lang (bare t)).text (noDocNode noDocE x.1) x.2 = (langOf lang t).text (noDocNode noDocE x.1) x.2 :=
    C88.lang_text (fun y _ => C57.base_bare y t) x.2
  dsimp only
  rw [h3]
  exact text_alike lang t x.1 h2

/-- The imports of a Go file. -/
theorem imports_bare (t : Tree) : goImports (goGen t) = goImports (goGen (bare t)) := by
  have hd : C16.decls (bare t) = (C16.decls t).map fun x => (noDocNode noDocE x.1, x.2) := named_bare c!"Go" t
  have h1 : (goGen (bare t)).importTime = (goGen t).importTime := by
    rw [C16.time_flag, C16.time_flag, hd, List.any_map]
    congr 1
    funext x
    show C16.timeFlag (bare t) (noDocNode noDocE x.1) = C16.timeFlag t x.1
    have hg : C16.goType (bare t) = C16.goType t := funext fun y => by unfold C16.goType; rw [resolve_bare]
    unfold C16.timeFlag
    rw [hg]
    cases x.1 <;> simp only [noDocNode, C31.noDocS, C31.noDocC, C31.noDocG, C31.noDocAG, C31.noDocA, C31.noDocE, List.any_map, Function.comp_def] <;> rfl
  have h2 : (goGen (bare t)).importEncodingXML = (goGen t).importEncodingXML := by
    rw [C16.xml_flag, C16.xml_flag, hd, List.any_map]
    congr 1
    funext x
    show (C16.isStruct (noDocNode noDocE x.1) && decide (x.2 ≠ nodeName (noDocNode noDocE x.1))) = _
    rw [C59.name_bare]
    cases x.1 <;> rfl
  unfold goImports
  rw [h1, h2]

theorem source_alike {B : Str → Prop} (lang pkg : Str) (hl : lang ∈ C41.langs) (t : Tree) (ht : Fits P B lang t) :
    Alike P (source lang pkg t) (source lang pkg (bare t)) := by
  have h := body_alike lang hl t ht
  simp only [C41.langs, List.mem_cons, List.not_mem_nil, or_false] at hl
  rcases hl with rfl | rfl | rfl | rfl | rfl
  · show Alike P (goSource pkg t) (goSource pkg (bare t))
    unfold goSource
    rw [← imports_bare]
    exact (Alike.refl _).append h
  · exact (Alike.refl _).append h
  · exact (Alike.refl _).append h
  · exact (Alike.refl _).append h
  · exact (Alike.refl _).append h

end

theorem flat_fits [UniLaws] (lang : Str) (t : Tree) (ht : Flat t) : Fits (fun name _ => '\n' ∉ name) ('\n' ∉ ·) lang t :=
  ⟨absent_numbered (by decide), fun n hn => base_nl lang t n (ht n hn), fun _ _ _ h => h⟩

theorem body_bare [UniLaws] (lang : Str) (hl : lang ∈ C41.langs) (t : Tree) (ht : Flat t) : Same (bodyOf lang t) (bodyOf lang (bare t)) :=
  (body_alike lang hl t (flat_fits lang t ht)).same fun _ _ h => h

theorem source_bare [UniLaws] (lang pkg : Str) (hl : lang ∈ C41.langs) (t : Tree) (ht : Flat t) :
    Same (source lang pkg t) (source lang pkg (bare t)) :=
  (source_alike lang pkg hl t (flat_fits lang t ht)).same fun _ _ h => h

omit [Uni] in
theorem flat_bare {t t' : Tree} (h : bare t = bare t') (ht : Flat t) : Flat t' := by
  intro n hn
  have : noDocNode noDocE n ∈ nodes (bare t) := by
    rw [h, C59.nodes_bare]
    exact List.mem_map_of_mem hn
  rw [C59.nodes_bare] at this
  obtain ⟨m, hm, e⟩ := List.mem_map.1 this
  rw [← C59.name_bare, ← e, C59.name_bare]
  exact ht m hm

/-- C89 for trees: trees that differ in documentation only give files with the same code, if no name contains a line feed. -/
theorem trees_partial [UniLaws] (lang pkg : Str) (hl : lang ∈ C41.langs) (t t' : Tree) (hb : bare t = bare t')
    (ht : ∀ n ∈ nodes t, '\n' ∉ nodeName n) : code (source lang pkg t) = code (source lang pkg t') := by
  have h := (source_bare lang pkg hl t ht).code
  rw [hb] at h
  rw [h, (source_bare lang pkg hl t' (flat_bare hb ht)).code]

/-! ## Projects -/

/-- The formatter makes the same code of the same code, and refuses none of two sources with the same code or both. -/
def Deaf (F : Str → Option Str) : Prop := ∀ a b, code a = code b → (F a).map code = (F b).map code

/-- No name in the files contains a line feed. -/
def NamesFlat (W : World) : Prop :=
  ∀ path toks, W.fs.get? path = some (.file toks) → ∀ n as, Token.start n as ∈ toks → makeFirstUpperCase n ∈ Handled.startHandled →
    ∀ a ∈ as, a.local ∈ [c!"name", c!"ref", c!"base", c!"memberTypes"] → '\n' ∉ a.value

/-- Files at the same paths with the same code. -/
def SameCode (x y : Str × Str) : Prop := x.1 = y.1 ∧ code x.2 = code y.2

theorem raw_bare [UniLaws] (pkg : Str) (t : Tree) (ht : Flat t) : Same (goRawSource pkg t) (goRawSource pkg (bare t)) := by
  unfold goRawSource
  rw [← imports_bare]
  exact (Same.refl _).append (body_bare c!"Go" (by decide) t ht)

theorem contents_same [UniLaws] (F : Str → Option Str) (lang pkg : Str) (hl : lang ∈ C41.langs) (hF : lang = c!"Go" → Deaf F) (t t' : Tree)
    (ht : Flat t) (hb : bare t = bare t') : code (C64.contents F lang pkg t) = code (C64.contents F lang pkg t') := by
  have hs := trees_partial lang pkg hl t t' hb ht
  have hl' := hl
  simp only [C41.langs, List.mem_cons, List.not_mem_nil, or_false] at hl'
  unfold C64.contents
  rw [C24.title_lang ((by decide : ∀ l ∈ C41.langs, l ∈ C24.extensions.map (·.1)) lang hl)]
  rcases hl' with rfl | rfl | rfl | rfl | rfl
  · have hd := hF rfl _ _ hs
    show code ((F (goSource pkg t)).getD (goRawSource pkg t)) = code ((F (goSource pkg t')).getD (goRawSource pkg t'))
    change (F (goSource pkg t)).map code = (F (goSource pkg t')).map code at hd
    revert hd
    cases F (goSource pkg t) <;> cases F (goSource pkg t') <;> intro hd
    · show code (goRawSource pkg t) = code (goRawSource pkg t')
      rw [(raw_bare pkg t ht).code, hb, (raw_bare pkg t' (flat_bare hb ht)).code]
    · cases hd
    · cases hd
    · injection hd
  all_goals exact hs

omit [Uni] in
theorem strip_get {W : World} {path : Str} [Uni] {toks : List Token} (h : (C32.stripWorld W).fs.get? path = some (.file toks)) :
    ∃ toks', W.fs.get? path = some (.file toks') ∧ ∀ t ∈ toks, t ∈ toks' := by
  unfold C32.stripWorld at h
  dsimp only at h
  generalize W.fs = fs at h ⊢
  induction fs with
  | nil => cases h
  | cons e fs ih =>
    obtain ⟨k, v⟩ := e
    rw [List.map_cons] at h
    unfold GoMap.get? at h ⊢
    by_cases hk : k = path
    · rw [if_pos hk] at h ⊢
      cases v with
      | file ts =>
        injection h with h
        injection h with h
        subst h
        exact ⟨ts, rfl, fun t ht => (List.mem_filter.1 ht).1⟩
      | dir => cases h
      | noOpen => cases h
    · rw [if_neg hk] at h ⊢
      exact ih h

theorem trees_flat {W : World} (h : NamesFlat W) : C64.Trees (C32.stripWorld W) Flat := by
  intro path toks hp gvt hg sh r s hr
  obtain ⟨toks', h1, h2⟩ := strip_get hp
  have := Origin.hold_run (N := fun v => '\n' ∉ v) (R := fun _ => True) (E := fun _ => True) (I := fun _ => True) (gvt := gvt)
    (fun v _ s hs _ => ⟨trivial, fun r s' e => ⟨trivial, by rw [hg v s r s' e]; exact hs⟩⟩) trivial (by decide) (fun _ _ => trivial)
    (C32.stripWorld W) toks (fun n as hm hk a ha => by
      have hs : makeFirstUpperCase n ∈ Handled.startHandled := Classical.byContradiction fun hn => hk (Handled.onKind_none hn)
      have hv := h path toks' h1 n as (h2 _ hm) hs a ha
      refine ⟨fun hl => hv ?_, fun _ => trivial, fun hl m hm => ⟨trivial, ?_⟩, fun _ => trivial⟩
      · exact (by decide : ∀ l ∈ [c!"name", c!"ref", c!"base"], l ∈ [c!"name", c!"ref", c!"base", c!"memberTypes"]) _ hl
      · exact trimNSPrefix_absent fun hc => hv (by rw [hl]; decide) (C59.mem_of_mem_splitOn hm hc))
    (fun _ _ _ => trivial) (fun _ _ _ => trivial) (fun _ _ _ => trivial) { sh := sh, p := {} } Origin.made_init trivial
  have ht := ((this.2 r s hr).2).tree trivial (by decide)
  intro n hn
  have := (C90.made_nodes ht n hn).1 (nodeName n) (by cases n <;> simp [C58.namesIn, nodeName])
  exact this

theorem loop_same [UniLaws] {W : World} {fs' : GoMap Entry} (c : Config) (hW : makeFirstUpperCase c.lang = c!"Go" → Deaf W.gofmt)
    (hf : C64.AllReworded W.fs fs') (hN : NamesFlat W) (hn : ∀ path toks, W.fs.get? path = some (.file toks) → C32.NamesOk toks)
    (hn' : ∀ path toks, fs'.get? path = some (.file toks) → C32.NamesOk toks) (files : List Str) :
    ∀ a b : Shared, a.tick = b.tick → a.log = b.log → C64.Each (C64.SameOutput W.gofmt c.lang Flat) a.outputs b.outputs →
    (mainLoop W c files a).1 = (mainLoop { W with fs := fs' } c files b).1 ∧
    C64.Each (C64.SameOutput W.gofmt c.lang Flat) (mainLoop W c files a).2.outputs (mainLoop { W with fs := fs' } c files b).2.outputs := by
  induction files with
  | nil => exact fun a b _ _ h => ⟨rfl, h⟩
  | cons f files ih =>
    intro a b h1 h2 h3
    have := C64.reworded_on (mainCfg c f) (P := Flat) (fun hg pkg t t' ht hb => by
        have := congrArg Option.isSome (hW hg _ _ (trees_partial c!"Go" pkg (by decide) t t' hb ht))
        simp only [Option.isSome_map] at this
        exact this) hf hn hn' (trees_flat hN)
      { outputs := a.outputs, tick := a.tick, log := a.log } { outputs := b.outputs, tick := b.tick, log := b.log }
      ⟨rfl, rfl, rfl, rfl, h1, h2, rfl, h3⟩
    unfold mainLoop
    revert this
    cases Parse W (mainCfg c f) { outputs := a.outputs, tick := a.tick, log := a.log } with
    | ok t s =>
      cases Parse { W with fs := fs' } (mainCfg c f) { outputs := b.outputs, tick := b.tick, log := b.log } with
      | ok t' s' => exact fun this => ih s s' this.2.tick this.2.log this.2.outputs
      | err e s' => exact fun this => this.elim
      | halt e s' => exact fun this => this.elim
    | err e s =>
      cases Parse { W with fs := fs' } (mainCfg c f) { outputs := b.outputs, tick := b.tick, log := b.log } with
      | ok t' s' => exact fun this => this.elim
      | err e s' => exact fun this => ⟨rfl, this.2.outputs⟩
      | halt e s' => exact fun this => this.elim
    | halt e s =>
      cases Parse { W with fs := fs' } (mainCfg c f) { outputs := b.outputs, tick := b.tick, log := b.log } with
      | ok t' s' => exact fun this => this.elim
      | err e s' => exact fun this => this.elim
      | halt e' s' =>
        rintro ⟨rfl, this⟩
        cases e <;> exact ⟨rfl, this.outputs⟩

omit [Uni] in
theorem list_same [Uni] {W : World} {fs' : GoMap Entry} (hf : C64.AllReworded W.fs fs') (walk : Str → List Str) (path : Str) :
    getFileList { W with fs := fs' } walk path = getFileList W walk path := by
  unfold getFileList
  dsimp only
  generalize W.fs = fs at hf
  induction hf with
  | nil => rfl
  | @cons e e' fs fs' h1 h2 ih =>
    obtain ⟨k, v⟩ := e
    obtain ⟨k', v'⟩ := e'
    obtain ⟨h1, h3⟩ := h1
    dsimp only at h1 h3
    subst h1
    unfold GoMap.get?
    by_cases h : k = path
    · rw [if_pos h, if_pos h]
      cases v <;> cases v' <;> first | exact h3.elim | rfl
    · rw [if_neg h, if_neg h]; exact ih

/-- C89 for the command: two projects whose files differ in text, comments and unhandled tags only are translated to files with the same code,
at the same paths, and the command ends in the same way; if no name contains a line feed. -/
theorem command_partial [UniLaws] (W : World) (fs' : GoMap Entry) (walk : Str → List Str) (f : Flags) (hW : f.l = c!"Go" → Deaf W.gofmt)
    (hf : C64.AllReworded W.fs fs') (hN : NamesFlat W) (hn : ∀ path toks, W.fs.get? path = some (.file toks) → C32.NamesOk toks)
    (hn' : ∀ path toks, fs'.get? path = some (.file toks) → C32.NamesOk toks) :
    (main' W walk f).1 = (main' { W with fs := fs' } walk f).1 ∧
    C64.Each SameCode (main' W walk f).2.outputs (main' { W with fs := fs' } walk f).2.outputs := by
  unfold main'
  cases e : parseFlags f with
  | exit n => exact ⟨rfl, .nil⟩
  | go c =>
    have hc : c.lang = f.l ∧ supportLang.contains f.l = true := by
      unfold parseFlags at e
      split at e
      · cases e
      split at e
      · cases e
      split at e
      · cases e
      split at e
      · cases e
      split at e
      · cases e
      · rename_i hs
        injection e with e
        subst e
        exact ⟨rfl, by simpa using hs⟩
    have hl : c.lang ∈ C41.langs := by
      rw [hc.1]
      exact (by decide : ∀ l ∈ supportLang, l ∈ C41.langs) _ (List.contains_iff_mem.1 hc.2)
    have ht : makeFirstUpperCase c.lang = c.lang := C24.title_lang ((by decide : ∀ l ∈ C41.langs, l ∈ C24.extensions.map (·.1)) _ hl)
    dsimp only
    rw [list_same hf]
    cases getFileList W walk c.i with
    | none => exact ⟨rfl, .nil⟩
    | some files =>
      obtain ⟨h1, h2⟩ := loop_same c (fun h => hW (by rw [← hc.1, ← ht]; exact h)) hf hN hn hn' files {} {} rfl rfl .nil
      refine ⟨h1, ?_⟩
      show C64.Each SameCode (mainLoop W c files {}).2.outputs (mainLoop { W with fs := fs' } c files {}).2.outputs
      revert h2
      generalize (mainLoop W c files {}).2.outputs = xs
      generalize (mainLoop { W with fs := fs' } c files {}).2.outputs = ys
      intro h2
      induction h2 with
      | nil => exact .nil
      | cons h _ ih =>
        refine .cons ⟨h.1, ?_⟩ ih
        rcases h.2 with h | ⟨pkg, t, t', hp, hb, e1, e2⟩
        · rw [h]
        · rw [e1, e2]
          exact contents_same _ _ pkg hl (fun h => hW (by rw [← hc.1]; exact h)) t t' hp hb

/-- Every source begins with a line that says that it is generated, in the form `// Code generated … DO NOT EDIT.` other tools look for; it is
not code. -/
theorem marked (lang pkg : Str) (hl : lang ∈ C41.langs) (t : Tree) :
    (splitOn '\n' (source lang pkg t)).head? = some c!"// Code generated by xgen. DO NOT EDIT." ∧
    isCode c!"// Code generated by xgen. DO NOT EDIT." = false := by
  refine ⟨?_, by decide⟩
  have key : ∀ rest, (splitOn '\n' (copyright ++ '\n' :: rest)).head? = some c!"// Code generated by xgen. DO NOT EDIT." := by
    intro rest
    rw [splitOn_append_sep (by decide)]
    rfl
  simp only [C41.langs, List.mem_cons, List.not_mem_nil, or_false] at hl
  rcases hl with rfl | rfl | rfl | rfl | rfl
  · show (splitOn '\n' (goSource pkg t)).head? = _
    unfold goSource
    simp only [List.append_assoc, List.cons_append, List.nil_append]
    exact key _
  · show (splitOn '\n' (tsSource t)).head? = _
    unfold tsSource
    simp only [List.append_assoc, List.cons_append, List.nil_append]
    exact key _
  · show (splitOn '\n' (cSource t)).head? = _
    unfold cSource
    simp only [List.append_assoc, List.cons_append, List.nil_append]
    exact key _
  · show (splitOn '\n' (javaSource pkg t)).head? = _
    unfold javaSource
    simp only [List.append_assoc, List.cons_append, List.nil_append]
    exact key _
  · show (splitOn '\n' (rustSource t)).head? = _
    unfold rustSource
    simp only [List.append_assoc, List.cons_append, List.nil_append]
    exact key _

end

/-! ## Examples -/

open Ex
attribute [local instance] asciiUni

/-- A documented type whose name contains a line feed. -/
def torn (doc : Str) : Tree := [some (.simple { name := c!"A\nx", base := c!"int", doc := doc })]

/-- With such a name the documentation reaches a line of its own that is no comment. -/
theorem torn_code : bare (torn c!"evil") = bare (torn []) ∧ code (source c!"C" [] (torn c!"evil")) ≠ code (source c!"C" [] (torn [])) := by
  decide +kernel

/-- A documented type, whose documentation looks like code and ends comments. -/
def sly (doc : Str) : Tree := [some (.complex { name := c!"T", elements := [{ name := c!"a", type := c!"int" }], doc := doc })]

/-- The hypotheses hold, and the files differ. -/
example : bare (sly c!"evil */\nint x;\r\n}") = bare (sly []) ∧ (∀ n ∈ nodes (sly c!"evil */\nint x;\r\n}"), '\n' ∉ nodeName n) ∧
    source c!"C" [] (sly c!"evil */\nint x;\r\n}") ≠ source c!"C" [] (sly []) ∧
    code (source c!"C" [] (sly c!"evil */\nint x;\r\n}")) = [c!"typedef struct {", c!"\tint A;", c!"} T;"] := by decide +kernel

/-- The projects of C64 satisfy the hypotheses on names. -/
example : NamesFlat C64.wordy := by
  intro path toks h n as hm hs a ha hl hc
  have := (C90.wordy_spelled path toks h n as hm hs a ha)
  simp only [List.mem_cons, List.not_mem_nil, or_false] at hl
  rcases hl with hl | hl | hl | hl
  · exact this.1 (by rw [hl]; decide) '\n' (by decide) hc
  · exact this.1 (by rw [hl]; decide) '\n' (by decide) hc
  · exact this.1 (by rw [hl]; decide) '\n' (by decide) hc
  · exact this.2.1 hl '\n' (by decide) (by decide) hc

/-- A formatter that refuses sources without code and adds a comment to others is deaf. -/
example : Deaf fun s => if code s = [] then none else some (c!"// formatted" ++ '\n' :: s) := fun a b h => by
  dsimp only
  by_cases c : code a = []
  · rw [if_pos c, if_pos (h ▸ c)]
  · rw [if_neg c, if_neg (h ▸ c), Option.map_some, Option.map_some, code_cut, code_cut, h]

/-- What the command writes for the two projects: different files, the same code. -/
example : (main' C64.wordy (fun _ => []) (C90.flags c!"Rust")).2.outputs ≠ (main' C64.plain (fun _ => []) (C90.flags c!"Rust")).2.outputs ∧
    (main' C64.wordy (fun _ => []) (C90.flags c!"Rust")).2.outputs.map (fun x => (x.1, code x.2)) =
    (main' C64.plain (fun _ => []) (C90.flags c!"Rust")).2.outputs.map (fun x => (x.1, code x.2)) := by decide +kernel

end Xgen.C89
