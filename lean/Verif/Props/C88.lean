import Verif.Props.C16
import Verif.Props.C67
import Verif.Props.C71

/-! # C88: adding a component leaves the rest of the generated file as it was

Proved for components that no reference leads to, whose names are not those of later components and do not become them in the
target language.  Each condition is needed. -/

namespace Xgen.C88
open Decl C15
open Core (attr? nameOf treeOf treeDoc documentedTokens docLast docOf)
open C67 (langOf bodyOf)
open C40 (typeRef skeleton)
section
variable [Uni]

/-! ## Specification -/

/-- The names under which types are looked up for a component: those of its references without prefix, and the names of union
members without a type. -/
def asked : Node Element → List Str
  | .simple v => Names.localPart v.base :: (v.memberTypes.filter fun m => m.2 = []).map (·.1)
  | .attr v => [Names.localPart v.type]
  | .elem v => [Names.localPart v.type]
  | .complex v => Names.localPart v.base :: (v.attributes.map (·.type) ++ v.elements.map (·.type) ++ v.groups.map (·.ref) ++
      v.attributeGroup.map (·.ref)).map Names.localPart
  | .group v => (v.elements.map (·.type) ++ v.groups.map (·.ref)).map Names.localPart
  | .attrGroup v => (v.attributes.map (·.type)).map Names.localPart

/-- The components a lookup can end at: restrictions, attributes and elements. -/
def answers : Node Element → Bool
  | .simple v => !v.list && !v.union
  | .attr _ => true
  | .elem _ => true
  | _ => false

/-- No reference of `t` leads to one of the components `new`. -/
def Uncalled (new t : Tree) : Prop := ∀ n ∈ nodes t, ∀ x ∈ asked n, ∀ m ∈ nodes new, answers m = true → x ≠ nodeName m

/-- The components `later` have neither the names of the components `new` nor their names in the target language. -/
def Apart (base : Node Element → Str) (new later : Tree) : Prop :=
  ∀ n ∈ nodes later, ∀ m ∈ nodes new, nodeName n ≠ nodeName m ∧ base n ≠ base m

/-- `b` is `a` with something inserted. -/
def Inserted (a b : Str) : Prop := ∃ x y z, a = x ++ z ∧ b = x ++ y ++ z

instance (new t : Tree) : Decidable (Uncalled new t) := by unfold Uncalled; infer_instance
instance (base : Node Element → Str) (new later : Tree) : Decidable (Apart base new later) := by unfold Apart; infer_instance

/-! ## Lookups -/

omit [Uni] in
theorem get_skip {x : Str} {new : Tree} (h : ∀ m ∈ nodes new, answers m = true → x ≠ nodeName m) (t : Tree) :
    getBasefromSimpleType x (new ++ t) = getBasefromSimpleType x t := by
  induction new with
  | nil => rfl
  | cons m ms ih =>
    have ih := ih fun n hn => h n (by
      obtain ⟨a, ha, e⟩ := List.mem_filterMap.1 hn
      exact List.mem_filterMap.2 ⟨a, List.mem_cons_of_mem _ ha, e⟩)
    cases m with
    | none => exact ih
    | some m =>
      have hm := h m (List.mem_filterMap.2 ⟨some m, List.mem_cons_self, rfl⟩)
      cases m with
      | simple v =>
        rw [List.cons_append, getBasefromSimpleType]
        by_cases hv : (!v.list && !v.union) = true
        · have := hm hv
          rw [if_neg (by simp only [Bool.and_eq_true, decide_eq_true_eq, not_and]; exact fun _ e => this e.symm)]
          exact ih
        · rw [if_neg (by simp only [Bool.and_eq_true, decide_eq_true_eq, not_and] at hv ⊢; exact fun h1 => absurd h1.2 (hv h1.1))]
          exact ih
      | attr v => rw [List.cons_append, getBasefromSimpleType, if_neg (fun e => hm rfl e.symm)]; exact ih
      | elem v => rw [List.cons_append, getBasefromSimpleType, if_neg (fun e => hm rfl e.symm)]; exact ih
      | complex v => exact ih
      | group v => exact ih
      | attrGroup v => exact ih

omit [Uni] in
theorem get_insert {x : Str} {new : Tree} (h : ∀ m ∈ nodes new, answers m = true → x ≠ nodeName m) (t1 t2 : Tree) :
    getBasefromSimpleType x (t1 ++ new ++ t2) = getBasefromSimpleType x (t1 ++ t2) := by
  induction t1 with
  | nil => exact get_skip h t2
  | cons a as ih =>
    cases a with
    | none => exact ih
    | some a =>
      cases a <;> simp only [List.cons_append, getBasefromSimpleType]
      all_goals first | exact ih | (split; rfl; exact ih)

/-- Two trees that say the same about the names asked for a component. -/
def Agrees (t t' : Tree) (n : Node Element) : Prop := ∀ x ∈ asked n, getBasefromSimpleType x t = getBasefromSimpleType x t'

omit [Uni] in
theorem resolve_of {t t' : Tree} {x : Str} (h : getBasefromSimpleType (Names.localPart x) t = getBasefromSimpleType (Names.localPart x) t') :
    resolveIn t x = resolveIn t' x := by
  unfold resolveIn
  rw [Names.localPart_eq]
  exact h

omit [Uni] in
theorem flatMap_eq {α : Type} {l : List α} {f g : α → Str} (h : ∀ x ∈ l, f x = g x) : l.flatMap f = l.flatMap g := by
  induction l with
  | nil => rfl
  | cons a l ih =>
    rw [List.flatMap_cons, List.flatMap_cons, h a (by simp), ih fun x hx => h x (by simp [hx])]

omit [Uni] in
theorem Agrees.simple {t t' : Tree} {v : SimpleType} (h : Agrees t t' (.simple v)) :
    resolveIn t v.base = resolveIn t' v.base ∧ ∀ m ∈ toSortedPairs v.memberTypes, memberType t m = memberType t' m := by
  refine ⟨resolve_of (h _ (by simp [asked])), fun m hm => ?_⟩
  unfold memberType
  by_cases he : m.2 = []
  · rw [if_pos he, if_pos he]
    exact h m.1 (List.mem_cons_of_mem _ (List.mem_map.2 ⟨m, List.mem_filter.2 ⟨(C08.toSortedPairs_perm _).mem_iff.1 hm, by simpa using he⟩, rfl⟩))
  · rw [if_neg he, if_neg he]

omit [Uni] in
theorem Agrees.attr {t t' : Tree} {v : Attribute} (h : Agrees t t' (.attr v)) : resolveIn t v.type = resolveIn t' v.type :=
  resolve_of (h _ (by simp [asked]))

omit [Uni] in
theorem Agrees.elem {t t' : Tree} {v : Element} (h : Agrees t t' (.elem v)) : resolveIn t v.type = resolveIn t' v.type :=
  resolve_of (h _ (by simp [asked]))

omit [Uni] in
theorem Agrees.complex {t t' : Tree} {v : ComplexType} (h : Agrees t t' (.complex v)) :
    resolveIn t v.base = resolveIn t' v.base ∧ (∀ a ∈ v.attributeGroup, resolveIn t a.ref = resolveIn t' a.ref) ∧
      (∀ a ∈ v.attributes, resolveIn t a.type = resolveIn t' a.type) ∧ (∀ a ∈ v.groups, resolveIn t a.ref = resolveIn t' a.ref) ∧
      ∀ a ∈ v.elements, resolveIn t a.type = resolveIn t' a.type := by
  have k : ∀ x ∈ v.attributes.map (·.type) ++ v.elements.map (·.type) ++ v.groups.map (·.ref) ++ v.attributeGroup.map (·.ref),
      resolveIn t x = resolveIn t' x := fun x hx =>
    resolve_of (h _ (List.mem_cons_of_mem _ (List.mem_map.2 ⟨x, hx, rfl⟩)))
  simp only [List.mem_append, List.mem_map] at k
  exact ⟨resolve_of (h _ (by simp [asked])), fun a ha => k _ (.inr ⟨a, ha, rfl⟩), fun a ha => k _ (.inl (.inl (.inl ⟨a, ha, rfl⟩))),
    fun a ha => k _ (.inl (.inr ⟨a, ha, rfl⟩)), fun a ha => k _ (.inl (.inl (.inr ⟨a, ha, rfl⟩)))⟩

omit [Uni] in
theorem Agrees.group {t t' : Tree} {v : Group} (h : Agrees t t' (.group v)) :
    (∀ a ∈ v.groups, resolveIn t a.ref = resolveIn t' a.ref) ∧ ∀ a ∈ v.elements, resolveIn t a.type = resolveIn t' a.type := by
  have k : ∀ x ∈ v.elements.map (·.type) ++ v.groups.map (·.ref), resolveIn t x = resolveIn t' x := fun x hx =>
    resolve_of (h _ (List.mem_map.2 ⟨x, hx, rfl⟩))
  simp only [List.mem_append, List.mem_map] at k
  exact ⟨fun a ha => k _ (.inr ⟨a, ha, rfl⟩), fun a ha => k _ (.inl ⟨a, ha, rfl⟩)⟩

omit [Uni] in
theorem Agrees.attrGroup {t t' : Tree} {v : AttributeGroup} (h : Agrees t t' (.attrGroup v)) :
    ∀ a ∈ v.attributes, resolveIn t a.type = resolveIn t' a.type := fun a ha =>
  resolve_of (h _ (List.mem_map.2 ⟨a.type, List.mem_map.2 ⟨a, ha, rfl⟩, rfl⟩))

/-! ## The declaration of a component says what the tree says about the names asked for it -/

theorem go_text {t t' : Tree} {n : Node Element} (h : Agrees t t' n) (fn : Str) : (goLang t).text n fn = (goLang t').text n fn := by
  cases n with
  | simple v =>
    obtain ⟨h1, h2⟩ := h.simple
    simp only [goLang, h1, flatMap_eq (l := toSortedPairs v.memberTypes) fun m hm => show goMemberLine t m = goMemberLine t' m by simp only [goMemberLine, h2 m hm]]
  | attr v => simp only [goLang, h.attr]
  | elem v => simp only [goLang, h.elem]
  | complex v =>
    obtain ⟨h1, h2, h3, h4, h5⟩ := h.complex
    simp only [goLang, goComplexContent,
      flatMap_eq (l := v.attributeGroup) fun m hm => show goAttrGroupLine t m = goAttrGroupLine t' m by simp only [goAttrGroupLine, h2 m hm],
      flatMap_eq (l := v.attributes) fun m hm => show goAttrLine t m = goAttrLine t' m by simp only [goAttrLine, h3 m hm],
      flatMap_eq (l := v.groups) fun m hm => show goGroupLine t m = goGroupLine t' m by simp only [goGroupLine, h4 m hm],
      flatMap_eq (l := v.elements) fun m hm => show goElemLine t m = goElemLine t' m by simp only [goElemLine, h5 m hm]]
  | group v =>
    obtain ⟨h1, h2⟩ := h.group
    simp only [goLang, flatMap_eq (l := v.groups) fun m hm => show goGroupLine t m = goGroupLine t' m by simp only [goGroupLine, h1 m hm],
      flatMap_eq (l := v.elements) fun m hm => show goGroupElemLine t m = goGroupElemLine t' m by simp only [goGroupElemLine, h2 m hm]]
  | attrGroup v =>
    have h1 := h.attrGroup
    simp only [goLang, flatMap_eq (l := v.attributes) fun m hm => show goAttrLine t m = goAttrLine t' m by simp only [goAttrLine, h1 m hm]]

theorem c_text {t t' : Tree} {n : Node Element} (h : Agrees t t' n) (fn : Str) : (cLang t).text n fn = (cLang t').text n fn := by
  cases n with
  | simple v =>
    obtain ⟨h1, h2⟩ := h.simple
    simp only [cLang, h1, flatMap_eq (l := toSortedPairs v.memberTypes) fun m hm => show cMemberLine t m = cMemberLine t' m by simp only [cMemberLine, h2 m hm]]
  | attr v => simp only [cLang, h.attr]
  | elem v => simp only [cLang, h.elem]
  | complex v =>
    obtain ⟨h1, h2, h3, h4, h5⟩ := h.complex
    simp only [cLang, cComplexContent,
      flatMap_eq (l := v.attributeGroup) fun m hm => show cAttrGroupLine t m = cAttrGroupLine t' m by simp only [cAttrGroupLine, h2 m hm],
      flatMap_eq (l := v.attributes) fun m hm => show cAttrLine t m = cAttrLine t' m by simp only [cAttrLine, h3 m hm],
      flatMap_eq (l := v.groups) fun m hm => show cGroupLine t m = cGroupLine t' m by simp only [cGroupLine, h4 m hm],
      flatMap_eq (l := v.elements) fun m hm => show cElemLine t m = cElemLine t' m by simp only [cElemLine, h5 m hm]]
  | group v =>
    obtain ⟨h1, h2⟩ := h.group
    simp only [cLang, flatMap_eq (l := v.groups) fun m hm => show cGroupLine t m = cGroupLine t' m by simp only [cGroupLine, h1 m hm],
      flatMap_eq (l := v.elements) fun m hm => show cGroupElemLine t m = cGroupElemLine t' m by simp only [cGroupElemLine, h2 m hm]]
  | attrGroup v =>
    have h1 := h.attrGroup
    simp only [cLang, flatMap_eq (l := v.attributes) fun m hm => show cAttrLine t m = cAttrLine t' m by simp only [cAttrLine, h1 m hm]]

theorem java_text {t t' : Tree} {n : Node Element} (h : Agrees t t' n) (fn : Str) : (javaLang t).text n fn = (javaLang t').text n fn := by
  cases n with
  | simple v =>
    obtain ⟨h1, h2⟩ := h.simple
    simp only [javaLang, h1, flatMap_eq (l := toSortedPairs v.memberTypes) fun m hm => show javaMemberLine t m = javaMemberLine t' m by simp only [javaMemberLine, h2 m hm]]
  | attr v => simp only [javaLang, h.attr]
  | elem v => simp only [javaLang, h.elem]
  | complex v =>
    obtain ⟨h1, h2, h3, h4, h5⟩ := h.complex
    simp only [javaLang, javaComplexContent, javaExtends, javaValueLine, h1,
      flatMap_eq (l := v.attributeGroup) fun m hm => show javaAttrGroupLine t m = javaAttrGroupLine t' m by simp only [javaAttrGroupLine, h2 m hm],
      flatMap_eq (l := v.attributes) fun m hm => show javaAttrLine t m = javaAttrLine t' m by simp only [javaAttrLine, h3 m hm],
      flatMap_eq (l := v.groups) fun m hm => show javaGroupLine t m = javaGroupLine t' m by simp only [javaGroupLine, h4 m hm],
      flatMap_eq (l := v.elements) fun m hm => show javaElemLine t m = javaElemLine t' m by simp only [javaElemLine, h5 m hm]]
  | group v =>
    obtain ⟨h1, h2⟩ := h.group
    simp only [javaLang, flatMap_eq (l := v.groups) fun m hm => show javaGroupLine t m = javaGroupLine t' m by simp only [javaGroupLine, h1 m hm],
      flatMap_eq (l := v.elements) fun m hm => show javaElemLine t m = javaElemLine t' m by simp only [javaElemLine, h2 m hm]]
  | attrGroup v =>
    have h1 := h.attrGroup
    simp only [javaLang,
      flatMap_eq (l := v.attributes) fun m hm => show javaAttrGroupAttrLine t m = javaAttrGroupAttrLine t' m by simp only [javaAttrGroupAttrLine, h1 m hm]]

theorem rust_text {t t' : Tree} {n : Node Element} (h : Agrees t t' n) (fn : Str) : (rustLang t).text n fn = (rustLang t').text n fn := by
  cases n with
  | simple v =>
    obtain ⟨h1, h2⟩ := h.simple
    simp only [rustLang, h1,
      flatMap_eq (l := toSortedPairs v.memberTypes) fun m hm => show rustMemberLine t v.name m = rustMemberLine t' v.name m by simp only [rustMemberLine, h2 m hm]]
  | attr v => simp only [rustLang, rustGroupMember, h.attr]
  | elem v => simp only [rustLang, rustGroupMember, h.elem]
  | complex v =>
    obtain ⟨h1, h2, h3, h4, h5⟩ := h.complex
    simp only [rustLang, rustComplexContent, rustBaseLine, h1,
      flatMap_eq (l := v.attributeGroup) fun m hm => show rustAttrGroupLine t m = rustAttrGroupLine t' m by simp only [rustAttrGroupLine, h2 m hm],
      flatMap_eq (l := v.attributes) fun m hm => show rustAttrLine t m = rustAttrLine t' m by simp only [rustAttrLine, h3 m hm],
      flatMap_eq (l := v.groups) fun m hm => show rustGroupLine t m = rustGroupLine t' m by simp only [rustGroupLine, h4 m hm],
      flatMap_eq (l := v.elements) fun m hm => show rustElemLine t m = rustElemLine t' m by simp only [rustElemLine, h5 m hm]]
  | group v =>
    obtain ⟨h1, h2⟩ := h.group
    have e1 := flatMap_eq (l := v.groups) fun m hm => show rustGroupMember t v.plural m.name m.ref = rustGroupMember t' v.plural m.name m.ref by
      simp only [rustGroupMember, h1 m hm]
    have e2 := flatMap_eq (l := v.elements) fun m hm => show rustGroupMember t v.plural m.name m.type = rustGroupMember t' v.plural m.name m.type by
      simp only [rustGroupMember, h2 m hm]
    simp only [rustLang, e1, e2]
  | attrGroup v =>
    have h1 := h.attrGroup
    simp only [rustLang,
      flatMap_eq (l := v.attributes) fun m hm => show rustAttrGroupAttrLine t m = rustAttrGroupAttrLine t' m by simp only [rustAttrGroupAttrLine, h1 m hm]]

theorem ts_text {t t' : Tree} {n : Node Element} (h : Agrees t t' n) (fn : Str) : (tsLang t).text n fn = (tsLang t').text n fn := by
  cases n with
  | simple v =>
    obtain ⟨h1, h2⟩ := h.simple
    simp only [tsLang, h1, flatMap_eq (l := toSortedPairs v.memberTypes) fun m hm => show tsMemberLine t m = tsMemberLine t' m by simp only [tsMemberLine, h2 m hm]]
  | attr v => simp only [tsLang, h.attr]
  | elem v => simp only [tsLang, h.elem]
  | complex v =>
    obtain ⟨h1, h2, h3, h4, h5⟩ := h.complex
    simp only [tsLang, tsComplexContent, tsExtends, tsValueLine, h1,
      flatMap_eq (l := v.attributeGroup) fun m hm => show tsAttrGroupLine t m = tsAttrGroupLine t' m by simp only [tsAttrGroupLine, h2 m hm],
      flatMap_eq (l := v.attributes) fun m hm => show tsAttrLine t m = tsAttrLine t' m by simp only [tsAttrLine, h3 m hm],
      flatMap_eq (l := v.groups) fun m hm => show tsGroupLine t m = tsGroupLine t' m by simp only [tsGroupLine, h4 m hm],
      flatMap_eq (l := v.elements) fun m hm => show tsElemLine t m = tsElemLine t' m by simp only [tsElemLine, h5 m hm]]
  | group v =>
    obtain ⟨h1, h2⟩ := h.group
    simp only [tsLang, flatMap_eq (l := v.groups) fun m hm => show tsGroupLine t m = tsGroupLine t' m by simp only [tsGroupLine, h1 m hm],
      flatMap_eq (l := v.elements) fun m hm => show tsElemLine t m = tsElemLine t' m by simp only [tsElemLine, h2 m hm]]
  | attrGroup v =>
    have h1 := h.attrGroup
    simp only [tsLang, flatMap_eq (l := v.attributes) fun m hm => show tsAttrLine t m = tsAttrLine t' m by simp only [tsAttrLine, h1 m hm]]

/-! ## Which components are declared, and under which names -/

omit [Uni] in
theorem named_of {L L' : Lang} (hb : L.base = L'.base) (hu : L.unique = L'.unique) (used : List Str) (ns : List (Node Element)) :
    named L used ns = named L' used ns := by
  induction ns generalizing used with
  | nil => rfl
  | cons n ns ih => simp only [named, finalName, hb, hu, ih]

omit [Uni] in
theorem declared_of {L L' : Lang} (hf : L.free = L'.free) (ns : List (Node Element)) : declared L ns = declared L' ns := by
  induction ns with
  | nil => rfl
  | cons n ns ih => simp only [declared, hf, ih]

omit [Uni] in
/-- What of `b` is declared after `a`. -/
theorem declared_append (L : Lang) (a b : List (Node Element)) : declared L (a ++ b) = declared L a ++
    (declared L b).filter fun m => L.free m || a.all fun n => L.free n || decide (nodeName m ≠ nodeName n) := by
  induction a with
  | nil => exact (List.filter_eq_self.2 (by simp)).symm
  | cons n a ih =>
    rw [List.cons_append, declared, ih, declared]
    by_cases hf : L.free n = true
    · simp [hf]
    · simp only [hf, Bool.false_eq_true, if_false, List.filter_append, List.filter_filter, List.cons_append, List.all_cons, Bool.false_or]
      congr 2
      apply List.filter_congr
      intro m _
      cases L.free m <;> simp

omit [Uni] in
/-- The target names taken after `a`. -/
def taken (L : Lang) (used : List Str) (a : List (Node Element)) : List Str :=
  a.foldl (fun u n => if L.unique n then L.base n :: u else u) used

omit [Uni] in
theorem named_append (L : Lang) (used : List Str) (a b : List (Node Element)) :
    named L used (a ++ b) = named L used a ++ named L (taken L used a) b := by
  induction a generalizing used with
  | nil => rfl
  | cons n a ih => rw [List.cons_append, named, named, ih]; rfl

omit [Uni] in
theorem named_used {L : Lang} {u u' : List Str} {b : List (Node Element)} (h : ∀ n ∈ b, u.count (L.base n) = u'.count (L.base n)) :
    named L u b = named L u' b := by
  induction b generalizing u u' with
  | nil => rfl
  | cons n b ih =>
    rw [named, named, finalName, finalName, h n (by simp)]
    congr 1
    refine ih fun m hm => ?_
    split
    · rw [List.count_cons, List.count_cons, h m (by simp [hm])]
    · exact h m (by simp [hm])

omit [Uni] in
theorem count_taken {L : Lang} {used : List Str} {a : List (Node Element)} {x : Str} (h : ∀ n ∈ a, x ≠ L.base n) :
    (taken L used a).count x = used.count x := by
  induction a generalizing used with
  | nil => rfl
  | cons n a ih =>
    show (taken L (if L.unique n then L.base n :: used else used) a).count x = _
    rw [ih fun m hm => h m (by simp [hm])]
    split
    · rw [List.count_cons, if_neg (by simpa using fun e => h n (by simp) (Eq.symm e)), Nat.add_zero]
    · rfl

omit [Uni] in
theorem nodes_append (a b : Tree) : nodes (a ++ b) = nodes a ++ nodes b := List.filterMap_append

omit [Uni] in
/-- The components of `t1 ++ t2` are declared under the same names when `new` is inserted. -/
theorem named_insert (L : Lang) (t1 new t2 : Tree) (h : Apart L.base new t2) :
    ∃ X Y Z, named L [] (declared L (nodes (t1 ++ t2))) = X ++ Z ∧ named L [] (declared L (nodes (t1 ++ new ++ t2))) = X ++ Y ++ Z ∧
      (∀ x ∈ X ++ Z, x.1 ∈ nodes (t1 ++ t2)) ∧ (t2 = [] → Z = []) := by
  have hd : declared L (nodes t2) = (declared L (nodes t2)).filter fun m => L.free m ||
      (nodes new).all fun n => L.free n || decide (nodeName m ≠ nodeName n) := by
    symm
    rw [List.filter_eq_self]
    intro m hm
    have hm' := (declared_sublist L (nodes t2)).subset hm
    rw [Bool.or_eq_true]
    refine .inr (List.all_eq_true.2 fun n hn => ?_)
    rw [Bool.or_eq_true]
    exact .inr (decide_eq_true (h m hm' n hn).1)
  let Z := (declared L (nodes t2)).filter fun m => L.free m || (nodes t1).all fun n => L.free n || decide (nodeName m ≠ nodeName n)
  let Y := (declared L (nodes new)).filter fun m => L.free m || (nodes t1).all fun n => L.free n || decide (nodeName m ≠ nodeName n)
  have hZ : ∀ n ∈ Z, n ∈ nodes t2 := fun n hn => (declared_sublist L (nodes t2)).subset (List.mem_filter.1 hn).1
  have hY : ∀ n ∈ Y, n ∈ nodes new := fun n hn => (declared_sublist L (nodes new)).subset (List.mem_filter.1 hn).1
  have e1 : declared L (nodes (t1 ++ t2)) = declared L (nodes t1) ++ Z := by rw [nodes_append, declared_append]
  have e2 : declared L (nodes (t1 ++ new ++ t2)) = declared L (nodes t1) ++ Y ++ Z := by
    rw [nodes_append, nodes_append, declared_append, declared_append]
    congr 1
    simp only [Z]
    conv => rhs; rw [hd]
    rw [List.filter_filter]
    apply List.filter_congr
    intro m _
    rw [List.all_append]
    cases L.free m <;> simp
  refine ⟨named L [] (declared L (nodes t1)), named L (taken L [] (declared L (nodes t1))) Y,
    named L (taken L [] (declared L (nodes t1))) Z, ?_, ?_, ?_, ?_⟩
  · rw [e1, named_append]
  · rw [e2, named_append, named_append]
    congr 1
    refine named_used fun n hn => ?_
    rw [show taken L [] (declared L (nodes t1) ++ Y) = taken L (taken L [] (declared L (nodes t1))) Y from List.foldl_append]
    exact count_taken fun m hm => (h n (hZ n hn) m (hY m hm)).2
  · intro x hx
    rw [nodes_append]
    rcases List.mem_append.1 hx with hx | hx
    · refine List.mem_append_left _ ((declared_sublist L (nodes t1)).subset ?_)
      rw [← map_fst_named L [] (declared L (nodes t1))]
      exact List.mem_map.2 ⟨x, hx, rfl⟩
    · refine List.mem_append_right _ (hZ _ ?_)
      rw [← map_fst_named L _ Z]
      exact List.mem_map.2 ⟨x, hx, rfl⟩
  · rintro rfl; rfl

/-! ## Texts -/

/-- The name a component gets in a target language, without a number. -/
def target (lang : Str) (n : Node Element) : Str :=
  if lang = c!"Go" then Names.strict (nodeName n) else if lang = c!"Rust" then C56.Rust.baseName n else Names.plain (nodeName n)

/-- The text a generator makes of a tree; for Go, before it is formatted. -/
def source (lang pkg : Str) (t : Tree) : Str :=
  if lang = c!"Go" then goSource pkg t else if lang = c!"C" then cSource t else if lang = c!"Java" then javaSource pkg t
  else if lang = c!"Rust" then rustSource t else tsSource t

theorem lang_text {lang : Str} {t t' : Tree} {n : Node Element} (h : Agrees t t' n) (fn : Str) :
    (langOf lang t).text n fn = (langOf lang t').text n fn := by
  unfold langOf
  split
  · exact go_text h fn
  split
  · exact c_text h fn
  split
  · exact java_text h fn
  split
  · exact rust_text h fn
  · exact ts_text h fn

theorem lang_same (lang : Str) (t t' : Tree) : (langOf lang t).base = (langOf lang t').base ∧ (langOf lang t).unique = (langOf lang t').unique ∧
    (langOf lang t).free = (langOf lang t').free := by
  unfold langOf
  split
  · exact ⟨rfl, rfl, rfl⟩
  split
  · exact ⟨rfl, rfl, rfl⟩
  split
  · exact ⟨rfl, rfl, rfl⟩
  split
  · exact ⟨rfl, rfl, rfl⟩
  · exact ⟨rfl, rfl, rfl⟩

theorem lang_base [UniLaws] {lang : Str} (t : Tree) (hl : lang ∈ C41.langs) : (langOf lang t).base = target lang := by
  funext n
  simp only [C41.langs, List.mem_cons, List.not_mem_nil, or_false] at hl
  rcases hl with rfl | rfl | rfl | rfl | rfl
  · exact Names.go_name _
  · exact Names.ts_name _
  · exact Names.c_name _
  · exact Names.java_name _
  · cases n with
    | elem v => exact Names.rust_member_name _
    | attr v => exact Names.rust_member_name _
    | _ => exact Names.rust_struct_name _

theorem body_named (lang : Str) (t : Tree) (h : lang = c!"TypeScript" → ListsNew (nodes t)) (hl : lang ∈ C41.langs) :
    bodyOf lang t = (named (langOf lang t) [] (declared (langOf lang t) (nodes t))).flatMap fun x => (langOf lang t).text x.1 x.2 := by
  obtain ⟨h1, h2, h3, h4, h5⟩ := C15.files t
  simp only [C41.langs, List.mem_cons, List.not_mem_nil, or_false] at hl
  rcases hl with rfl | rfl | rfl | rfl | rfl
  · exact h1
  · exact h5 (h rfl)
  · exact h2
  · exact h3
  · exact h4

/-- The declarations, with one list of them inserted. -/
theorem pieces [UniLaws] {lang : Str} (hl : lang ∈ C41.langs) {t1 new t2 : Tree} (ha : Apart (target lang) new t2) :
    ∃ X Y Z, named (langOf lang (t1 ++ t2)) [] (declared (langOf lang (t1 ++ t2)) (nodes (t1 ++ t2))) = X ++ Z ∧
      named (langOf lang (t1 ++ new ++ t2)) [] (declared (langOf lang (t1 ++ new ++ t2)) (nodes (t1 ++ new ++ t2))) = X ++ Y ++ Z ∧
      (∀ x ∈ X ++ Z, x.1 ∈ nodes (t1 ++ t2)) ∧ (t2 = [] → Z = []) := by
  obtain ⟨e1, e2, e3⟩ := lang_same lang (t1 ++ new ++ t2) (t1 ++ t2)
  obtain ⟨X, Y, Z, h1, h2, h3, h4⟩ := named_insert (langOf lang (t1 ++ t2)) t1 new t2 (by rw [lang_base _ hl]; exact ha)
  exact ⟨X, Y, Z, h1, by rw [named_of e1 e2, declared_of e3]; exact h2, h3, h4⟩

omit [Uni] in
theorem Uncalled.agrees {t1 new t2 : Tree} (h : Uncalled new (t1 ++ t2)) : ∀ n ∈ nodes (t1 ++ t2), Agrees (t1 ++ t2) (t1 ++ new ++ t2) n :=
  fun n hn x hx => (get_insert (h n hn x hx) t1 t2).symm

theorem body_inserted [UniLaws] {lang : Str} (hl : lang ∈ C41.langs) {t1 new t2 : Tree} (hc : Uncalled new (t1 ++ t2))
    (ha : Apart (target lang) new t2) (h1 : lang = c!"TypeScript" → ListsNew (nodes (t1 ++ t2)))
    (h2 : lang = c!"TypeScript" → ListsNew (nodes (t1 ++ new ++ t2))) :
    ∃ x y z, bodyOf lang (t1 ++ t2) = x ++ z ∧ bodyOf lang (t1 ++ new ++ t2) = x ++ y ++ z ∧ (t2 = [] → z = []) := by
  obtain ⟨X, Y, Z, e1, e2, e3, e4⟩ := pieces (t1 := t1) hl ha
  have e : ∀ l : List (Node Element × Str), (∀ x ∈ l, x ∈ X ++ Z) → l.flatMap (fun x => (langOf lang (t1 ++ new ++ t2)).text x.1 x.2) =
      l.flatMap fun x => (langOf lang (t1 ++ t2)).text x.1 x.2 := fun l h =>
    flatMap_eq fun x hx => (lang_text (hc.agrees x.1 (e3 x (h x hx))) x.2).symm
  rw [body_named lang _ h1 hl, body_named lang _ h2 hl, e1, e2]
  refine ⟨_, Y.flatMap fun x => (langOf lang (t1 ++ new ++ t2)).text x.1 x.2, _, List.flatMap_append, ?_, fun h => by rw [e4 h]; rfl⟩
  rw [List.flatMap_append, List.flatMap_append, e X (fun x h => List.mem_append_left _ h), e Z (fun x h => List.mem_append_right _ h)]

/-! ## The imports of a Go file -/

theorem time_grows [UniLaws] {t1 new t2 : Tree} (hc : Uncalled new (t1 ++ t2)) (ha : Apart (target c!"Go") new t2)
    (h : (goGen (t1 ++ t2)).importTime = true) : (goGen (t1 ++ new ++ t2)).importTime = true := by
  obtain ⟨X, Y, Z, e1, e2, e3, e4⟩ := pieces (lang := c!"Go") (by decide) (t1 := t1) ha
  rw [C16.time_flag] at h ⊢
  rw [show C16.decls (t1 ++ t2) = X ++ Z from e1] at h
  rw [show C16.decls (t1 ++ new ++ t2) = X ++ Y ++ Z from e2]
  obtain ⟨x, hx, hf⟩ := List.any_eq_true.1 h
  refine List.any_eq_true.2 ⟨x, ?_, ?_⟩
  · rcases List.mem_append.1 hx with hx | hx <;> simp [hx]
  · have hg := hc.agrees x.1 (e3 x hx)
    generalize x.1 = n at hg hf
    cases n with
    | simple v =>
      simp only [C16.timeFlag, C16.goType, ← hg.simple.1] at hf ⊢
      exact hf
    | complex v =>
      obtain ⟨g1, g2, g3, g4, g5⟩ := hg.complex
      simp only [C16.timeFlag, Bool.or_eq_true, List.any_eq_true, decide_eq_true_eq] at hf ⊢
      rcases hf with (⟨a, h1, h2⟩ | ⟨a, h1, h2⟩) | ⟨a, h1, h2⟩
      · exact .inl (.inl ⟨a, h1, by have e := g2 a h1; unfold C16.goType at h2 ⊢; rw [← e]; exact h2⟩)
      · exact .inl (.inr ⟨a, h1, by have e := g3 a h1; unfold C16.goType at h2 ⊢; rw [← e]; exact h2⟩)
      · exact .inr ⟨a, h1, by have e := g5 a h1; unfold C16.goType at h2 ⊢; rw [← e]; exact h2⟩
    | attr v => cases hf
    | elem v => cases hf
    | group v => cases hf
    | attrGroup v => cases hf

theorem xml_grows [UniLaws] {t1 new t2 : Tree} (ha : Apart (target c!"Go") new t2)
    (h : (goGen (t1 ++ t2)).importEncodingXML = true) : (goGen (t1 ++ new ++ t2)).importEncodingXML = true := by
  obtain ⟨X, Y, Z, e1, e2, e3, e4⟩ := pieces (lang := c!"Go") (by decide) (t1 := t1) ha
  rw [C16.xml_flag] at h ⊢
  rw [show C16.decls (t1 ++ t2) = X ++ Z from e1] at h
  rw [show C16.decls (t1 ++ new ++ t2) = X ++ Y ++ Z from e2]
  obtain ⟨x, hx, hf⟩ := List.any_eq_true.1 h
  refine List.any_eq_true.2 ⟨x, ?_, hf⟩
  rcases List.mem_append.1 hx with hx | hx <;> simp [hx]

omit [Uni] in
theorem imports_grow (g g' : Gen) (h1 : g.importTime = true → g'.importTime = true)
    (h2 : g.importEncodingXML = true → g'.importEncodingXML = true) : Inserted (goImports g) (goImports g') := by
  unfold goImports
  generalize g.importTime = a at h1 ⊢
  generalize g'.importTime = a' at h1 ⊢
  generalize g.importEncodingXML = b at h2 ⊢
  generalize g'.importEncodingXML = b' at h2 ⊢
  have same : ∀ x : Str, Inserted x x := fun x => ⟨x, [], [], (List.append_nil _).symm, by simp⟩
  have all : ∀ x : Str, Inserted [] x := fun x => ⟨[], x, [], rfl, (List.append_nil _).symm⟩
  cases a with
  | true =>
    cases h1 rfl
    cases b with
    | true => cases h2 rfl; exact same _
    | false =>
      cases b' with
      | true => exact ⟨c!"import (\n\t\"time\"\n", c!"\t\"encoding/xml\"\n", c!")", rfl, rfl⟩
      | false => exact same _
  | false =>
    cases b with
    | true =>
      cases h2 rfl
      cases a' with
      | true => exact ⟨c!"import (\n", c!"\t\"time\"\n", c!"\t\"encoding/xml\"\n)", rfl, rfl⟩
      | false => exact same _
    | false => exact all _

/-! ## The property -/

theorem source_inserted [UniLaws] (lang pkg : Str) (hl : lang ∈ C41.langs) (t1 new t2 : Tree) (hc : Uncalled new (t1 ++ t2))
    (ha : Apart (target lang) new t2)
    (hts : lang = c!"TypeScript" → ListsNew (nodes (t1 ++ t2)) ∧ ListsNew (nodes (t1 ++ new ++ t2))) :
    ∃ h h' x y z, source lang pkg (t1 ++ t2) = h ++ x ++ z ∧ source lang pkg (t1 ++ new ++ t2) = h' ++ x ++ y ++ z ∧
      Inserted h h' ∧ (lang ≠ c!"Go" → h = h') ∧ (t2 = [] → z = []) := by
  obtain ⟨x, y, z, h1, h2, h0⟩ := body_inserted hl hc ha (fun h => (hts h).1) fun h => (hts h).2
  have plain : ∀ h : Str, source lang pkg (t1 ++ t2) = h ++ bodyOf lang (t1 ++ t2) →
      source lang pkg (t1 ++ new ++ t2) = h ++ bodyOf lang (t1 ++ new ++ t2) →
      ∃ h h' x y z, source lang pkg (t1 ++ t2) = h ++ x ++ z ∧ source lang pkg (t1 ++ new ++ t2) = h' ++ x ++ y ++ z ∧
      Inserted h h' ∧ (lang ≠ c!"Go" → h = h') ∧ (t2 = [] → z = []) := by
    intro h e1 e2
    exact ⟨h, h, x, y, z, by rw [e1, h1, List.append_assoc], by rw [e2, h2]; simp only [List.append_assoc],
      ⟨h, [], [], (List.append_nil _).symm, by simp⟩, fun _ => rfl, h0⟩
  simp only [C41.langs, List.mem_cons, List.not_mem_nil, or_false] at hl
  rcases hl with rfl | rfl | rfl | rfl | rfl
  · obtain ⟨p, q, r, h3, h4⟩ := imports_grow _ _ (time_grows hc ha) (xml_grows (t1 := t1) ha)
    refine ⟨copyright ++ c!"\n\npackage " ++ packageName pkg ++ c!"\n" ++ goImports (goGen (t1 ++ t2)),
      copyright ++ c!"\n\npackage " ++ packageName pkg ++ c!"\n" ++ goImports (goGen (t1 ++ new ++ t2)), x, y, z, ?_, ?_, ?_,
      fun h => absurd rfl h, h0⟩
    · rw [List.append_assoc _ x z, ← h1]; rfl
    · rw [show ∀ a : Str, a ++ x ++ y ++ z = a ++ (x ++ y ++ z) from fun a => by simp only [List.append_assoc], ← h2]; rfl
    · exact ⟨copyright ++ c!"\n\npackage " ++ packageName pkg ++ c!"\n" ++ p, q, r, by rw [h3]; simp only [List.append_assoc],
        by rw [h4]; simp only [List.append_assoc]⟩
  · exact plain _ rfl rfl
  · exact plain _ rfl rfl
  · exact plain _ rfl rfl
  · exact plain _ rfl rfl

/-- A source with declarations inserted and, in Go, maybe imports before them. -/
def Grown (lang a b : Str) : Prop := ∃ h h' x y z, a = h ++ x ++ z ∧ b = h' ++ x ++ y ++ z ∧ Inserted h h' ∧ (lang ≠ c!"Go" → h = h')

/-- C88, trees: components that nothing refers to, and that later components cannot be confused with, are inserted into the
generated source; everything else stays as it was.  Missing: references to the new components, and components after them with
their names (`captured`, `hidden`, `renumbered`); for TypeScript, list types with enumeration values after a component of their
name (C15). -/
theorem inserted_partial [UniLaws] (lang pkg : Str) (hl : lang ∈ C41.langs) (t1 new t2 : Tree) (hc : Uncalled new (t1 ++ t2))
    (ha : Apart (target lang) new t2)
    (hts : lang = c!"TypeScript" → ListsNew (nodes (t1 ++ t2)) ∧ ListsNew (nodes (t1 ++ new ++ t2))) :
    Grown lang (source lang pkg (t1 ++ t2)) (source lang pkg (t1 ++ new ++ t2)) := by
  obtain ⟨h, h', x, y, z, h1, h2, h3, h4, -⟩ := source_inserted lang pkg hl t1 new t2 hc ha hts
  exact ⟨h, h', x, y, z, h1, h2, h3, h4⟩

/-! ## Documents -/

section
open C71 (NodeOk Ok Ok0 Bound Linked typeNames itemNames)

omit [Uni] in
theorem bare_tree (lang : Str) (ds : List (Core.Decl × List Str)) : ∀ t t' : Tree, C57.bare t = C57.bare t' →
    C57.bare (treeDoc (typeRef lang false) t ds) = C57.bare (treeOf (typeRef lang false) t' (ds.map (·.1))) := by
  induction ds with
  | nil => exact fun t t' h => h
  | cons d ds ih =>
    intro t t' h
    refine ih _ _ ?_
    rw [C67.bare_append, C67.bare_append, C67.bare_docLast, h, ← C67.typeRef_blind lang false t, h, C67.typeRef_blind lang false t']

omit [Uni] in
/-- Where lookups can end in the components of a declaration. -/
theorem answers_valued (w : Str) (ty : Str → Str) (d : Core.Decl) : ∀ m ∈ docLast w (d.nodes ty), answers m = true → nodeName m ∈ C70.valued d := by
  have hset : ∀ ns : List (Node Element), ∀ m ∈ docLast w ns, ∃ n ∈ ns, answers m = answers n ∧ nodeName m = nodeName n := by
    intro ns
    induction ns with
    | nil => intro m hm; cases hm
    | cons n ns ih =>
      intro m hm
      cases ns with
      | nil =>
        rw [List.mem_singleton.1 hm]
        exact ⟨n, List.mem_cons_self, by cases n <;> exact ⟨rfl, rfl⟩⟩
      | cons k ns =>
        rcases List.mem_cons.1 hm with rfl | hm
        · exact ⟨_, List.mem_cons_self, rfl, rfl⟩
        · obtain ⟨n', h1, h2⟩ := ih m hm
          exact ⟨n', List.mem_cons_of_mem _ h1, h2⟩
  intro m hm ha
  obtain ⟨n, hn, e1, e2⟩ := hset _ m hm
  rw [e1] at ha
  rw [e2]
  cases d with
  | simple as b =>
    rw [List.mem_singleton.1 hn] at ha ⊢
    cases b with
    | restriction ras fs => exact List.mem_singleton.2 rfl
    | list las => cases ha
    | union uas => cases ha
  | complex as b =>
    rcases List.mem_append.1 hn with h | h
    · obtain ⟨c, -, rfl⟩ := List.mem_map.1 h
      cases ha
    · rw [List.mem_singleton.1 h] at ha
      cases ha
  | element as =>
    rw [List.mem_singleton.1 hn]
    exact List.mem_singleton.2 rfl
  | anon as cas b =>
    rcases List.mem_append.1 hn with h | h
    · obtain ⟨c, -, rfl⟩ := List.mem_map.1 h
      cases ha
    · rcases List.mem_cons.1 h with rfl | h
      · cases ha
      · rw [List.mem_singleton.1 h]
        exact List.mem_singleton.2 rfl
  | elemAnon as ras fs =>
    rw [List.mem_singleton.1 hn]
    exact List.mem_singleton.2 rfl
  | group as b =>
    rw [List.mem_singleton.1 hn] at ha
    cases ha
  | attrGroup as b =>
    rcases List.mem_append.1 hn with h | h
    · obtain ⟨c, -, rfl⟩ := List.mem_map.1 h
      cases ha
    · rw [List.mem_singleton.1 h] at ha
      cases ha
  | «attribute» as =>
    rw [List.mem_singleton.1 hn]
    exact List.mem_singleton.2 rfl
  | attrAnon as ras fs =>
    rw [List.mem_singleton.1 hn]
    exact List.mem_singleton.2 rfl

omit [Uni] in
theorem tree_answers (ref : Tree → Str → Str) (es : List (Core.Decl × List Str)) : ∀ t, ∃ new, treeDoc ref t es = t ++ new ∧
    ∀ m ∈ nodes new, answers m = true → ∃ e ∈ es, nodeName m ∈ C70.valued e.1 := by
  induction es with
  | nil => exact fun t => ⟨[], (List.append_nil t).symm, fun m hm => by cases hm⟩
  | cons e es ih =>
    intro t
    obtain ⟨new, h1, h2⟩ := ih (t ++ (docLast (docOf e.2) (e.1.nodes (ref t))).map some)
    refine ⟨_, by rw [treeDoc, h1, List.append_assoc], fun m hm ha => ?_⟩
    rw [C67.nodes_append, C67.nodes_some] at hm
    rcases List.mem_append.1 hm with hm | hm
    · exact ⟨e, List.mem_cons_self, answers_valued _ _ _ m hm ha⟩
    · obtain ⟨x, hx, h⟩ := h2 m hm ha
      exact ⟨x, List.mem_cons_of_mem _ hx, h⟩

omit [Uni] in
/-- In a tree without dangling references, only target types and components are looked up. -/
theorem asked_ok {lang : Str} {t : Tree} (h : Linked lang t) : ∀ n ∈ nodes t, ∀ x ∈ asked n,
    x = [] ∨ (∃ k, getBuildInTypeByLang k lang = some x) ∨ x ∈ (nodes t).map nodeName := by
  have hn : ∀ s, Ok0 lang (typeNames t) (itemNames t) s → Names.localPart s = [] ∨
      (∃ k, getBuildInTypeByLang k lang = some (Names.localPart s)) ∨ Names.localPart s ∈ (nodes t).map nodeName := by
    intro s hs
    rcases hs with hs | ⟨hs, hc⟩
    · rw [C71.ok_local hs]
      refine hs.imp id (Or.imp id fun h => ?_)
      obtain ⟨m, hm, e⟩ := List.mem_map.1 h.1
      exact List.mem_map.2 ⟨m, (List.mem_filter.1 hm).1, e⟩
    · rw [C71.localPart_plain hc.colon]
      obtain ⟨m, hm, e⟩ := List.mem_map.1 hs
      exact .inr (.inr (List.mem_map.2 ⟨m, (List.mem_filter.1 hm).1, e⟩))
  have h0 : ∀ s, Ok lang (typeNames t) s → Names.localPart s = [] ∨
      (∃ k, getBuildInTypeByLang k lang = some (Names.localPart s)) ∨ Names.localPart s ∈ (nodes t).map nodeName := fun s hs => hn s (.inl hs)
  intro n hm x hx
  have ok := h n hm
  cases n with
  | simple v =>
    rcases List.mem_cons.1 hx with rfl | hx
    · exact h0 _ ok.2.1
    · obtain ⟨m, hm, rfl⟩ := List.mem_map.1 hx
      obtain ⟨h1, h2⟩ := List.mem_filter.1 hm
      exact absurd (of_decide_eq_true h2) (ok.2.2 m h1).1
  | attr v => rw [List.mem_singleton.1 hx]; exact h0 _ ok.2
  | elem v => rw [List.mem_singleton.1 hx]; exact h0 _ ok.2
  | complex v =>
    obtain ⟨o1, o2, o3, o4, o5⟩ := ok
    rcases List.mem_cons.1 hx with rfl | hx
    · exact h0 _ o1
    · obtain ⟨s, hs, rfl⟩ := List.mem_map.1 hx
      rcases List.mem_append.1 hs with hs | hs
      · rcases List.mem_append.1 hs with hs | hs
        · rcases List.mem_append.1 hs with hs | hs
          · obtain ⟨a, ha, rfl⟩ := List.mem_map.1 hs; exact hn _ (o3 a ha)
          · obtain ⟨a, ha, rfl⟩ := List.mem_map.1 hs; exact hn _ (o2 a ha)
        · obtain ⟨a, ha, rfl⟩ := List.mem_map.1 hs; exact h0 _ (o4 a ha)
      · obtain ⟨a, ha, rfl⟩ := List.mem_map.1 hs; exact h0 _ (o5 a ha)
  | group v =>
    obtain ⟨s, hs, rfl⟩ := List.mem_map.1 hx
    rcases List.mem_append.1 hs with hs | hs
    · obtain ⟨a, ha, rfl⟩ := List.mem_map.1 hs; exact hn _ (ok.1 a ha)
    · obtain ⟨a, ha, rfl⟩ := List.mem_map.1 hs; exact h0 _ (ok.2 a ha)
  | attrGroup v =>
    obtain ⟨s, hs, rfl⟩ := List.mem_map.1 hx
    obtain ⟨a, ha, rfl⟩ := List.mem_map.1 hs
    exact hn _ (ok a ha)

/-- New declarations none of whose names mean anything in the old schema: no target type of the table, and no name of a
component.  Only restrictions, elements and attributes matter. -/
def Fresh (lang : Str) (ds es : List Core.Decl) : Prop :=
  ∀ e ∈ es, ∀ s ∈ C70.valued e, s ≠ [] ∧ (∀ k, getBuildInTypeByLang k lang ≠ some s) ∧ ∀ d ∈ ds, s ∉ C67.names d

/-- The new source is the old one with declarations after it - and, in Go, maybe more imports in front. -/
def Extended (lang a b : Str) : Prop := ∃ h h' x y, a = h ++ x ∧ b = h' ++ x ++ y ∧ Inserted h h' ∧ (lang ≠ c!"Go" → h = h')

theorem source_appended [UniLaws] (lang pkg : Str) (hl : lang ∈ C41.langs) (t new : Tree) (hc : Uncalled new t)
    (h1 : ∀ n ∈ nodes t, isEnumList n = false) (h2 : ∀ n ∈ nodes (t ++ new), isEnumList n = false) :
    Extended lang (source lang pkg t) (source lang pkg (t ++ new)) := by
  obtain ⟨h, h', x, y, z, e1, e2, e3, e4, e5⟩ := source_inserted lang pkg hl t new [] (by rw [List.append_nil]; exact hc)
    (fun n hn => by cases hn) fun _ => by rw [List.append_nil, List.append_nil]; exact ⟨.of_none h1, .of_none h2⟩
  rw [e5 rfl, List.append_nil] at e1 e2
  rw [List.append_nil] at e1 e2
  exact ⟨h, h', x, y, e1, e2, e3, e4⟩

omit [Uni] in
theorem placed_front {ref : Tree → Str → Str} {ds es : List Core.Decl} : ∀ {t : Tree}, Core.Placed ref t (ds ++ es) → Core.Placed ref t ds := by
  induction ds with
  | nil => exact fun _ => trivial
  | cons d ds ih => exact fun h => ⟨h.1, ih h.2⟩

omit [Uni] in
theorem safe_front {ds es : List Core.Decl} : ∀ {m : Core.Mode}, Core.Safe m (ds ++ es) → Core.Safe m ds := by
  induction ds with
  | nil => exact fun _ => trivial
  | cons d ds ih => exact fun h => ⟨h.1, ih h.2⟩

omit [Uni] in
theorem regular_front {ref : Tree → Str → Str} {ds es : List Core.Decl} {t : Tree} (h : Core.Regular ref t (ds ++ es)) :
    Core.Regular ref t ds := ⟨placed_front h.placed, safe_front h.safe⟩

/-- What a successful run on a documented schema yields. -/
theorem run_source [UniLaws] {W : World} {cfg : Cfg} {ext : Str} (hl : (cfg.lang, ext) ∈ C24.extensions) (hx : cfg.extract = false)
    {toks : List Token} (hf : W.fs.get? cfg.filePath = some (.file toks)) (hn : C32.NamesOk toks) {as : List Attr}
    {ds : List (Core.Decl × List Str)} (ht : skeleton toks = skeleton (documentedTokens as ds)) {sh : Shared} (ha : C40.Alone W cfg sh)
    (hd : Core.Regular (typeRef cfg.lang false) [] (ds.map (·.1))) (hp : C67.Plain (ds.map (·.1)))
    {t : Tree} {sh' : Shared} (hok : Parse W cfg sh = .ok t sh') :
    ∃ before text, sh'.outputs = before ++ [(C24.documentedPath cfg ext, text)] ∧
      (cfg.lang = c!"Go" → W.gofmt (source cfg.lang cfg.package (treeDoc (typeRef cfg.lang false) [] ds)) = some text) ∧
      (cfg.lang ≠ c!"Go" → text = source cfg.lang cfg.package (treeDoc (typeRef cfg.lang false) [] ds)) := by
  obtain ⟨sh1, _, e⟩ := C67.tree_partial W cfg toks hf hn as _ ht sh ha (by rw [hx]; exact hd) hp
  rw [hx] at e
  have et : t = treeDoc (typeRef cfg.lang false) [] ds := by
    rw [e] at hok
    unfold finish at hok
    rw [if_neg (by rw [hx]; decide)] at hok
    dsimp only at hok
    split at hok
    · split at hok
      · cases hok; rfl
      · cases hok
      · cases hok
    · cases hok
  obtain ⟨-, -, h⟩ := C24.success W cfg sh sh' t toks hx hf hok
  obtain ⟨before, text, h3, h4⟩ := h ext hl
  refine ⟨before, text, h4, ?_⟩
  rw [← et]
  rcases h3 with ⟨h, h3⟩ | ⟨h, rfl⟩ | ⟨h, rfl⟩ | ⟨h, rfl⟩ | ⟨h, rfl⟩ <;> rw [h]
  · exact ⟨fun _ => h3, fun h => absurd rfl h⟩
  · exact ⟨fun h => absurd h (by decide), fun _ => rfl⟩
  · exact ⟨fun h => absurd h (by decide), fun _ => rfl⟩
  · exact ⟨fun h => absurd h (by decide), fun _ => rfl⟩
  · exact ⟨fun h => absurd h (by decide), fun _ => rfl⟩

/-- C88, documents: if declarations with new names are added at the end of a schema without dangling references, the generated
source is the old one with more declarations after it (and, in Go, maybe more imports).  Missing: declarations added elsewhere,
for which see `inserted_partial`, and names that mean something already (`captured`, `hidden`). -/
theorem appended_partial [UniLaws] (W W' : World) (cfg : Cfg) (ext : Str) (hl : (cfg.lang, ext) ∈ C24.extensions) (hx : cfg.extract = false)
    (toks toks' : List Token) (hf : W.fs.get? cfg.filePath = some (.file toks)) (hf' : W'.fs.get? cfg.filePath = some (.file toks'))
    (hn : C32.NamesOk toks) (hn' : C32.NamesOk toks') (as as' : List Attr) (ds es : List (Core.Decl × List Str))
    (ht : skeleton toks = skeleton (documentedTokens as ds)) (ht' : skeleton toks' = skeleton (documentedTokens as' (ds ++ es)))
    (sh sh' : Shared) (ha : C40.Alone W cfg sh) (ha' : C40.Alone W' cfg sh')
    (hd : Core.Regular (typeRef cfg.lang false) [] ((ds ++ es).map (·.1))) (hp : C67.Plain ((ds ++ es).map (·.1)))
    (hb : Bound cfg.lang (ds.map (·.1))) (hfr : Fresh cfg.lang (ds.map (·.1)) (es.map (·.1)))
    (t t' : Tree) (s s' : Shared) (hok : Parse W cfg sh = .ok t s) (hok' : Parse W' cfg sh' = .ok t' s') :
    ∃ before text before' text' src src', s.outputs = before ++ [(C24.documentedPath cfg ext, text)] ∧
      s'.outputs = before' ++ [(C24.documentedPath cfg ext, text')] ∧
      (cfg.lang = c!"Go" → W.gofmt src = some text ∧ W'.gofmt src' = some text') ∧ (cfg.lang ≠ c!"Go" → text = src ∧ text' = src') ∧
      Extended cfg.lang src src' := by
  have hd0 : Core.Regular (typeRef cfg.lang false) [] (ds.map (·.1)) := by rw [List.map_append] at hd; exact regular_front hd
  have hp0 : C67.Plain (ds.map (·.1)) := fun d h => hp d (by rw [List.map_append]; exact List.mem_append_left _ h)
  obtain ⟨b, text, h1, h2, h3⟩ := run_source hl hx hf hn ht ha hd0 hp0 hok
  obtain ⟨b', text', h1', h2', h3'⟩ := run_source hl hx hf' hn' ht' ha' hd hp hok'
  refine ⟨b, text, b', text', _, _, h1, h1', fun h => ⟨h2 h, h2' h⟩, fun h => ⟨h3 h, h3' h⟩, ?_⟩
  obtain ⟨new, e, hnew⟩ := tree_answers (typeRef cfg.lang false) es (treeDoc (typeRef cfg.lang false) [] ds)
  have e' : treeDoc (typeRef cfg.lang false) [] (ds ++ es) = treeDoc (typeRef cfg.lang false) [] ds ++ new := by
    rw [C67.treeDoc_append, e]
  have hll : cfg.lang ∈ C41.langs := by
    have := List.mem_map_of_mem (f := (·.1)) hl
    simp only [C24.extensions, C41.langs, List.map_cons, List.map_nil, List.mem_cons, List.not_mem_nil, or_false] at this ⊢
    rcases this with h | h | h | h | h <;> simp [h]
  rw [e']
  refine source_appended cfg.lang cfg.package hll _ new ?_ (C67.no_enumList _ _ _ fun n hn => by cases hn)
    (by rw [← e']; exact C67.no_enumList _ _ _ fun n hn => by cases hn)
  have hlk : Linked cfg.lang (treeDoc (typeRef cfg.lang false) [] ds) := C71.linked_alike (bare_tree cfg.lang ds [] [] rfl) (C71.linked hb hd0)
  intro n hn x hxa m hm hans
  obtain ⟨ed, hed, hv⟩ := hnew m hm hans
  obtain ⟨f1, f2, f3⟩ := hfr ed.1 (List.mem_map_of_mem hed) _ hv
  rintro rfl
  rcases asked_ok hlk n hn _ hxa with h | ⟨k, h⟩ | h
  · exact f1 h
  · exact f2 k h
  · rw [C67.treeDoc_names] at h
    rcases List.mem_append.1 h with h | h
    · cases h
    · obtain ⟨d, hd, h⟩ := List.mem_flatMap.1 h
      exact f3 d.1 (List.mem_map_of_mem hd) h

end

end

/-! ## Examples -/

section
attribute [local instance] asciiUni
open C70 (a)

/-- The old schema, with documentation. -/
def old : List (Core.Decl × List Str) := C71.plainSchema.map fun d => (d, [c!"\n"])
/-- What is added: an element with an anonymous type, a restriction of a time, a type that refers to old and new ones. -/
def added : List (Core.Decl × List Str) :=
  [(.anon (a [("name", "invoice")]) [] (.elem (a [("name", "what"), ("type", "T")]) .nil), []),
   (.simple (a [("name", "Hour")]) (.restriction (a [("base", "xs:time")]) []), [c!"An hour."]),
   (.complex (a [("name", "Diary")]) (.elem (a [("name", "on"), ("type", "Hour")]) (.elem (a [("name", "t"), ("type", "T")]) .nil)), [])]

/-- A file with a schema. -/
def fileOf (ds : List (Core.Decl × List Str)) : World := Ex.world [("a.xsd", documentedTokens C40.root ds)]

/-- The hypotheses of `appended_partial`. -/
example : ∀ lang ∈ C41.langs, Core.Regular (typeRef lang false) [] ((old ++ added).map (·.1)) ∧ C67.Plain ((old ++ added).map (·.1)) ∧
    C71.Bound lang (old.map (·.1)) := by decide +kernel
example : C32.NamesOk (documentedTokens C40.root old) ∧ C32.NamesOk (documentedTokens C40.root (old ++ added)) := by decide +kernel

theorem fresh (lang : Str) : lang ∈ C41.langs → Fresh lang (old.map (·.1)) (added.map (·.1)) := by
  intro hl e he s hs
  have h : ∀ lang ∈ C41.langs, ∀ e ∈ added.map (·.1), ∀ s ∈ C70.valued e, s ≠ [] ∧ (¬ ∃ x ∈ buildInTypes, x.2[langIndex lang]? = some s) ∧
      ∀ d ∈ old.map (·.1), s ∉ C67.names d := by decide +kernel
  obtain ⟨h1, h2, h3⟩ := h lang hl e he s hs
  exact ⟨h1, fun k hk => h2 (C70.table_mem hk), h3⟩

/-- The text of the file generated for a schema. -/
def text (lang : Str) (ds : List (Core.Decl × List Str)) : Str := (Parse (fileOf ds) (C59.doc lang) {}).state.outputs.flatMap (·.2)

example : ∀ lang ∈ C41.langs, lang ≠ c!"Go" → text lang old <+: text lang (old ++ added) ∧ text lang old ≠ text lang (old ++ added) := by
  decide +kernel
/-- The Go file gets an import. -/
example : (goImports (goGen (treeDoc (typeRef c!"Go" false) [] old)), goImports (goGen (treeDoc (typeRef c!"Go" false) [] (old ++ added)))) =
    (c!"import (\n\t\"encoding/xml\"\n)", c!"import (\n\t\"time\"\n\t\"encoding/xml\"\n)") := by decide +kernel

/-- The tree theorem: the same declarations, in the middle. -/
example : let t1 := treeDoc (typeRef c!"Go" false) [] old
    let t2 := (treeDoc (typeRef c!"Go" false) t1 added).drop t1.length
    Uncalled t2 t1 ∧ ∀ lang ∈ C41.langs, Apart (target lang) t2 t1 := by decide +kernel

/-! ## What goes wrong -/

/-- Whether one text is another one with something inserted. -/
def inserted? (a b : Str) : Bool := (List.range (a.length + 1)).any fun k => (a.take k).isPrefixOf b && (a.drop k).isSuffixOf (b.drop k)

theorem inserted?_iff (a b : Str) : inserted? a b = true ↔ Inserted a b := by
  simp only [inserted?, List.any_eq_true, List.mem_range, Bool.and_eq_true, List.isPrefixOf_iff_prefix, List.isSuffixOf_iff_suffix]
  constructor
  · rintro ⟨k, hk, ⟨u, hu⟩, ⟨v, hv⟩⟩
    refine ⟨a.take k, v, a.drop k, (List.take_append_drop k a).symm, ?_⟩
    have e : b.drop k = u := by
      rw [← hu, List.drop_left' (by rw [List.length_take]; omega)]
    rw [List.append_assoc, hv, e, hu]
  · rintro ⟨x, y, z, rfl, rfl⟩
    refine ⟨x.length, by rw [List.length_append]; omega, ?_, ?_⟩
    · rw [List.take_left' rfl, List.append_assoc]; exact ⟨_, rfl⟩
    · rw [List.drop_left' rfl, List.append_assoc, List.drop_left' rfl]; exact ⟨_, rfl⟩

theorem Grown.inserted {lang a b : Str} (h : Grown lang a b) (hl : lang ≠ c!"Go") : Inserted a b := by
  obtain ⟨p, q, x, y, z, rfl, rfl, -, e⟩ := h
  rw [e hl]
  exact ⟨q ++ x, y, z, rfl, rfl⟩

/-- A complex type with an element. -/
def having (name elem type : String) : Core.Decl × List Str := (.complex (a [("name", name)]) (.elem (a [("name", elem), ("type", type)]) .nil), [])
/-- A simple type. -/
def narrowed (name base : String) : Core.Decl × List Str := (.simple (a [("name", name)]) (.restriction (a [("base", base)]) []), [])
/-- An element. -/
def element (name type : String) : Core.Decl × List Str := (.element (a [("name", name), ("type", type)]), [])

/-- An element with the name of a target type takes the place of the type, in declarations that do not mention it. -/
theorem captured : ¬ Grown c!"TypeScript" (text c!"TypeScript" [having "Item" "title" "xs:string"])
    (text c!"TypeScript" [having "Item" "title" "xs:string", element "string" "xs:int"]) := by
  intro h
  exact absurd ((inserted?_iff _ _).2 (h.inserted (by decide))) (by decide +kernel)

/-- So does an element with the name of a complex type: such names are legal, as types and elements have name spaces of their own. -/
theorem hidden : ¬ Grown c!"TypeScript" (text c!"TypeScript" [having "item" "title" "xs:string", having "list" "entry" "item"])
    (text c!"TypeScript" [having "item" "title" "xs:string", having "list" "entry" "item", element "item" "xs:int"]) := by
  intro h
  exact absurd ((inserted?_iff _ _).2 (h.inserted (by decide))) (by decide +kernel)

/-- A type whose name becomes that of a later type changes the name of that type. -/
theorem renumbered : ¬ Grown c!"TypeScript" (text c!"TypeScript" [having "Item" "title" "xs:string"])
    (text c!"TypeScript" [narrowed "item" "xs:int", having "Item" "title" "xs:string"]) := by
  intro h
  exact absurd ((inserted?_iff _ _).2 (h.inserted (by decide))) (by decide +kernel)

end

end Xgen.C88
