import Verif.Props.C53
import Verif.Props.C70

/-! # C71: no dangling references

If every reference in a schema is to a built-in type or to a component of the schema of the right kind, then every type that
a generated file mentions is predefined in the target language or declared in the same file. -/

namespace Xgen.C71
open Core C40 Decl
open C53 (NCName)
open C58 (isUnion Legible)
open C59 (anonymous)

/-! ## Schemas in which every reference has a target -/

/-- The named types of a schema. -/
def types : Decl → List Str
  | .simple as _ => [nameOf as]
  | .complex as _ => [nameOf as]
  | _ => []

/-- The global elements. -/
def elements : Decl → List Str
  | .element as => [nameOf as]
  | .anon as _ _ => [nameOf as]
  | .elemAnon as _ _ => [nameOf as]
  | _ => []

/-- The global attributes. -/
def attributes : Decl → List Str
  | .attribute as => [nameOf as]
  | .attrAnon as _ _ => [nameOf as]
  | _ => []

/-- The groups. -/
def groups : Decl → List Str
  | .group as _ => [nameOf as]
  | _ => []

/-- The attribute groups. -/
def attrGroups : Decl → List Str
  | .attrGroup as _ => [nameOf as]
  | _ => []

/-- The contents of a declaration. -/
def content : Decl → Content
  | .complex _ b => b
  | .anon _ _ b => b
  | .group _ b => b
  | .attrGroup _ b => b
  | _ => .nil

/-- What references may be to. -/
structure Targets where
  type : Str → Prop
  element : Str → Prop
  attr : Str → Prop
  group : Str → Prop
  attrGroup : Str → Prop

/-- An attribute that is there has a property. -/
def Has (as : List Attr) (k : Str) (P : Str → Prop) : Prop := ∀ v, attr? as k = some v → P v

section
variable (R : Targets)

/-- The references of a simple type. -/
def SimpleBound : SimpleBody → Prop
  | .restriction as _ => Has as c!"base" R.type
  | .list as => Has as c!"itemType" R.type
  | .union as => Has as c!"memberTypes" fun v => ∀ t ∈ splitOn ' ' v, R.type t

/-- The references of contents.  (The base of a restriction of a complex type is not used.) -/
def ContentBound : Content → Prop
  | .nil => True
  | .elem as k => Has as c!"type" R.type ∧ Has as c!"ref" R.element ∧ ContentBound k
  | .anon _ _ b k => ContentBound b ∧ ContentBound k
  | .elemAnon _ ras _ k => Has ras c!"base" R.type ∧ ContentBound k
  | .choice _ b k => ContentBound b ∧ ContentBound k
  | .group as k => Has as c!"ref" R.group ∧ ContentBound k
  | .attrGroup as k => Has as c!"ref" R.attrGroup ∧ ContentBound k
  | .attribute as k => Has as c!"type" R.type ∧ Has as c!"ref" R.attr ∧ ContentBound k
  | .attrAnon _ b k => SimpleBound R b ∧ ContentBound k
  | .ext as b k => Has as c!"base" R.type ∧ ContentBound b ∧ ContentBound k
  | .restr _ _ b k => ContentBound b ∧ ContentBound k

/-- What simple types are made from is given by name. -/
def Given : SimpleBody → Prop
  | .restriction as _ => (attr? as c!"base").isSome
  | .list as => (attr? as c!"itemType").isSome
  | .union _ => True

/-- The references of a declaration.  Global declarations have no `ref`, and global attributes a type. -/
def DeclBound : Decl → Prop
  | .simple as b => Given b ∧ SimpleBound R b ∧ attr? as c!"ref" = none
  | .complex as b => ContentBound R b ∧ attr? as c!"ref" = none
  | .element as => Has as c!"type" R.type ∧ attr? as c!"ref" = none
  | .anon as _ b => ContentBound R b ∧ attr? as c!"ref" = none
  | .elemAnon as ras _ => Has ras c!"base" R.type ∧ attr? as c!"ref" = none
  | .group as b => ContentBound R b ∧ attr? as c!"ref" = none
  | .attrGroup as b => ContentBound R b ∧ attr? as c!"ref" = none
  | .attribute as => (attr? as c!"type").isSome ∧ Has as c!"type" R.type ∧ attr? as c!"ref" = none
  | .attrAnon as ras _ => (attr? ras c!"base").isSome ∧ Has ras c!"base" R.type ∧ attr? as c!"ref" = none

end

/-- The targets a schema offers. -/
def offers (lang : Str) (ds : List Decl) : Targets where
  type v := (getBuildInTypeByLang (Names.localPart v) lang).isSome ∨ Names.localPart v ∈ ds.flatMap types
  element v := Names.localPart v ∈ ds.flatMap elements
  attr v := Names.localPart v ∈ ds.flatMap attributes
  group v := Names.localPart v ∈ ds.flatMap groups
  attrGroup v := Names.localPart v ∈ ds.flatMap attrGroups

/-- Schema names a language can use: the generators take `interface` and `enum` for types, and Go names need a rune that is
not dropped. -/
def Usable (lang s : Str) : Prop :=
  (lang = c!"Go" → s ≠ c!"interface" ∧ ∃ c ∈ s, c ∉ [':', '.', '-', '_']) ∧ (lang = c!"C" → s ≠ c!"enum")

/-- A schema without dangling references, with names as XML demands. -/
structure Bound (lang : Str) (ds : List Decl) : Prop where
  refs : ∀ d ∈ ds, DeclBound (offers lang ds) d
  names : ∀ d ∈ ds, ∀ s ∈ types d ++ elements d ++ attributes d ++ groups d ++ attrGroups d ++ anonymous (content d),
    NCName s ∧ Usable lang s

/-! ## Trees in which every type is declared -/

/-- The components that declare a type, in every language. -/
def typelike : Node Element → Bool
  | .elem _ => false
  | .attr _ => false
  | _ => true

/-- The names of the types in a tree. -/
def typeNames (t : Tree) : List Str := ((nodes t).filter typelike).map nodeName
/-- The names of global elements and attributes in a tree. -/
def itemNames (t : Tree) : List Str := ((nodes t).filter fun n => !typelike n).map nodeName

section
variable (lang : Str) (tn vn : List Str)

/-- A type that is nothing, a target type of the table or a declared type. -/
def Ok (s : Str) : Prop := s = [] ∨ (∃ k, getBuildInTypeByLang k lang = some s) ∨ s ∈ tn ∧ NCName s ∧ Usable lang s

/-- The same, or a global element or attribute. -/
def Ok0 (s : Str) : Prop := Ok lang tn s ∨ s ∈ vn ∧ NCName s

/-- A component all types of which are there. -/
def NodeOk : Node Element → Prop
  | .simple v => (v.union = false ∨ v.list = true → v.base ≠ []) ∧ Ok lang tn v.base ∧ ∀ m ∈ v.memberTypes, m.2 ≠ [] ∧ Ok lang tn m.2
  | .attr v => v.type ≠ [] ∧ Ok lang tn v.type
  | .elem v => v.type ≠ [] ∧ Ok lang tn v.type
  | .complex v => Ok lang tn v.base ∧ (∀ e ∈ v.elements, Ok0 lang tn vn e.type) ∧ (∀ e ∈ v.attributes, Ok0 lang tn vn e.type) ∧
      (∀ e ∈ v.groups, Ok lang tn e.ref) ∧ ∀ e ∈ v.attributeGroup, Ok lang tn e.ref
  | .group v => (∀ e ∈ v.elements, Ok0 lang tn vn e.type) ∧ ∀ e ∈ v.groups, Ok lang tn e.ref
  | .attrGroup v => ∀ e ∈ v.attributes, Ok0 lang tn vn e.type

end

/-- A tree without dangling references. -/
def Linked (lang : Str) (t : Tree) : Prop := ∀ n ∈ nodes t, NodeOk lang (typeNames t) (itemNames t) n

/-! ## From the schema to the tree -/

section
variable {lang : Str} {tn vn : List Str}

theorem localPart_plain {s : Str} (h : ':' ∉ s) : Names.localPart s = s := by
  rw [← Names.localPart_eq]; exact (C02.other_colons s (by rw [List.count_eq_zero_of_not_mem h]; decide)).2

/-- What a resolution of type references has to do. -/
structure Resolves (lang : Str) (tn vn : List Str) (ty : Str → Str) : Prop where
  type : ∀ v, ((getBuildInTypeByLang (Names.localPart v) lang).isSome ∨
    (Names.localPart v ∈ tn ∧ NCName (Names.localPart v) ∧ Usable lang (Names.localPart v))) → Ok lang tn (ty v) ∧ ty v ≠ []
  again : ∀ s, Ok lang tn s → Ok lang tn (ty s)
  item : ∀ v, Names.localPart v ∈ vn → NCName (Names.localPart v) → Ok0 lang tn vn (ty v)

theorem declares_ok {t : Tree} (h : ∀ n ∈ nodes t, NodeOk lang tn vn n) : ∀ d ∈ t.filterMap C07.declares, d.2 ≠ [] ∧ Ok lang tn d.2 := by
  intro d hd
  obtain ⟨n, hn, e⟩ := List.mem_filterMap.1 hd
  cases n with
  | none => cases e
  | some n =>
    have h := h n (List.mem_filterMap.2 ⟨_, hn, rfl⟩)
    cases n with
    | simple v =>
      simp only [C07.declares] at e
      split at e
      · cases e
      · rename_i hu
        injection e with e
        subst e
        simp only [Bool.or_eq_true, not_or, Bool.not_eq_true] at hu
        exact ⟨h.1 (.inl hu.2), h.2.1⟩
    | attr v => injection e with e; subst e; exact h
    | elem v => injection e with e; subst e; exact h
    | complex v => cases e
    | group v => cases e
    | attrGroup v => cases e

theorem NCName.ne {s : Str} (h : NCName s) : s ≠ [] := by
  obtain ⟨c, r, rfl, -⟩ := h.head
  simp

theorem resolves {t : Tree} {x : Bool} (h : ∀ n ∈ nodes t, NodeOk lang tn vn n) : Resolves lang tn vn (typeRef lang x t) := by
  have hd := declares_ok h
  refine ⟨fun v hv => ?_, fun s hs => ?_, fun v hv hn => ?_⟩
  · unfold typeRef
    cases hb : getBuildInTypeByLang (Names.localPart v) lang with
    | some b => exact ⟨.inr (.inl ⟨_, hb⟩), (C70.table_plain hb).1⟩
    | none =>
      have hv := hv.resolve_left (by rw [hb]; simp)
      dsimp only
      cases hf : (t.filterMap C07.declares).find? (fun d => d.1 = Names.localPart v) with
      | none => exact ⟨.inr (.inr hv), NCName.ne hv.2.1⟩
      | some d =>
        have hd := hd d (List.mem_of_find?_eq_some hf)
        dsimp only
        rw [if_neg (by simp [hd.1])]
        exact ⟨hd.2, hd.1⟩
  · have hl : Names.localPart s = s := by
      rcases hs with rfl | ⟨k, hk⟩ | ⟨-, hs, -⟩
      · rfl
      · exact (C70.table_plain hk).2
      · exact localPart_plain hs.colon
    unfold typeRef
    rw [hl]
    cases hb : getBuildInTypeByLang s lang with
    | some b => exact .inr (.inl ⟨_, hb⟩)
    | none =>
      dsimp only
      cases hf : (t.filterMap C07.declares).find? (fun d => d.1 = s) with
      | none => exact hs
      | some d =>
        have hd := hd d (List.mem_of_find?_eq_some hf)
        dsimp only
        rw [if_neg (by simp [hd.1])]
        exact hd.2
  · unfold typeRef
    cases hb : getBuildInTypeByLang (Names.localPart v) lang with
    | some b => exact .inl (.inr (.inl ⟨_, hb⟩))
    | none =>
      dsimp only
      cases hf : (t.filterMap C07.declares).find? (fun d => d.1 = Names.localPart v) with
      | none => exact .inr ⟨hv, hn⟩
      | some d =>
        have hd := hd d (List.mem_of_find?_eq_some hf)
        dsimp only
        rw [if_neg (by simp [hd.1])]
        exact .inl hd.2

/-- What the targets of references are in a tree. -/
structure Meets (lang : Str) (tn vn : List Str) (R : Targets) : Prop where
  type : ∀ v, R.type v → ((getBuildInTypeByLang (Names.localPart v) lang).isSome ∨
    (Names.localPart v ∈ tn ∧ NCName (Names.localPart v) ∧ Usable lang (Names.localPart v)))
  element : ∀ v, R.element v → Names.localPart v ∈ vn ∧ NCName (Names.localPart v)
  attr : ∀ v, R.attr v → Names.localPart v ∈ vn ∧ NCName (Names.localPart v)
  group : ∀ v, R.group v → Names.localPart v ∈ tn ∧ NCName (Names.localPart v) ∧ Usable lang (Names.localPart v)
  attrGroup : ∀ v, R.attrGroup v → Names.localPart v ∈ tn ∧ NCName (Names.localPart v) ∧ Usable lang (Names.localPart v)

/-- What references and types are resolved to. -/
structure Answers (lang : Str) (tn vn : List Str) (R : Targets) (ty : Str → Str) : Prop where
  type : ∀ v, R.type v → Ok lang tn (ty v) ∧ ty v ≠ []
  element : ∀ v, R.element v → Ok0 lang tn vn (ty v)
  attr : ∀ v, R.attr v → Ok0 lang tn vn (ty v)
  group : ∀ v, R.group v → Ok lang tn (ty v)
  attrGroup : ∀ v, R.attrGroup v → Ok lang tn (ty v)
  again : ∀ s, Ok lang tn s → Ok lang tn (ty s)
  there : ∀ s, Ok lang tn s → s ≠ [] → ty s ≠ []

/-- Resolving again gives something again. -/
theorem again_ne {t : Tree} {x : Bool} (h : ∀ n ∈ nodes t, NodeOk lang tn vn n) {s : Str} (hs : Ok lang tn s) (hn : s ≠ []) : typeRef lang x t s ≠ [] := by
  have hl : Names.localPart s = s := by
    rcases hs with rfl | ⟨k, hk⟩ | ⟨-, hs, -⟩
    · rfl
    · exact (C70.table_plain hk).2
    · exact localPart_plain hs.colon
  unfold typeRef
  rw [hl]
  cases hb : getBuildInTypeByLang s lang with
  | some b => exact (C70.table_plain hb).1
  | none =>
    dsimp only
    cases hf : (t.filterMap C07.declares).find? (fun d => d.1 = s) with
    | none => exact hn
    | some d =>
      have hd := declares_ok h d (List.mem_of_find?_eq_some hf)
      dsimp only
      rw [if_neg (by simp [hd.1])]
      exact hd.1

theorem answers {t : Tree} {x : Bool} (h : ∀ n ∈ nodes t, NodeOk lang tn vn n) {R : Targets} (hm : Meets lang tn vn R) :
    Answers lang tn vn R (typeRef lang x t) :=
  have hr := resolves h
  ⟨fun v hv => hr.type v (hm.type v hv), fun v hv => hr.item v (hm.element v hv).1 (hm.element v hv).2,
   fun v hv => hr.item v (hm.attr v hv).1 (hm.attr v hv).2, fun v hv => (hr.type v (.inr (hm.group v hv))).1,
   fun v hv => (hr.type v (.inr (hm.attrGroup v hv))).1, hr.again, fun _ => again_ne h⟩

variable {ty : Str → Str} {R : Targets}

theorem nil_ok : Ok lang tn [] := .inl rfl

theorem via {as : List Attr} {k : Str} {P : Str → Prop} (h : Has as k P) {f : Str → Str} (hf : ∀ v, P v → Ok lang tn (f v)) :
    Ok lang tn (((attr? as k).map f).getD []) := by
  cases e : attr? as k with
  | none => exact nil_ok
  | some v => exact hf v (h v e)

theorem inline_ok (hr : Answers lang tn vn R ty) {ras : List Attr} (h : Has ras c!"base" R.type) :
    Ok lang tn (inlineType ty ras) :=
  hr.again _ (via h fun v hv => hr.again _ (hr.type v hv).1)

/-- Contents all types of which are there. -/
structure ContentOk (lang : Str) (tn vn : List Str) (ty : Str → Str) (b : Content) : Prop where
  elements : ∀ p, ∀ e ∈ Core.elements ty p b, Ok0 lang tn vn e.type
  groups : ∀ p, ∀ g ∈ Core.groups ty p b, Ok lang tn g.ref
  attributes : ∀ a ∈ Core.attributes ty b, Ok0 lang tn vn a.type
  attrGroups : ∀ a ∈ Core.attrGroups ty b, Ok lang tn a.ref ∧ a.attributes = []
  bases : ∀ s ∈ bases ty b, Ok lang tn s

/-- What anonymous types and untyped elements are named after is declared. -/
def Anonymous (lang : Str) (tn : List Str) (b : Content) : Prop := ∀ s ∈ anonymous b, s ∈ tn ∧ NCName s ∧ Usable lang s

/-- Elements have a type, a reference or an anonymous type. -/
def Shaped (ty : Str → Str) : Content → Prop
  | .nil => True
  | .elem as k => Typed ty as ∧ Shaped ty k
  | .anon as _ b k => Untyped as ∧ Shaped ty b ∧ Shaped ty k
  | .elemAnon _ _ _ k => Shaped ty k
  | .choice _ b k => Shaped ty b ∧ Shaped ty k
  | .group _ k => Shaped ty k
  | .attrGroup _ k => Shaped ty k
  | .attribute _ k => Shaped ty k
  | .attrAnon _ _ k => Shaped ty k
  | .ext _ b k => Shaped ty b ∧ Shaped ty k
  | .restr _ _ b k => Shaped ty b ∧ Shaped ty k

theorem shaped_regular (b : Content) (h : b.Regular ty) : Shaped ty b := by
  induction b with
  | nil => trivial
  | elem as k ih => exact ⟨h.2.2.1, ih h.2.2.2⟩
  | anon as cas b k ihb ih => exact ⟨h.2.2.1, ihb h.2.2.2.2.1, ih h.2.2.2.2.2⟩
  | elemAnon as ras fs k ih => exact ih h.2.2.2.2
  | choice as b k ihb ih => exact ⟨ihb h.2.2.1, ih h.2.2.2⟩
  | group as k ih => exact ih h.2
  | attrGroup as k ih => exact ih h.2
  | «attribute» as k ih => exact ih h.2
  | attrAnon as b k ih => exact ih h.2.2
  | ext as b k ihb ih => exact ⟨ihb h.2.1, ih h.2.2⟩
  | restr as fs b k ihb ih => exact ⟨ihb h.2.2.1, ih h.2.2.2⟩

theorem shaped_group (b : Content) (h : b.GroupRegular ty) : Shaped ty b := by
  induction b with
  | nil => trivial
  | elem as k ih => exact ⟨h.2.2.1, ih h.2.2.2⟩
  | choice as b k ihb ih => exact ⟨ihb h.2.2.1, ih h.2.2.2⟩
  | group as k ih => exact ih h.2
  | _ => cases h

theorem shaped_attrs (b : Content) (h : b.AttrRegular) : Shaped ty b := by
  induction b with
  | nil => trivial
  | attrGroup as k ih => exact ih h.2
  | «attribute» as k ih => exact ih h.2
  | attrAnon as b k ih => exact ih h.2.2
  | _ => cases h

theorem content_ok (hr : Answers lang tn vn R ty) (b : Content) (hb : ContentBound R b) (hg : Shaped ty b)
    (ha : Anonymous lang tn b) : ContentOk lang tn vn ty b := by
  have typed : ∀ {as : List Attr}, Has as c!"type" R.type → Has as c!"ref" R.element → Typed ty as → ∀ p, Ok0 lang tn vn (elementOf ty p as).type := by
    intro as h1 h2 h3 p
    obtain ⟨v, hv, -⟩ := h3
    show Ok0 lang tn vn (match (attr? as c!"ref").or (attr? as c!"type") with | some t => ty t | none => ty (nameOf as))
    rw [hv]
    cases e : attr? as c!"ref" with
    | some w =>
      rw [e] at hv
      injection hv with hv
      subst hv
      exact hr.element _ (h2 _ e)
    | none =>
      rw [e] at hv
      exact .inl (hr.type _ (h1 _ hv)).1
  have untyped : ∀ {as : List Attr}, Untyped as → (nameOf as ∈ tn ∧ NCName (nameOf as) ∧ Usable lang (nameOf as)) → ∀ p, Ok0 lang tn vn (elementOf ty p as).type := by
    intro as h1 h2 p
    show Ok0 lang tn vn (match (attr? as c!"ref").or (attr? as c!"type") with | some t => ty t | none => ty (nameOf as))
    rw [h1.1, h1.2.1]
    exact .inl (hr.again _ (.inr (.inr h2)))
  induction b with
  | nil => constructor <;> simp [Core.elements, Core.groups, Core.attributes, Core.attrGroups, bases]
  | elem as k ih =>
    have I := ih hb.2.2 hg.2 ha
    exact ⟨fun p e he => by
      rcases List.mem_cons.1 he with rfl | he
      · exact typed hb.1 hb.2.1 hg.1 p
      · exact I.elements p e he, I.groups, I.attributes, I.attrGroups, I.bases⟩
  | anon as cas b k ihb ih =>
    have I := ih hb.2 hg.2.2 fun s hs => ha s (by simp [anonymous, hs])
    exact ⟨fun p e he => by
      rcases List.mem_cons.1 he with rfl | he
      · exact untyped hg.1 (ha _ (by simp [anonymous])) p
      · exact I.elements p e he, I.groups, I.attributes, I.attrGroups, I.bases⟩
  | elemAnon as ras fs k ih =>
    have I := ih hb.2 hg ha
    exact ⟨fun p e he => by
      rcases List.mem_cons.1 he with rfl | he
      · exact .inl (inline_ok hr hb.1)
      · exact I.elements p e he, I.groups, I.attributes, I.attrGroups, I.bases⟩
  | choice as b k ihb ih =>
    have J := ihb hb.1 hg.1 fun s hs => ha s (by simp [anonymous, hs])
    have I := ih hb.2 hg.2 fun s hs => ha s (by simp [anonymous, hs])
    exact ⟨fun p e he => (List.mem_append.1 he).elim (J.elements _ e) (I.elements p e),
      fun p e he => (List.mem_append.1 he).elim (J.groups _ e) (I.groups p e),
      fun e he => (List.mem_append.1 he).elim (J.attributes e) (I.attributes e),
      fun e he => (List.mem_append.1 he).elim (J.attrGroups e) (I.attrGroups e),
      fun e he => (List.mem_append.1 he).elim (J.bases e) (I.bases e)⟩
  | group as k ih =>
    have I := ih hb.2 hg ha
    exact ⟨I.elements, fun p e he => by
      rcases List.mem_cons.1 he with rfl | he
      · exact via hb.1 fun v hv => hr.group v hv
      · exact I.groups p e he, I.attributes, I.attrGroups, I.bases⟩
  | attrGroup as k ih =>
    have I := ih hb.2 hg ha
    exact ⟨I.elements, I.groups, I.attributes, fun e he => by
      rcases List.mem_cons.1 he with rfl | he
      · exact ⟨via hb.1 fun v hv => hr.attrGroup v hv, rfl⟩
      · exact I.attrGroups e he, I.bases⟩
  | «attribute» as k ih =>
    have I := ih hb.2.2 hg ha
    refine ⟨I.elements, I.groups, fun e he => ?_, I.attrGroups, I.bases⟩
    rcases List.mem_cons.1 he with rfl | he
    · show Ok0 lang tn vn ((((attr? as c!"ref").or (attr? as c!"type")).map ty).getD [])
      cases e : attr? as c!"ref" with
      | some w => exact hr.attr _ (hb.2.1 _ e)
      | none => exact .inl (via hb.1 fun v hv => (hr.type v hv).1)
    · exact I.attributes e he
  | attrAnon as b k ih =>
    have I := ih hb.2 hg ha
    refine ⟨I.elements, I.groups, fun e he => ?_, I.attrGroups, I.bases⟩
    rcases List.mem_cons.1 he with rfl | he
    · cases b with
      | restriction ras fs => exact .inl (inline_ok hr hb.1)
      | list las => exact .inl (via hb.1 fun v hv => (hr.type v hv).1)
      | union uas => exact .inl nil_ok
    · exact I.attributes e he
  | ext as b k ihb ih =>
    have J := ihb hb.2.1 hg.1 fun s hs => ha s (by simp [anonymous, hs])
    have I := ih hb.2.2 hg.2 fun s hs => ha s (by simp [anonymous, hs])
    refine ⟨fun p e he => (List.mem_append.1 he).elim (J.elements _ e) (I.elements p e),
      fun p e he => (List.mem_append.1 he).elim (J.groups _ e) (I.groups p e),
      fun e he => (List.mem_append.1 he).elim (J.attributes e) (I.attributes e),
      fun e he => (List.mem_append.1 he).elim (J.attrGroups e) (I.attrGroups e),
      fun e he => ?_⟩
    rcases List.mem_append.1 he with he | he
    · rcases List.mem_append.1 he with he | he
      · cases ea : attr? as c!"base" with
        | none => rw [ea] at he; cases he
        | some v =>
          rw [ea] at he
          simp only [Option.map_some, Option.toList_some, List.mem_singleton] at he
          rw [he]
          exact hr.again _ (hr.type v (hb.1 v ea)).1
      · exact J.bases e he
    · exact I.bases e he
  | restr as fs b k ihb ih =>
    have J := ihb hb.1 hg.1 fun s hs => ha s (by simp [anonymous, hs])
    have I := ih hb.2 hg.2 fun s hs => ha s (by simp [anonymous, hs])
    exact ⟨fun p e he => (List.mem_append.1 he).elim (J.elements _ e) (I.elements p e),
      fun p e he => (List.mem_append.1 he).elim (J.groups _ e) (I.groups p e),
      fun e he => (List.mem_append.1 he).elim (J.attributes e) (I.attributes e),
      fun e he => (List.mem_append.1 he).elim (J.attrGroups e) (I.attrGroups e),
      fun e he => (List.mem_append.1 he).elim (J.bases e) (I.bases e)⟩

theorem elements_ok {P : Str → Prop} (xs : List Element) : ∀ es : List Element, (∀ e ∈ es, P e.type) → (∀ e ∈ xs, P e.type) →
    ∀ e ∈ xs.foldl (fun es e => addElement e es) es, P e.type := by
  induction xs with
  | nil => intro es h _; exact h
  | cons x xs ih =>
    intro es h1 h2
    refine ih _ (fun e he => ?_) fun e he => h2 e (by simp [he])
    obtain ⟨y, hy, -, h4⟩ := C59.addElement_mem x es e he
    rw [h4]
    rcases List.mem_cons.1 hy with rfl | hy
    · exact h2 y (by simp)
    · exact h1 y hy

theorem groups_ok {P : Str → Prop} (xs : List GroupRef) : ∀ es : List GroupRef, (∀ e ∈ es, P e.ref) → (∀ e ∈ xs, P e.ref) →
    ∀ e ∈ xs.foldl (fun gs g => addGroup g gs) es, P e.ref := by
  induction xs with
  | nil => intro es h _; exact h
  | cons x xs ih =>
    intro es h1 h2
    refine ih _ (fun e he => ?_) fun e he => h2 e (by simp [he])
    have he : e ∈ addGroup x es := he
    unfold addGroup at he
    split at he
    · exact h1 e he
    · rcases List.mem_append.1 he with he | he
      · exact h1 e he
      · rw [List.mem_singleton.1 he]; exact h2 x (by simp)

theorem complex_ok {b : Content} (hb : ContentOk lang tn vn ty b) (p : Bool) (name : Str) :
    NodeOk lang tn vn (.complex (complexOf ty p name b)) := by
  refine ⟨?_, elements_ok _ [] (by simp) (hb.elements p), ?_, groups_ok _ [] (by simp) (hb.groups p), ?_⟩
  · show Ok lang tn ((bases ty b).getLast?.getD [])
    cases e : (bases ty b).getLast? with
    | none => exact nil_ok
    | some t => exact hb.bases t (List.mem_of_getLast? e)
  · intro e he
    simp only [complexOf, extend, List.nil_append] at he
    exact hb.attributes e he
  · intro e he
    simp only [complexOf, extend, List.nil_append] at he
    exact (hb.attrGroups e he).1

theorem nested_ok (hr : Answers lang tn vn R ty) (b : Content) (hb : ContentBound R b) (hg : Shaped ty b)
    (ha : Anonymous lang tn b) (p : Bool) : ∀ c ∈ nested ty p b, NodeOk lang tn vn (.complex c) := by
  induction b generalizing p with
  | nil => simp [nested]
  | elem as k ih => exact ih hb.2.2 hg.2 ha p
  | elemAnon as ras fs k ih => exact ih hb.2 hg ha p
  | group as k ih => exact ih hb.2 hg ha p
  | attrGroup as k ih => exact ih hb.2 hg ha p
  | «attribute» as k ih => exact ih hb.2.2 hg ha p
  | attrAnon as b k ih => exact ih hb.2 hg ha p
  | choice as b k ihb ih =>
    exact fun c hc => (List.mem_append.1 hc).elim (ihb hb.1 hg.1 (fun s hs => ha s (by simp [anonymous, hs])) _ c)
      (ih hb.2 hg.2 (fun s hs => ha s (by simp [anonymous, hs])) p c)
  | ext as b k ihb ih =>
    exact fun c hc => (List.mem_append.1 hc).elim (ihb hb.2.1 hg.1 (fun s hs => ha s (by simp [anonymous, hs])) _ c)
      (ih hb.2.2 hg.2 (fun s hs => ha s (by simp [anonymous, hs])) p c)
  | restr as fs b k ihb ih =>
    exact fun c hc => (List.mem_append.1 hc).elim (ihb hb.1 hg.1 (fun s hs => ha s (by simp [anonymous, hs])) _ c)
      (ih hb.2 hg.2 (fun s hs => ha s (by simp [anonymous, hs])) p c)
  | anon as cas b k ihb ih =>
    have ha1 : Anonymous lang tn b := fun s hs => ha s (by simp [anonymous, hs])
    intro c hc
    rcases List.mem_append.1 hc with hc | hc
    · rcases List.mem_append.1 hc with hc | hc
      · exact ihb hb.1 hg.2.1 ha1 p c hc
      · rw [List.mem_singleton.1 hc]
        exact complex_ok (content_ok hr b hb.1 hg.2.1 ha1) p _
    · exact ih hb.2 hg.2.2 (fun s hs => ha s (by simp [anonymous, hs])) p c hc

theorem some_ok (hr : Answers lang tn vn R ty) {as : List Attr} {k : Str} (h : Has as k R.type) (hs : (attr? as k).isSome) :
    ∃ v, attr? as k = some v ∧ Ok lang tn (ty v) ∧ ty v ≠ [] := by
  obtain ⟨v, hv⟩ := Option.isSome_iff_exists.1 hs
  exact ⟨v, hv, hr.type v (h v hv)⟩

theorem members_ok (hr : Answers lang tn vn R ty) (l : List Str) (hl : ∀ t ∈ l, R.type t) : ∀ m : GoMap Str,
    (∀ x ∈ m, x.2 ≠ [] ∧ Ok lang tn x.2) → ∀ x ∈ l.foldl (fun m t => m.set (Names.localPart t) (ty t)) m, x.2 ≠ [] ∧ Ok lang tn x.2 := by
  induction l with
  | nil => intro m h; exact h
  | cons t l ih =>
    intro m h
    refine ih (fun s hs => hl s (by simp [hs])) _ fun x hx => ?_
    rcases C59.mem_set hx with rfl | hx
    · exact (hr.type t (hl t (by simp))).symm
    · exact h x hx

theorem decl_ok (hr : Answers lang tn vn R ty) (d : Decl) (hb : DeclBound R d) (hg : d.Regular ty)
    (ha : ∀ s ∈ anonymous (content d), s ∈ tn ∧ NCName s ∧ Usable lang s)
    (he : ∀ as cas b, d = .anon as cas b → nameOf as ∈ tn ∧ NCName (nameOf as) ∧ Usable lang (nameOf as)) :
    ∀ n ∈ d.nodes ty, NodeOk lang tn vn n := by
  have hin : ∀ {ras : List Attr}, Has ras c!"base" R.type → (attr? ras c!"base").isSome →
      inlineType ty ras ≠ [] ∧ Ok lang tn (inlineType ty ras) := by
    intro ras h1 h2
    refine ⟨?_, inline_ok hr h1⟩
    obtain ⟨v, hv, h3, h4⟩ := some_ok hr h1 h2
    unfold inlineType
    rw [hv]
    exact hr.there _ (hr.again _ h3) (hr.there _ h3 h4)
  intro n hn
  cases d with
  | simple as b =>
    rw [List.mem_singleton.1 hn]
    cases b with
    | restriction ras fs =>
      obtain ⟨v, hv, h3, h4⟩ := some_ok hr hb.2.1 hb.1
      have e : (simpleOf ty as (.restriction ras fs)).base = ty (ty v) := by
        simp [simpleOf, hv]
      refine ⟨fun _ => ?_, ?_, by simp [simpleOf]⟩
      · rw [e]; exact hr.there _ h3 h4
      · rw [e]; exact hr.again _ h3
    | list las =>
      obtain ⟨v, hv, h3, h4⟩ := some_ok hr hb.2.1 hb.1
      have e : (simpleOf ty as (.list las)).base = ty v := by simp [simpleOf, hv]
      exact ⟨fun _ => by rw [e]; exact h4, by rw [e]; exact h3, by simp [simpleOf]⟩
    | union uas =>
      refine ⟨(fun e => by rcases e with e | e <;> cases e), nil_ok, ?_⟩
      refine members_ok hr _ (fun s hs => ?_) [] (by simp)
      cases e : attr? uas c!"memberTypes" with
      | none => rw [e] at hs; cases hs
      | some v => rw [e] at hs; exact hb.2.1 v e s hs
  | complex as b =>
    have hs := shaped_regular b hg.2.1
    rcases List.mem_append.1 hn with hn | hn
    · obtain ⟨c, hc, rfl⟩ := List.mem_map.1 hn
      exact nested_ok hr b hb.1 hs ha _ c hc
    · rw [List.mem_singleton.1 hn]
      exact complex_ok (content_ok hr b hb.1 hs ha) _ _
  | element as =>
    rw [List.mem_singleton.1 hn]
    obtain ⟨v, hv, -⟩ := hg.2.2
    have e : (elementOf ty false as).type = ty v := by simp [elementOf, hv]
    rw [hb.2] at hv
    have := hr.type v (hb.1 v hv)
    exact ⟨by rw [e]; exact this.2, by rw [e]; exact this.1⟩
  | anon as cas b =>
    have hs := shaped_regular b hg.2.2.2.2.1
    rcases List.mem_append.1 hn with hn | hn
    · obtain ⟨c, hc, rfl⟩ := List.mem_map.1 hn
      exact nested_ok hr b hb.1 hs ha _ c hc
    · rcases List.mem_cons.1 hn with rfl | hn
      · exact complex_ok (content_ok hr b hb.1 hs ha) _ _
      · rw [List.mem_singleton.1 hn]
        have e : (elementOf ty false as).type = ty (nameOf as) := by
          simp [elementOf, hg.2.2.1.1, hg.2.2.1.2.1]
        have h1 := he as cas b rfl
        have h2 : Ok lang tn (nameOf as) := .inr (.inr h1)
        exact ⟨by rw [e]; exact hr.there _ h2 (NCName.ne h1.2.1), by rw [e]; exact hr.again _ h2⟩
  | elemAnon as ras fs =>
    rw [List.mem_singleton.1 hn]
    exact hin hb.1 hg.2.2.2.2.1
  | group as b =>
    have B := content_ok hr b hb.1 (shaped_group b hg.2) ha
    rw [List.mem_singleton.1 hn]
    exact ⟨B.elements _, B.groups _⟩
  | attrGroup as b =>
    have B := content_ok hr b hb.1 (shaped_attrs b hg.2) ha
    rcases List.mem_append.1 hn with hn | hn
    · obtain ⟨a, ha, rfl⟩ := List.mem_map.1 hn
      intro e he
      rw [(B.attrGroups a ha).2] at he
      cases he
    · rw [List.mem_singleton.1 hn]
      exact B.attributes
  | «attribute» as =>
    rw [List.mem_singleton.1 hn]
    obtain ⟨v, hv, h3, h4⟩ := some_ok hr hb.2.1 hb.1
    have e : (attributeOf ty as).type = ty v := by simp [attributeOf, hb.2.2, hv]
    exact ⟨by rw [e]; exact h4, by rw [e]; exact h3⟩
  | attrAnon as ras fs =>
    rw [List.mem_singleton.1 hn]
    exact hin hb.2.1 hb.1

theorem mem_tree (ref : Tree → Str → Str) (ds : List Decl) : ∀ t : Tree, (∀ n ∈ nodes t, n ∈ nodes (treeOf ref t ds)) ∧
    ∀ d ∈ ds, ∃ t', ∀ n ∈ d.nodes (ref t'), n ∈ nodes (treeOf ref t ds) := by
  induction ds with
  | nil => intro t; exact ⟨fun n h => h, fun d h => by cases h⟩
  | cons d ds ih =>
    intro t
    obtain ⟨h1, h2⟩ := ih (t ++ (d.nodes (ref t)).map some)
    have h3 : ∀ n, n ∈ nodes t ∨ n ∈ d.nodes (ref t) → n ∈ nodes (treeOf ref t (d :: ds)) := by
      intro n hn
      refine h1 n ?_
      rw [Xgen.Decl.nodes, List.filterMap_append, List.mem_append]
      rcases hn with hn | hn
      · exact .inl hn
      · exact .inr (by rw [List.filterMap_map]; simpa using hn)
    refine ⟨fun n hn => h3 n (.inl hn), fun d' hd => ?_⟩
    rcases List.mem_cons.1 hd with rfl | hd
    · exact ⟨t, fun n hn => h3 n (.inr hn)⟩
    · exact h2 d' hd

theorem mem_types {t : Tree} {n : Node Element} (h : n ∈ nodes t) (ht : typelike n = true) : nodeName n ∈ typeNames t :=
  List.mem_map.2 ⟨n, List.mem_filter.2 ⟨h, ht⟩, rfl⟩

theorem mem_items {t : Tree} {n : Node Element} (h : n ∈ nodes t) (ht : typelike n = false) : nodeName n ∈ itemNames t :=
  List.mem_map.2 ⟨n, List.mem_filter.2 ⟨h, by rw [ht]; rfl⟩, rfl⟩

theorem no_group {ty : Str → Str} (b : Content) (hb : b.GroupRegular ty) : anonymous b = [] := by
  induction b with
  | nil => rfl
  | elem as k ih => exact ih hb.2.2.2
  | choice as b k ihb ih => rw [anonymous, ihb hb.2.2.1, ih hb.2.2.2]; rfl
  | group as k ih => exact ih hb.2
  | _ => cases hb

theorem no_attrs (b : Content) (hb : b.AttrRegular) : anonymous b = [] := by
  induction b with
  | nil => rfl
  | attrGroup as k ih => exact ih hb.2
  | «attribute» as k ih => exact ih hb.2
  | attrAnon as b k ih => exact ih hb.2.2
  | _ => cases hb

/-- The anonymous types of a declaration are among its components, unless it is a group. -/
theorem anonymous_nodes (ty : Str → Str) (d : Decl) (hg : d.Regular ty) : ∀ s ∈ anonymous (content d), ∃ n ∈ d.nodes ty, typelike n = true ∧ nodeName n = s := by
  have h : ∀ {b : Content} {s : Str}, s ∈ anonymous b → ∃ n ∈ (nested ty false b).map Node.complex, typelike n = true ∧ nodeName n = s := by
    intro b s hs
    rw [← C59.nested_names ty b false] at hs
    obtain ⟨c, h1, h2⟩ := List.mem_map.1 hs
    exact ⟨_, List.mem_map_of_mem h1, rfl, h2⟩
  intro s hs
  cases d with
  | complex as b => obtain ⟨n, h1, h2⟩ := h hs; exact ⟨n, List.mem_append_left _ h1, h2⟩
  | anon as cas b => obtain ⟨n, h1, h2⟩ := h hs; exact ⟨n, List.mem_append_left _ h1, h2⟩
  | group as b =>
    exfalso
    rw [content, no_group b hg.2] at hs
    cases hs
  | attrGroup as b =>
    exfalso
    rw [content, no_attrs b hg.2] at hs
    cases hs
  | simple as b => cases hs
  | element as => cases hs
  | elemAnon as ras fs => cases hs
  | «attribute» as => cases hs
  | attrAnon as ras fs => cases hs

theorem decl_names (ty : Str → Str) (d : Decl) :
    (∀ s ∈ types d ++ groups d ++ attrGroups d, ∃ n ∈ d.nodes ty, typelike n = true ∧ nodeName n = s) ∧
    ∀ s ∈ elements d ++ attributes d, ∃ n ∈ d.nodes ty, typelike n = false ∧ nodeName n = s := by
  refine ⟨fun s hs => ?_, fun s hs => ?_⟩
  · cases d with
    | simple as b =>
      rw [List.mem_singleton.1 hs]
      exact ⟨_, List.mem_singleton.2 rfl, rfl, by cases b <;> rfl⟩
    | complex as b =>
      rw [List.mem_singleton.1 hs]
      exact ⟨_, List.mem_append_right _ (List.mem_singleton.2 rfl), rfl, rfl⟩
    | group as b =>
      rw [List.mem_singleton.1 hs]
      exact ⟨_, List.mem_singleton.2 rfl, rfl, rfl⟩
    | attrGroup as b =>
      rw [List.mem_singleton.1 hs]
      exact ⟨_, List.mem_append_right _ (List.mem_singleton.2 rfl), rfl, rfl⟩
    | _ => cases hs
  · cases d with
    | element as =>
      rw [List.mem_singleton.1 hs]
      exact ⟨_, List.mem_singleton.2 rfl, rfl, rfl⟩
    | anon as cas b =>
      rw [List.mem_singleton.1 hs]
      exact ⟨_, List.mem_append_right _ (List.mem_cons_of_mem _ (List.mem_singleton.2 rfl)), rfl, rfl⟩
    | elemAnon as ras fs =>
      rw [List.mem_singleton.1 hs]
      exact ⟨_, List.mem_singleton.2 rfl, rfl, rfl⟩
    | «attribute» as =>
      rw [List.mem_singleton.1 hs]
      exact ⟨_, List.mem_singleton.2 rfl, rfl, rfl⟩
    | attrAnon as ras fs =>
      rw [List.mem_singleton.1 hs]
      exact ⟨_, List.mem_singleton.2 rfl, rfl, rfl⟩
    | _ => cases hs

theorem tree_linked {ref : Tree → Str → Str} (hm : ∀ t : Tree, (∀ n ∈ nodes t, NodeOk lang tn vn n) → Answers lang tn vn R (ref t)) (ds : List Decl) :
    ∀ t : Tree, (∀ n ∈ nodes t, NodeOk lang tn vn n) → Placed ref t ds → (∀ d ∈ ds, DeclBound R d) →
    (∀ d ∈ ds, ∀ s ∈ anonymous (content d), s ∈ tn ∧ NCName s ∧ Usable lang s) →
    (∀ d ∈ ds, ∀ as cas b, d = .anon as cas b → nameOf as ∈ tn ∧ NCName (nameOf as) ∧ Usable lang (nameOf as)) →
    ∀ n ∈ nodes (treeOf ref t ds), NodeOk lang tn vn n := by
  induction ds with
  | nil => intro t h _ _ _ _; exact h
  | cons d ds ih =>
    intro t h hr hb ha he
    refine ih _ (fun n hn => ?_) hr.2 (fun d hd => hb d (by simp [hd])) (fun d hd => ha d (by simp [hd])) (fun d hd => he d (by simp [hd]))
    rw [Xgen.Decl.nodes, List.filterMap_append, List.mem_append] at hn
    rcases hn with hn | hn
    · exact h n hn
    · rw [List.filterMap_map] at hn
      exact decl_ok (hm _ h) d (hb d (by simp)) hr.1 (ha d (by simp)) (he d (by simp)) n (by simpa using hn)

theorem placed_mem {ref : Tree → Str → Str} {ds : List Decl} : ∀ {t : Tree}, Placed ref t ds → ∀ d ∈ ds, ∃ t' : Tree, d.Regular (ref t') ∧
    ∀ n ∈ d.nodes (ref t'), n ∈ nodes (treeOf ref t ds) := by
  induction ds with
  | nil => intro t _ d hd; cases hd
  | cons d ds ih =>
    intro t h d' hd
    rcases List.mem_cons.1 hd with rfl | hd
    · refine ⟨t, h.1, fun n hn => ?_⟩
      refine (mem_tree ref ds _).1 n ?_
      rw [Xgen.Decl.nodes, List.filterMap_append, List.mem_append]
      exact .inr (by rw [List.filterMap_map]; simpa using hn)
    · exact ih h.2 d' hd

/-- The tree of a schema without dangling references. -/
theorem linked {ds : List Decl} (h : Bound lang ds) (hr : Regular (typeRef lang false) [] ds) :
    Linked lang (treeOf (typeRef lang false) [] ds) := by
  have hty : ∀ d ∈ ds, ∀ s ∈ types d ++ groups d ++ attrGroups d, s ∈ typeNames (treeOf (typeRef lang false) [] ds) := by
    intro d hd s hs
    obtain ⟨t', -, h1⟩ := placed_mem hr.placed d hd
    obtain ⟨n, h2, h3, h4⟩ := (decl_names (typeRef lang false t') d).1 s hs
    rw [← h4]; exact mem_types (h1 n h2) h3
  have hit : ∀ d ∈ ds, ∀ s ∈ elements d ++ attributes d, s ∈ itemNames (treeOf (typeRef lang false) [] ds) := by
    intro d hd s hs
    obtain ⟨t', -, h1⟩ := placed_mem hr.placed d hd
    obtain ⟨n, h2, h3, h4⟩ := (decl_names (typeRef lang false t') d).2 s hs
    rw [← h4]; exact mem_items (h1 n h2) h3
  have han : ∀ d ∈ ds, ∀ s ∈ anonymous (content d), s ∈ typeNames (treeOf (typeRef lang false) [] ds) := by
    intro d hd s hs
    obtain ⟨t', h0, h1⟩ := placed_mem hr.placed d hd
    obtain ⟨n, h2, h3, h4⟩ := anonymous_nodes (typeRef lang false t') d h0 s hs
    rw [← h4]; exact mem_types (h1 n h2) h3
  have hm : Meets lang (typeNames (treeOf (typeRef lang false) [] ds)) (itemNames (treeOf (typeRef lang false) [] ds)) (offers lang ds) := by
    refine ⟨fun v hv => hv.imp id fun hv => ?_, fun v hv => ?_, fun v hv => ?_, fun v hv => ?_, fun v hv => ?_⟩ <;>
      obtain ⟨d, hd, hs⟩ := List.mem_flatMap.1 hv
    · exact ⟨hty d hd _ (by simp [hs]), h.names d hd _ (by simp [hs])⟩
    · exact ⟨hit d hd _ (by simp [hs]), (h.names d hd _ (by simp [hs])).1⟩
    · exact ⟨hit d hd _ (by simp [hs]), (h.names d hd _ (by simp [hs])).1⟩
    · exact ⟨hty d hd _ (by simp [hs]), h.names d hd _ (by simp [hs])⟩
    · exact ⟨hty d hd _ (by simp [hs]), h.names d hd _ (by simp [hs])⟩
  refine tree_linked (fun t ht => answers ht hm) ds [] (fun n hn => by cases hn) hr.placed h.refs (fun d hd s hs => ?_) fun d hd as cas b e => ?_
  · exact ⟨han d hd s hs, h.names d hd s (by simp [hs])⟩
  · subst e
    refine ⟨?_, h.names _ hd _ (by simp [elements])⟩
    obtain ⟨t', -, h1⟩ := placed_mem hr.placed _ hd
    exact mem_types (n := .complex (complexOf (typeRef lang false t') false (nameOf as) b)) (h1 _ (by simp [Core.Decl.nodes])) rfl

end

/-! ## Documentation does not matter -/

theorem nodeOk_bare (lang : Str) (tn vn : List Str) (n : Node Element) : NodeOk lang tn vn (C57.noDocNode C31.noDocE n) ↔ NodeOk lang tn vn n := by
  cases n <;> simp [NodeOk, C57.noDocNode, C31.noDocE, C31.noDocS, C31.noDocA, C31.noDocC, C31.noDocG, C31.noDocAG]

theorem linked_alike {lang : Str} {t t' : Tree} (h : C57.bare t = C57.bare t') (hl : Linked lang t') : Linked lang t := by
  have ht : ∀ n : Node Element, typelike (C57.noDocNode C31.noDocE n) = typelike n := fun n => by cases n <;> rfl
  have key : ∀ t : Tree, Linked lang (C57.bare t) ↔ Linked lang t := by
    intro t
    have h1 : typeNames (C57.bare t) = typeNames t := by
      simp [typeNames, C59.nodes_bare, List.filter_map, Function.comp_def, ht, C59.name_bare]
    have h2 : itemNames (C57.bare t) = itemNames t := by
      simp [itemNames, C59.nodes_bare, List.filter_map, Function.comp_def, ht, C59.name_bare]
    unfold Linked
    rw [h1, h2, C59.nodes_bare]
    simp only [List.mem_map, forall_exists_index, and_imp, forall_apply_eq_imp_iff₂, nodeOk_bare]
  rw [← key, h, key]; exact hl

/-! ## What a name in such a tree stands for -/

section
variable {lang : Str} {t : Tree}

theorem ok_local {tn : List Str} {s : Str} (h : Ok lang tn s) : Names.localPart s = s := by
  rcases h with rfl | ⟨k, hk⟩ | ⟨-, hs, -⟩
  · rfl
  · exact (C70.table_plain hk).2
  · exact localPart_plain hs.colon

theorem meaning_ok {tn : List Str} (hl : ∀ n ∈ nodes t, NodeOk lang tn (itemNames t) n) {s : Str} (hs : Ok0 lang tn (itemNames t) s) :
    Ok lang tn (Names.meaning t s) ∧ (s ≠ [] → Names.meaning t s ≠ []) := by
  have hd := declares_ok hl
  unfold Names.meaning
  have e : Names.localPart s = s := by
    rcases hs with hs | hs
    · exact ok_local hs
    · exact localPart_plain hs.2.colon
  rw [e]
  cases hf : (t.filterMap C07.declares).find? (fun d => d.1 = s) with
  | some d =>
    have hd := hd d (List.mem_of_find?_eq_some hf)
    exact ⟨hd.2, fun _ => hd.1⟩
  | none =>
    refine ⟨hs.resolve_right fun hs => ?_, id⟩
    obtain ⟨n, hn, e⟩ := List.mem_map.1 hs.1
    obtain ⟨hn, hn'⟩ := List.mem_filter.1 hn
    have := List.find?_eq_none.1 hf
    cases n with
    | elem v => exact this (v.name, v.type) (List.mem_filterMap.2 ⟨_, List.mem_filterMap.1 hn |>.choose_spec.1, by
        have := (List.mem_filterMap.1 hn).choose_spec.2
        simp only [id] at this
        rw [this]; rfl⟩) (decide_eq_true (show v.name = s from e))
    | attr v => exact this (v.name, v.type) (List.mem_filterMap.2 ⟨_, List.mem_filterMap.1 hn |>.choose_spec.1, by
        have := (List.mem_filterMap.1 hn).choose_spec.2
        simp only [id] at this
        rw [this]; rfl⟩) (decide_eq_true (show v.name = s from e))
    | _ => cases hn'

/-- What names stand for in a tree is there. -/
def Means (lang : Str) (tn vn : List Str) (t : Tree) : Prop := ∀ s, Ok0 lang tn vn s →
  Ok lang tn (Names.meaning t s) ∧ (s ≠ [] → Names.meaning t s ≠ [])

theorem means (hl : Linked lang t) : Means lang (typeNames t) (itemNames t) t := fun _ hs => meaning_ok hl hs

theorem member_ok {tn : List Str} {m : Str × Str} (h : m.2 ≠ [] ∧ Ok lang tn m.2) : Ok lang tn (C55.memberMeaning t m) := by
  rw [C55.memberMeaning, if_pos h.1]; exact h.2

end

theorem attrs_ok {lang : Str} {tn vn : List Str} {v : AttributeGroup} (h : NodeOk lang tn vn (.attrGroup v)) :
    NodeOk lang tn vn (.complex (C54.withAttrs v)) :=
  ⟨nil_ok, (fun _ he => by cases he), h, (fun _ he => by cases he), fun _ he => by cases he⟩

/-! ## Types of a file -/

/-- A type made from predefined and declared types. -/
inductive Known (pre : List Str) (wraps : List (Str × Str)) (names : List Str) : Str → Prop
  | predefined {t : Str} : t ∈ pre → Known pre wraps names t
  | declared {t : Str} : t ∈ names → Known pre wraps names t
  | wrapped {t : Str} {w : Str × Str} : w ∈ wraps → Known pre wraps names t → Known pre wraps names (w.1 ++ t ++ w.2)

/-- What follows the next word. -/
def after (l : Str) : Str := l.dropWhile fun c => c ≠ ' ' && c ≠ '\t'

theorem after_eq {n r : Str} {b : Char} (h1 : ' ' ∉ n) (h2 : '\t' ∉ n) (hb : b = ' ' ∨ b = '\t') : after (n ++ b :: r) = b :: r := by
  induction n with
  | nil => rcases hb with rfl | rfl <;> rfl
  | cons c n ih =>
    simp only [List.mem_cons, not_or] at h1 h2
    have hc : (c ≠ ' ' && c ≠ '\t') = true := by simp [Ne.symm h1.1, Ne.symm h2.1]
    rw [List.cons_append, after, List.dropWhile_cons, hc, if_pos rfl]
    exact ih h1.2 h2.2

theorem mem_finals (base : Node Element → Str) (numbered : Node Element → Bool) (ns : List (Node Element)) : ∀ used, ∀ n ∈ ns,
    base n ∉ used → base n ∈ C56.finals base numbered used ns := by
  induction ns with
  | nil => intro used n hn; cases hn
  | cons a ns ih =>
    intro used n hn hu
    rw [C56.finals]
    by_cases e : base a = base n
    · rw [← e] at hu ⊢
      have : C14.numbered (base a) (used.count (base a) + 1) = base a := by
        rw [List.count_eq_zero_of_not_mem hu]; rfl
      split
      · rw [this]; exact List.mem_cons_self
      · exact List.mem_cons_self
    · have hn := (List.mem_cons.1 hn).resolve_left fun h => e (by rw [h])
      split
      · exact List.mem_cons_of_mem _ (ih _ n hn (by simp [hu, Ne.symm e]))
      · exact List.mem_cons_of_mem _ (ih _ n hn hu)

/-- Every name of a type is among the names of the declarations. -/
theorem named (f : Str → Str) (numbered free : Node Element → Bool) (t : Tree) {s : Str} (hs : s ∈ typeNames t) :
    f s ∈ C56.finals (fun n => f (nodeName n)) numbered [] (C56.firsts free (nodes t)) := by
  obtain ⟨n, hn, rfl⟩ := List.mem_map.1 hs
  obtain ⟨m, hm, e⟩ := C59.mem_firsts free _ n (List.mem_filter.1 hn).1
  rw [← e]
  exact mem_finals _ _ _ _ m hm (by simp)

theorem firsts_mem (free : Node Element → Bool) (ns : List (Node Element)) : ∀ n ∈ C56.firsts free ns, n ∈ ns := by
  induction ns with
  | nil => intro n hn; cases hn
  | cons a ns ih =>
    intro n hn
    rw [C56.firsts] at hn
    rcases List.mem_cons.1 hn with rfl | hn
    · exact List.mem_cons_self
    · split at hn
      · exact List.mem_cons_of_mem _ (ih n hn)
      · exact List.mem_cons_of_mem _ (ih n (List.mem_filter.1 hn).1)

/-- The declarations are of components of the tree, under their names with or without a number. -/
theorem mem_declarations {base : Node Element → Str} {numbered free : Node Element → Bool} {t : Tree} {x : Node Element × Str}
    (hx : x ∈ C58.declarations base numbered free t) : x.1 ∈ nodes t ∧ (x.2 = base x.1 ∨ ∃ k, x.2 = C14.numbered (base x.1) k) := by
  have key : ∀ (ns : List (Node Element)) used, x ∈ ns.zip (C56.finals base numbered used ns) →
      x.1 ∈ ns ∧ (x.2 = base x.1 ∨ ∃ k, x.2 = C14.numbered (base x.1) k) := by
    intro ns
    induction ns with
    | nil => intro used h; cases h
    | cons a ns ih =>
      intro used h
      rw [C56.finals] at h
      split at h
      · rw [List.zip_cons_cons] at h
        rcases List.mem_cons.1 h with rfl | h
        · exact ⟨List.mem_cons_self, .inr ⟨_, rfl⟩⟩
        · exact ⟨List.mem_cons_of_mem _ (ih _ h).1, (ih _ h).2⟩
      · rw [List.zip_cons_cons] at h
        rcases List.mem_cons.1 h with rfl | h
        · exact ⟨List.mem_cons_self, .inl rfl⟩
        · exact ⟨List.mem_cons_of_mem _ (ih _ h).1, (ih _ h).2⟩
  have := key _ _ hx
  exact ⟨firsts_mem _ _ _ this.1, this.2⟩

theorem declared_clean {base : Node Element → Str} {numbered free : Node Element → Bool} {t : Tree} {x : Node Element × Str}
    (hx : x ∈ C58.declarations base numbered free t) (h : Clean notInNames (base x.1)) : Clean notInNames x.2 := by
  rcases (mem_declarations hx).2 with e | ⟨k, e⟩ <;> rw [e]
  · exact h
  · exact fun c hc => numbered_absent ((by decide : ∀ x ∈ notInNames, x.isDigit = false) c hc) (h c hc)

/-! ### Which component comes first -/

/-- Elements and attributes with a name among `T` come after another component of that name. -/
def Led (T : List Str) : List Str → List (Node Element) → Prop
  | _, [] => True
  | seen, n :: ns => (typelike n = false → nodeName n ∈ T → nodeName n ∈ seen) ∧ Led T (nodeName n :: seen) ns

theorem Led.first {T seen : List Str} {ns : List (Node Element)} (h : Led T seen ns) : ∀ m ∈ C56.firsts (fun _ => false) ns, nodeName m ∉ seen →
    nodeName m ∈ T → typelike m = true := by
  induction ns generalizing seen with
  | nil => intro m hm; cases hm
  | cons n ns ih =>
    intro m hm hs hT
    rw [C56.firsts] at hm
    rcases List.mem_cons.1 hm with rfl | hm
    · cases e : typelike m with
      | true => rfl
      | false => exact absurd (h.1 e hT) hs
    · simp only [Bool.false_eq_true, if_false, List.mem_filter, Bool.false_or, decide_eq_true_eq] at hm
      exact ih h.2 m hm.1 (by simp [hs, hm.2]) hT

theorem Led.mono {T : List Str} {ns : List (Node Element)} : ∀ {seen seen' : List Str}, (∀ s ∈ seen, s ∈ seen') → Led T seen ns → Led T seen' ns := by
  induction ns with
  | nil => intros; trivial
  | cons n ns ih =>
    intro seen seen' hs h
    refine ⟨fun h1 h2 => hs _ (h.1 h1 h2), ih (fun s hs' => ?_) h.2⟩
    rcases List.mem_cons.1 hs' with rfl | hs'
    · exact List.mem_cons_self
    · exact List.mem_cons_of_mem _ (hs s hs')

theorem Led.append {T : List Str} {ms ns : List (Node Element)} : ∀ {seen : List Str}, Led T seen ms → Led T seen ns → Led T seen (ms ++ ns) := by
  induction ms with
  | nil => intro seen _ h; exact h
  | cons m ms ih => intro seen h h'; exact ⟨h.1, ih h.2 (h'.mono fun s hs => List.mem_cons_of_mem _ hs)⟩

theorem Led.types {T seen : List Str} {ns : List (Node Element)} (h : ∀ n ∈ ns, typelike n = false → nodeName n ∉ T) : Led T seen ns := by
  induction ns generalizing seen with
  | nil => trivial
  | cons n ns ih => exact ⟨fun h1 h2 => absurd h2 (h n List.mem_cons_self h1), ih fun m hm => h m (List.mem_cons_of_mem _ hm)⟩

theorem typelike_bare (n : Node Element) : typelike (C57.noDocNode C31.noDocE n) = typelike n := by cases n <;> rfl

theorem typeNames_bare (t : Tree) : typeNames (C57.bare t) = typeNames t := by
  simp [typeNames, C59.nodes_bare, List.filter_map, Function.comp_def, typelike_bare, C59.name_bare]

theorem led_alike {t t' : Tree} (h : C57.bare t = C57.bare t') (hl : Led (typeNames t') [] (nodes t')) : Led (typeNames t) [] (nodes t) := by
  have key : ∀ (T : List Str) (ns : List (Node Element)) seen, Led T seen (ns.map (C57.noDocNode C31.noDocE)) ↔ Led T seen ns := by
    intro T ns
    induction ns with
    | nil => intro seen; exact Iff.rfl
    | cons n ns ih => intro seen; simp only [List.map_cons, Led, typelike_bare, C59.name_bare, ih]
  rw [← typeNames_bare t', ← key, ← C59.nodes_bare, ← h, C59.nodes_bare, key, typeNames_bare] at hl
  exact hl

/-- The names of the types that a declaration introduces. -/
def typeNamesOf : Decl → List Str
  | .simple as _ => [nameOf as]
  | .complex as b => anonymous b ++ [nameOf as]
  | .anon as _ b => anonymous b ++ [nameOf as]
  | .group as _ => [nameOf as]
  | .attrGroup as b => (Core.attrGroups id b).map (·.name) ++ [nameOf as]
  | _ => []

/-- The names of elements without anonymous complex type and of attributes. -/
def itemNamesOf : Decl → List Str
  | .element as => [nameOf as]
  | .elemAnon as _ _ => [nameOf as]
  | .attribute as => [nameOf as]
  | .attrAnon as _ _ => [nameOf as]
  | _ => []

/-- No element or attribute has the name of a type, unless it is the element of that type. -/
def Separate (ds : List Decl) : Prop := ∀ d ∈ ds, ∀ s ∈ itemNamesOf d, ∀ d' ∈ ds, s ∉ typeNamesOf d'

theorem attrGroups_names (ty ty' : Str → Str) (b : Content) : (Core.attrGroups ty b).map (·.name) = (Core.attrGroups ty' b).map (·.name) := by
  induction b with
  | nil => rfl
  | attrGroup as k ih => simp [Core.attrGroups, ih, attrGroupOf]
  | elem as k ih => exact ih
  | anon as cas b k _ ih => exact ih
  | elemAnon as ras fs k ih => exact ih
  | group as k ih => exact ih
  | «attribute» as k ih => exact ih
  | attrAnon as b k ih => exact ih
  | choice as b k ihb ih => simp [Core.attrGroups, ihb, ih]
  | ext as b k ihb ih => simp [Core.attrGroups, ihb, ih]
  | restr as fs b k ihb ih => simp [Core.attrGroups, ihb, ih]

theorem simpleOf_name (ty : Str → Str) (as : List Attr) (b : SimpleBody) : (simpleOf ty as b).name = nameOf as := by cases b <;> rfl

/-- The names of the components of a declaration. -/
theorem node_names (ty : Str → Str) (d : Decl) : ∀ n ∈ d.nodes ty, typelike n = true → nodeName n ∈ typeNamesOf d := by
  have hnest : ∀ {b : Content} {p : Bool} {n : Node Element}, n ∈ (nested ty p b).map Node.complex → nodeName n ∈ anonymous b := by
    intro b p n hn
    obtain ⟨c, hc, rfl⟩ := List.mem_map.1 hn
    rw [← C59.nested_names ty b p]
    exact List.mem_map_of_mem hc
  intro n hn ht
  cases d with
  | simple as b =>
    rw [List.mem_singleton.1 hn]
    exact List.mem_singleton.2 (simpleOf_name ty as b)
  | complex as b =>
    rcases List.mem_append.1 hn with hn | hn
    · exact List.mem_append_left _ (hnest hn)
    · rw [List.mem_singleton.1 hn]; exact List.mem_append_right _ (List.mem_singleton.2 rfl)
  | element as => rw [List.mem_singleton.1 hn] at ht; cases ht
  | anon as cas b =>
    rcases List.mem_append.1 hn with hn | hn
    · exact List.mem_append_left _ (hnest hn)
    · rcases List.mem_cons.1 hn with rfl | hn
      · exact List.mem_append_right _ (List.mem_singleton.2 rfl)
      · rw [List.mem_singleton.1 hn] at ht; cases ht
  | elemAnon as ras fs => rw [List.mem_singleton.1 hn] at ht; cases ht
  | group as b => rw [List.mem_singleton.1 hn]; exact List.mem_singleton.2 rfl
  | attrGroup as b =>
    rcases List.mem_append.1 hn with hn | hn
    · obtain ⟨c, hc, rfl⟩ := List.mem_map.1 hn
      refine List.mem_append_left _ ?_
      rw [attrGroups_names id ty]
      exact List.mem_map_of_mem hc
    · rw [List.mem_singleton.1 hn]; exact List.mem_append_right _ (List.mem_singleton.2 rfl)
  | «attribute» as => rw [List.mem_singleton.1 hn] at ht; cases ht
  | attrAnon as ras fs => rw [List.mem_singleton.1 hn] at ht; cases ht

theorem tree_names (ref : Tree → Str → Str) (ds : List Decl) : ∀ t : Tree, ∀ s ∈ typeNames (treeOf ref t ds), s ∈ typeNames t ∨ ∃ d ∈ ds, s ∈ typeNamesOf d := by
  induction ds with
  | nil => intro t s hs; exact .inl hs
  | cons d ds ih =>
    intro t s hs
    rcases ih _ s hs with h | ⟨d', h1, h2⟩
    · obtain ⟨n, hn, rfl⟩ := List.mem_map.1 h
      obtain ⟨hn, ht⟩ := List.mem_filter.1 hn
      rw [Xgen.Decl.nodes, List.filterMap_append] at hn
      rcases List.mem_append.1 hn with hn | hn
      · exact .inl (mem_types hn ht)
      · rw [List.filterMap_map] at hn
        exact .inr ⟨d, List.mem_cons_self, node_names (ref t) d n (by simpa using hn) ht⟩
    · exact .inr ⟨d', List.mem_cons_of_mem _ h1, h2⟩

theorem decl_led (ty : Str → Str) (d : Decl) {T seen : List Str} (h : ∀ s ∈ itemNamesOf d, s ∉ T) : Led T seen (d.nodes ty) := by
  have one : ∀ n : Node Element, nodeName n ∈ itemNamesOf d → Led T seen [n] := fun n hn =>
    Led.types fun m hm _ => by rw [List.mem_singleton.1 hm]; exact h _ hn
  have hnest : ∀ (cs : List ComplexType), ∀ n ∈ cs.map Node.complex, typelike n = false → nodeName n ∉ T := by
    intro cs n hn ht
    obtain ⟨c, -, rfl⟩ := List.mem_map.1 hn
    cases ht
  cases d with
  | simple as b => exact Led.types fun n hn ht => by rw [List.mem_singleton.1 hn] at ht; cases ht
  | complex as b =>
    refine Led.types fun n hn ht => ?_
    rcases List.mem_append.1 hn with hn | hn
    · exact hnest _ n hn ht
    · rw [List.mem_singleton.1 hn] at ht; cases ht
  | element as => exact one _ (List.mem_singleton.2 rfl)
  | anon as cas b =>
    refine Led.append (Led.types (hnest _)) ⟨(fun h => by cases h), fun _ _ => ?_, trivial⟩
    exact List.mem_cons_self
  | elemAnon as ras fs => exact one _ (List.mem_singleton.2 rfl)
  | group as b => exact Led.types fun n hn ht => by rw [List.mem_singleton.1 hn] at ht; cases ht
  | attrGroup as b =>
    refine Led.types fun n hn ht => ?_
    rcases List.mem_append.1 hn with hn | hn
    · obtain ⟨c, -, rfl⟩ := List.mem_map.1 hn
      cases ht
    · rw [List.mem_singleton.1 hn] at ht; cases ht
  | «attribute» as => exact one _ (List.mem_singleton.2 rfl)
  | attrAnon as ras fs => exact one _ (List.mem_singleton.2 rfl)

theorem tree_led (ref : Tree → Str → Str) {ds : List Decl} (h : Separate ds) : Led (typeNames (treeOf ref [] ds)) [] (nodes (treeOf ref [] ds)) := by
  have hT : ∀ d ∈ ds, ∀ s ∈ itemNamesOf d, s ∉ typeNames (treeOf ref [] ds) := by
    intro d hd s hs hs'
    rcases tree_names ref ds [] s hs' with h' | ⟨d', h1, h2⟩
    · cases h'
    · exact h d hd s hs d' h1 h2
  generalize typeNames (treeOf ref [] ds) = T at hT
  have key : ∀ (ds : List Decl) (t : Tree), (∀ d ∈ ds, ∀ s ∈ itemNamesOf d, s ∉ T) → Led T [] (nodes t) → Led T [] (nodes (treeOf ref t ds)) := by
    intro ds
    induction ds with
    | nil => intro t _ h; exact h
    | cons d ds ih =>
      intro t hd h
      refine ih _ (fun d' h' => hd d' (List.mem_cons_of_mem _ h')) ?_
      rw [Xgen.Decl.nodes, List.filterMap_append]
      refine Led.append h ?_
      rw [List.filterMap_map]
      simpa using decl_led (ref t) d (seen := []) (hd d List.mem_cons_self)
  exact key ds [] hT trivial

/-- No component is an attribute group. -/
def Ungrouped (t : Tree) : Prop := ∀ v, .attrGroup v ∉ nodes t

theorem ungrouped_alike {t t' : Tree} (h : C57.bare t = C57.bare t') (hl : Ungrouped t') : Ungrouped t := by
  intro v hv
  have h1 : C57.noDocNode C31.noDocE (.attrGroup v) ∈ nodes (C57.bare t) := by
    rw [C59.nodes_bare]; exact List.mem_map_of_mem hv
  rw [h, C59.nodes_bare] at h1
  obtain ⟨n, hn, e⟩ := List.mem_map.1 h1
  cases n with
  | attrGroup w => exact hl w hn
  | _ => cases e

theorem tree_ungrouped (ref : Tree → Str → Str) {ds : List Decl} (h : ∀ as b, Decl.attrGroup as b ∉ ds) : Ungrouped (treeOf ref [] ds) := by
  have key : ∀ (ds : List Decl) (t : Tree), (∀ as b, Decl.attrGroup as b ∉ ds) → Ungrouped t → Ungrouped (treeOf ref t ds) := by
    intro ds
    induction ds with
    | nil => intro t _ h; exact h
    | cons d ds ih =>
      intro t hd h
      refine ih _ (fun as b h' => hd as b (List.mem_cons_of_mem _ h')) fun v hv => ?_
      rw [Xgen.Decl.nodes, List.filterMap_append, List.mem_append] at hv
      rcases hv with hv | hv
      · exact h v hv
      · rw [List.filterMap_map] at hv
        have hv : .attrGroup v ∈ d.nodes (ref t) := by simpa using hv
        cases d with
        | attrGroup as b => exact hd as b List.mem_cons_self
        | complex as b => simp [Core.Decl.nodes] at hv
        | anon as cas b => simp [Core.Decl.nodes] at hv
        | _ => cases List.mem_singleton.1 hv
  exact key ds [] h fun v hv => by cases hv

section
variable [Uni] [UniLaws]

theorem strict_clean {s : Str} (h : Clean notInNames s) : Clean notInNames (Names.strict s) := fun c hc => by
  rw [← Names.go_name]; exact goName_absent ((by decide : ∀ x ∈ notInNames, Sym x) c hc) (h c hc)

theorem plain_clean {s : Str} (h : Clean notInNames s) : Clean notInNames (Names.plain s) := fun c hc => by
  rw [← Names.c_name]; exact cName_absent ((by decide : ∀ x ∈ notInNames, Sym x) c hc) (h c hc)

/-! ### Go -/

namespace Go
open C17 (typeOf Field)

/-- Predefined types, those of packages that are imported, and the empty interface. -/
def predefined : List Str :=
  [c!"bool", c!"byte", c!"complex64", c!"complex128", c!"float32", c!"float64", c!"int", c!"int8", c!"int16", c!"int32", c!"int64",
   c!"string", c!"uint", c!"uint8", c!"uint16", c!"uint32", c!"uint64", c!"time.Time", c!"xml.Name", c!"interface{}"]

/-- Pointers and slices. -/
def wraps : List (Str × Str) := [(c!"*", []), (c!"[]", [])]

/-- The type in `type name type`. -/
def headType (l : Str) : Option Str := match after (l.drop 5) with
  | _ :: t => if t = c!"struct {" then none else some t
  | [] => none

/-- The types that a declaration mentions. -/
def mentions (d : Str × List Field) : List Str := (headType d.1).toList ++ d.2.map (·.type)

/-- A source file in which every type is there. -/
def Closed (text : Str) : Prop :=
  ∀ d ∈ C58.Go.declsOf text, ∀ t ∈ mentions d, Known predefined wraps (C56.Go.names text) t

variable {names : List Str}

omit [Uni] [UniLaws] in
theorem builtin_known : ∀ s ∈ goBuildinType, s ≠ c!"interface" → Known predefined wraps names s := by
  intro s hs hi
  have h1 : s ∈ predefined ∨ s = c!"[]byte" ∨ s = c!"[]bool" ∨ s = c!"[]interface{}" ∨ s = c!"[]string" ∨ s = c!"interface" :=
    (by decide : ∀ s ∈ goBuildinType, s ∈ predefined ∨ s = c!"[]byte" ∨ s = c!"[]bool" ∨ s = c!"[]interface{}" ∨ s = c!"[]string" ∨ s = c!"interface") s hs
  rcases h1 with h | rfl | rfl | rfl | rfl | rfl
  · exact .predefined h
  · exact .wrapped (w := (c!"[]", [])) (t := c!"byte") (by decide) (.predefined (by decide))
  · exact .wrapped (w := (c!"[]", [])) (t := c!"bool") (by decide) (.predefined (by decide))
  · exact .wrapped (w := (c!"[]", [])) (t := c!"interface{}") (by decide) (.predefined (by decide))
  · exact .wrapped (w := (c!"[]", [])) (t := c!"string") (by decide) (.predefined (by decide))
  · exact absurd rfl hi

omit [Uni] [UniLaws] in
theorem table {k s : Str} (h : getBuildInTypeByLang k c!"Go" = some s) : s ∈ goBuildinType ∧ s ≠ c!"interface" := by
  obtain ⟨e, he, ht⟩ := C06.column h
  have := (by decide : ∀ e ∈ buildInTypes, (e.2[0]?).all (fun t => decide (t ∈ goBuildinType ∧ t ≠ c!"interface")) = true) e he
  change e.2[0]? = _ at ht
  rw [ht] at this
  simpa using this

theorem pointer {t : Str} (h : Known predefined wraps names t) : Known predefined wraps names ('*' :: t) := by
  have := Known.wrapped (w := (c!"*", [])) (by decide) h
  rwa [show c!"*" ++ t ++ [] = '*' :: t by simp] at this

omit [Uni] [UniLaws] in
theorem slice {t : Str} (h : Known predefined wraps names t) (b : Bool) : Known predefined wraps names ((if b then c!"[]" else []) ++ t) := by
  cases b
  · exact h
  · have := Known.wrapped (w := (c!"[]", [])) (by decide) h
    rwa [List.append_nil] at this

theorem strict_ne {s : Str} (h : ∃ c ∈ s, c ∉ [':', '.', '-', '_']) : Names.strict s ≠ [] := by
  have key : ∀ (s : Str) b, (∃ c ∈ s, c ∉ [':', '.', '-', '_']) → Names.camel Names.colonDot Names.hyphenUnderscore b s ≠ [] := by
    intro s
    induction s with
    | nil => rintro b ⟨c, h, -⟩; cases h
    | cons a s ih =>
      rintro b ⟨c, h1, h2⟩
      rw [Names.camel]
      split
      · rename_i ha
        rcases List.mem_cons.1 h1 with rfl | h1
        · simp only [List.mem_cons, List.not_mem_nil, or_false, not_or] at h2
          simp [Names.colonDot, h2.1, h2.2.1] at ha
        · exact ih _ ⟨c, h1, h2⟩
      · split
        · rename_i ha
          rcases List.mem_cons.1 h1 with rfl | h1
          · simp only [List.mem_cons, List.not_mem_nil, or_false, not_or] at h2
            simp [Names.hyphenUnderscore, h2.2.2.1, h2.2.2.2] at ha
          · exact ih _ ⟨c, h1, h2⟩
        · simp
  exact key s true h

/-- What a type that is there looks like. -/
theorem cases {tn : List Str} (hN : ∀ s ∈ tn, Names.strict s ∈ names) {s : Str} (h : Ok c!"Go" tn s) :
    s = [] ∨ (s ∈ goBuildinType ∧ s ≠ c!"interface") ∨
      (s ∉ goBuildinType ∧ Names.strict s ≠ [] ∧ Names.strict s ∈ names ∧ Names.goType goBuildinType s = '*' :: Names.strict s) := by
  rcases h with h | ⟨k, hk⟩ | ⟨h1, h2, h3⟩
  · exact .inl h
  · exact .inr (.inl (table hk))
  · by_cases hb : s ∈ goBuildinType
    · exact .inr (.inl ⟨hb, (h3.1 rfl).1⟩)
    · have hne := strict_ne (h3.1 rfl).2
      refine .inr (.inr ⟨hb, hne, hN s h1, ?_⟩)
      rw [Names.goType, if_neg hb, C53.word_strict h2]
      cases e : Names.strict s with
      | nil => exact absurd e hne
      | cons c r => rfl

theorem known {tn : List Str} (hN : ∀ s ∈ tn, Names.strict s ∈ names) {s : Str} (h : Ok c!"Go" tn s) :
    Known predefined wraps names (Names.goType goBuildinType s) := by
  rcases cases hN h with rfl | ⟨h1, h2⟩ | ⟨-, -, h1, h2⟩
  · exact .predefined (show Names.goType goBuildinType [] ∈ predefined from (by decide : c!"interface{}" ∈ predefined))
  · rw [Names.goType, if_pos h1]; exact builtin_known s h1 h2
  · rw [h2]; exact pointer (.declared h1)

theorem again {w : Str} (h1 : '.' ∉ w) (h2 : '-' ∉ w) (h3 : '_' ∉ w) : Names.goType goBuildinType ('*' :: w) = '*' :: '*' :: w := by
  have hb : ('*' :: w) ∉ goBuildinType := fun h => by
    have := (by decide : ∀ s ∈ goBuildinType, s.head? ≠ some '*') _ h
    exact this rfl
  have hu : Uni.upper '*' = '*' := (upper_eq_iff (by decide) (by decide) _).2 rfl
  have hc : ∀ w : Str, '.' ∉ w → '-' ∉ w → Names.camel Names.dot Names.hyphen false w = w := by
    intro w
    induction w with
    | nil => intros; rfl
    | cons c w ih =>
      intro h1 h2
      simp only [List.mem_cons, not_or] at h1 h2
      rw [Names.camel, if_neg (by simp [Names.dot, Ne.symm h1.1]), if_neg (by simp [Names.hyphen, Ne.symm h2.1]), ih h1.2 h2.2]
      rfl
  rw [Names.goType, if_neg hb]
  have e : (Names.cap (Names.camel Names.dot Names.hyphen true ('*' :: w))).filter (· ≠ '_') = '*' :: w := by
    rw [Names.camel, if_neg (by decide), if_neg (by decide), hc w h1 h2]
    simp only [if_true, hu, Names.cap]
    rw [List.filter_cons, if_pos (by decide)]
    congr 1
    rw [List.filter_eq_self]
    intro c hc
    simp only [ne_eq, decide_eq_true_eq]
    exact fun e => h3 (e ▸ hc)
  rw [e]

theorem strict_absent (s : Str) {x : Char} (hx : x = '.' ∨ x = '-' ∨ x = '_') : x ∉ Names.strict s := by
  have key : ∀ (s : Str) b, x ∉ Names.camel Names.colonDot Names.hyphenUnderscore b s := by
    intro s
    induction s with
    | nil => intro b h; cases h
    | cons a s ih =>
      intro b
      rw [Names.camel]
      split
      · exact ih _
      · rename_i h1
        split
        · exact ih _
        · rename_i h2
          have ha : x ≠ a := by
            rintro rfl
            rcases hx with rfl | rfl | rfl
            · exact h1 rfl
            · exact h2 rfl
            · exact h2 rfl
          have hu : x ≠ Uni.upper a := fun e => ha ((upper_eq_iff (by rcases hx with rfl | rfl | rfl <;> decide)
            (by rcases hx with rfl | rfl | rfl <;> decide) a).1 e.symm).symm
          simp only [List.mem_cons, not_or]
          exact ⟨by split <;> assumption, ih _⟩
  exact key s true

theorem known_twice {tn : List Str} (hN : ∀ s ∈ tn, Names.strict s ∈ names) {s : Str} (h : Ok c!"Go" tn s) (hs : s ≠ []) :
    Known predefined wraps names (Names.goType goBuildinType (Names.goType goBuildinType s)) := by
  rcases cases hN h with rfl | ⟨h1, h2⟩ | ⟨-, -, h1, h2⟩
  · exact absurd rfl hs
  · rw [Names.goType, Names.goType, if_pos h1, if_pos h1]; exact builtin_known s h1 h2
  · rw [h2, again (strict_absent s (.inl rfl)) (strict_absent s (.inr (.inl rfl))) (strict_absent s (.inr (.inr rfl)))]
    exact pointer (pointer (.declared h1))

omit [Uni] [UniLaws] in
theorem headType_eq {n r : Str} {b : Char} (h : Clean notInNames n) (hb : b = ' ' ∨ b = '\t') :
    headType (c!"type " ++ n ++ b :: r) = if r = c!"struct {" then none else some r := by
  unfold headType
  have e : (c!"type " ++ n ++ b :: r).drop 5 = n ++ b :: r := by simp
  rw [e, after_eq (h _ (by decide)) (h _ (by decide)) hb]

theorem complex {t : Tree} {tn vn : List Str} (hl : Means c!"Go" tn vn t) (hN : ∀ s ∈ tn, Names.strict s ∈ names) {v : ComplexType}
    (hk : NodeOk c!"Go" tn vn (.complex v)) (fn : Str) : ∀ f ∈ C17.expected t fn v, Known predefined wraps names f.type := by
  intro f hf
  have ht : ∀ s, Ok0 c!"Go" tn vn s → Known predefined wraps names (typeOf t s) := fun s hs =>
    known hN (hl _ hs).1
  simp only [C17.expected, List.mem_append, List.mem_map] at hf
  rcases hf with ((((hf | ⟨e, he, rfl⟩) | ⟨e, he, rfl⟩) | ⟨e, he, rfl⟩) | ⟨e, he, rfl⟩) | hf
  · split at hf
    · rw [List.mem_singleton.1 hf]; exact .predefined (show c!"xml.Name" ∈ predefined by decide)
    · cases hf
  · exact ht _ (.inl (hk.2.2.2.2 e he))
  · exact ht _ (hk.2.2.1 e he)
  · exact slice (ht _ (.inl (hk.2.2.2.1 e he))) e.plural
  · exact slice (ht _ (hk.2.1 e he)) e.plural
  · split at hf
    · cases hf
    · split at hf <;> rw [List.mem_singleton.1 hf] <;> exact known hN hk.1

/-- The types of one declaration. -/
theorem one {t : Tree} {tn vn : List Str} (hl : Means c!"Go" tn vn t) (hN : ∀ s ∈ tn, Names.strict s ∈ names) {order : List (Str × Str) → List (Str × Str)}
    (ho : C58.Order order) {n : Node Element} (hn : n ∈ nodes t) (hk : NodeOk c!"Go" tn vn n) {fn : Str} (hfn : Clean notInNames fn) :
    ∀ s ∈ mentions (C58.Go.head t fn n, C58.Go.fields order t fn n), Known predefined wraps names s := by
  have ht : ∀ s, Ok0 c!"Go" tn vn s → Known predefined wraps names (typeOf t s) := fun s hs =>
    known hN (hl _ hs).1
  have hx : Known predefined wraps names c!"xml.Name" := .predefined (by decide)
  have struct : headType (c!"type " ++ fn ++ c!" struct {") = none := headType_eq (b := ' ') hfn (.inl rfl)
  intro s hs
  rcases List.mem_append.1 hs with hs | hs
  · rw [Option.mem_toList] at hs
    have hsyn : ∀ (b : Char) (r : Str), b = ' ' ∨ b = '\t' → Known predefined wraps names r →
        headType (c!"type " ++ fn ++ b :: r) = some s → Known predefined wraps names s := by
      intro b r hb hr e
      rw [headType_eq hfn hb] at e
      split at e
      · cases e
      · injection e with e; rw [← e]; exact hr
    cases n with
    | simple v =>
      simp only [C58.Go.head] at hs
      split at hs
      · rename_i hlist
        refine hsyn ' ' (c!"[]" ++ Names.goType goBuildinType (typeOf t v.base)) (.inl rfl) ?_ hs
        have hm := hl _ (.inl hk.2.1)
        exact slice (known_twice hN hm.1 (hm.2 (hk.1 (.inr hlist)))) true
      · split at hs
        · rw [struct] at hs; cases hs
        · exact hsyn ' ' _ (.inl rfl) (ht _ (.inl hk.2.1)) hs
    | attr v => exact hsyn '\t' _ (.inr rfl) (slice (ht _ (.inl hk.2)) v.plural) (by simpa [C58.Go.head] using hs)
    | elem v => exact hsyn '\t' _ (.inr rfl) (slice (ht _ (.inl hk.2)) v.plural) (by simpa [C58.Go.head] using hs)
    | complex v => cases struct.symm.trans hs
    | group v => cases struct.symm.trans hs
    | attrGroup v => cases struct.symm.trans hs
  · obtain ⟨f, hf, rfl⟩ := List.mem_map.1 hs
    cases n with
    | simple v =>
      simp only [C58.Go.fields] at hf
      split at hf
      · rcases List.mem_append.1 hf with hf | hf
        · split at hf
          · rw [List.mem_singleton.1 hf]; exact hx
          · cases hf
        · obtain ⟨m, hm, rfl⟩ := List.mem_map.1 hf
          exact known hN (member_ok (hk.2.2 m ((ho _).1.mem_iff.1 hm)))
      · cases hf
    | attr v => cases hf
    | elem v => cases hf
    | complex v => exact complex hl hN hk fn f hf
    | group v =>
      simp only [C58.Go.fields, C54.Go.group, List.mem_append, List.mem_map] at hf
      rcases hf with (hf | ⟨e, he, rfl⟩) | ⟨e, he, rfl⟩
      · split at hf
        · rw [List.mem_singleton.1 hf]; exact hx
        · cases hf
      · exact slice (ht _ (hk.1 e he)) e.plural
      · exact slice (ht _ (.inl (hk.2 e he))) e.plural
    | attrGroup v => exact complex hl hN (attrs_ok hk) fn f hf

/-- The file of a tree without dangling references. -/
theorem file (pkg : Str) {t : Tree} (hp : '\n' ∉ pkg) (hg : Legible t) (hl : Linked c!"Go" t) : Closed (goSource pkg t) := by
  obtain ⟨order, ho, hr⟩ := C58.Go.file pkg t hp hg
  have hN : ∀ s ∈ typeNames t, Names.strict s ∈ C56.Go.names (goSource pkg t) := fun s hs => by
    rw [C56.Go.file_names pkg t hp hg.sound]; exact named _ _ _ t hs
  intro d hd
  rw [hr] at hd
  obtain ⟨x, hx, rfl⟩ := List.mem_map.1 hd
  have hn := (mem_declarations hx).1
  exact one (means hl) hN ho hn (hl _ hn) (declared_clean hx (strict_clean (hg.name hn)))

end Go

/-! ### Types in C and Java -/

theorem plain_cases {lang : Str} {names tn builtin : List Str} (h0 : [] ∉ builtin) (ht : ∀ k s, getBuildInTypeByLang k lang = some s → s ∈ builtin ∧ Usable lang s)
    (hN : ∀ s ∈ tn, Names.plain s ∈ names) {s : Str} (h : Ok lang tn s) :
    (s = [] ∧ Names.plainType c!"void" builtin s = c!"void") ∨ (s ∈ builtin ∧ Usable lang s ∧ Names.plainType c!"void" builtin s = s) ∨
      (s ∈ tn ∧ Names.plain s ∈ names ∧ Names.plainType c!"void" builtin s = Names.plain s) := by
  by_cases hb : s ∈ builtin
  · refine .inr (.inl ⟨hb, ?_, by rw [Names.plainType, if_pos hb]⟩)
    rcases h with rfl | ⟨k, hk⟩ | h
    · exact absurd hb h0
    · exact (ht k s hk).2
    · exact h.2.2
  · rcases h with rfl | ⟨k, hk⟩ | ⟨h1, h2, -⟩
    · refine .inl ⟨rfl, ?_⟩
      rw [Names.plainType, if_neg hb]; rfl
    · exact absurd (ht k s hk).1 hb
    · refine .inr (.inr ⟨h1, hN s h1, ?_⟩)
      rw [Names.plainType, if_neg hb, C53.word_eq h2, if_neg h2.plain_ne]

/-! ### Java -/

namespace Java
open C48.Java

/-- Predefined types. -/
def predefined : List Str :=
  [c!"Boolean", c!"Byte", c!"Character", c!"Float", c!"Integer", c!"Short", c!"String", c!"QName", c!"Long", c!"void"]

/-- Lists. -/
def wraps : List (Str × Str) := [(c!"List<", c!">")]

/-- The type in `public class name extends type  {`. -/
def headType (l : Str) : Option Str :=
  let r := after (l.drop 13)
  if c!" extends " <+: r then some ((r.drop 9).take (r.length - 12)) else none

/-- The types that a declaration mentions. -/
def mentions (d : Str × List Member) : List Str := (headType d.1).toList ++ d.2.map (·.type)

/-- A source file in which every type is there. -/
def Closed (text : Str) : Prop :=
  ∀ d ∈ C58.Java.declsOf text, ∀ t ∈ mentions d, Known predefined wraps (C56.Java.names text) t

variable {names : List Str}

omit [Uni] [UniLaws] in
theorem builtin_known : ∀ s ∈ javaBuildInType, Known predefined wraps names s := by
  intro s hs
  have h1 : s ∈ predefined ∨ s = c!"List<String>" ∨ s = c!"List<Byte>" :=
    (by decide : ∀ s ∈ javaBuildInType, s ∈ predefined ∨ s = c!"List<String>" ∨ s = c!"List<Byte>") s hs
  rcases h1 with h | rfl | rfl
  · exact .predefined h
  · exact .wrapped (w := (c!"List<", c!">")) (t := c!"String") (by decide) (.predefined (by decide))
  · exact .wrapped (w := (c!"List<", c!">")) (t := c!"Byte") (by decide) (.predefined (by decide))

omit [Uni] [UniLaws] in
theorem table (k s : Str) (h : getBuildInTypeByLang k c!"Java" = some s) : s ∈ javaBuildInType ∧ Usable c!"Java" s := by
  obtain ⟨e, he, ht⟩ := C06.column h
  have := @C06.java_col asciiUni e he
  change e.2[3]? = _ at ht
  rw [ht] at this
  exact ⟨by simpa [isBuiltInJavaType] using this, (fun h => by cases h), fun h => by cases h⟩

theorem known {tn : List Str} (hN : ∀ s ∈ tn, Names.plain s ∈ names) {s : Str} (h : Ok c!"Java" tn s) :
    Known predefined wraps names (Names.plainType c!"void" javaBuildInType s) := by
  rcases plain_cases (by decide) table hN h with ⟨-, e⟩ | ⟨h1, -, e⟩ | ⟨-, h1, e⟩ <;> rw [e]
  · exact .predefined (by decide)
  · exact builtin_known s h1
  · exact .declared h1

omit [Uni] [UniLaws] in
theorem list {t : Str} (h : Known predefined wraps names t) (b : Bool) : Known predefined wraps names (listOf b t) := by
  cases b
  · exact h
  · exact Known.wrapped (w := (c!"List<", c!">")) (by decide) h

omit [Uni] [UniLaws] in
theorem headType_none {n : Str} (h : Clean notInNames n) : headType (c!"public class " ++ n ++ c!" {") = none := by
  unfold headType
  have e : (c!"public class " ++ n ++ c!" {").drop 13 = n ++ ' ' :: c!"{" := by simp
  rw [e, after_eq (h _ (by decide)) (h _ (by decide)) (.inl rfl)]
  rfl

omit [Uni] [UniLaws] in
theorem headType_some {n t : Str} (h : Clean notInNames n) :
    headType (c!"public class " ++ n ++ (c!" extends " ++ t ++ c!" ") ++ c!" {") = some t := by
  unfold headType
  have e : (c!"public class " ++ n ++ (c!" extends " ++ t ++ c!" ") ++ c!" {").drop 13 = n ++ ' ' :: (c!"extends " ++ (t ++ c!"  {")) := by simp
  rw [e, after_eq (h _ (by decide)) (h _ (by decide)) (.inl rfl)]
  have : c!" extends " <+: ' ' :: (c!"extends " ++ (t ++ c!"  {")) := ⟨t ++ c!"  {", by simp⟩
  simp [this]

/-- The types of one declaration. -/
theorem one {t : Tree} {tn vn : List Str} (hl : Means c!"Java" tn vn t) (hN : ∀ s ∈ tn, Names.plain s ∈ names) {order : List (Str × Str) → List (Str × Str)}
    (ho : C58.Order order) {n : Node Element} (hn : n ∈ nodes t) (hk : NodeOk c!"Java" tn vn n) (ha : ∀ v, n ≠ .attrGroup v) {fn : Str} (hfn : Clean notInNames fn) :
    ∀ s ∈ mentions (C58.Java.head t fn n, C58.Java.members order t n), Known predefined wraps names s := by
  have ht : ∀ s, Ok0 c!"Java" tn vn s → Known predefined wraps names (typeOf t s) := fun s hs =>
    known hN (hl _ hs).1
  have hnone := headType_none hfn
  intro s hs
  rcases List.mem_append.1 hs with hs | hs
  · rw [Option.mem_toList] at hs
    cases n with
    | complex v =>
      simp only [C58.Java.head, header] at hs
      split at hs
      · rw [headType_some hfn] at hs
        injection hs with hs
        rw [← hs]; exact ht _ (.inl hk.1)
      · rw [List.append_nil, hnone] at hs
        cases hs
    | _ => cases hnone.symm.trans hs
  · obtain ⟨f, hf, rfl⟩ := List.mem_map.1 hs
    cases n with
    | simple v =>
      simp only [C58.Java.members] at hf
      split at hf
      · rw [List.mem_singleton.1 hf]; exact list (ht _ (.inl hk.2.1)) true
      · split at hf
        · obtain ⟨m, hm, rfl⟩ := List.mem_map.1 hf
          exact known hN (member_ok (hk.2.2 m ((ho _).1.mem_iff.1 hm)))
        · rw [List.mem_singleton.1 hf]; exact ht _ (.inl hk.2.1)
    | attr v => rw [List.mem_singleton.1 hf]; exact list (ht _ (.inl hk.2)) _
    | elem v => rw [List.mem_singleton.1 hf]; exact list (ht _ (.inl hk.2)) _
    | complex v =>
      simp only [C58.Java.members, expected, List.mem_append, List.mem_map] at hf
      rcases hf with (((⟨e, he, rfl⟩ | ⟨e, he, rfl⟩) | ⟨e, he, rfl⟩) | ⟨e, he, rfl⟩) | hf
      · exact ht _ (.inl (hk.2.2.2.2 e he))
      · exact ht _ (hk.2.2.1 e he)
      · exact list (ht _ (.inl (hk.2.2.2.1 e he))) e.plural
      · exact list (ht _ (hk.2.1 e he)) e.plural
      · split at hf
        · rw [List.mem_singleton.1 hf]; exact ht _ (.inl hk.1)
        · cases hf
    | group v =>
      simp only [C58.Java.members, C54.Java.group, List.mem_append, List.mem_map] at hf
      rcases hf with ⟨e, he, rfl⟩ | ⟨e, he, rfl⟩
      · exact list (ht _ (hk.1 e he)) e.plural
      · exact list (ht _ (.inl (hk.2 e he))) e.plural
    | attrGroup v => exact absurd rfl (ha v)

/-- The file of a tree without dangling references. -/
theorem file (pkg : Str) {t : Tree} (hp : '\n' ∉ pkg) (hg : Legible t) (hl : Linked c!"Java" t) (ha : Ungrouped t) :
    Closed (javaSource pkg t) := by
  obtain ⟨order, ho, hr⟩ := C58.Java.file pkg t hp hg
  have hN : ∀ s ∈ typeNames t, Names.plain s ∈ C56.Java.names (javaSource pkg t) := fun s hs => by
    rw [C56.Java.file_names pkg t hp hg.sound]; exact named _ _ _ t hs
  intro d hd
  rw [hr] at hd
  obtain ⟨x, hx, rfl⟩ := List.mem_map.1 hd
  have hn := (mem_declarations hx).1
  exact one (means hl) hN ho hn (hl _ hn) (fun v e => ha v (e ▸ hn)) (declared_clean hx (plain_clean (hg.name hn)))

end Java

/-! ### C -/

namespace C
open C48.C

/-- Predefined types. -/
def predefined : List Str :=
  [c!"bool", c!"char", c!"unsigned char", c!"signed char", c!"float", c!"double", c!"long double", c!"int",
   c!"unsigned int", c!"short", c!"unsigned short", c!"long", c!"unsigned long", c!"void"]

/-- Arrays. -/
def wraps : List (Str × Str) := [([], c!"[]")]

/-- The type in `typedef type name;` and `typedef type name[];`. -/
def headType (l : Str) : Option Str :=
  if l = c!"typedef struct {" then none
  else
    let m := (l.drop 8).dropLast
    some (splitLast ' ' (if c!"[]" <:+ m then m.dropLast.dropLast else m)).1

/-- The types that a declaration mentions. -/
def mentions (d : Str × List Member × List Str) : List Str := (headType d.1).toList ++ d.2.1.map (·.type)

/-- A source file in which every type is there. -/
def Closed (text : Str) : Prop :=
  ∀ d ∈ C58.C.declsOf text, ∀ t ∈ mentions d, Known predefined wraps (C56.C.names text) t

variable {names : List Str}

omit [Uni] [UniLaws] in
theorem table (k s : Str) (h : getBuildInTypeByLang k c!"C" = some s) : s ∈ cBuildInType ∧ Usable c!"C" s := by
  obtain ⟨e, he, ht⟩ := C06.column h
  have := (by decide : ∀ e ∈ buildInTypes, (e.2[2]?).all (fun t => decide (t ∈ cBuildInType ∧ t ≠ c!"enum")) = true) e he
  change e.2[2]? = _ at ht
  rw [ht] at this
  simp only [Option.all_some, decide_eq_true_eq] at this
  exact ⟨this.1, (fun h => by cases h), fun _ => this.2⟩

omit [Uni] [UniLaws] in
theorem builtin_known : ∀ s ∈ cBuildInType, s ≠ c!"enum" → Known predefined wraps names s ∧ Known predefined wraps names (item s) := by
  intro s hs hi
  have h1 : (s ∈ predefined ∧ item s = s) ∨ s = c!"char[]" ∨ s = c!"enum" :=
    (by decide : ∀ s ∈ cBuildInType, (s ∈ predefined ∧ item s = s) ∨ s = c!"char[]" ∨ s = c!"enum") s hs
  rcases h1 with ⟨h, e⟩ | rfl | rfl
  · rw [e]; exact ⟨.predefined h, .predefined h⟩
  · exact ⟨.wrapped (w := ([], c!"[]")) (t := c!"char") (by decide) (.predefined (by decide)),
      .predefined (show item c!"char[]" ∈ predefined by decide)⟩
  · exact absurd rfl hi

omit [Uni] [UniLaws] in
theorem item_clean {s : Str} (h : ']' ∉ s) : item s = s := by
  rw [item, isArray, if_neg]
  simp only [decide_eq_true_eq]
  rintro ⟨r, rfl⟩
  exact h (by simp)

theorem known {tn : List Str} (hN : ∀ s ∈ tn, Names.plain s ∈ names ∧ Clean notInNames s) {s : Str} (h : Ok c!"C" tn s) :
    Known predefined wraps names (Names.plainType c!"void" cBuildInType s) ∧
    Known predefined wraps names (item (Names.plainType c!"void" cBuildInType s)) := by
  rcases plain_cases (by decide) table (fun s hs => (hN s hs).1) h with ⟨-, e⟩ | ⟨h1, h2, e⟩ | ⟨h0, h1, e⟩ <;> rw [e]
  · exact ⟨.predefined (by decide), .predefined (by decide)⟩
  · exact builtin_known s h1 (h2.2 rfl)
  · rw [item_clean (plain_clean (hN s h0).2 _ (by decide))]
    exact ⟨.declared h1, .declared h1⟩

omit [Uni] [UniLaws] in
theorem headType_eq {t n : Str} (b : Bool) (hn : Clean notInNames n) : headType (C58.C.synonym t n b) = some t := by
  unfold headType C58.C.synonym
  rw [if_neg (fun e => by
    have := congrArg List.getLast? e
    rw [List.getLast?_concat] at this
    cases this)]
  have e0 : ((c!"typedef " ++ (t ++ c!" " ++ n ++ (if b then c!"[]" else [])) ++ c!";").drop 8).dropLast =
      t ++ c!" " ++ n ++ (if b then c!"[]" else []) := by
    rw [show (c!"typedef " ++ (t ++ c!" " ++ n ++ (if b then c!"[]" else [])) ++ c!";").drop 8 =
      (t ++ c!" " ++ n ++ (if b then c!"[]" else [])) ++ c!";" from rfl, List.dropLast_concat]
  rw [e0]
  cases b with
  | true =>
    have : t ++ c!" " ++ n ++ (if true then c!"[]" else []) = ((t ++ ' ' :: n) ++ c!"[") ++ c!"]" := by simp
    rw [this]
    dsimp only
    rw [if_pos ⟨t ++ ' ' :: n, by simp⟩, List.dropLast_concat, List.dropLast_concat, splitLast_eq (hn _ (by decide))]
  | false =>
    have : t ++ c!" " ++ n ++ (if false then c!"[]" else []) = t ++ ' ' :: n := by simp
    rw [this]
    dsimp only
    rw [if_neg, splitLast_eq (hn _ (by decide))]
    rintro ⟨x, hx⟩
    have h1 := congrArg List.getLast? hx
    have h2 : (x ++ c!"[]").getLast? = some ']' := by
      rw [show x ++ c!"[]" = (x ++ c!"[") ++ c!"]" by simp]; exact List.getLast?_concat
    rw [h2, List.getLast?_append] at h1
    cases n with
    | nil => simp at h1
    | cons c n =>
      have h3 : (' ' :: c :: n).getLast? = (c :: n).getLast? := by simp [List.getLast?_cons]
      rw [h3] at h1
      have h4 : (c :: n).getLast? = some ']' := by
        cases h5 : (c :: n).getLast? with
        | none => simp at h5
        | some d => rw [h5] at h1; simpa using h1.symm
      exact hn ']' (by decide) (List.mem_of_getLast? h4)

/-- The types of one declaration. -/
theorem complex {t : Tree} {tn vn : List Str} (hl : Means c!"C" tn vn t) (hN : ∀ s ∈ tn, Names.plain s ∈ names ∧ Clean notInNames s) {v : ComplexType}
    (hk : NodeOk c!"C" tn vn (.complex v)) : ∀ f ∈ expected t v, Known predefined wraps names f.type := by
  intro f hf
  have ht : ∀ s, Ok0 c!"C" tn vn s → Known predefined wraps names (typeOf t s) ∧
      Known predefined wraps names (item (typeOf t s)) := fun s hs => known hN (hl _ hs).1
  simp only [expected, List.mem_append, List.mem_map] at hf
  rcases hf with ((⟨e, he, rfl⟩ | ⟨e, he, rfl⟩) | ⟨e, he, rfl⟩) | ⟨e, he, rfl⟩
  · exact (ht _ (.inl (hk.2.2.2.2 e he))).1
  · exact (ht _ (hk.2.2.1 e he)).2
  · exact (ht _ (.inl (hk.2.2.2.1 e he))).1
  · exact (ht _ (hk.2.1 e he)).2

/-- The types of one declaration. -/
theorem one {t : Tree} {tn vn : List Str} (hl : Means c!"C" tn vn t) (hg : Legible t) (hN : ∀ s ∈ tn, Names.plain s ∈ names ∧ Clean notInNames s)
    {order : List (Str × Str) → List (Str × Str)} (ho : C58.Order order) {n : Node Element} (hn : n ∈ nodes t) (hk : NodeOk c!"C" tn vn n) (fn : Str) :
    ∀ s ∈ mentions (C58.C.head t n, C58.C.members order t n, [C58.C.nameOf n fn]), Known predefined wraps names s := by
  have hc := plain_clean (hg.name hn)
  have ht : ∀ s, Ok0 c!"C" tn vn s → Known predefined wraps names (typeOf t s) ∧
      Known predefined wraps names (item (typeOf t s)) := fun s hs => known hN (hl _ hs).1
  intro s hs
  rcases List.mem_append.1 hs with hs | hs
  · rw [Option.mem_toList] at hs
    have struct : headType c!"typedef struct {" = none := rfl
    have hsyn : ∀ (r : Str) b, Known predefined wraps names r → headType (C58.C.synonym r (Names.plain (nodeName n)) b) = some s →
        Known predefined wraps names s := by
      intro r b hr e
      rw [headType_eq b hc] at e
      injection e with e; rw [← e]; exact hr
    cases n with
    | simple v =>
      simp only [C58.C.head] at hs
      split at hs
      · exact hsyn _ _ (ht _ (.inl hk.2.1)).1 hs
      · split at hs
        · rw [struct] at hs; cases hs
        · exact hsyn _ _ (ht _ (.inl hk.2.1)).2 hs
    | attr v => exact hsyn _ _ (ht _ (.inl hk.2)).2 hs
    | elem v => exact hsyn _ _ (ht _ (.inl hk.2)).2 hs
    | complex v => cases struct.symm.trans hs
    | group v => cases struct.symm.trans hs
    | attrGroup v => cases struct.symm.trans hs
  · obtain ⟨f, hf, rfl⟩ := List.mem_map.1 hs
    cases n with
    | simple v =>
      simp only [C58.C.members] at hf
      split at hf
      · obtain ⟨m, hm, rfl⟩ := List.mem_map.1 hf
        exact (known hN (member_ok (hk.2.2 m ((ho _).1.mem_iff.1 hm)))).2
      · cases hf
    | attr v => cases hf
    | elem v => cases hf
    | complex v => exact complex hl hN hk f hf
    | group v =>
      simp only [C58.C.members, C54.C.group, List.mem_append, List.mem_map] at hf
      rcases hf with ⟨e, he, rfl⟩ | ⟨e, he, rfl⟩
      · exact (ht _ (hk.1 e he)).1
      · exact (ht _ (.inl (hk.2 e he))).1
    | attrGroup v => exact complex hl hN (attrs_ok hk) f hf

omit [UniLaws] in
theorem mem_finals (ns : List (Node Element)) : ∀ used, ∀ n ∈ ns, Names.plain (nodeName n) ∉ used →
    Names.plain (nodeName n) ∈ C56.C.finals used ns := by
  induction ns with
  | nil => intro used n hn; cases hn
  | cons a ns ih =>
    intro used n hn hu
    simp only [C56.C.finals]
    by_cases e : Names.plain (nodeName a) = Names.plain (nodeName n)
    · rw [← e] at hu ⊢
      have : C14.numbered (Names.plain (nodeName a)) (used.count (Names.plain (nodeName a)) + 1) = Names.plain (nodeName a) := by
        rw [List.count_eq_zero_of_not_mem hu]; rfl
      rw [this, ite_self]
      exact List.mem_cons_self
    · have hn := (List.mem_cons.1 hn).resolve_left fun h => e (by rw [h])
      refine List.mem_cons_of_mem _ (ih _ n hn ?_)
      split
      · simp [hu, Ne.symm e]
      · exact hu

/-- The file of a tree without dangling references. -/
theorem file {t : Tree} (hg : Legible t) (hl : Linked c!"C" t) : Closed (cSource t) := by
  obtain ⟨order, ho, hr⟩ := C58.C.file t hg
  have hN : ∀ s ∈ typeNames t, Names.plain s ∈ C56.C.names (cSource t) ∧ Clean notInNames s := fun s hs => by
    obtain ⟨n, hn, rfl⟩ := List.mem_map.1 hs
    have hn := (List.mem_filter.1 hn).1
    refine ⟨?_, hg.name hn⟩
    obtain ⟨m, hm, e⟩ := C59.mem_firsts (fun _ => false) _ n hn
    rw [C56.C.file_names t hg.sound, ← e]
    exact mem_finals _ _ m hm (by simp)
  intro d hd
  rw [hr] at hd
  obtain ⟨x, hx, rfl⟩ := List.mem_map.1 hd
  exact one (means hl) hg hN ho (mem_declarations hx).1 (hl _ (mem_declarations hx).1) x.2

end C

/-! ### Rust -/

namespace Rust
open C48.Rust

/-- Predefined types. -/
def predefined : List Str :=
  [c!"i8", c!"i16", c!"i32", c!"i64", c!"i128", c!"isize", c!"u8", c!"u16", c!"u32", c!"u64", c!"u128", c!"usize",
   c!"f32", c!"f64", c!"bool", c!"char", c!"String"]

/-- Vectors and options. -/
def wraps : List (Str × Str) := [(c!"Vec<", c!">"), (c!"Option<", c!">")]

/-- A source file in which every type is there. -/
def Closed (text : Str) : Prop :=
  ∀ d ∈ C58.Rust.declsOf text, ∀ t ∈ d.2.map (·.type), Known predefined wraps (C56.Rust.names text) t

variable {names : List Str}

omit [Uni] [UniLaws] in
theorem builtin_known : ∀ s ∈ rustBuildinType, Known predefined wraps names s := by
  intro s hs
  have h1 : s ∈ predefined ∨ s = c!"Vec<char>" ∨ s = c!"Vec<String>" ∨ s = c!"Vec<u8>" :=
    (by decide : ∀ s ∈ rustBuildinType, s ∈ predefined ∨ s = c!"Vec<char>" ∨ s = c!"Vec<String>" ∨ s = c!"Vec<u8>") s hs
  rcases h1 with h | rfl | rfl | rfl
  · exact .predefined h
  · exact .wrapped (w := (c!"Vec<", c!">")) (t := c!"char") (by decide) (.predefined (by decide))
  · exact .wrapped (w := (c!"Vec<", c!">")) (t := c!"String") (by decide) (.predefined (by decide))
  · exact .wrapped (w := (c!"Vec<", c!">")) (t := c!"u8") (by decide) (.predefined (by decide))

omit [Uni] [UniLaws] in
theorem table {k s : Str} (h : getBuildInTypeByLang k c!"Rust" = some s) : s ∈ rustBuildinType := by
  obtain ⟨e, he, ht⟩ := C06.column h
  have := @C06.rust_col asciiUni e he
  change e.2[4]? = _ at ht
  rw [ht] at this
  simpa [isRustBuiltInType] using this

omit [UniLaws] in
theorem known {tn : List Str} (hN : ∀ s ∈ tn, Names.strict s ∈ names) {s : Str} (h : Ok c!"Rust" tn s) :
    Known predefined wraps names (Names.rustType rustBuildinType s) := by
  rw [Names.rustType]
  split
  · rename_i hb; exact builtin_known s hb
  · rename_i hb
    split
    · exact .predefined (by decide)
    · rename_i hs
      rcases h with rfl | ⟨k, hk⟩ | h
      · exact absurd rfl hs
      · exact absurd (table hk) hb
      · exact .declared (hN s h.1)

omit [Uni] [UniLaws] in
theorem vector {t : Str} (h : Known predefined wraps names t) : Known predefined wraps names (vec t) :=
  Known.wrapped (w := (c!"Vec<", c!">")) (by decide) h

omit [Uni] [UniLaws] in
theorem option {t : Str} (h : Known predefined wraps names t) : Known predefined wraps names (opt t) :=
  Known.wrapped (w := (c!"Option<", c!">")) (by decide) h

omit [UniLaws] in
/-- The types of one declaration. -/
theorem one {t : Tree} {tn vn : List Str} (hl : Means c!"Rust" tn vn t) (hN : ∀ s ∈ tn, Names.strict s ∈ names) {order : List (Str × Str) → List (Str × Str)}
    (ho : C58.Order order) {n : Node Element} (hn : n ∈ nodes t) (hk : NodeOk c!"Rust" tn vn n) : ∀ f ∈ C58.Rust.members order t n, Known predefined wraps names f.type := by
  have ht : ∀ s, Ok0 c!"Rust" tn vn s → Known predefined wraps names (typeOf t s) := fun s hs =>
    known hN (hl _ hs).1
  intro f hf
  cases n with
  | simple v =>
    simp only [C58.Rust.members] at hf
    split at hf
    · rw [List.mem_singleton.1 hf]; exact vector (ht _ (.inl hk.2.1))
    · split at hf
      · obtain ⟨m, hm, rfl⟩ := List.mem_map.1 hf
        exact known hN (member_ok (hk.2.2 m ((ho _).1.mem_iff.1 hm)))
      · rw [List.mem_singleton.1 hf]; exact ht _ (.inl hk.2.1)
  | attr v =>
    rw [List.mem_singleton.1 hf]; dsimp only; split
    · exact vector (ht _ (.inl hk.2))
    · exact ht _ (.inl hk.2)
  | elem v =>
    rw [List.mem_singleton.1 hf]; dsimp only; split
    · exact vector (ht _ (.inl hk.2))
    · exact ht _ (.inl hk.2)
  | complex v =>
    simp only [C58.Rust.members, expected, List.mem_append, List.mem_map] at hf
    rcases hf with (((⟨e, he, rfl⟩ | ⟨e, he, rfl⟩) | ⟨e, he, rfl⟩) | ⟨e, he, rfl⟩) | hf
    · exact vector (ht _ (.inl (hk.2.2.2.2 e he)))
    · have := ht _ (hk.2.2.1 e he)
      dsimp only; split
      · exact option this
      · exact this
    · have := ht _ (.inl (hk.2.2.2.1 e he))
      dsimp only; split
      · exact vector this
      · exact this
    · have := ht _ (hk.2.1 e he)
      dsimp only; split
      · exact vector this
      · split
        · exact option this
        · exact this
    · split at hf
      · cases hf
      · split at hf <;> rw [List.mem_singleton.1 hf] <;> exact ht _ (.inl hk.1)
  | group v =>
    simp only [C58.Rust.members, C54.Rust.group, List.mem_append, List.mem_map] at hf
    rcases hf with ⟨e, he, rfl⟩ | ⟨e, he, rfl⟩
    · have := ht _ (hk.1 e he)
      dsimp only; split
      · exact vector this
      · exact this
    · have := ht _ (.inl (hk.2 e he))
      dsimp only; split
      · exact vector this
      · exact this
  | attrGroup v =>
    simp only [C58.Rust.members, C54.Rust.attrs, List.mem_map] at hf
    obtain ⟨e, he, rfl⟩ := hf
    have := ht _ (hk e he)
    dsimp only; split
    · exact option this
    · exact vector this

/-- The file of a tree without dangling references, in which the first component with the name of a type is a type. -/
theorem file {t : Tree} (hg : Legible t) (hl : Linked c!"Rust" t) (hd : Led (typeNames t) [] (nodes t)) : Closed (rustSource t) := by
  obtain ⟨order, ho, hr⟩ := C58.Rust.file t hg
  have hN : ∀ s ∈ typeNames t, Names.strict s ∈ C56.Rust.names (rustSource t) := fun s hs => by
    obtain ⟨n, hn, e'⟩ := List.mem_map.1 hs
    obtain ⟨m, hm, e⟩ := C59.mem_firsts (fun _ => false) _ n (List.mem_filter.1 hn).1
    have e := e.trans e'
    have hb : C56.Rust.baseName m = Names.strict (nodeName m) := by
      have hm' := hd.first _ hm (by simp) (e ▸ hs)
      cases m with
      | elem v => cases hm'
      | attr v => cases hm'
      | _ => rfl
    rw [C56.Rust.file_names t hg.sound, ← e, ← hb]
    exact mem_finals _ _ _ _ m hm (by simp)
  intro d hd s hs
  rw [hr] at hd
  obtain ⟨x, hx, rfl⟩ := List.mem_map.1 hd
  obtain ⟨f, hf, rfl⟩ := List.mem_map.1 hs
  exact one (means hl) hN ho (mem_declarations hx).1 (hl _ (mem_declarations hx).1) f hf

end Rust

/-! ### TypeScript -/

namespace TS
open C48.TS

/-- Predefined types. -/
def predefined : List Str :=
  [c!"boolean", c!"number", c!"string", c!"void", c!"null", c!"undefined", c!"any", c!"Uint8Array"]

/-- Arrays and types with `null`. -/
def wraps : List (Str × Str) := [(c!"Array<", c!">"), ([], c!" | null")]

/-- The type in `export type name = type;` and `export class name extends type  {`. -/
def headType (l : Str) : Option Str :=
  let r := after ((after (l.drop 7)).drop 1)
  if c!" = " <+: r then some (r.drop 3).dropLast
  else if c!" extends " <+: r then some ((r.drop 9).take (r.length - 12))
  else none

/-- The types of members. -/
def memberTypes : C58.TS.Body → List Str
  | .class ms => ms.map (·.type)
  | .enum _ => []

/-- The types that a declaration mentions. -/
def mentions (d : Str × C58.TS.Body) : List Str := (headType d.1).toList ++ memberTypes d.2

/-- A source file in which every type is there. -/
def Closed (text : Str) : Prop :=
  ∀ d ∈ C58.TS.declsOf text, ∀ t ∈ mentions d, Known predefined wraps (C56.TS.names text) t

variable {names : List Str}

omit [Uni] [UniLaws] in
theorem array {t : Str} (h : Known predefined wraps names t) (b : Bool) : Known predefined wraps names (if b then c!"Array<" ++ t ++ c!">" else t) := by
  cases b
  · exact h
  · exact Known.wrapped (w := (c!"Array<", c!">")) (by decide) h

omit [Uni] [UniLaws] in
theorem nullable {t : Str} (h : Known predefined wraps names t) (b : Bool) : Known predefined wraps names (t ++ if b then c!" | null" else []) := by
  cases b
  · rw [if_neg (by simp), List.append_nil]; exact h
  · exact Known.wrapped (w := ([], c!" | null")) (by decide) h

omit [Uni] [UniLaws] in
theorem table {k s : Str} (h : getBuildInTypeByLang k c!"TypeScript" = some s) : s ∈ C06.tsTargets := by
  obtain ⟨e, he, ht⟩ := C06.column h
  have := @C06.ts_col asciiUni e he
  change e.2[1]? = _ at ht
  rw [ht] at this
  simpa using this

theorem known {tn : List Str} (hN : ∀ s ∈ tn, Names.plain s ∈ names) {s : Str} (h : Ok c!"TypeScript" tn s) (b : Bool) :
    Known predefined wraps names (Names.tsType typeScriptBuildInType s b) := by
  rw [Names.tsType]
  split
  · rename_i hb
    exact .predefined ((by decide : ∀ s ∈ typeScriptBuildInType, s ∈ predefined) s hb)
  · rename_i hb
    refine array ?_ b
    split
    · exact .predefined (by decide)
    · rename_i hw
      simp only [not_or] at hw
      rcases h with rfl | ⟨k, hk⟩ | h
      · exact absurd rfl hw.1
      · have := table hk
        simp only [C06.tsTargets, List.mem_cons, List.not_mem_nil, or_false] at this
        have hA : Uni.upper 'A' = 'A' := by rw [UniLaws.upper_ascii _ (by decide)]; decide
        have ha : Uni.upper 'a' = 'A' := by rw [UniLaws.upper_ascii _ (by decide)]; decide
        rcases this with rfl | rfl | rfl | rfl | rfl | rfl
        · exact absurd (by decide) hb
        · have e : Names.cap (Names.camel Names.dot Names.hyphen true c!"Array<string>") = c!"Array<" ++ c!"string" ++ c!">" := by
            simp [Names.camel, Names.cap, Names.dot, Names.hyphen, hA]
          rw [e]
          exact Known.wrapped (w := (c!"Array<", c!">")) (by decide) (.predefined (by decide))
        · exact absurd (by simp [Names.camel, Names.cap, Names.dot, Names.hyphen, ha, hA]) hw.2
        · exact absurd (by decide) hb
        · exact absurd (by decide) hb
        · exact absurd (by decide) hb
      · rw [C53.word_eq h.2.1]
        exact .declared (hN s h.1)

omit [Uni] [UniLaws] in
theorem head_after {kw n r : Str} {c : Char} (hk : kw = c!"class" ∨ kw = c!"type" ∨ kw = c!"enum") (h : Clean notInNames n) (hc : c = ' ' ∨ c = '\t') :
    after ((after ((c!"export " ++ kw ++ c!" " ++ n ++ c :: r).drop 7)).drop 1) = c :: r := by
  have e : (c!"export " ++ kw ++ c!" " ++ n ++ c :: r).drop 7 = kw ++ ' ' :: (n ++ c :: r) := by simp
  rw [e, after_eq (by rcases hk with rfl | rfl | rfl <;> decide) (by rcases hk with rfl | rfl | rfl <;> decide) (.inl rfl)]
  exact after_eq (h _ (by decide)) (h _ (by decide)) hc

omit [Uni] [UniLaws] in
theorem headType_none {kw n : Str} (hk : kw = c!"class" ∨ kw = c!"type" ∨ kw = c!"enum") (h : Clean notInNames n) :
    headType (c!"export " ++ kw ++ c!" " ++ n ++ c!" {") = none := by
  unfold headType
  rw [head_after (r := c!"{") hk h (.inl rfl)]
  decide

omit [Uni] [UniLaws] in
theorem headType_alias {n t : Str} (h : Clean notInNames n) : headType (C58.TS.synonym n t) = some t := by
  unfold headType
  have : C58.TS.synonym n t = c!"export " ++ c!"type" ++ c!" " ++ n ++ ' ' :: (c!"= " ++ t ++ c!";") := by simp [C58.TS.synonym]
  rw [this, head_after (.inr (.inl rfl)) h (.inl rfl)]
  have h1 : c!" = " <+: ' ' :: (c!"= " ++ t ++ c!";") := ⟨t ++ c!";", by simp⟩
  simp only [h1, if_true]
  rw [show (' ' :: (c!"= " ++ t ++ c!";")).drop 3 = t ++ c!";" from rfl, List.dropLast_concat]

omit [Uni] [UniLaws] in
theorem headType_extends {n t : Str} (h : Clean notInNames n) :
    headType (c!"export class " ++ n ++ (c!" extends " ++ t ++ c!" ") ++ c!" {") = some t := by
  unfold headType
  have : c!"export class " ++ n ++ (c!" extends " ++ t ++ c!" ") ++ c!" {" =
    c!"export " ++ c!"class" ++ c!" " ++ n ++ ' ' :: (c!"extends " ++ (t ++ c!"  {")) := by simp
  rw [this, head_after (.inl rfl) h (.inl rfl)]
  have h1 : c!" extends " <+: ' ' :: (c!"extends " ++ (t ++ c!"  {")) := ⟨t ++ c!"  {", by simp⟩
  simp [h1]

/-- The members of a class. -/
theorem complex {t : Tree} {tn vn : List Str} (hl : Means c!"TypeScript" tn vn t) (hN : ∀ s ∈ tn, Names.plain s ∈ names) {v : ComplexType}
    (hk : NodeOk c!"TypeScript" tn vn (.complex v)) : ∀ f ∈ expected t v, Known predefined wraps names f.type := by
  intro f hf
  have ht : ∀ s b, Ok0 c!"TypeScript" tn vn s → Known predefined wraps names (typeOf t s b) := fun s b hs =>
    known hN (hl _ hs).1 b
  simp only [expected, List.mem_append, List.mem_map] at hf
  rcases hf with (((⟨e, he, rfl⟩ | ⟨e, he, rfl⟩) | ⟨e, he, rfl⟩) | ⟨e, he, rfl⟩) | hf
  · exact ht _ _ (.inl (hk.2.2.2.2 e he))
  · exact nullable (ht _ _ (hk.2.2.1 e he)) _
  · exact ht _ _ (.inl (hk.2.2.2.1 e he))
  · exact ht _ _ (hk.2.1 e he)
  · split at hf
    · rw [List.mem_singleton.1 hf]; exact ht _ _ (.inl hk.1)
    · cases hf

/-- The types of one declaration. -/
theorem one {t : Tree} {tn vn : List Str} (hl : Means c!"TypeScript" tn vn t) (hN : ∀ s ∈ tn, Names.plain s ∈ names)
    {order : List (Str × Str) → List (Str × Str)} (ho : C58.Order order) {n : Node Element} (hn : n ∈ nodes t) (hk : NodeOk c!"TypeScript" tn vn n) {fn : Str} (hfn : Clean notInNames fn) :
    ∀ s ∈ mentions (C58.TS.head t fn n, C58.TS.members order t n), Known predefined wraps names s := by
  have ht : ∀ s b, Ok0 c!"TypeScript" tn vn s → Known predefined wraps names (typeOf t s b) := fun s b hs =>
    known hN (hl _ hs).1 b
  have hclass : headType (c!"export class " ++ fn ++ c!" {") = none := headType_none (.inl rfl) hfn
  have henum : headType (c!"export enum " ++ fn ++ c!" {") = none := headType_none (.inr (.inr rfl)) hfn
  intro s hs
  rcases List.mem_append.1 hs with hs | hs
  · rw [Option.mem_toList] at hs
    have hsyn : ∀ r, Known predefined wraps names r → headType (C58.TS.synonym fn r) = some s → Known predefined wraps names s := by
      intro r hr e
      rw [headType_alias hfn] at e
      injection e with e; rw [← e]; exact hr
    cases n with
    | simple v =>
      simp only [C58.TS.head] at hs
      split at hs
      · exact hsyn _ (ht _ _ (.inl hk.2.1)) hs
      · split at hs
        · cases hclass.symm.trans hs
        · split at hs
          · cases henum.symm.trans hs
          · exact hsyn _ (ht _ _ (.inl hk.2.1)) hs
    | attr v => exact hsyn _ (ht _ _ (.inl hk.2)) hs
    | elem v => exact hsyn _ (ht _ _ (.inl hk.2)) hs
    | complex v =>
      simp only [C58.TS.head, header] at hs
      split at hs
      · rw [headType_extends hfn] at hs
        injection hs with hs
        rw [← hs]; exact ht _ _ (.inl hk.1)
      · rw [List.append_nil, hclass] at hs
        cases hs
    | group v => cases hclass.symm.trans hs
    | attrGroup v => cases hclass.symm.trans hs
  · cases n with
    | simple v =>
      simp only [C58.TS.members] at hs
      split at hs
      · cases hs
      · split at hs
        · obtain ⟨f, hf, rfl⟩ := List.mem_map.1 hs
          obtain ⟨m, hm, rfl⟩ := List.mem_map.1 hf
          exact known hN (member_ok (hk.2.2 m ((ho _).1.mem_iff.1 hm))) _
        · split at hs <;> cases hs
    | attr v => cases hs
    | elem v => cases hs
    | complex v =>
      obtain ⟨f, hf, rfl⟩ := List.mem_map.1 hs
      exact complex hl hN hk f hf
    | group v =>
      obtain ⟨f, hf, rfl⟩ := List.mem_map.1 hs
      simp only [C54.TS.group, List.mem_append, List.mem_map] at hf
      rcases hf with ⟨e, he, rfl⟩ | ⟨e, he, rfl⟩
      · exact ht _ _ (hk.1 e he)
      · exact ht _ _ (.inl (hk.2 e he))
    | attrGroup v =>
      obtain ⟨f, hf, rfl⟩ := List.mem_map.1 hs
      exact complex hl hN (attrs_ok hk) f hf

/-- The file of a tree without dangling references. -/
theorem file {t : Tree} (hg : Legible t) (hl : Linked c!"TypeScript" t) (hv : C58.TS.PlainValues t) (he : C15.ListsNew (nodes t)) :
    Closed (tsSource t) := by
  obtain ⟨order, ho, hr⟩ := C58.TS.file_partial t hg hv he
  have hN : ∀ s ∈ typeNames t, Names.plain s ∈ C56.TS.names (tsSource t) := fun s hs => by
    rw [C56.TS.file_names_partial t hg.sound he]; exact named _ _ _ t hs
  intro d hd
  rw [hr] at hd
  obtain ⟨x, hx, rfl⟩ := List.mem_map.1 hd
  have hn := (mem_declarations hx).1
  exact one (means hl) hN ho hn (hl _ hn) (declared_clean hx (plain_clean (hg.name hn)))

end TS

/-! ## The files of a schema -/

variable {W : World} {cfg : Cfg} {sh : Shared} {ds : List Decl} {toks : List Token}

theorem Document.linked (h : C59.Document W cfg sh ds toks) {lang : Str} (hl : cfg.lang = lang) (hb : Bound lang ds) {t : Tree}
    (ht : C57.bare t = C57.bare (treeOf (typeRef cfg.lang false) [] ds)) : Linked lang t := by
  have hr := h.regular
  rw [hl] at ht hr
  exact linked_alike ht (C71.linked hb hr)

/-- The Go file of a document: the source of its tree, formatted. -/
theorem go_source (h : C59.Document W cfg sh ds toks) (hl : cfg.lang = c!"Go") :
    ∃ t, C57.bare t = C57.bare (treeOf (typeRef cfg.lang false) [] ds) ∧ Legible t ∧
    (∀ text, W.gofmt (goSource cfg.package t) = some text → ∃ sh', Parse W cfg sh = .ok t sh' ∧
      sh'.outputs = sh.outputs ++ [(C24.documentedPath cfg c!".go", text)]) ∧
    (W.gofmt (goSource cfg.package t) = none → ∃ sh', Parse W cfg sh = .err .gofmt sh') := by
  obtain ⟨t, sh', h1, h2, h3, h4⟩ := h.tree
  have hg : generate W cfg.lang cfg.package (outputPath cfg) t = writeGo W (outputPath cfg) cfg.package t := by
    rw [generate, hl, C24.title_lang (by decide)]; rfl
  refine ⟨t, h2, h3, fun text ht => ?_, fun ht => ?_⟩
  · obtain ⟨sh'', h5, h6⟩ := h.write (t := t) (sh' := sh') (ext := c!".go") (text := text) (by
      rw [hg]; unfold writeGo; rw [ht])
    exact ⟨sh'', h4.trans h5, by rw [h6, h1]⟩
  · rw [h4]
    unfold finish
    dsimp only
    rw [if_neg (by rw [h.writes]; decide), if_pos (show W.mkdirOk (pathDir (outputPath cfg)) = true from h.dir), hg]
    unfold writeGo writeFile
    rw [ht]
    dsimp only
    rw [show fileWithExtension (outputPath cfg) c!".go" = C24.documentedPath cfg c!".go" from rfl, if_pos (h.create _)]
    exact ⟨_, rfl⟩

/-- C71, Go.  (Missing: names that Go cannot use, see `Usable`; the source is closed before it is formatted.) -/
theorem go_partial (h : C59.Document W cfg sh ds toks) (hl : cfg.lang = c!"Go") (hp : '\n' ∉ cfg.package) (hb : Bound c!"Go" ds) :
    ∃ source, Go.Closed source ∧
    (∀ text, W.gofmt source = some text → ∃ t sh', Parse W cfg sh = .ok t sh' ∧
      sh'.outputs = sh.outputs ++ [(C24.documentedPath cfg c!".go", text)]) ∧
    (W.gofmt source = none → ∃ sh', Parse W cfg sh = .err .gofmt sh') := by
  obtain ⟨t, h2, h3, h4, h5⟩ := go_source h hl
  exact ⟨goSource cfg.package t, Go.file _ hp h3 (Document.linked h hl hb h2), fun text ht => ⟨t, h4 text ht⟩, h5⟩

/-- C71, C.  (Missing: types called `enum`.) -/
theorem c_partial (h : C59.Document W cfg sh ds toks) (hl : cfg.lang = c!"C") (hb : Bound c!"C" ds) : ∃ t sh' text, Parse W cfg sh = .ok t sh' ∧
    sh'.outputs = sh.outputs ++ [(C24.documentedPath cfg c!".h", text)] ∧ C.Closed text := by
  obtain ⟨t, sh', h1, h2, h3, h4⟩ := h.tree
  obtain ⟨sh'', h5, h6⟩ := h.write (t := t) (sh' := sh') (ext := c!".h") (text := cSource t) (by
    rw [generate, hl, C24.title_lang (by decide)]; rfl)
  exact ⟨t, sh'', _, h4.trans h5, by rw [h6, h1], C.file h3 (Document.linked h hl hb h2)⟩

/-- C71, Java.  (Missing: schemas with attribute groups.) -/
theorem java_partial (h : C59.Document W cfg sh ds toks) (hl : cfg.lang = c!"Java") (hp : '\n' ∉ cfg.package) (hb : Bound c!"Java" ds)
    (ha : ∀ as b, Decl.attrGroup as b ∉ ds) : ∃ t sh' text, Parse W cfg sh = .ok t sh' ∧
    sh'.outputs = sh.outputs ++ [(C24.documentedPath cfg c!".java", text)] ∧ Java.Closed text := by
  obtain ⟨t, sh', h1, h2, h3, h4⟩ := h.tree
  obtain ⟨sh'', h5, h6⟩ := h.write (t := t) (sh' := sh') (ext := c!".java") (text := javaSource cfg.package t) (by
    rw [generate, hl, C24.title_lang (by decide)]; rfl)
  exact ⟨t, sh'', _, h4.trans h5, by rw [h6, h1], Java.file _ hp h3 (Document.linked h hl hb h2) (ungrouped_alike h2 (tree_ungrouped _ ha))⟩

/-- C71, Rust.  (Missing: elements and attributes with the name of a type.) -/
theorem rust_partial (h : C59.Document W cfg sh ds toks) (hl : cfg.lang = c!"Rust") (hb : Bound c!"Rust" ds) (hs : Separate ds) :
    ∃ t sh' text, Parse W cfg sh = .ok t sh' ∧
    sh'.outputs = sh.outputs ++ [(C24.documentedPath cfg c!".rs", text)] ∧ Rust.Closed text := by
  obtain ⟨t, sh', h1, h2, h3, h4⟩ := h.tree
  obtain ⟨sh'', h5, h6⟩ := h.write (t := t) (sh' := sh') (ext := c!".rs") (text := rustSource t) (by
    rw [generate, hl, C24.title_lang (by decide)]; rfl)
  exact ⟨t, sh'', _, h4.trans h5, by rw [h6, h1], Rust.file h3 (Document.linked h hl hb h2) (led_alike h2 (tree_led _ hs))⟩

/-- C71, TypeScript.  (Missing: enumeration values that cannot be read, see C49.) -/
theorem ts_partial (h : C59.Document W cfg sh ds toks) (hv : C59.ValuesOk toks) (hl : cfg.lang = c!"TypeScript") (hb : Bound c!"TypeScript" ds) :
    ∃ t sh' text, Parse W cfg sh = .ok t sh' ∧
    sh'.outputs = sh.outputs ++ [(C24.documentedPath cfg c!".ts", text)] ∧ TS.Closed text := by
  obtain ⟨t, sh', h1, h2, h3, h4⟩ := h.tree
  have he : ∀ n ∈ Xgen.Decl.nodes t, C59.EnumOk n := C59.document_enums h hv h2
  obtain ⟨sh'', h5, h6⟩ := h.write (t := t) (sh' := sh') (ext := c!".ts") (text := tsSource t) (by
    rw [generate, hl, C24.title_lang (by decide)]; rfl)
  exact ⟨t, sh'', _, h4.trans h5, by rw [h6, h1],
    TS.file h3 (Document.linked h hl hb h2) (fun n hn => (he n hn).1) (.of_none fun n hn => (he n hn).2)⟩

end

/-! ## Examples -/

section
variable {R : Targets}

instance (as : List Attr) (k : Str) (P : Str → Prop) [DecidablePred P] : Decidable (Has as k P) :=
  decidable_of_iff ((attr? as k).all (fun v => decide (P v)) = true) (by
    unfold Has
    cases attr? as k <;> simp)

instance decSimple [DecidablePred R.type] (b : SimpleBody) : Decidable (SimpleBound R b) := by
  cases b <;> unfold SimpleBound <;> infer_instance

instance decContent [DecidablePred R.type] [DecidablePred R.element] [DecidablePred R.attr] [DecidablePred R.group] [DecidablePred R.attrGroup] :
    (b : Content) → Decidable (ContentBound R b)
  | .nil => by unfold ContentBound; infer_instance
  | .elem as k => by have := decContent k; unfold ContentBound; infer_instance
  | .anon _ _ b k => by have := decContent k; have := decContent b; unfold ContentBound; infer_instance
  | .elemAnon _ ras _ k => by have := decContent k; unfold ContentBound; infer_instance
  | .choice _ b k => by have := decContent k; have := decContent b; unfold ContentBound; infer_instance
  | .group as k => by have := decContent k; unfold ContentBound; infer_instance
  | .attrGroup as k => by have := decContent k; unfold ContentBound; infer_instance
  | .attribute as k => by have := decContent k; unfold ContentBound; infer_instance
  | .attrAnon _ b k => by have := decContent k; unfold ContentBound; infer_instance
  | .ext as b k => by have := decContent k; have := decContent b; unfold ContentBound; infer_instance
  | .restr _ _ b k => by have := decContent k; have := decContent b; unfold ContentBound; infer_instance

instance (b : SimpleBody) : Decidable (Given b) := by cases b <;> unfold Given <;> infer_instance

instance [DecidablePred R.type] [DecidablePred R.element] [DecidablePred R.attr] [DecidablePred R.group] [DecidablePred R.attrGroup] (d : Decl) :
    Decidable (DeclBound R d) := by
  cases d <;> unfold DeclBound <;> infer_instance
end

instance (lang : Str) (ds : List Decl) : DecidablePred (offers lang ds).type := fun v => by unfold offers; infer_instance
instance (lang : Str) (ds : List Decl) : DecidablePred (offers lang ds).element := fun v => by unfold offers; infer_instance
instance (lang : Str) (ds : List Decl) : DecidablePred (offers lang ds).attr := fun v => by unfold offers; infer_instance
instance (lang : Str) (ds : List Decl) : DecidablePred (offers lang ds).group := fun v => by unfold offers; infer_instance
instance (lang : Str) (ds : List Decl) : DecidablePred (offers lang ds).attrGroup := fun v => by unfold offers; infer_instance

instance (s : Str) : Decidable (NCName s) :=
  decidable_of_iff (s ≠ [] ∧ (∀ c ∈ s.take 1, c ≠ '-' ∧ c ≠ '.') ∧ ':' ∉ s) (by
    cases s with
    | nil => exact ⟨fun h => absurd rfl h.1, fun h => by obtain ⟨_, _, e, _⟩ := h.head; cases e⟩
    | cons c s =>
      exact ⟨fun h => ⟨⟨c, s, rfl, h.2.1 c (by simp)⟩, h.2.2⟩, fun h => ⟨by simp, by
        obtain ⟨_, _, e, h'⟩ := h.head
        cases e
        simpa using h', h.colon⟩⟩)

instance (lang s : Str) : Decidable (Usable lang s) := by unfold Usable; infer_instance

instance (ds : List Decl) : Decidable (Separate ds) := by unfold Separate; infer_instance

instance (lang : Str) (ds : List Decl) : Decidable (Bound lang ds) :=
  decidable_of_iff ((∀ d ∈ ds, DeclBound (offers lang ds) d) ∧
    ∀ d ∈ ds, ∀ s ∈ types d ++ elements d ++ attributes d ++ groups d ++ attrGroups d ++ anonymous (content d), NCName s ∧ Usable lang s)
    ⟨fun h => ⟨h.1, h.2⟩, fun h => ⟨h.refs, h.names⟩⟩

open C70 (a base derived element attrib uses extension union list)

/-- An element with an anonymous complex type in which there is another one. -/
def nestedAnon : Decl := .anon (a [("name", "order")]) [] (.elem (a [("name", "id"), ("type", "xs:int")])
  (.anon (a [("name", "line")]) [] (.elem (a [("name", "what"), ("type", "T")]) .nil) .nil))
/-- An element with an anonymous simple type. -/
def amount : Decl := .elemAnon (a [("name", "amount")]) (a [("base", "B")]) [⟨c!"maxLength", a [("value", "3")]⟩]
/-- An attribute with an anonymous simple type. -/
def unit : Decl := .attrAnon (a [("name", "unit")]) (a [("base", "B")]) [⟨c!"maxLength", a [("value", "3")]⟩]
/-- A group. -/
def pair : Decl := .group (a [("name", "G")]) (.elem (a [("ref", "order")]) (.elem (a [("name", "two"), ("type", "T")]) .nil))
/-- A use of it. -/
def useGroup : Decl := .complex (a [("name", "V")]) (.group (a [("ref", "G")]) .nil)
/-- An attribute group. -/
def attrs : Decl := .attrGroup (a [("name", "AG")]) (.attribute (a [("ref", "unit")]) (.attribute (a [("name", "z"), ("type", "A")]) .nil))
/-- A use of it. -/
def useAttrs : Decl := .complex (a [("name", "W")]) (.attrGroup (a [("ref", "AG")]) .nil)

/-- A schema without attribute groups and anonymous restrictions in elements. -/
def plainSchema : List Decl := [base, derived, element, attrib, uses, extension, union, list, nestedAnon, unit, pair, useGroup]
/-- A schema with everything. -/
def schema : List Decl := plainSchema ++ [attrs, useAttrs, amount]

theorem bound (lang : Str) (h : lang ∈ C24.extensions.map (·.1)) : Bound lang schema ∧ Bound lang plainSchema := by
  simp only [C24.extensions, List.map_cons, List.map_nil, List.mem_cons, List.not_mem_nil, or_false] at h
  rcases h with rfl | rfl | rfl | rfl | rfl <;> exact ⟨by decide +kernel, by decide +kernel⟩

theorem separate : Separate schema := by decide +kernel

example : ∀ d ∈ plainSchema, attrGroups d = [] := by decide +kernel

theorem document (lang : Str) (h : lang ∈ C24.extensions.map (·.1)) (ds : List Decl) (hds : ds = schema ∨ ds = plainSchema) :
    @C59.Document asciiUni (Ex.world [("a.xsd", schemaTokens C40.root ds)]) (C59.doc lang) {} ds (schemaTokens C40.root ds) := by
  have hr : Regular (typeRef lang false) [] schema ∧ Regular (typeRef lang false) [] plainSchema := by
    simp only [C24.extensions, List.map_cons, List.map_nil, List.mem_cons, List.not_mem_nil, or_false] at h
    rcases h with rfl | rfl | rfl | rfl | rfl <;> exact ⟨by decide +kernel, by decide +kernel⟩
  rcases hds with rfl | rfl
  · exact @C59.Document.mk asciiUni _ _ _ _ _ rfl (by decide +kernel) ⟨C40.root, by decide +kernel⟩ (by decide +kernel)
      (.inr ⟨rfl, rfl, by decide, rfl⟩) hr.1 rfl rfl fun _ => rfl
  · exact @C59.Document.mk asciiUni _ _ _ _ _ rfl (by decide +kernel) ⟨C40.root, by decide +kernel⟩ (by decide +kernel)
      (.inr ⟨rfl, rfl, by decide, rfl⟩) hr.2 rfl rfl fun _ => rfl

example : C59.ValuesOk (schemaTokens C40.root schema) := by decide +kernel

/-- The file of a schema. -/
def file (lang : Str) (ds : List Decl) : Str :=
  (@Parse asciiUni (Ex.world [("a.xsd", schemaTokens C40.root ds)]) (C59.doc lang) {}).state.outputs.flatMap (·.2)

/-- Types that the files of the example mention. -/
example : ((C58.Go.declsOf (file c!"Go" schema)).flatMap Go.mentions).eraseDups =
      [c!"string", c!"[]string", c!"*S", c!"xml.Name", c!"*T", c!"int", c!"*Line", c!"*Order", c!"*G", c!"*AG"] ∧
    ((C58.Java.declsOf (file c!"Java" plainSchema)).flatMap Java.mentions).eraseDups =
      [c!"String", c!"List<String>", c!"S", c!"T", c!"Integer", c!"Line", c!"Order", c!"G"] ∧
    ((C58.C.declsOf (file c!"C" schema)).flatMap C.mentions).eraseDups =
      [c!"char", c!"S", c!"T", c!"int", c!"Line", c!"Order", c!"G", c!"AG"] ∧
    ((C58.Rust.declsOf (file c!"Rust" schema)).flatMap (·.2.map (·.type))).eraseDups =
      [c!"String", c!"Option<String>", c!"Vec<String>", c!"S", c!"T", c!"i32", c!"Line", c!"Order", c!"G", c!"Vec<AG>"] ∧
    ((C58.TS.declsOf (file c!"TypeScript" schema)).flatMap TS.mentions).eraseDups =
      [c!"string", c!"string | null", c!"S", c!"T", c!"number", c!"Line", c!"Order", c!"G", c!"AG"] := by decide +kernel

/-! ## Dangling types -/

theorem not_known {pre names : List Str} {wraps : List (Str × Str)} {t : Str} (h1 : t ∉ pre) (h2 : t ∉ names)
    (h3 : ∀ w ∈ wraps, ¬ (w.1 <+: t ∧ w.2 <:+ t)) : ¬ Known pre wraps names t := by
  intro h
  cases h with
  | predefined h => exact h1 h
  | declared h => exact h2 h
  | wrapped hw _ => exact h3 _ hw ⟨⟨_, (List.append_assoc ..).symm⟩, ⟨_, rfl⟩⟩

/-- A type that is neither predefined nor declared nor made from another one. -/
def Dangling (pre : List Str) (wraps : List (Str × Str)) (names mentions : List Str) : Prop :=
  ∃ t ∈ mentions, t ∉ pre ∧ t ∉ names ∧ ∀ w ∈ wraps, ¬ (w.1 <+: t ∧ w.2 <:+ t)

instance (pre : List Str) (wraps : List (Str × Str)) (names mentions : List Str) : Decidable (Dangling pre wraps names mentions) := by
  unfold Dangling; infer_instance

theorem dangling {α : Type} {pre names : List Str} {wraps : List (Str × Str)} {ds : List α} {f : α → List Str}
    (h : Dangling pre wraps names (ds.flatMap f)) : ¬ ∀ d ∈ ds, ∀ t ∈ f d, Known pre wraps names t := by
  intro hk
  obtain ⟨t, ht, h1, h2, h3⟩ := h
  obtain ⟨d, hd, ht⟩ := List.mem_flatMap.1 ht
  exact not_known h1 h2 h3 (hk d hd t ht)

/-- A schema without dangling references, with names as XML demands. -/
def Sound (lang : Str) (ds : List Decl) : Prop :=
  (∀ d ∈ ds, DeclBound (offers lang ds) d) ∧
    ∀ d ∈ ds, ∀ s ∈ types d ++ elements d ++ attributes d ++ groups d ++ attrGroups d ++ anonymous (content d), NCName s

instance (lang : Str) (ds : List Decl) : Decidable (Sound lang ds) := by unfold Sound; infer_instance

/-- A complex type. -/
def thing (name : String) : Decl := .complex (a [("name", name)]) (.elem (a [("name", "x"), ("type", "xs:int")]) .nil)
/-- A complex type in which another one is used. -/
def user (type : String) : Decl := .complex (a [("name", "T")]) (.elem (a [("name", "x"), ("type", type)]) .nil)

/-- C71 is false for Go: the type `interface` is taken for one of Go. -/
theorem go_interface : Sound c!"Go" [thing "interface", user "interface"] ∧
    C56.Go.names (file c!"Go" [thing "interface", user "interface"]) = [c!"Interface", c!"T"] ∧
    ¬ Go.Closed (file c!"Go" [thing "interface", user "interface"]) :=
  ⟨by decide +kernel, by decide +kernel, dangling (by decide +kernel)⟩

/-- A list of the type `_`, of whose name nothing is left in Go. -/
theorem go_underscore : let ds := [thing "_", .simple (a [("name", "L")]) (.list (a [("itemType", "_")]))]
    Sound c!"Go" ds ∧ (C58.Go.declsOf (file c!"Go" ds)).map (·.1) = [c!"type  struct {", c!"type L []*Interface{}"] :=
  ⟨by decide +kernel, by decide +kernel⟩

/-- C71 is false for C: the type `enum` is taken for one of C. -/
theorem c_enum : Sound c!"C" [thing "enum", user "enum"] ∧ C56.C.names (file c!"C" [thing "enum", user "enum"]) = [c!"Enum", c!"T"] ∧
    ¬ C.Closed (file c!"C" [thing "enum", user "enum"]) :=
  ⟨by decide +kernel, by decide +kernel, dangling (by decide +kernel)⟩

/-- C71 is false for Java: the types of the attributes in attribute groups have `Attr` behind them. -/
theorem java_attr : Bound c!"Java" schema ∧ c!"StringAttr" ∈ (C58.Java.declsOf (file c!"Java" schema)).flatMap Java.mentions ∧
    ¬ Java.Closed (file c!"Java" schema) :=
  ⟨by decide +kernel, by decide +kernel, dangling (by decide +kernel)⟩

/-- C71 is false for Rust: the struct of a type is missing if an element of the same name comes before it. -/
theorem rust_element : let ds := [.element (a [("name", "thing"), ("type", "thing")]), thing "thing", user "thing"]
    Bound c!"Rust" ds ∧ C56.Rust.names (file c!"Rust" ds) = [c!"thing", c!"T"] ∧ ¬ Rust.Closed (file c!"Rust" ds) ∧
    Rust.Closed (file c!"Rust" [thing "thing", .element (a [("name", "thing"), ("type", "thing")]), user "thing"]) :=
  ⟨by decide +kernel, by decide +kernel, dangling (by decide +kernel), by
    have h : ((C58.Rust.declsOf (file c!"Rust" [thing "thing", .element (a [("name", "thing"), ("type", "thing")]), user "thing"])).flatMap
        (·.2.map (·.type))).all (fun t => decide (t ∈ Rust.predefined ∨
          t ∈ C56.Rust.names (file c!"Rust" [thing "thing", .element (a [("name", "thing"), ("type", "thing")]), user "thing"]))) = true := by
      decide +kernel
    intro d hd t ht
    rcases of_decide_eq_true (List.all_eq_true.1 h t (List.mem_flatMap.2 ⟨d, hd, ht⟩)) with h | h
    · exact .predefined h
    · exact .declared h⟩

end Xgen.C71
