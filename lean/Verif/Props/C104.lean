import Verif.Props.C71
import Verif.Props.C103

/-! # C104: no dangling references between the files of a project

C71 for projects of several schemas (C62): if every reference is to a built-in type, to a component of the schema itself or to
one of an imported schema, then every type that the generated files mention is predefined in the target language or declared in
one of them. -/

namespace Xgen.C104
open Core C62 C65
open Xgen.Decl (nodes nodeName)
open C53 (NCName)
open C57 (bare)
open C58 (Legible)
open C59 (anonymous)
open C71 (types elements attributes groups attrGroups content Targets Has SimpleBound ContentBound Given DeclBound Usable Ok Ok0 NodeOk
  typeNames itemNames Answers Known Means)

/-! ## Projects in which every reference has a target -/

section
variable (π : Project)

/-- A reference to something in the file itself. -/
def Here (f : Str) (kind : Decl → List Str) (v : Str) : Prop :=
  (∀ g, π.file? (Names.prefixPart v) = some g → g = f) ∧ Names.localPart v ∈ (π.docs f).decls.flatMap kind

/-- A reference to something in an imported file, because of which (or of another one) that file is read. -/
def There (f : Str) (kind : Decl → List Str) (v : Str) : Prop :=
  ∃ g, π.file? (Names.prefixPart v) = some g ∧ g ≠ f ∧ π.Needs f g ∧ Names.localPart v ∈ (π.docs g).decls.flatMap kind

/-- A reference of the schema to a type that an included file gives. -/
def Included (f v : Str) : Prop :=
  f = π.cfg.filePath ∧ π.file? (Names.prefixPart v) = none ∧ ∃ g ∈ π.included, π.Gives g (Names.localPart v)

/-- What the references of a file may be to. -/
def offers (f : Str) : Targets where
  type v := (getBuildInTypeByLang (Names.localPart v) π.cfg.lang).isSome ∨ Here π f types v ∨ There π f types v ∨ Included π f v
  element v := Here π f elements v ∨ There π f elements v
  attr v := Here π f attributes v ∨ There π f attributes v
  group v := Here π f groups v ∨ There π f groups v
  attrGroup v := Here π f attrGroups v ∨ There π f attrGroups v

/-- A project without dangling references, with names as XML demands.  Imports say a name space, and included files (for which
nothing is generated) give target types only. -/
structure Bound : Prop where
  refs : ∀ f ∈ π.all, ∀ d ∈ (π.docs f).decls, DeclBound (offers π f) d
  names : ∀ f ∈ π.all, ∀ d ∈ (π.docs f).decls, ∀ s ∈ types d ++ elements d ++ attributes d ++ groups d ++ attrGroups d ++ anonymous (content d),
    NCName s ∧ Usable π.cfg.lang s
  spaces : π.file? [] = none
  included : ∀ g ∈ π.included, ∀ d ∈ (π.own g).filterMap C07.declares, ∃ k, getBuildInTypeByLang k π.cfg.lang = some d.2

end

/-! ## Files in which every type is there -/

/-- How a language is read: its predefined types, what types are made with, the names of the declarations in a text and the types that they mention. -/
structure Reader where
  predefined : List Str
  wraps : List (Str × Str)
  names : Str → List Str
  mentions : Str → List Str

/-- Go. -/
def go : Reader := ⟨C71.Go.predefined, C71.Go.wraps, C56.Go.names, fun x => (C58.Go.declsOf x).flatMap C71.Go.mentions⟩
/-- C. -/
def c : Reader := ⟨C71.C.predefined, C71.C.wraps, C56.C.names, fun x => (C58.C.declsOf x).flatMap C71.C.mentions⟩
/-- Java. -/
def java : Reader := ⟨C71.Java.predefined, C71.Java.wraps, C56.Java.names, fun x => (C58.Java.declsOf x).flatMap C71.Java.mentions⟩
/-- Rust. -/
def rust : Reader := ⟨C71.Rust.predefined, C71.Rust.wraps, C56.Rust.names, fun x => (C58.Rust.declsOf x).flatMap fun d => d.2.map (·.type)⟩
/-- TypeScript. -/
def ts : Reader := ⟨C71.TS.predefined, C71.TS.wraps, C56.TS.names, fun x => (C58.TS.declsOf x).flatMap C71.TS.mentions⟩

/-- The languages. -/
def reader (lang : Str) : Reader :=
  if lang = c!"Go" then go else if lang = c!"C" then c else if lang = c!"Java" then java else if lang = c!"Rust" then rust else ts

/-- Source files in which every type is predefined, or declared in one of them. -/
def Complete (r : Reader) (sources : List Str) : Prop :=
  ∀ x ∈ sources, ∀ m ∈ r.mentions x, Known r.predefined r.wraps (sources.flatMap r.names) m

/-- The generated files can be created, and the formatter accepts what is generated for Go, whatever the documentation is. -/
structure Creatable [Uni] (π : Project) (ext : Str) : Prop where
  lang : (π.cfg.lang, ext) ∈ C24.extensions
  dirs : ∀ cfg ∈ π.cfg :: π.files.map π.part, π.W.mkdirOk (pathDir (pathJoin cfg.outputDir (trimPrefix cfg.filePath cfg.inputDir))) = true
  create : ∀ cfg ∈ π.cfg :: π.files.map π.part, π.W.createOk (C24.documentedPath cfg ext) = true
  formatter : π.cfg.lang = c!"Go" → ∀ f ∈ π.all, ∀ t, bare t = bare (π.trees f) →
    (π.W.gofmt (goSource (if f = π.cfg.filePath then π.cfg.package else []) t)).isSome
  package : '\n' ∉ π.cfg.package

/-- What some languages need (C71): no attribute groups in Java, no elements and attributes with the name of a type in Rust, readable values in TypeScript. -/
structure Suits (lang : Str) (d : Doc) : Prop where
  java : lang = c!"Java" → ∀ as b, Decl.attrGroup as b ∉ d.decls
  rust : lang = c!"Rust" → C71.Separate d.decls
  ts : lang = c!"TypeScript" → Values d

/-! ## References are among those that are asked for -/

/-- Both. -/
def both (R : Targets) (P : Str → Prop) : Targets where
  type v := R.type v ∧ P v
  element v := R.element v ∧ P v
  attr v := R.attr v ∧ P v
  group v := R.group v ∧ P v
  attrGroup v := R.attrGroup v ∧ P v

/-- References of a certain kind have other targets, too. -/
structure Maps (P : Str → Prop) (R R' : Targets) : Prop where
  type : ∀ v, P v → R.type v → R'.type v
  element : ∀ v, P v → R.element v → R'.element v
  attr : ∀ v, P v → R.attr v → R'.attr v
  group : ∀ v, P v → R.group v → R'.group v
  attrGroup : ∀ v, P v → R.attrGroup v → R'.attrGroup v

section
variable {R R' : Targets} {P : Str → Prop}

/-- The references in tags. -/
def AllAsked (P : Str → Prop) (toks : List Token) : Prop := ∀ n as, Token.start n as ∈ toks → ∀ v ∈ asked as, P v

theorem has_map {as : List Attr} {k : Str} {Q Q' : Str → Prop} (hQ : ∀ v, P v → Q v → Q' v) (hk : k ∈ [c!"name", c!"ref", c!"type", c!"base", c!"itemType"])
    (h : Has as k Q) (ha : ∀ v ∈ asked as, P v) : Has as k Q' := by
  intro v hv
  refine hQ v (ha v ?_) (h v hv)
  obtain ⟨a, h1, h2, h3⟩ := attr?_mem_of hv
  exact List.mem_flatMap.2 ⟨a, h1, by rw [if_pos (h2 ▸ hk), h3]; simp⟩

theorem asked_append {a b : List Token} (h : AllAsked P (a ++ b)) : AllAsked P a ∧ AllAsked P b :=
  ⟨fun n as hm => h n as (List.mem_append_left _ hm), fun n as hm => h n as (List.mem_append_right _ hm)⟩

theorem asked_tag {n : Str} {as : List Attr} {inner : List Token} (h : AllAsked P (tag n as inner)) :
    (∀ v ∈ asked as, P v) ∧ AllAsked P inner :=
  ⟨h n as (by simp [tag]), fun n' as' hm => h n' as' (by simp [tag, hm])⟩

theorem simple_map (m : Maps P R R') {b : SimpleBody} (h : SimpleBound R b) (ha : AllAsked P b.tokens) : SimpleBound R' b := by
  cases b with
  | restriction as fs => exact has_map m.type (by decide) h (asked_tag ha).1
  | list as => exact has_map m.type (by decide) h (asked_tag ha).1
  | union as =>
    intro v hv t ht
    refine m.type t ((asked_tag ha).1 t ?_) (h v hv t ht)
    obtain ⟨a, h1, h2, h3⟩ := attr?_mem_of hv
    exact List.mem_flatMap.2 ⟨a, h1, by rw [if_neg (by rw [h2]; decide), if_pos h2, h3]; exact ht⟩

theorem content_map (m : Maps P R R') (b : Content) (h : ContentBound R b) (ha : AllAsked P b.tokens) : ContentBound R' b := by
  induction b with
  | nil => trivial
  | elem as k ih =>
    obtain ⟨h1, h2⟩ := asked_append ha
    exact ⟨has_map m.type (by decide) h.1 (asked_tag h1).1, has_map m.element (by decide) h.2.1 (asked_tag h1).1, ih h.2.2 h2⟩
  | anon as cas b k ihb ih =>
    obtain ⟨h1, h2⟩ := asked_append ha
    exact ⟨ihb h.1 (asked_tag (asked_tag h1).2).2, ih h.2 h2⟩
  | elemAnon as ras fs k ih =>
    obtain ⟨h1, h2⟩ := asked_append ha
    exact ⟨has_map m.type (by decide) h.1 (asked_tag (asked_tag (asked_tag h1).2).2).1, ih h.2 h2⟩
  | choice as b k ihb ih =>
    obtain ⟨h1, h2⟩ := asked_append ha
    exact ⟨ihb h.1 (asked_tag h1).2, ih h.2 h2⟩
  | group as k ih =>
    obtain ⟨h1, h2⟩ := asked_append ha
    exact ⟨has_map m.group (by decide) h.1 (asked_tag h1).1, ih h.2 h2⟩
  | attrGroup as k ih =>
    obtain ⟨h1, h2⟩ := asked_append ha
    exact ⟨has_map m.attrGroup (by decide) h.1 (asked_tag h1).1, ih h.2 h2⟩
  | «attribute» as k ih =>
    obtain ⟨h1, h2⟩ := asked_append ha
    exact ⟨has_map m.type (by decide) h.1 (asked_tag h1).1, has_map m.attr (by decide) h.2.1 (asked_tag h1).1, ih h.2.2 h2⟩
  | attrAnon as b k ih =>
    obtain ⟨h1, h2⟩ := asked_append ha
    exact ⟨simple_map m h.1 (asked_tag (asked_tag h1).2).2, ih h.2 h2⟩
  | ext as b k ihb ih =>
    obtain ⟨h1, h2⟩ := asked_append ha
    exact ⟨has_map m.type (by decide) h.1 (asked_tag h1).1, ihb h.2.1 (asked_tag h1).2, ih h.2.2 h2⟩
  | restr as fs b k ihb ih =>
    obtain ⟨h1, h2⟩ := asked_append ha
    exact ⟨ihb h.1 (asked_append (asked_tag h1).2).2, ih h.2 h2⟩

theorem decl_map (m : Maps P R R') (d : Decl) (h : DeclBound R d) (ha : AllAsked P d.tokens) : DeclBound R' d := by
  cases d with
  | simple as b => exact ⟨h.1, simple_map m h.2.1 (asked_tag ha).2, h.2.2⟩
  | complex as b => exact ⟨content_map m b h.1 (asked_tag ha).2, h.2⟩
  | element as => exact ⟨has_map m.type (by decide) h.1 (asked_tag ha).1, h.2⟩
  | anon as cas b => exact ⟨content_map m b h.1 (asked_tag (asked_tag ha).2).2, h.2⟩
  | elemAnon as ras fs => exact ⟨has_map m.type (by decide) h.1 (asked_tag (asked_tag (asked_tag ha).2).2).1, h.2⟩
  | group as b => exact ⟨content_map m b h.1 (asked_tag ha).2, h.2⟩
  | attrGroup as b => exact ⟨content_map m b h.1 (asked_tag ha).2, h.2⟩
  | «attribute» as => exact ⟨h.1, has_map m.type (by decide) h.2.1 (asked_tag ha).1, h.2.2⟩
  | attrAnon as ras fs => exact ⟨h.1, has_map m.type (by decide) h.2.1 (asked_tag (asked_tag (asked_tag ha).2).2).1, h.2.2⟩

/-- The references of the declarations of a document lead downwards. -/
theorem doc_both {d : Doc} (h : ∀ x ∈ d.decls, DeclBound R x) (ha : ∀ v ∈ d.asked, P v) : ∀ x ∈ d.decls, DeclBound (both R P) x :=
  fun x hx => decl_map (R' := both R P) ⟨fun _ h1 h2 => ⟨h2, h1⟩, fun _ h1 h2 => ⟨h2, h1⟩, fun _ h1 h2 => ⟨h2, h1⟩, fun _ h1 h2 => ⟨h2, h1⟩, fun _ h1 h2 => ⟨h2, h1⟩⟩ x (h x hx) fun _ as hm v hv =>
    ha v (List.mem_flatMap.2 ⟨.start _ as, List.mem_flatMap.2 ⟨x, hx, hm⟩, hv⟩)

end

/-! ## What references are resolved to -/

theorem declared_cases (t : Tree) (n : Str) :
    (∃ d ∈ t.filterMap C07.declares, declared t n = d.2) ∨ (declared t n = n ∧ ∀ d ∈ t.filterMap C07.declares, d.1 ≠ n) := by
  unfold declared
  cases hf : (t.filterMap C07.declares).find? (fun d => d.1 = n) with
  | some d => exact .inl ⟨d, List.mem_of_find?_eq_some hf, rfl⟩
  | none => exact .inr ⟨rfl, fun d hd => by have := List.find?_eq_none.1 hf d hd; simpa using this⟩

theorem prefix_none {s : Str} (h : Names.localPart s = s) : Names.prefixPart s = [] := by
  unfold Names.prefixPart
  rcases C02.forms s with h1 | ⟨a, b, ha, hb, rfl⟩
  · rw [if_neg h1]
  · rw [← Names.localPart_eq, (C02.one_colon a b ha hb).2] at h
    have := congrArg List.length h
    simp at this
    omega

section
variable {π : Project} {tn : List Str}

/-- All declared types are there. -/
def Fine (π : Project) (tn : List Str) (t : Tree) : Prop := ∀ d ∈ t.filterMap C07.declares, d.2 ≠ [] ∧ Ok π.cfg.lang tn d.2

/-- A reference leads to a type that is there, or its local name is left as it is. -/
theorem ref_cases {f : Str} {t : Tree} {v : Str} (ht : Fine π tn t) (hi : ∀ g ∈ π.included, Fine π tn (π.own g))
    (ho : ∀ g, π.file? (Names.prefixPart v) = some g → Fine π tn (π.own g))
    (hg : ∀ g, π.file? (Names.prefixPart v) = some g → g = f ∨ Fine π tn (π.trees g) ∨ π.Settled g) :
    (Ok π.cfg.lang tn (π.ref f t v) ∧ π.ref f t v ≠ []) ∨
    (π.ref f t v = Names.localPart v ∧ (getBuildInTypeByLang (Names.localPart v) π.cfg.lang) = none ∧
      (∀ g, π.file? (Names.prefixPart v) = some g → ∀ d ∈ (π.own g).filterMap C07.declares, d.1 ≠ Names.localPart v) ∧
      (π.file? (Names.prefixPart v) = none → ∀ g ∈ π.included, ¬ π.Gives g (Names.localPart v))) := by
  have found : ∀ {t : Tree} {n : Str}, Fine π tn t → declared t n ≠ n → Ok π.cfg.lang tn (declared t n) ∧ declared t n ≠ [] := by
    intro t n ht hne
    rcases declared_cases t n with ⟨d, hd, e⟩ | h
    · rw [e]; exact (ht d hd).symm
    · exact absurd h.1 hne
  unfold Project.ref
  cases hb : getBuildInTypeByLang (Names.localPart v) π.cfg.lang with
  | some b => exact .inl ⟨.inr (.inl ⟨_, hb⟩), (C70.table_plain hb).1⟩
  | none =>
    dsimp only
    split
    · rename_i h; exact .inl (found ht h.1)
    · unfold Project.outside
      cases hq : π.file? (Names.prefixPart v) with
      | none =>
        dsimp only
        unfold Project.fromIncluded
        cases hf : π.included.find? fun g => π.Gives g (Names.localPart v) with
        | some g =>
          have h1 : π.Gives g (Names.localPart v) := by simpa using List.find?_some hf
          exact .inl (found (hi g (List.mem_of_find?_eq_some hf)) h1.1)
        | none =>
          refine .inr ⟨rfl, rfl, fun g e => (by cases e), fun _ g hg => ?_⟩
          have := List.find?_eq_none.1 hf g hg
          simpa using this
      | some g =>
        have hown := ho g hq
        have last : (Ok π.cfg.lang tn (declared (π.own g) (Names.localPart v)) ∧ declared (π.own g) (Names.localPart v) ≠ []) ∨
            (declared (π.own g) (Names.localPart v) = Names.localPart v ∧ (none : Option Str) = none ∧
              (∀ g', some g = some g' → ∀ d ∈ (π.own g').filterMap C07.declares, d.1 ≠ Names.localPart v) ∧
              (some g = none → ∀ g ∈ π.included, ¬ π.Gives g (Names.localPart v))) := by
          rcases declared_cases (π.own g) (Names.localPart v) with ⟨d, hd, e⟩ | ⟨h1, h2⟩
          · rw [e]; exact .inl (hown d hd).symm
          · exact .inr ⟨h1, rfl, fun g' e => (by cases e; exact h2), fun e => by cases e⟩
        dsimp only
        by_cases e : g = f
        · rw [if_pos e]; exact last
        · rw [if_neg e]
          rcases hg g hq with e' | h1 | h1
          · exact absurd e' e
          · unfold Project.lookup
            split
            · rename_i h; exact .inl (found h1 h.1)
            · exact last
          · rw [lookup_settled h1]; exact last

/-- Elements and attributes are found. -/
theorem item_declared {ref : Tree → Str → Str} {ds : List Decl} (hr : Placed ref [] ds) {s : Str} (hs : s ∈ ds.flatMap elements ∨ s ∈ ds.flatMap attributes) :
    ∃ d ∈ (treeOf ref [] ds).filterMap C07.declares, d.1 = s := by
  have : ∃ d ∈ ds, s ∈ elements d ++ attributes d := by
    rcases hs with hs | hs <;> obtain ⟨d, hd, hs⟩ := List.mem_flatMap.1 hs <;> exact ⟨d, hd, by simp [hs]⟩
  obtain ⟨d, hd, hs⟩ := this
  obtain ⟨t', -, h1⟩ := C71.placed_mem hr d hd
  obtain ⟨n, h2, h3, h4⟩ := (C71.decl_names (ref t') d).2 s hs
  have hn := List.mem_filterMap.1 (h1 n h2)
  obtain ⟨x, hx, e⟩ := hn
  simp only [id] at e
  subst e
  cases n with
  | elem v => exact ⟨_, List.mem_filterMap.2 ⟨_, hx, rfl⟩, h4⟩
  | attr v => exact ⟨_, List.mem_filterMap.2 ⟨_, hx, rfl⟩, h4⟩
  | _ => cases h3

end

/-! ## The trees of a project -/

section
variable [Uni] {π : Project} {S : List Str}

/-- The types of the translated files. -/
def typesOf (π : Project) (S : List Str) : List Str := S.flatMap fun f => typeNames (π.trees f)

/-- The global elements and attributes of all files. -/
def itemsOf (π : Project) (S : List Str) : List Str := S.flatMap fun f => itemNames (π.trees f)

variable (h : π.Sound) (hb : Bound π) (hS : ∀ f ∈ S, f ∈ π.all) (hN : ∀ f ∈ S, ∀ g, π.Needs f g → g ∈ S)
include h hb hS

theorem type_there {f : Str} (hf : f ∈ S) {d : Decl} (hd : d ∈ (π.docs f).decls) {s : Str}
    (hs : s ∈ types d ++ groups d ++ attrGroups d ++ anonymous (content d)) : s ∈ typesOf π S ∧ NCName s ∧ Usable π.cfg.lang s := by
  have ha := hS f hf
  refine ⟨List.mem_flatMap.2 ⟨f, hf, ?_⟩, hb.names f ha d hd s ?_⟩
  · rw [h.trees f ha]
    obtain ⟨t', h0, h1⟩ := C71.placed_mem (h.regular f ha).placed d hd
    rcases List.mem_append.1 hs with hs | hs
    · obtain ⟨n, h2, h3, h4⟩ := (C71.decl_names (π.ref f t') d).1 s hs
      rw [← h4]; exact C71.mem_types (h1 n h2) h3
    · obtain ⟨n, h2, h3, h4⟩ := C71.anonymous_nodes (π.ref f t') d h0 s hs
      rw [← h4]; exact C71.mem_types (h1 n h2) h3
  · simp only [List.mem_append] at hs ⊢
    rcases hs with ((hs | hs) | hs) | hs <;> simp [hs]

theorem element_there {f : Str} (hf : f ∈ S) {as : List Attr} {cas : List Attr} {b : Content} (hd : Decl.anon as cas b ∈ (π.docs f).decls) :
    nameOf as ∈ typesOf π S ∧ NCName (nameOf as) ∧ Usable π.cfg.lang (nameOf as) := by
  have ha := hS f hf
  refine ⟨List.mem_flatMap.2 ⟨f, hf, ?_⟩, hb.names f ha _ hd _ (by simp [C71.elements])⟩
  rw [h.trees f ha]
  obtain ⟨t', -, h1⟩ := C71.placed_mem (h.regular f ha).placed _ hd
  exact C71.mem_types (n := .complex (complexOf (π.ref f t') false (nameOf as) b)) (h1 _ (by simp [Core.Decl.nodes])) rfl

theorem item_there {f : Str} (hf : f ∈ S) {d : Decl} (hd : d ∈ (π.docs f).decls) {s : Str} (hs : s ∈ elements d ++ attributes d) :
    s ∈ itemNames (π.trees f) ∧ NCName s := by
  have ha := hS f hf
  refine ⟨?_, (hb.names f ha d hd s (by simp only [List.mem_append] at hs ⊢; rcases hs with hs | hs <;> simp [hs])).1⟩
  rw [h.trees f ha]
  obtain ⟨t', -, h1⟩ := C71.placed_mem (h.regular f ha).placed d hd
  obtain ⟨n, h2, h3, h4⟩ := (C71.decl_names (π.ref f t') d).2 s hs
  rw [← h4]; exact C71.mem_items (h1 n h2) h3

include hN

/-- A reference is to something of a translated file. -/
theorem meets {f : Str} (hf : f ∈ S) (hm : f ≠ π.cfg.filePath) : C71.Meets π.cfg.lang (typesOf π S) (itemsOf π S) (offers π f) := by
  have ty : ∀ {kind : Decl → List Str} {v : Str}, (∀ d, ∀ s ∈ kind d, s ∈ types d ++ groups d ++ attrGroups d ++ anonymous (content d)) →
      Here π f kind v ∨ There π f kind v → Names.localPart v ∈ typesOf π S ∧ NCName (Names.localPart v) ∧ Usable π.cfg.lang (Names.localPart v) := by
    intro kind v hk hv
    rcases hv with ⟨-, hv⟩ | ⟨g, -, -, hg, hv⟩ <;> obtain ⟨d, hd, hs⟩ := List.mem_flatMap.1 hv
    · exact type_there h hb hS hf hd (hk d _ hs)
    · exact type_there h hb hS (hN f hf g hg) hd (hk d _ hs)
  have it : ∀ {kind : Decl → List Str} {v : Str}, (∀ d, ∀ s ∈ kind d, s ∈ elements d ++ attributes d) →
      Here π f kind v ∨ There π f kind v → Names.localPart v ∈ itemsOf π S ∧ NCName (Names.localPart v) := by
    intro kind v hk hv
    rcases hv with ⟨-, hv⟩ | ⟨g, -, -, hg, hv⟩ <;> obtain ⟨d, hd, hs⟩ := List.mem_flatMap.1 hv
    · have := item_there h hb hS hf hd (hk d _ hs)
      exact ⟨List.mem_flatMap.2 ⟨f, hf, this.1⟩, this.2⟩
    · have := item_there h hb hS (hN f hf g hg) hd (hk d _ hs)
      exact ⟨List.mem_flatMap.2 ⟨g, hN f hf g hg, this.1⟩, this.2⟩
  refine ⟨fun v hv => ?_, fun v hv => it (fun d s hs => by simp [hs]) hv, fun v hv => it (fun d s hs => by simp [hs]) hv,
    fun v hv => ty (fun d s hs => by simp [hs]) hv, fun v hv => ty (fun d s hs => by simp [hs]) hv⟩
  rcases hv with hv | hv | hv | hv
  · exact .inl hv
  · exact .inr (ty (fun d s hs => by simp [hs]) (.inl hv))
  · exact .inr (ty (fun d s hs => by simp [hs]) (.inr hv))
  · exact absurd hv.1 hm

/-- Files translated on their own. -/
theorem own_fine {f : Str} (hf : f ∈ S) (hm : f ∈ π.files) : Fine π (typesOf π S) (π.own f) := by
  refine C71.declares_ok (vn := itemsOf π S) ?_
  refine C71.tree_linked (fun t ht => C71.answers ht (meets h hb hS hN hf fun e => h.other (e ▸ hm))) _ [] (fun n hn => by cases hn)
    (h.alone f (List.mem_append_left _ hm)).placed (hb.refs f (hS f hf)) (fun d hd s hs => ?_) fun d hd as cas b e => ?_
  · exact type_there h hb hS hf hd (by simp [hs])
  · subst e; exact element_there h hb hS hf hd

/-- The references of the translated files have answers. -/
theorem trees_ok (n : Nat) : ∀ f ∈ S, π.rank f ≤ n → ∀ x ∈ nodes (π.trees f), NodeOk π.cfg.lang (typesOf π S) (itemNames (π.trees f)) x := by
  induction n using Nat.strongRecOn with
  | _ n ih =>
    intro f hf hr
    have ha := hS f hf
    have hi : ∀ g ∈ π.included, Fine π (typesOf π S) (π.own g) := by
      intro g hg d hd
      obtain ⟨k, hk⟩ := hb.included g hg d hd
      exact ⟨(C70.table_plain hk).1, .inr (.inl ⟨k, hk⟩)⟩
    have key : ∀ t : Tree, (∀ n ∈ nodes t, NodeOk π.cfg.lang (typesOf π S) (itemNames (π.trees f)) n) →
        Answers π.cfg.lang (typesOf π S) (itemNames (π.trees f)) (both (offers π f) fun v => π.Below f (Names.prefixPart v)) (π.ref f t) := by
      intro t ht
      have ht := C71.declares_ok ht
      have go : ∀ v, π.Below f (Names.prefixPart v) → (∀ g, π.file? (Names.prefixPart v) = some g → g ∈ S) → _ := fun v h1 h2 =>
        ref_cases (f := f) (v := v) ht hi (fun g hg => own_fine h hb hS hN (h2 g hg) (file?_mem hg)) fun g hg => (h1 g hg).imp id fun h3 => by
          rcases h3 with h3 | h3
          · exact .inl (C71.declares_ok (ih (π.rank g) (Nat.lt_of_lt_of_le h3 hr) g (h2 g hg) (Nat.le_refl _)))
          · exact .inr h3.2
      have place : ∀ {kind : Decl → List Str} {v : Str}, Here π f kind v ∨ There π f kind v → ∀ g, π.file? (Names.prefixPart v) = some g → g ∈ S := by
        rintro kind v (hv | ⟨g', h1, -, h2, -⟩) g hg
        · rw [hv.1 g hg]; exact hf
        · rw [h1] at hg; cases hg; exact hN f hf _ h2
      have ty : ∀ {kind : Decl → List Str} {v : Str}, (∀ d, ∀ s ∈ kind d, s ∈ types d ++ groups d ++ attrGroups d ++ anonymous (content d)) →
          Here π f kind v ∨ There π f kind v → π.Below f (Names.prefixPart v) → Ok π.cfg.lang (typesOf π S) (π.ref f t v) ∧ π.ref f t v ≠ [] := by
        intro kind v hk hv hp
        rcases go v hp (place hv) with h1 | h1
        · exact h1
        · rw [h1.1]
          have : Names.localPart v ∈ typesOf π S ∧ NCName (Names.localPart v) ∧ Usable π.cfg.lang (Names.localPart v) := by
            rcases hv with ⟨-, hv⟩ | ⟨g, -, -, hg, hv⟩ <;> obtain ⟨d, hd, hs⟩ := List.mem_flatMap.1 hv
            · exact type_there h hb hS hf hd (hk d _ hs)
            · exact type_there h hb hS (hN f hf g hg) hd (hk d _ hs)
          exact ⟨.inr (.inr this), C71.NCName.ne this.2.1⟩
      have it : ∀ {kind : Decl → List Str} {v : Str}, (∀ d, ∀ s ∈ kind d, s ∈ elements d ++ attributes d) →
          Here π f kind v ∨ There π f kind v → π.Below f (Names.prefixPart v) → Ok0 π.cfg.lang (typesOf π S) (itemNames (π.trees f)) (π.ref f t v) := by
        intro kind v hk hv hp
        rcases go v hp (place hv) with h1 | ⟨h1, -, h2, -⟩
        · exact .inl h1.1
        · rcases hv with ⟨-, hv⟩ | ⟨g, hq, -, -, hv⟩ <;> obtain ⟨d, hd, hs⟩ := List.mem_flatMap.1 hv
          · rw [h1]; exact .inr (item_there h hb hS hf hd (hk d _ hs))
          · exfalso
            obtain ⟨x, hx, e⟩ := item_declared (h.alone g (List.mem_append_left _ (file?_mem hq))).placed (s := Names.localPart v) (by
              have := hk d _ hs
              rcases List.mem_append.1 this with this | this
              · exact .inl (List.mem_flatMap.2 ⟨d, hd, this⟩)
              · exact .inr (List.mem_flatMap.2 ⟨d, hd, this⟩))
            exact h2 g hq x hx e
      have again : ∀ s, Ok π.cfg.lang (typesOf π S) s → Ok π.cfg.lang (typesOf π S) (π.ref f t s) ∧ (s ≠ [] → π.ref f t s ≠ []) := by
        intro s hs
        have e : Names.prefixPart s = [] := prefix_none (C71.ok_local hs)
        rcases go s (by rw [e]; exact (h.below f ha).1) (fun g hg => by rw [e, hb.spaces] at hg; cases hg) with h1 | ⟨h1, -⟩
        · exact ⟨h1.1, fun _ => h1.2⟩
        · rw [h1, C71.ok_local hs]; exact ⟨hs, id⟩
      refine ⟨fun v hv => ?_, fun v hv => it (fun d s hs => by simp [hs]) hv.1 hv.2, fun v hv => it (fun d s hs => by simp [hs]) hv.1 hv.2,
        fun v hv => (ty (fun d s hs => by simp [hs]) hv.1 hv.2).1, fun v hv => (ty (fun d s hs => by simp [hs]) hv.1 hv.2).1,
        fun s hs => (again s hs).1, fun s hs => (again s hs).2⟩
      obtain ⟨hv, hp⟩ := hv
      rcases hv with hv | hv | hv | hv
      · obtain ⟨b, hbi⟩ := Option.isSome_iff_exists.1 hv
        have e : π.ref f t v = b := by unfold Project.ref; rw [hbi]
        rw [e]
        exact ⟨.inr (.inl ⟨_, hbi⟩), (C70.table_plain hbi).1⟩
      · exact ty (fun d s hs => by simp [hs]) (.inl hv) hp
      · exact ty (fun d s hs => by simp [hs]) (.inr hv) hp
      · rcases go v hp (fun g hg => by rw [hv.2.1] at hg; cases hg) with h1 | h1
        · exact h1
        · obtain ⟨g, hg, h2⟩ := hv.2.2
          exact absurd h2 (h1.2.2.2 hv.2.1 g hg)
    have := C71.tree_linked key (π.docs f).decls [] (fun n hn => by cases hn)
      (h.regular f ha).placed (doc_both (hb.refs f ha) (h.below f ha).2) (fun d hd s hs => type_there h hb hS hf hd (by simp [hs]))
      (fun d hd as cas b e => by subst e; exact element_there h hb hS hf hd)
    rw [← h.trees f ha] at this
    exact this

end

/-! ## The files -/

section
variable [Uni] [UniLaws]

/-- The name of a type in a language. -/
def nameIn (lang s : Str) : Str := if lang = c!"Go" ∨ lang = c!"Rust" then Names.strict s else Names.plain s

/-- The source of a tree: the types it declares and those it mentions. -/
theorem parts {lang ext pkg : Str} {t : Tree} (hl : (lang, ext) ∈ C24.extensions) (hp : '\n' ∉ pkg) (hg : Legible t)
    (hj : lang = c!"Java" → C71.Ungrouped t) (hr : lang = c!"Rust" → C71.Led (typeNames t) [] (nodes t))
    (hv : lang = c!"TypeScript" → ∀ n ∈ nodes t, C59.EnumOk n) :
    (∀ s ∈ typeNames t, nameIn lang s ∈ (reader lang).names (C103.sourceOf lang pkg t)) ∧
    ∀ tn vn names, Means lang tn vn t → (∀ n ∈ nodes t, NodeOk lang tn vn n) → (∀ s ∈ tn, nameIn lang s ∈ names ∧ Clean notInNames s) →
      ∀ m ∈ (reader lang).mentions (C103.sourceOf lang pkg t), Known (reader lang).predefined (reader lang).wraps names m := by
  simp only [C24.extensions, List.mem_cons, Prod.mk.injEq, List.not_mem_nil, or_false] at hl
  rcases hl with ⟨rfl, -⟩ | ⟨rfl, -⟩ | ⟨rfl, -⟩ | ⟨rfl, -⟩ | ⟨rfl, -⟩
  · refine ⟨fun s hs => ?_, fun tn vn names hm hk hN m hx => ?_⟩
    · show Names.strict s ∈ C56.Go.names (goSource pkg t)
      rw [C56.Go.file_names pkg t hp hg.sound]; exact C71.named _ _ _ t hs
    · obtain ⟨d, hd, hx⟩ := List.mem_flatMap.1 (show m ∈ (C58.Go.declsOf (goSource pkg t)).flatMap C71.Go.mentions from hx)
      obtain ⟨order, ho, hr⟩ := C58.Go.file pkg t hp hg
      rw [hr] at hd
      obtain ⟨x, hxd, rfl⟩ := List.mem_map.1 hd
      have hn := (C71.mem_declarations hxd).1
      exact C71.Go.one hm (fun s hs => (hN s hs).1) ho hn (hk _ hn) (C71.declared_clean hxd (C71.strict_clean (hg.name hn))) m hx
  · refine ⟨fun s hs => ?_, fun tn vn names hm hk hN m hx => ?_⟩
    · show Names.plain s ∈ C56.C.names (cSource t)
      obtain ⟨n, hn, rfl⟩ := List.mem_map.1 hs
      obtain ⟨m, hm, e⟩ := C59.mem_firsts (fun _ => false) _ n (List.mem_filter.1 hn).1
      rw [C56.C.file_names t hg.sound, ← e]
      exact C71.C.mem_finals _ _ m hm (by simp)
    · obtain ⟨d, hd, hx⟩ := List.mem_flatMap.1 (show m ∈ (C58.C.declsOf (cSource t)).flatMap C71.C.mentions from hx)
      obtain ⟨order, ho, hr⟩ := C58.C.file t hg
      rw [hr] at hd
      obtain ⟨x, hxd, rfl⟩ := List.mem_map.1 hd
      have hn := (C71.mem_declarations hxd).1
      exact C71.C.one hm hg hN ho hn (hk _ hn) x.2 m hx
  · refine ⟨fun s hs => ?_, fun tn vn names hm hk hN m hx => ?_⟩
    · show Names.plain s ∈ C56.Java.names (javaSource pkg t)
      rw [C56.Java.file_names pkg t hp hg.sound]; exact C71.named _ _ _ t hs
    · obtain ⟨d, hd, hx⟩ := List.mem_flatMap.1 (show m ∈ (C58.Java.declsOf (javaSource pkg t)).flatMap C71.Java.mentions from hx)
      obtain ⟨order, ho, hr⟩ := C58.Java.file pkg t hp hg
      rw [hr] at hd
      obtain ⟨x, hxd, rfl⟩ := List.mem_map.1 hd
      have hn := (C71.mem_declarations hxd).1
      exact C71.Java.one hm (fun s hs => (hN s hs).1) ho hn (hk _ hn) (fun v e => hj rfl v (e ▸ hn)) (C71.declared_clean hxd (C71.plain_clean (hg.name hn))) m hx
  · refine ⟨fun s hs => ?_, fun tn vn names hm hk hN m hx => ?_⟩
    · show Names.strict s ∈ C56.Rust.names (rustSource t)
      obtain ⟨n, hn, e'⟩ := List.mem_map.1 hs
      obtain ⟨m, hm, e⟩ := C59.mem_firsts (fun _ => false) _ n (List.mem_filter.1 hn).1
      have e := e.trans e'
      have hb : C56.Rust.baseName m = Names.strict (nodeName m) := by
        have hm' := (hr rfl).first _ hm (by simp) (e ▸ hs)
        cases m with
        | elem v => cases hm'
        | attr v => cases hm'
        | _ => rfl
      rw [C56.Rust.file_names t hg.sound, ← e, ← hb]
      exact C71.mem_finals _ _ _ _ m hm (by simp)
    · obtain ⟨d, hd, hx⟩ := List.mem_flatMap.1 (show m ∈ (C58.Rust.declsOf (rustSource t)).flatMap (fun d => d.2.map (·.type)) from hx)
      obtain ⟨order, ho, hr⟩ := C58.Rust.file t hg
      rw [hr] at hd
      obtain ⟨x, hxd, rfl⟩ := List.mem_map.1 hd
      obtain ⟨f, hf, rfl⟩ := List.mem_map.1 hx
      have hn := (C71.mem_declarations hxd).1
      exact C71.Rust.one hm (fun s hs => (hN s hs).1) ho hn (hk _ hn) f hf
  · have he := hv rfl
    refine ⟨fun s hs => ?_, fun tn vn names hm hk hN m hx => ?_⟩
    · show Names.plain s ∈ C56.TS.names (tsSource t)
      rw [C56.TS.file_names_partial t hg.sound (.of_none fun n hn => (he n hn).2)]; exact C71.named _ _ _ t hs
    · obtain ⟨d, hd, hx⟩ := List.mem_flatMap.1 (show m ∈ (C58.TS.declsOf (tsSource t)).flatMap C71.TS.mentions from hx)
      obtain ⟨order, ho, hr⟩ := C58.TS.file_partial t hg (fun n hn => (he n hn).1) (.of_none fun n hn => (he n hn).2)
      rw [hr] at hd
      obtain ⟨x, hxd, rfl⟩ := List.mem_map.1 hd
      have hn := (C71.mem_declarations hxd).1
      exact C71.TS.one hm (fun s hs => (hN s hs).1) ho hn (hk _ hn) (C71.declared_clean hxd (C71.plain_clean (hg.name hn))) m hx

omit [Uni] [UniLaws] in
theorem itemNames_bare (t : Tree) : itemNames (bare t) = itemNames t := by
  simp [itemNames, C59.nodes_bare, List.filter_map, Function.comp_def, C71.typelike_bare, C59.name_bare]

omit [Uni] [UniLaws] in
theorem nodes_alike {lang : Str} {tn vn : List Str} {t t' : Tree} (h : bare t = bare t') (hk : ∀ n ∈ nodes t', NodeOk lang tn vn n) : ∀ n ∈ nodes t, NodeOk lang tn vn n := by
  have key : ∀ t : Tree, (∀ n ∈ nodes (bare t), NodeOk lang tn vn n) ↔ ∀ n ∈ nodes t, NodeOk lang tn vn n := by
    intro t
    rw [C59.nodes_bare]
    simp only [List.mem_map, forall_exists_index, and_imp, forall_apply_eq_imp_iff₂, C71.nodeOk_bare]
  rw [← key, h, key]; exact hk

variable {π : Project}

/-- The source of a file of a project, before it is formatted. -/
def sourceIn (π : Project) (f : Str) : Str := C103.sourceOf π.cfg.lang (if f = π.cfg.filePath then π.cfg.package else []) (π.worded f)

/-- What is written. -/
theorem files (h : π.Sound) (hb : Bound π) (ht : ∀ f ∈ π.all ++ π.included, Tidy (π.docs f)) {ext : Str} (hc : Creatable π ext)
    (hx : ∀ f ∈ π.all, Suits π.cfg.lang (π.docs f)) (sh : Shared) (hf : Fresh π sh) :
    ∃ (gs : List Str) (text : Str → Str) (t : Tree) (sh' : Shared), gs.Nodup ∧ (∀ g ∈ gs, g ∈ π.files) ∧
      (∀ f ∈ π.cfg.filePath :: gs, ∀ g, π.Needs f g → g ∈ gs) ∧
      Complete (reader π.cfg.lang) ((π.cfg.filePath :: gs).map (sourceIn π)) ∧
      (∀ f ∈ π.cfg.filePath :: gs, if π.cfg.lang = c!"Go" then π.W.gofmt (sourceIn π f) = some (text f) else text f = sourceIn π f) ∧
      sh'.outputs = sh.outputs ++ gs.map (fun g => (C24.documentedPath (π.part g) ext, text g)) ++
        [(C24.documentedPath π.cfg ext, text π.cfg.filePath)] ∧
      Parse π.W π.cfg sh = .ok t sh' := by
  have hw := fun f (hf : f ∈ π.all) => (worded_tree h hf).1
  let text : Str → Str := fun f => textOf π.W π.cfg.lang (if f = π.cfg.filePath then π.cfg.package else []) (π.worded f)
  have hout : ∀ f ∈ π.all, C24.IsOutput π.W π.cfg.lang (if f = π.cfg.filePath then π.cfg.package else []) (π.worded f) (text f) ∧ _ ∧ _ := fun f hfa =>
    C103.output hc.lang fun hl => hc.formatter hl f hfa _ (hw f hfa)
  obtain ⟨gs, sh', g1, g2, g3, g4, g5⟩ := written_worded h (output := fun g => (C24.documentedPath (π.part g) ext, text g)) (fun f hf => by
      have hm : π.part f ∈ π.cfg :: π.files.map π.part := List.mem_cons_of_mem _ (List.mem_map.2 ⟨f, hf, rfl⟩)
      have hne : f ≠ π.cfg.filePath := fun e => h.other (e ▸ hf)
      have := (hout f (List.mem_cons_of_mem _ hf)).1
      rw [if_neg hne] at this
      exact ⟨ext, hc.lang, hc.dirs _ hm, hc.create _ hm, rfl, this⟩)
    (o := (C24.documentedPath π.cfg ext, text π.cfg.filePath)) (by
      have := (hout π.cfg.filePath (by simp [Project.all])).1
      rw [if_pos rfl] at this
      exact ⟨ext, hc.lang, hc.dirs _ (by simp), hc.create _ (by simp), rfl, this⟩) sh hf
  have hS : ∀ f ∈ π.cfg.filePath :: gs, f ∈ π.all := by
    intro f hf
    rcases List.mem_cons.1 hf with rfl | hf
    · simp [Project.all]
    · exact List.mem_cons_of_mem _ (g2 f hf)
  have hN : ∀ f ∈ π.cfg.filePath :: gs, ∀ g, π.Needs f g → g ∈ π.cfg.filePath :: gs := fun f hf g hg => List.mem_cons_of_mem _ (g3 f hf g hg)
  have hlegible : ∀ f ∈ π.all, Legible (π.worded f) := fun f hf => C59.legible_alike (hw f hf) (trees_legible h ht hf)
  have hparts := fun f (hfa : f ∈ π.all) => parts (t := π.worded f) (pkg := if f = π.cfg.filePath then π.cfg.package else []) hc.lang (by
      split
      · exact hc.package
      · simp) (hlegible f hfa)
    (fun hl => C71.ungrouped_alike (hw f hfa) (by rw [h.trees f hfa]; exact C71.tree_ungrouped _ ((hx f hfa).java hl)))
    (fun hl => C71.led_alike (hw f hfa) (by rw [h.trees f hfa]; exact C71.tree_led _ ((hx f hfa).rust hl)))
    (fun hl => C59.enums_alike (hw f hfa) (by
      rw [h.trees f hfa]
      exact C59.tree_enums _ _ [] (fun n hn => by cases hn) ((hx f hfa).ts hl)))
  have htn : ∀ f ∈ π.all, typeNames (π.worded f) = typeNames (π.trees f) := fun f hf => by rw [← C71.typeNames_bare, hw f hf, C71.typeNames_bare]
  have hin : ∀ f ∈ π.all, itemNames (π.worded f) = itemNames (π.trees f) := fun f hf => by rw [← itemNames_bare, hw f hf, itemNames_bare]
  refine ⟨gs, text, _, sh', g1, g2, g3, ?_, fun f hf => ?_, g4, g5⟩
  · intro x hx m hm
    obtain ⟨f, hf, rfl⟩ := List.mem_map.1 hx
    have hfa := hS f hf
    have hk := nodes_alike (hw f hfa) (trees_ok h hb hS hN _ f hf (Nat.le_refl _))
    have hmean : Means π.cfg.lang (typesOf π (π.cfg.filePath :: gs)) (itemNames (π.trees f)) (π.worded f) := by
      rw [← hin f hfa] at hk ⊢
      exact fun s hs => C71.meaning_ok hk hs
    refine (hparts f hfa).2 _ _ _ hmean hk (fun s hs => ?_) m hm
    obtain ⟨g, hg, hs⟩ := List.mem_flatMap.1 hs
    rw [← htn g (hS g hg)] at hs
    refine ⟨List.mem_flatMap.2 ⟨sourceIn π g, List.mem_map_of_mem hg, (hparts g (hS g hg)).1 s hs⟩, ?_⟩
    obtain ⟨n, hn, rfl⟩ := List.mem_map.1 hs
    exact (hlegible g (hS g hg)).name (List.mem_filter.1 hn).1
  · split
    · rename_i hl; exact (hout f (hS f hf)).2.1 hl
    · rename_i hl; exact (hout f (hS f hf)).2.2 hl

/-- C104: if every reference of a project is to a built-in type, to a component of its own schema or of an imported one, or to a type of an included one,
then `Parse` writes files in which every type is predefined or declared in one of the files.
(Missing: the exceptions of C71, and types of included schemas other than built-in ones, see `included_dangling`.) -/
theorem project_partial (h : π.Sound) (hb : Bound π) (ht : ∀ f ∈ π.all ++ π.included, Tidy (π.docs f)) {ext : Str} (hc : Creatable π ext)
    (hx : ∀ f ∈ π.all, Suits π.cfg.lang (π.docs f)) (sh : Shared) (hf : Fresh π sh) :
    ∃ (gs : List Str) (source text : Str → Str) (t : Tree) (sh' : Shared), gs.Nodup ∧ (∀ g ∈ gs, g ∈ π.files) ∧
      (∀ f ∈ π.cfg.filePath :: gs, ∀ g, π.Needs f g → g ∈ gs) ∧
      Complete (reader π.cfg.lang) ((π.cfg.filePath :: gs).map source) ∧
      (∀ f ∈ π.cfg.filePath :: gs, if π.cfg.lang = c!"Go" then π.W.gofmt (source f) = some (text f) else text f = source f) ∧
      sh'.outputs = sh.outputs ++ gs.map (fun g => (C24.documentedPath (π.part g) ext, text g)) ++
        [(C24.documentedPath π.cfg ext, text π.cfg.filePath)] ∧
      Parse π.W π.cfg sh = .ok t sh' := by
  obtain ⟨gs, text, t, sh', h1⟩ := files h hb ht hc hx sh hf
  exact ⟨gs, sourceIn π, text, t, sh', h1⟩

end

/-! ## Examples -/

/-- What references may be to, given which files are needed. -/
def offersIf (π : Project) (N : List (Str × Str)) (f : Str) : Targets :=
  let near (kind : Decl → List Str) (v : Str) : Prop := match π.file? (Names.prefixPart v) with
    | some g => (g = f ∨ (f, g) ∈ N) ∧ Names.localPart v ∈ (π.docs g).decls.flatMap kind
    | none => Names.localPart v ∈ (π.docs f).decls.flatMap kind
  { type := fun v => (getBuildInTypeByLang (Names.localPart v) π.cfg.lang).isSome ∨ near types v ∨
      (f = π.cfg.filePath ∧ π.file? (Names.prefixPart v) = none ∧ ∃ g ∈ π.included, π.Gives g (Names.localPart v))
    element := near elements, attr := near attributes, group := near groups, attrGroup := near attrGroups }

instance (π : Project) (N : List (Str × Str)) (f : Str) : DecidablePred (offersIf π N f).type := fun v => by
  unfold offersIf; dsimp only; cases π.file? (Names.prefixPart v) <;> infer_instance
instance (π : Project) (N : List (Str × Str)) (f : Str) : DecidablePred (offersIf π N f).element := fun v => by
  unfold offersIf; dsimp only; cases π.file? (Names.prefixPart v) <;> infer_instance
instance (π : Project) (N : List (Str × Str)) (f : Str) : DecidablePred (offersIf π N f).attr := fun v => by
  unfold offersIf; dsimp only; cases π.file? (Names.prefixPart v) <;> infer_instance
instance (π : Project) (N : List (Str × Str)) (f : Str) : DecidablePred (offersIf π N f).group := fun v => by
  unfold offersIf; dsimp only; cases π.file? (Names.prefixPart v) <;> infer_instance
instance (π : Project) (N : List (Str × Str)) (f : Str) : DecidablePred (offersIf π N f).attrGroup := fun v => by
  unfold offersIf; dsimp only; cases π.file? (Names.prefixPart v) <;> infer_instance

theorem offersIf_maps {π : Project} {N : List (Str × Str)} (hN : ∀ x ∈ N, π.Needs x.1 x.2) (f : Str) : Maps (fun _ => True) (offersIf π N f) (offers π f) := by
  have near : ∀ {kind : Decl → List Str} {v : Str}, (match π.file? (Names.prefixPart v) with
      | some g => (g = f ∨ (f, g) ∈ N) ∧ Names.localPart v ∈ (π.docs g).decls.flatMap kind
      | none => Names.localPart v ∈ (π.docs f).decls.flatMap kind) → Here π f kind v ∨ There π f kind v := by
    intro kind v h
    cases hq : π.file? (Names.prefixPart v) with
    | none => rw [hq] at h; exact .inl ⟨fun g e => (by rw [hq] at e; cases e), h⟩
    | some g =>
      rw [hq] at h
      by_cases e : g = f
      · subst e; exact .inl ⟨fun g' e => (by rw [hq] at e; cases e; rfl), h.2⟩
      · exact .inr ⟨g, hq, e, hN _ (h.1.resolve_left e), h.2⟩
  refine ⟨fun v _ h => ?_, fun v _ h => near h, fun v _ h => near h, fun v _ h => near h, fun v _ h => near h⟩
  rcases h with h | h | h
  · exact .inl h
  · exact .inr ((near h).imp id .inl)
  · exact .inr (.inr (.inr h))

theorem bound_if {π : Project} {N : List (Str × Str)} (hN : ∀ x ∈ N, π.Needs x.1 x.2)
    (h1 : ∀ f ∈ π.all, ∀ d ∈ (π.docs f).decls, DeclBound (offersIf π N f) d)
    (h2 : ∀ f ∈ π.all, ∀ d ∈ (π.docs f).decls, ∀ s ∈ types d ++ elements d ++ attributes d ++ groups d ++ attrGroups d ++ anonymous (content d),
      NCName s ∧ Usable π.cfg.lang s) (h3 : π.file? [] = none)
    (h4 : ∀ g ∈ π.included, ∀ d ∈ (π.own g).filterMap C07.declares, ∃ e ∈ buildInTypes, getBuildInTypeByLang e.1 π.cfg.lang = some d.2) : Bound π :=
  ⟨fun f hf d hd => decl_map (offersIf_maps hN f) d (h1 f hf d hd) fun _ _ _ _ _ => trivial, h2, h3, fun g hg d hd => by
    obtain ⟨e, -, h⟩ := h4 g hg d hd
    exact ⟨e.1, h⟩⟩

/-- The project of C62. -/
theorem demo_bound : Bound demo :=
  bound_if (N := [(c!"a.xsd", c!"b.xsd"), (c!"b.xsd", c!"c.xsd")]) (by
      intro x hx
      simp only [List.mem_cons, List.not_mem_nil, or_false] at hx
      rcases hx with rfl | rfl
      · exact needs_of (v := c!"b:Size") (by decide +kernel) (by decide +kernel) (by decide) (by decide) (by decide +kernel)
      · exact needs_of (v := c!"c:Num") (by decide +kernel) (by decide +kernel) (by decide) (by decide) (by decide +kernel))
    (by decide +kernel) (by decide +kernel) (by decide +kernel) (by decide +kernel)

/-- A schema that uses all kinds of components of another one. -/
def docUser : Doc where
  root := at' [("xmlns:b", "urn:b")]
  heads := [.import (at' [("namespace", "urn:b"), ("schemaLocation", "b.xsd")])]
  decls := [.complex (at' [("name", "Order")])
      (.elem (at' [("ref", "b:item")]) (.group (at' [("ref", "b:Pair")]) (.attribute (at' [("ref", "b:unit")]) (.attrGroup (at' [("ref", "b:Marks")]) .nil)))),
    .complex (at' [("name", "Special")]) (.ext (at' [("base", "b:Part")]) (.elem (at' [("name", "whole"), ("type", "Order")]) .nil) .nil)]

/-- The other one. -/
def docUsed : Doc where
  decls := [.simple (at' [("name", "Size")]) (.restriction (at' [("base", "xs:int")]) []),
    .complex (at' [("name", "Part")]) (.elem (at' [("name", "size"), ("type", "Size")]) .nil),
    .element (at' [("name", "item"), ("type", "Part")]),
    .attribute (at' [("name", "unit"), ("type", "xs:string")]),
    .group (at' [("name", "Pair")]) (.elem (at' [("name", "left"), ("type", "Part")]) .nil),
    .attrGroup (at' [("name", "Marks")]) (.attribute (at' [("name", "colour"), ("type", "xs:string")]) .nil)]

/-- Both, with the translation of the second. -/
def half : Project where
  W := Ex.world [("a.xsd", docUser.tokens), ("b.xsd", docUsed.tokens)]
  cfg := { filePath := c!"a.xsd", lang := c!"Go", outputDir := c!"out" }
  docs f := if f = c!"a.xsd" then docUser else docUsed
  trees _ := treeOf (C40.typeRef c!"Go" false) [] docUsed.decls
  rank f := if f = c!"a.xsd" then 1 else 0

/-- Both, with their translations. -/
def duo : Project := { half with trees := fun f => treeOf (half.ref f) [] (half.docs f).decls }

theorem duo_contains (f : Str) (h : f ∈ duo.all ++ duo.included) : @Contains asciiUni duo.W f (duo.docs f) := by
  have : f = c!"a.xsd" ∨ f = c!"b.xsd" := by
    have e : duo.all ++ duo.included = [c!"a.xsd", c!"b.xsd"] := by decide +kernel
    rw [e] at h
    simpa using h
  rcases this with rfl | rfl
  · exact ⟨docUser.tokens, rfl, by decide +kernel, by decide +kernel⟩
  · exact ⟨docUsed.tokens, rfl, by decide +kernel, by decide +kernel⟩

theorem duo_sound : @Project.Sound asciiUni duo := by
  refine @Project.Sound.mk asciiUni duo ?_ ?_ ?_ ?_ ?_ ?_ ?_ duo_contains ?_ ?_ ?_ ?_ ?_ ?_ ?_ ?_ ?_ <;> decide +kernel

theorem duo_bound : Bound duo :=
  bound_if (N := [(c!"a.xsd", c!"b.xsd")]) (by
      intro x hx
      rw [List.mem_singleton.1 hx]
      exact needs_of (v := c!"b:Pair") (by decide +kernel) (by decide +kernel) (by decide) (by decide) (by decide +kernel))
    (by decide +kernel) (by decide +kernel) (by decide +kernel) (by decide +kernel)

theorem duo_tidy : ∀ f ∈ duo.all ++ duo.included, Tidy (duo.docs f) := by decide +kernel

theorem duo_creatable : @Creatable asciiUni duo c!".go" :=
  @Creatable.mk asciiUni _ _ (by decide) (fun _ _ => rfl) (fun _ _ => rfl) (fun _ _ _ _ _ => rfl) (by decide)

/-- Two Go files. -/
example : ∃ (gs : List Str) (source text : Str → Str) (t : Tree) (sh' : Shared), Complete go ((c!"a.xsd" :: gs).map source) ∧
    (∀ f ∈ c!"a.xsd" :: gs, text f = source f) ∧
    sh'.outputs = gs.map (fun g => (C24.documentedPath (duo.part g) c!".go", text g)) ++ [(C24.documentedPath duo.cfg c!".go", text c!"a.xsd")] ∧
    @Parse asciiUni duo.W duo.cfg {} = .ok t sh' := by
  obtain ⟨gs, source, text, t, sh', -, -, -, h1, h2, h3, h4⟩ := @project_partial asciiUni asciiUniLaws duo duo_sound duo_bound duo_tidy _ duo_creatable
    (fun f _ => ⟨fun h => absurd h (by decide), fun h => absurd h (by decide), fun h => absurd h (by decide)⟩) {} ⟨rfl, rfl, rfl, fun _ _ => rfl⟩
  refine ⟨gs, source, text, t, sh', h1, fun f hf => ?_, h3, h4⟩
  have := h2 f hf
  rw [if_pos (by decide)] at this
  exact (Option.some.inj this).symm

/-- What they declare and mention: in the second file there are types of the first one. -/
example : ((@Parse asciiUni duo.W duo.cfg {}).state.outputs.map fun x => (x.1, go.names x.2, (go.mentions x.2).eraseDups)) =
    [(c!"out/b.xsd.go", [c!"Size", c!"Part", c!"Item", c!"Unit", c!"Pair", c!"Marks"], [c!"int", c!"*Part", c!"string"]),
     (c!"out/a.xsd.go", [c!"Order", c!"Special"], [c!"*Marks", c!"string", c!"*Pair", c!"*Part", c!"*Order"])] := by
  decide +kernel

/-- Three Java files for the project of C62. -/
example : ∃ (gs : List Str) (source : Str → Str) (sh' : Shared), Complete java ((c!"a.xsd" :: gs).map source) ∧
    sh'.outputs = gs.map (fun g => (C24.documentedPath (demo.part g) c!".java", source g)) ++ [(C24.documentedPath demo.cfg c!".java", source c!"a.xsd")] := by
  obtain ⟨gs, source, text, t, sh', -, -, -, h1, h2, h3, -⟩ := @project_partial asciiUni asciiUniLaws demo (@demo_sound asciiUni asciiUniLaws) demo_bound (by decide +kernel) _
    (@Creatable.mk asciiUni _ c!".java" (by decide) (fun _ _ => rfl) (fun _ _ => rfl) (fun h => by cases h) (by decide))
    (fun f hf => ⟨fun _ as b h => (by
      have := (by decide +kernel : ∀ f ∈ demo.all, ∀ d ∈ (demo.docs f).decls, attrGroups d = []) f hf _ h
      cases this), fun h => (by cases h), fun h => by cases h⟩) {} ⟨rfl, rfl, rfl, fun _ _ => rfl⟩
  refine ⟨gs, source, sh', h1, ?_⟩
  have e : ∀ f ∈ c!"a.xsd" :: gs, text f = source f := fun f hf => by
    have := h2 f hf
    rwa [if_neg (by decide)] at this
  rw [h3, show text demo.cfg.filePath = source c!"a.xsd" from e _ List.mem_cons_self]
  congr 1
  exact List.map_congr_left fun g hg => by rw [e g (List.mem_cons_of_mem _ hg)]

/-- A schema that includes another one, in which there is a complex type. -/
def docIncluder : Doc where
  heads := [.include (at' [("schemaLocation", "d.xsd")])]
  decls := [.complex (at' [("name", "Order")]) (.elem (at' [("name", "part"), ("type", "Part")]) .nil)]

/-- … and this schema alone. -/
def docPart : Doc where
  decls := [.complex (at' [("name", "Part")]) (.elem (at' [("name", "size"), ("type", "xs:int")]) .nil)]

/-- The generated files. -/
def outputsOf (lang : Str) : List (Str × Str) :=
  (@Parse asciiUni (Ex.world [("a.xsd", docIncluder.tokens), ("d.xsd", docPart.tokens)])
    { filePath := c!"a.xsd", lang := lang, outputDir := c!"out" } {}).state.outputs

theorem not_complete {r : Reader} {sources : List Str} (h : C71.Dangling r.predefined r.wraps (sources.flatMap r.names) (sources.flatMap r.mentions)) :
    ¬ Complete r sources := C71.dangling h

/-- Nothing is generated for included schemas, in any language. -/
example :
    (outputsOf c!"Go").map (fun x => (x.1, go.names x.2, go.mentions x.2)) = [(c!"out/a.xsd.go", [c!"Order"], [c!"*Part"])] ∧
    (outputsOf c!"C").map (fun x => (x.1, c.names x.2, c.mentions x.2)) = [(c!"out/a.xsd.h", [c!"Order"], [c!"Part"])] ∧
    (outputsOf c!"Java").map (fun x => (x.1, java.names x.2, java.mentions x.2)) = [(c!"out/a.xsd.java", [c!"Order"], [c!"Part"])] ∧
    (outputsOf c!"Rust").map (fun x => (x.1, rust.names x.2, rust.mentions x.2)) = [(c!"out/a.xsd.rs", [c!"Order"], [c!"Part"])] ∧
    (outputsOf c!"TypeScript").map (fun x => (x.1, ts.names x.2, ts.mentions x.2)) = [(c!"out/a.xsd.ts", [c!"Order"], [c!"Part"])] := by
  refine ⟨by decide +kernel, by decide +kernel, by decide +kernel, by decide +kernel, by decide +kernel⟩

/-- C104 is false for types of included schemas: they are missing in every language. -/
theorem included_dangling : ¬ Complete java ((outputsOf c!"Java").map (·.2)) ∧ ¬ Complete c ((outputsOf c!"C").map (·.2)) ∧
    ¬ Complete rust ((outputsOf c!"Rust").map (·.2)) ∧ ¬ Complete ts ((outputsOf c!"TypeScript").map (·.2)) :=
  ⟨not_complete (by decide +kernel), not_complete (by decide +kernel), not_complete (by decide +kernel), not_complete (by decide +kernel)⟩

end Xgen.C104
