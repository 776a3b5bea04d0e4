import Verif.Props.C59
import Verif.Props.C63

/-! # C65: from a set of schemas to the generated files

C59 for one document, C62 for the trees of several; here: what is written for every file of a project reads as the declarations of
its schema. -/

namespace Xgen.C65
open Core C62
open C59 (nameAttrs AllSpelled Spelled TypesOk)
open C58 (Legible)
variable [Uni]

/-! ## Specification -/

/-- The XML attributes of a tag are spelled as XSD demands: names contain no quotes, brackets, separators or white space, lists of
names no such characters besides blanks, enumeration values no line breaks. -/
def TidyTag (as : List Attr) : Prop :=
  ∀ a ∈ as, (a.local ∈ nameAttrs → Clean notInNames a.value) ∧
    (a.local = c!"memberTypes" → ∀ c ∈ notInNames, c ≠ ' ' → c ∉ a.value) ∧ (a.local = c!"value" → '\n' ∉ a.value)

/-- All declarations of a document are well spelled. -/
def Tidy (d : Doc) : Prop := ∀ n as, Token.start n as ∈ d.decls.flatMap Decl.tokens → TidyTag as

/-- What a generated file says: read back (C58), it is the declarations of the tree.  For Go this holds of what the
formatter is given. -/
def Says (W : World) (lang : Str) (t : Tree) (text : Str) : Prop :=
  ∃ order, C58.Order order ∧
    ((lang = c!"Go" ∧ ∃ source, W.gofmt source = some text ∧ C58.Go.declsOf source = C59.goDecls order t) ∨
     (lang = c!"C" ∧ C58.C.declsOf text = C59.cDecls order t) ∨
     (lang = c!"Java" ∧ C58.Java.declsOf text = C59.javaDecls order t) ∨
     (lang = c!"Rust" ∧ C58.Rust.declsOf text = C59.rustDecls order t) ∨
     (lang = c!"TypeScript" ∧ C58.TS.declsOf text = C59.tsDecls order t))

/-- The generated files can be created, and the formatter accepts the sources. -/
structure Creatable (π : Project) (ext : Str) : Prop where
  lang : (π.cfg.lang, ext) ∈ C24.extensions
  dirs : ∀ cfg ∈ π.cfg :: π.files.map π.part, π.W.mkdirOk (pathDir (pathJoin cfg.outputDir (trimPrefix cfg.filePath cfg.inputDir))) = true
  create : ∀ cfg ∈ π.cfg :: π.files.map π.part, π.W.createOk (C24.documentedPath cfg ext) = true
  formatter : π.cfg.lang = c!"Go" → ∀ source, (π.W.gofmt source).isSome
  package : '\n' ∉ π.cfg.package

/-! ## Types are legible -/

omit [Uni] in
theorem attr?_mem_of {as : List Attr} {k v : Str} (h : attr? as k = some v) : ∃ a ∈ as, a.local = k ∧ a.value = v := by
  induction as with
  | nil => cases h
  | cons a as ih =>
    rw [attr?_cons] at h
    split at h
    · rename_i e
      injection h with h
      exact ⟨a, by simp, e, h⟩
    · obtain ⟨b, hb, e⟩ := ih h
      exact ⟨b, by simp [hb], e⟩

omit [Uni] in
theorem TidyTag.spelled {as : List Attr} (h : TidyTag as) : Spelled as := by
  refine ⟨fun k hk v hv => ?_, fun v hv => ?_, fun v hv => ?_⟩ <;> obtain ⟨a, ha, e, rfl⟩ := attr?_mem_of hv
  · exact (h a ha).1 (e ▸ hk)
  · exact (h a ha).2.1 e
  · exact (h a ha).2.2 e

omit [Uni] in
theorem Tidy.spelled {d : Doc} (h : Tidy d) : AllSpelled (d.decls.flatMap Decl.tokens) := fun n _ as hm => (h n as hm).spelled

omit [Uni] in
theorem Tidy.asked {d : Doc} (h : Tidy d) : ∀ v ∈ d.asked, Clean notInTypes v := by
  intro v hv
  obtain ⟨t, ht, hv⟩ := List.mem_flatMap.1 hv
  cases t with
  | start n as =>
    obtain ⟨a, ha, hv⟩ := List.mem_flatMap.1 (show v ∈ C62.asked as from hv)
    have hh := h n as ht a ha
    split at hv
    · rename_i hl
      rw [List.mem_singleton.1 hv]
      refine C59.weaken (hh.1 ?_)
      revert hl
      simp only [nameAttrs, List.mem_cons, List.not_mem_nil, or_false]
      rintro (h | h | h | h | h) <;> simp [h]
    · split at hv
      · rename_i hm
        intro c hc hcv
        have h1 : c ∈ notInNames ∧ c ≠ ' ' := (by decide : ∀ c ∈ notInTypes, c ∈ notInNames ∧ c ≠ ' ') c hc
        exact hh.2.1 hm c h1.1 h1.2 (C59.mem_of_mem_splitOn hv hcv)
      · cases hv
  | stop n => cases hv
  | text x => cases hv
  | other => cases hv

/-- Without prefix and legible. -/
def Good (v : Str) : Prop := Plain v ∧ Clean notInTypes v

omit [Uni] in
theorem legible_types {t : Tree} (h : Legible t) : Types (Clean notInTypes) t := by
  intro d hd
  obtain ⟨n, hn, hd⟩ := List.mem_filterMap.1 hd
  refine h.types _ (List.mem_filterMap.2 ⟨n, hn, ?_⟩)
  cases n with
  | none => cases hd
  | some n =>
    cases n with
    | simple w =>
      simp only [C07.declares] at hd
      split at hd
      · cases hd
      · injection hd with e; subst e; rfl
    | attr w => injection hd with e; subst e; rfl
    | elem w => injection hd with e; subst e; rfl
    | complex w => cases hd
    | group w => cases hd
    | attrGroup w => cases hd

variable {π : Project}

omit [Uni] in
theorem file?_mem {q g : Str} (h : π.file? q = some g) : g ∈ π.files := by
  rw [file?_eq] at h
  obtain ⟨i, hi, rfl⟩ := Option.map_eq_some_iff.1 h
  exact List.mem_map.2 ⟨i, List.mem_of_find?_eq_some hi, rfl⟩

omit [Uni] in
theorem own_good (hs : ∀ f ∈ π.all ++ π.included, Tidy (π.docs f)) {f : Str} (hf : f ∈ π.all ++ π.included) : Types Good (π.own f) := by
  have h1 := own_plain π f
  have h2 := legible_types (C59.tree_legible π.cfg.lang true (π.docs f).decls [] (fun n hn => by cases hn) (hs f hf).spelled)
  exact fun d hd => ⟨h1 d hd, h2 d hd⟩

omit [Uni] in
theorem local_good {v : Str} (hv : Clean notInTypes v) : Good (Names.localPart v) :=
  ⟨local_plain v, by rw [← Names.localPart_eq]; exact fun c hc => trimNSPrefix_absent (hv c hc)⟩

omit [Uni] in
theorem builtin_good {n lang t : Str} (h : getBuildInTypeByLang n lang = some t) : Good t := by
  refine ⟨builtin_plain h, ?_⟩
  obtain ⟨e, he, ht⟩ := C06.column h
  exact (by decide +kernel : ∀ x ∈ buildInTypes, ∀ s ∈ x.2, Clean notInTypes s) e he t (List.mem_of_getElem? ht)

omit [Uni] in
/-- A reference has a good answer if the file it leads to has good types. -/
theorem ref_types {R : Str → Prop} {f v : Str} (hl : R (Names.localPart v))
    (hb : ∀ b, getBuildInTypeByLang (Names.localPart v) π.cfg.lang = some b → R b)
    (ho : ∀ f ∈ π.all ++ π.included, Types R (π.own f))
    (hg : ∀ g, π.file? (Names.prefixPart v) = some g → g = f ∨ Types R (π.trees g) ∨ π.Settled g)
    {t : Tree} (ht : Types R t) : R (π.ref f t v) := by
  unfold Project.ref
  cases hbi : getBuildInTypeByLang (Names.localPart v) π.cfg.lang with
  | some b => exact hb b hbi
  | none =>
    dsimp only
    split
    · exact declared_types ht hl
    · unfold Project.outside
      cases hq : π.file? (Names.prefixPart v) with
      | none =>
        dsimp only
        unfold Project.fromIncluded
        split
        · rename_i g hfi
          exact declared_types (ho g (List.mem_append_right _ (List.mem_of_find?_eq_some hfi))) hl
        · exact hl
      | some g =>
        have hown := ho g (List.mem_append_left _ (List.mem_cons_of_mem _ (file?_mem hq)))
        dsimp only
        by_cases e : g = f
        · rw [if_pos e]
          exact declared_types hown hl
        · rw [if_neg e]
          rcases hg g hq with e' | h1 | h1
          · exact absurd e' e
          · unfold Project.lookup
            split
            · exact declared_types h1 hl
            · exact declared_types hown hl
          · rw [lookup_settled h1]
            exact declared_types hown hl

variable [UniLaws]

/-- All declared types are legible: by induction along the ranks of the files. -/
theorem trees_good (h : π.Sound) (hs : ∀ f ∈ π.all ++ π.included, Tidy (π.docs f)) (n : Nat) :
    ∀ f ∈ π.all, π.rank f ≤ n → Types Good (π.trees f) := by
  induction n using Nat.strongRecOn with
  | _ n ih =>
    intro f hf hr
    have hA : ∀ v, π.Below f (Names.prefixPart v) ∧ Clean notInTypes v → ∀ t, Types Good t → Good (π.ref f t v) := by
      intro v hv t ht
      refine ref_types (local_good hv.2) (fun b hb => builtin_good hb) (fun f hf => own_good hs hf) (fun g hg => ?_) ht
      have hgf := file?_mem hg
      rcases hv.1 g hg with e | e | e
      · exact .inl e
      · exact .inr (.inl (ih (π.rank g) (Nat.lt_of_lt_of_le e hr) g (List.mem_cons_of_mem _ hgf) (Nat.le_refl _)))
      · exact .inr (.inr e.2)
    obtain ⟨sh', p, -, -, y, -⟩ := doc_run (W := π.W) (gvt := pureGvt (π.ref f)) (I := fun _ => True)
      (T := fun v => π.Below f (Names.prefixPart v) ∧ Clean notInTypes v) (R := Good)
      (fun v hv => ⟨by rw [show Names.prefixPart v = [] from hv.1]; exact (h.below f hf).1, hv.2⟩) ⟨by decide, C59.nil_clean _⟩
      (fun v hv sh p _ ht => ⟨hA v hv _ ht, sh, trivial, rfl⟩) (ref_stable π f) (π.docs f) (h.regular f hf)
      (fun v hv => ⟨(h.below f hf).2 v hv, (hs f (List.mem_append_left _ hf)).asked v hv⟩) {} trivial
    rw [h.trees f hf]
    exact y

omit [Uni] [UniLaws] in
theorem treeOf_legible {ref : Tree → Str → Str} (hr : ∀ t, Legible t → TypesOk (ref t)) (ds : List Decl) : ∀ t, Legible t →
    AllSpelled (ds.flatMap Decl.tokens) → Legible (treeOf ref t ds) := by
  induction ds with
  | nil => intro t h _; exact h
  | cons d ds ih =>
    intro t h hs
    rw [List.flatMap_cons] at hs
    refine ih _ ?_ (C59.spelled_append hs).2
    intro n hn
    rw [Xgen.Decl.nodes, List.filterMap_append, List.mem_append] at hn
    rcases hn with hn | hn
    · exact h n hn
    · rw [List.filterMap_map] at hn
      exact C59.decl_ok (hr t h) d (C59.spelled_append hs).1 n (by simpa using hn)

/-- All trees are legible. -/
theorem trees_legible (h : π.Sound) (hs : ∀ f ∈ π.all ++ π.included, Tidy (π.docs f)) {f : Str} (hf : f ∈ π.all) : Legible (π.trees f) := by
  rw [h.trees f hf]
  refine treeOf_legible (fun t ht v hv => ?_) _ [] (fun n hn => by cases hn) (hs f (List.mem_append_left _ hf)).spelled
  refine ref_types (R := Clean notInTypes) (local_good hv).2 (fun b hb => (builtin_good hb).2) (fun f hf d hd => (own_good hs hf d hd).2)
    (fun g hg => .inr (.inl fun d hd => ?_)) (legible_types ht)
  exact (trees_good h hs _ g (List.mem_cons_of_mem _ (file?_mem hg)) (Nat.le_refl _) d hd).2

/-! ## C65 -/

/-- What is generated for a tree. -/
def textOf (W : World) (lang package : Str) (t : Tree) : Str :=
  if lang = c!"Go" then (W.gofmt (goSource package t)).getD [] else
  if lang = c!"C" then cSource t else
  if lang = c!"Java" then javaSource package t else
  if lang = c!"Rust" then rustSource t else tsSource t

omit [UniLaws] in
theorem textOf_output {W : World} {lang ext : Str} (hl : (lang, ext) ∈ C24.extensions) (hf : lang = c!"Go" → ∀ s, (W.gofmt s).isSome)
    (package : Str) (t : Tree) : C24.IsOutput W lang package t (textOf W lang package t) := by
  simp only [C24.extensions, List.mem_cons, Prod.mk.injEq, List.not_mem_nil, or_false] at hl
  unfold C24.IsOutput textOf
  rcases hl with ⟨rfl, -⟩ | ⟨rfl, -⟩ | ⟨rfl, -⟩ | ⟨rfl, -⟩ | ⟨rfl, -⟩
  · refine .inl ⟨rfl, ?_⟩
    obtain ⟨x, hx⟩ := Option.isSome_iff_exists.1 (hf rfl (goSource package t))
    rw [hx, if_pos rfl]
    rfl
  all_goals simp

/-- The enumeration values of a document can be read (see C49). -/
def Values (d : Doc) : Prop := C59.ValuesOk (d.decls.flatMap Decl.tokens)

/-- A generated file says what its tree says. -/
theorem says {W : World} {lang package : Str} {t t' : Tree} {text : Str} (ho : C24.IsOutput W lang package t text) (hl : Legible t)
    (hp : '\n' ∉ package) (hb : C57.bare t = C57.bare t') (he : lang = c!"TypeScript" → ∀ n ∈ Xgen.Decl.nodes t, C59.EnumOk n) :
    Says W lang t' text := by
  rcases ho with ⟨rfl, h⟩ | ⟨rfl, rfl⟩ | ⟨rfl, rfl⟩ | ⟨rfl, rfl⟩ | ⟨rfl, rfl⟩
  · obtain ⟨order, o, r⟩ := C58.Go.file package t hp hl
    refine ⟨order, o, .inl ⟨rfl, _, h, r.trans ?_⟩⟩
    show C59.goDecls order t = _
    rw [← C59.go_bare, hb, C59.go_bare]
  · obtain ⟨order, o, r⟩ := C58.C.file t hl
    refine ⟨order, o, .inr (.inl ⟨rfl, r.trans ?_⟩)⟩
    show C59.cDecls order t = _
    rw [← C59.c_bare, hb, C59.c_bare]
  · obtain ⟨order, o, r⟩ := C58.Java.file package t hp hl
    refine ⟨order, o, .inr (.inr (.inl ⟨rfl, r.trans ?_⟩))⟩
    show C59.javaDecls order t = _
    rw [← C59.java_bare, hb, C59.java_bare]
  · obtain ⟨order, o, r⟩ := C58.Rust.file t hl
    refine ⟨order, o, .inr (.inr (.inr (.inl ⟨rfl, r.trans ?_⟩)))⟩
    show C59.rustDecls order t = _
    rw [← C59.rust_bare, hb, C59.rust_bare]
  · obtain ⟨order, o, r⟩ := C58.TS.file_partial t hl (fun n hn => (he rfl n hn).1) (.of_none fun n hn => (he rfl n hn).2)
    refine ⟨order, o, .inr (.inr (.inr (.inr ⟨rfl, r.trans ?_⟩)))⟩
    show C59.tsDecls order t = _
    rw [← C59.ts_bare, hb, C59.ts_bare]

/-- C65: for a project of documents with any text, `Parse` writes a file for the schema and for every imported schema that it
needs, at the documented paths, and what is written for each reads as the declarations of that schema.  (Missing for TypeScript:
enumeration values with quotes, equal signs or backslashes, see C49.) -/
theorem generated_partial (h : π.Sound) (hs : ∀ f ∈ π.all ++ π.included, Tidy (π.docs f)) {ext : Str} (hc : Creatable π ext)
    (hv : π.cfg.lang = c!"TypeScript" → ∀ f ∈ π.all, Values (π.docs f)) (sh : Shared) (hf : Fresh π sh) :
    ∃ (gs : List Str) (text : Str → Str) (t : Tree) (sh' : Shared), gs.Nodup ∧ (∀ g ∈ gs, g ∈ π.files) ∧
      (∀ f ∈ π.cfg.filePath :: gs, ∀ g, π.Needs f g → g ∈ gs) ∧
      (∀ f ∈ π.cfg.filePath :: gs, Says π.W π.cfg.lang (π.trees f) (text f)) ∧
      sh'.outputs = sh.outputs ++ gs.map (fun g => (C24.documentedPath (π.part g) ext, text g)) ++
        [(C24.documentedPath π.cfg ext, text π.cfg.filePath)] ∧
      Parse π.W π.cfg sh = .ok t sh' := by
  obtain ⟨wt, h1, h2⟩ := written h
  let text : Str → Str := fun f => textOf π.W π.cfg.lang (if f = π.cfg.filePath then π.cfg.package else []) (wt f)
  have hout : ∀ f, C24.IsOutput π.W π.cfg.lang (if f = π.cfg.filePath then π.cfg.package else []) (wt f) (text f) :=
    fun f => textOf_output hc.lang hc.formatter _ _
  obtain ⟨gs, sh', g1, g2, g3, g4, g5⟩ := h2 (fun g => (C24.documentedPath (π.part g) ext, text g)) (fun f hf => by
      have hm : π.part f ∈ π.cfg :: π.files.map π.part := List.mem_cons_of_mem _ (List.mem_map.2 ⟨f, hf, rfl⟩)
      have hne : f ≠ π.cfg.filePath := fun e => h.other (e ▸ hf)
      have := hout f
      rw [if_neg hne] at this
      exact ⟨ext, hc.lang, hc.dirs _ hm, hc.create _ hm, rfl, this⟩)
    (C24.documentedPath π.cfg ext, text π.cfg.filePath) (by
      have := hout π.cfg.filePath
      rw [if_pos rfl] at this
      exact ⟨ext, hc.lang, hc.dirs _ (by simp), hc.create _ (by simp), rfl, this⟩) sh hf
  refine ⟨gs, text, _, sh', g1, g2, g3, fun f hf => ?_, g4, g5⟩
  have hfa : f ∈ π.all := by
    rcases List.mem_cons.1 hf with rfl | hf
    · simp [Project.all]
    · exact List.mem_cons_of_mem _ (g2 f hf)
  refine says (hout f) (C59.legible_alike (h1 f hfa).1 (trees_legible h hs hfa)) ?_ (h1 f hfa).1 fun hl => ?_
  · split
    · exact hc.package
    · simp
  · refine C59.enums_alike (h1 f hfa).1 ?_
    rw [h.trees f hfa]
    exact C59.tree_enums _ _ [] (fun n hn => by cases hn) (hv hl f hfa)

/-- For Go, C, Java and Rust nothing is missing. -/
theorem generated (h : π.Sound) (hs : ∀ f ∈ π.all ++ π.included, Tidy (π.docs f)) {ext : Str} (hc : Creatable π ext)
    (hl : π.cfg.lang ≠ c!"TypeScript") (sh : Shared) (hf : Fresh π sh) :
    ∃ (gs : List Str) (text : Str → Str) (t : Tree) (sh' : Shared), gs.Nodup ∧ (∀ g ∈ gs, g ∈ π.files) ∧
      (∀ f ∈ π.cfg.filePath :: gs, ∀ g, π.Needs f g → g ∈ gs) ∧
      (∀ f ∈ π.cfg.filePath :: gs, Says π.W π.cfg.lang (π.trees f) (text f)) ∧
      sh'.outputs = sh.outputs ++ gs.map (fun g => (C24.documentedPath (π.part g) ext, text g)) ++
        [(C24.documentedPath π.cfg ext, text π.cfg.filePath)] ∧
      Parse π.W π.cfg sh = .ok t sh' :=
  generated_partial h hs hc (fun e => absurd e hl) sh hf

/-- … in particular every name that a schema introduces is declared in its file (C59). -/
theorem declares_all (h : π.Sound) {f : Str} (hf : f ∈ π.all) (base : Node Element → Str) (numbered free : Node Element → Bool) {d : Decl}
    (hd : d ∈ (π.docs f).decls) {s : Str} (hs : s ∈ C59.introduces d) :
    ∃ x ∈ C58.declarations base numbered free (π.trees f), Xgen.Decl.nodeName x.1 = s := by
  rw [h.trees f hf]
  exact C59.covered _ _ _ _ hd hs

/-! ## Example: the project of C62 -/

instance (as : List Attr) : Decidable (TidyTag as) := by unfold TidyTag Clean; infer_instance
instance (d : Doc) : Decidable (Tidy d) :=
  C59.decStarts (fun _ as => TidyTag as) (d.decls.flatMap Decl.tokens)

private theorem demo_tidy : ∀ f ∈ demo.all ++ demo.included, Tidy (demo.docs f) := by decide +kernel

private theorem demo_creatable : Creatable demo c!".java" :=
  Creatable.mk (by decide) (fun _ _ => rfl) (fun _ _ => rfl) (fun h => by cases h) (by decide)

/-- Java files for the three schemas, each with the types of the others resolved. -/
example : ∃ (gs : List Str) (text : Str → Str) (t : Tree) (sh' : Shared), gs.Nodup ∧ (∀ g ∈ gs, g ∈ demo.files) ∧
      (∀ f ∈ demo.cfg.filePath :: gs, ∀ g, demo.Needs f g → g ∈ gs) ∧
      (∀ f ∈ demo.cfg.filePath :: gs, @Says asciiUni demo.W demo.cfg.lang (demo.trees f) (text f)) ∧
      sh'.outputs = [] ++ gs.map (fun g => (C24.documentedPath (demo.part g) c!".java", text g)) ++
        [(C24.documentedPath demo.cfg c!".java", text demo.cfg.filePath)] ∧
      @Parse asciiUni demo.W demo.cfg {} = .ok t sh' :=
  @generated asciiUni demo asciiUniLaws demo_sound demo_tidy _ demo_creatable (by decide) {} ⟨rfl, rfl, rfl, fun _ _ => rfl⟩

/-- The file of `b.xsd`: its types are derived from a type of `c.xsd`. -/
example : (@C59.javaDecls asciiUni id (demo.trees c!"b.xsd")).map (fun x => (x.1, x.2.map fun m => (m.type, m.name))) =
    [(c!"public class Size {", [(c!"Integer", c!"Size")]), (c!"public class Car {", [(c!"Integer", c!"N")])] := by decide +kernel

end Xgen.C65
