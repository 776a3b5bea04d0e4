import Verif.Lemmas.ParseRel
import Verif.Spec.Example

/-! # C26: the registries shared by a run evolve monotonically -/

namespace Xgen.C26
variable [Uni]

/-- Specification of a monotone change of the registries. -/
structure Mono (isURL : Str → Bool) (a b : Shared) : Prop where
  /-- bindings of namespaces to locations are never changed or removed -/
  kept : ∀ ns loc, a.nsLoc.get? ns = some loc → b.nsLoc.get? ns = some loc
  /-- no URL is added as a location -/
  noURL : ∀ ns loc, b.nsLoc.get? ns = some loc → a.nsLoc.get? ns = some loc ∨ isURL loc = false
  /-- the set of includes grows -/
  includes : ∀ f ∈ a.includeMap.keys, f ∈ b.includeMap.keys
  /-- the registries of parsed files grow -/
  files : ∀ f ∈ a.parseFileMap.keys, f ∈ b.parseFileMap.keys
  list : ∀ f ∈ a.parseFileList.keys, f ∈ b.parseFileList.keys

omit [Uni] in
theorem Mono.refl (u : Str → Bool) (a : Shared) : Mono u a a :=
  ⟨fun _ _ h => h, fun _ _ h => Or.inl h, fun _ h => h, fun _ h => h, fun _ h => h⟩

omit [Uni] in
theorem Mono.trans {u : Str → Bool} {a b c : Shared} (h : Mono u a b) (g : Mono u b c) : Mono u a c where
  kept ns loc e := g.kept ns loc (h.kept ns loc e)
  noURL ns loc e := by
    rcases g.noURL ns loc e with e | e
    · exact h.noURL ns loc e
    · exact Or.inr e
  includes f hf := g.includes f (h.includes f hf)
  files f hf := g.files f (h.files f hf)
  list f hf := g.list f (h.list f hf)

omit [Uni] in
theorem mono_import (u : Str → Bool) (attrs : List Attr) (sh : Shared) : Mono u sh (onImport u attrs sh) := by
  unfold onImport
  generalize ([] : Str) = acc
  induction attrs generalizing sh acc with
  | nil => exact Mono.refl u sh
  | cons a as ih =>
    rw [List.foldl_cons]
    unfold onImportAttr
    split
    · exact ih sh _
    split
    · split
      · exact ih sh acc
      split
      · exact ih sh acc
      · rename_i hh hu
        refine Mono.trans ?_ (ih _ _)
        have hh : sh.nsLoc.has acc = false := by simpa using hh
        have hn : sh.nsLoc.get? acc = none := GoMap.get?_eq_none.mpr (GoMap.has_eq_false.mp hh)
        refine ⟨fun ns loc e => ?_, fun ns loc e => ?_, fun _ h => h, fun _ h => h, fun _ h => h⟩
        · have hne : ns ≠ acc := by rintro rfl; rw [hn] at e; cases e
          exact (GoMap.get?_set_ne _ hne _).trans e
        · by_cases hne : ns = acc
          · subst hne
            rw [GoMap.get?_set_self] at e
            cases e
            exact Or.inr (by simpa using hu)
          · exact Or.inl ((GoMap.get?_set_ne _ hne _).symm.trans e)
    · exact ih sh acc

omit [Uni] in
theorem mono_include (u : Str → Bool) (attrs : List Attr) (sh : Shared) : Mono u sh (onInclude attrs sh) := by
  unfold onInclude
  induction attrs generalizing sh with
  | nil => exact Mono.refl u sh
  | cons a as ih =>
    rw [List.foldl_cons]
    split
    · split
      · exact ih sh
      · refine Mono.trans ?_ (ih _)
        exact ⟨fun _ _ h => h, fun _ _ h => Or.inl h, fun f h => (GoMap.mem_keys_set _ _ _ _).mpr (Or.inr h),
          fun _ h => h, fun _ h => h⟩
    · exact ih sh

omit [Uni] in
theorem mono_schema (u : Str → Bool) (attrs : List Attr) (sh : Shared) : Mono u sh (onSchema attrs sh) := by
  obtain ⟨h1, h2, h3, h4, -⟩ := onSchema_frame attrs sh
  exact ⟨by rw [h3]; exact fun _ _ h => h, by rw [h3]; exact fun _ _ h => Or.inl h, by rw [h4]; exact fun _ h => h,
    by rw [h1]; exact fun _ h => h, by rw [h2]; exact fun _ h => h⟩

omit [Uni] in
theorem mono_register (u : Str → Bool) (path : Str) (tree : Tree) (sh : Shared) : Mono u sh (register path tree sh) :=
  ⟨fun _ _ h => h, fun _ _ h => Or.inl h, fun _ h => h, fun _ h => (GoMap.mem_keys_set _ _ _ _).mpr (Or.inr h),
    fun _ h => (GoMap.mem_keys_set _ _ _ _).mpr (Or.inr h)⟩

omit [Uni] in
theorem mono_begin (u : Str → Bool) (cfg : Cfg) (sh : Shared) : Mono u sh (beginParse cfg sh) := by
  unfold beginParse
  dsimp only
  split
  · exact ⟨fun _ _ h => h, fun _ _ h => Or.inl h, fun _ h => h, fun _ h => h, fun _ h => h⟩
  · exact ⟨fun _ _ h => h, fun _ _ h => Or.inl h, fun _ h => h, fun _ h => (GoMap.mem_keys_set _ _ _ _).mpr (Or.inr h),
      fun _ h => (GoMap.mem_keys_set _ _ _ _).mpr (Or.inr h)⟩

omit [Uni] in
theorem mono_shRel (W : World) : ShRel W (Mono W.isURL) where
  refl := Mono.refl _
  trans := Mono.trans
  tick _ := ⟨fun _ _ h => h, fun _ _ h => Or.inl h, fun _ h => h, fun _ h => h, fun _ h => h⟩
  tok _ _ sh := ⟨mono_import _ _ sh, mono_include _ _ sh, mono_schema _ _ sh⟩
  begin cfg sh _ := mono_begin _ cfg sh
  fin path tree sh _ := mono_register _ path tree sh
  write _ _ _ := ⟨fun _ _ h => h, fun _ _ h => Or.inl h, fun _ h => h, fun _ h => h, fun _ h => h⟩

/-- C26: for every file system, options and initial registries, whatever the outcome (also an error or a panic). -/
theorem parse_mono (W : World) (cfg : Cfg) (sh : Shared) : Mono W.isURL sh (Parse W cfg sh).state :=
  (parse_keeps (mono_shRel W) _ cfg sh (mono_begin _ cfg sh)).1

omit [Uni] in
/-- After a root tag a prefix means what the tag binds it to last (`xmlns:q=…` only), else what it meant before. -/
theorem schema_binds (as : List Attr) (sh : Shared) (q : Str) : (onSchema as sh).localNS.getStr q =
    (((as.filter fun a => a.space = c!"xmlns" ∧ a.local = q).getLast?).map (·.value)).getD (sh.localNS.getStr q) := by
  unfold onSchema
  induction as generalizing sh with
  | nil => rfl
  | cons a as ih =>
    rw [List.foldl_cons, ih]
    by_cases hx : a.space = c!"xmlns"
    · rw [if_pos hx]
      by_cases hq : a.local = q
      · rw [List.filter_cons_of_pos (by simp [hx, hq]), List.getLast?_cons]
        cases h : (as.filter fun a => a.space = c!"xmlns" ∧ a.local = q).getLast? with
        | none => simp [GoMap.getStr, hq]
        | some x => simp
      · rw [List.filter_cons_of_neg (by simp [hq])]
        cases h : (as.filter fun a => a.space = c!"xmlns" ∧ a.local = q).getLast? with
        | none => simp [GoMap.getStr, GoMap.get?_set_ne _ (Ne.symm hq)]
        | some x => simp
    · rw [if_neg hx, List.filter_cons_of_neg (by simp [hx])]

omit [Uni] in
/-- After an include tag the included places are those before and the places the tag names. -/
theorem include_adds (as : List Attr) (sh : Shared) (f : Str) : f ∈ (onInclude as sh).includeMap.keys ↔
    f ∈ sh.includeMap.keys ∨ ∃ a ∈ as, a.local = c!"schemaLocation" ∧ a.value = f := by
  unfold onInclude
  induction as generalizing sh with
  | nil => simp
  | cons a as ih =>
    rw [List.foldl_cons, ih]
    split
    · rename_i h
      split
      · rename_i hh
        have := GoMap.has_iff.mp hh
        constructor
        · rintro (h1 | ⟨b, hb, h1⟩)
          · exact .inl h1
          · exact .inr ⟨b, by simp [hb], h1⟩
        · rintro (h1 | ⟨b, hb, h1⟩)
          · exact .inl h1
          · rcases List.mem_cons.1 hb with rfl | hb
            · exact .inl (h1.2 ▸ this)
            · exact .inr ⟨b, hb, h1⟩
      · simp only [GoMap.mem_keys_set]
        constructor
        · rintro ((h1 | h1) | ⟨b, hb, h1⟩)
          · exact .inr ⟨a, by simp, h, h1.symm⟩
          · exact .inl h1
          · exact .inr ⟨b, by simp [hb], h1⟩
        · rintro (h1 | ⟨b, hb, h1⟩)
          · exact .inl (.inr h1)
          · rcases List.mem_cons.1 hb with rfl | hb
            · exact .inl (.inl h1.2.symm)
            · exact .inr ⟨b, hb, h1⟩
    · rename_i h
      constructor
      · rintro (h1 | ⟨b, hb, h1⟩)
        · exact .inl h1
        · exact .inr ⟨b, by simp [hb], h1⟩
      · rintro (h1 | ⟨b, hb, h1⟩)
        · exact .inl h1
        · rcases List.mem_cons.1 hb with rfl | hb
          · exact absurd h1.1 h
          · exact .inr ⟨b, hb, h1⟩

example : (onSchema [⟨[], c!"xmlns", c!"urn:default"⟩, ⟨c!"xmlns", c!"a", c!"urn:a"⟩] {}).localNS.getStr c!"a" = c!"urn:a" ∧
    (onSchema [⟨[], c!"xmlns", c!"urn:default"⟩, ⟨c!"xmlns", c!"a", c!"urn:a"⟩] {}).localNS.getStr [] = [] := by decide

/-! A parse that adds a location, an include and two registered files. -/

open Ex in
/-- The shared state after the parse of the example. -/
private def sh1 : Shared := (Ex.parse (world [
  ("a.xsd", [on "schema" [("xmlns:b", "urn:b")], on "import" [("namespace", "urn:b"), ("schemaLocation", "b.xsd")],
    on "include" [("schemaLocation", "c.xsd")], on "element" [("name", "e"), ("type", "b:t")]]),
  ("b.xsd", [on "schema", on "import" [("namespace", "urn:b"), ("schemaLocation", "d.xsd")],
    on "import" [("namespace", "urn:c"), ("schemaLocation", "http://c")]])]) "a.xsd" "Go").state

example : sh1.nsLoc = [(c!"urn:b", c!"b.xsd")] ∧ sh1.includeMap.keys = [c!"c.xsd"] ∧
    sh1.parseFileMap.keys = [c!"a.xsd", c!"b.xsd"] := by decide

end Xgen.C26
