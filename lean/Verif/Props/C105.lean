import Verif.Props.C52
import Verif.Props.C80
import Verif.Props.C104

/-! # C105: the Go files of a project are one package

C80 for projects of several schemas (C62): a Go compiler reads the files of a directory together, as one package.  Here: for which
projects the generated files are one: they have the same package clause, no type is declared twice in any of them, every type is in
one of them, and the rest of what C80 asks for. -/

namespace Xgen.C105
open Core C62 C65 C104
open Xgen.Decl (nodes nodeName)
open C13 (Exported nameChar)
open C58 (Legible)
open C57 (bare)
open C71 (typeNames Ok)
open C71.Go (headType)
open C73 (namesOf)
open C74 (membersOf baseOf)
open C80 (Word Imported summary aliased solid declared imports packages packageOf)

/-! ## Packages -/

/-- What a Go compiler asks of the files of a package. -/
structure Package (sources : List Str) : Prop where
  clause : ∃ p, ∀ x ∈ sources, (C50.lines x)[2]? = some (c!"package " ++ p)
  types : ∀ x ∈ sources, ∀ n ∈ C56.Go.names x, Exported n
  fields : ∀ x ∈ sources, ∀ d ∈ C58.Go.declsOf x, ∀ f ∈ d.2, f.name ≠ [] → Exported f.name
  once : (sources.flatMap C56.Go.names).Nodup
  distinct : ∀ x ∈ sources, C74.Go.Distinct x
  closed : Complete go sources
  finite : C73.Finite C71.Go.predefined [(c!"*", []), (c!"[]", [])] [] (sources.flatMap C73.Go.sizes)
  embedded : ∀ x ∈ sources, ∀ d ∈ C58.Go.declsOf x, ∀ f ∈ d.2, f.name = [] → ∃ n ∈ sources.flatMap C56.Go.names, f.type = '*' :: n ∧
    ∀ y ∈ sources, ∀ d' ∈ C58.Go.declsOf y, declared d' = n → ∀ a, headType d'.1 = some a → a.head? ≠ some '*' ∧ a ≠ c!"interface{}"
  imported : ∀ x ∈ sources, ∀ p ∈ packages x, p ∈ (imports x).map packageOf
  used : ∀ x ∈ sources, ∀ i ∈ imports x, packageOf i ∈ packages x

/-! ## Trees -/

section
variable [Uni]

/-- Trees whose files are a package. -/
structure Fit (ts : List Tree) : Prop where
  legible : ∀ t ∈ ts, Legible t
  bases : ∀ t ∈ ts, ∀ n ∈ nodes t, Ok c!"Go" (ts.flatMap typeNames) (baseOf n)
  apart : ∀ t ∈ ts, ∀ n ∈ nodes t, C74.Go.Apart n
  names : ∀ t ∈ ts, ∀ n ∈ nodes t, Word (nodeName n)
  members : ∀ t ∈ ts, ∀ n ∈ nodes t, ∀ m ∈ membersOf n, Word m.1
  differ : ∀ t ∈ ts, ∀ n ∈ nodes t, ∀ t' ∈ ts, ∀ n' ∈ nodes t', Names.strict (nodeName n) = Names.strict (nodeName n') → nodeName n = nodeName n'
  once : (ts.flatMap fun t => (C56.firsts (fun _ => false) (nodes t)).map C58.Go.base).Nodup
  solid : ∀ t ∈ ts, ∀ n ∈ nodes t, baseOf n ≠ [] → baseOf n ∉ goBuildinType →
    ∀ t' ∈ ts, ∀ m ∈ C56.firsts (fun _ => false) (nodes t'), nodeName m = baseOf n → (aliased t' m).all solid = true
  imported : ∀ t ∈ ts, Imported (summary t)
  closed : Complete go (ts.map (goSource []))

variable [UniLaws] {ts : List Tree}

theorem names_eq (h : Fit ts) {t : Tree} (ht : t ∈ ts) :
    C56.Go.names (goSource [] t) = (C56.firsts (fun _ => false) (nodes t)).map C58.Go.base ∧
    C58.declarations C58.Go.base C58.Go.numbered (fun _ => false) t = (C56.firsts (fun _ => false) (nodes t)).map fun n => (n, C58.Go.base n) := by
  obtain ⟨hd, hnd⟩ := C73.declarations_distinct (base := C58.Go.base) (numbered := C58.Go.numbered) fun n hn n' hn' => h.differ t ht n hn t ht n' hn'
  refine ⟨?_, hd⟩
  rw [C56.Go.file_names [] t (by simp) (h.legible t ht).sound]
  exact C73.finals_distinct _ [] hnd fun n _ h => by cases h

theorem names_all (h : Fit ts) {s : Str} (hs : s ∈ ts.flatMap typeNames) : Names.strict s ∈ (ts.map (goSource [])).flatMap C56.Go.names := by
  obtain ⟨t, ht, hs⟩ := List.mem_flatMap.1 hs
  refine List.mem_flatMap.2 ⟨_, List.mem_map_of_mem ht, ?_⟩
  rw [C56.Go.file_names [] t (by simp) (h.legible t ht).sound]; exact C71.named _ _ _ t hs

/-- Together, the types have a size. -/
theorem finite (h : Fit ts) : C73.Finite C71.Go.predefined [(c!"*", []), (c!"[]", [])] [] ((ts.map (goSource [])).flatMap C73.Go.sizes) := by
  have hletter : ∀ t ∈ ts, ∀ n ∈ nodes t, C73.Letter (nodeName n) := fun t ht n hn => by
    obtain ⟨⟨c, r, e, hc⟩, -⟩ := h.names t ht n hn
    exact ⟨c, r, e, C13.letterly_wide (C13.starts_letterly hc)⟩
  have hm : ∀ d ∈ (ts.map (goSource [])).flatMap C73.Go.sizes, ¬ C73.Go.Indirect d.1 ∧ ∀ m ∈ d.2, C73.Go.Indirect m ∧
      C71.Known C71.Go.predefined C71.Go.wraps ((ts.map (goSource [])).flatMap C56.Go.names) m := by
    intro d hd
    obtain ⟨x, hx, hd⟩ := List.mem_flatMap.1 hd
    have hd' := hd
    obtain ⟨t, ht, rfl⟩ := List.mem_map.1 hx
    obtain ⟨order, ho, hs⟩ := C73.Go.sizes_eq [] (by simp) (h.legible t ht)
    rw [hs] at hd
    obtain ⟨x, hxd, rfl⟩ := List.mem_map.1 hd
    refine ⟨C73.Go.apart (hletter t ht) hxd, fun m hm => ⟨C73.Go.one t order x.1
      (C71.declared_clean hxd (C71.strict_clean ((h.legible t ht).name (C71.mem_declarations hxd).1))) m hm, ?_⟩⟩
    obtain ⟨e, he, ed⟩ := List.mem_map.1 hd'
    injection ed with _ ed
    dsimp only at hm
    rw [← ed] at hm
    exact h.closed _ hx m (List.mem_flatMap.2 ⟨e, he, hm⟩)
  intro d hd
  refine .declared ⟨d, hd, rfl⟩ fun d' hd' _ m hmm => ?_
  obtain ⟨h1, h2⟩ := (hm d' hd').2 m hmm
  cases h2 with
  | predefined h => exact .predefined h fun d'' h'' e => (hm d'' h'').1 (e ▸ h1)
  | declared h' =>
    exfalso
    obtain ⟨x, hx, h'⟩ := List.mem_flatMap.1 h'
    obtain ⟨t, ht, rfl⟩ := List.mem_map.1 hx
    rw [(names_eq h ht).1] at h'
    have : (m : Str) ∈ (C58.declarations C58.Go.base C58.Go.numbered (fun _ => false) t).map (·.2) := by
      rw [(names_eq h ht).2, List.map_map]; exact h'
    obtain ⟨x, hx, rfl⟩ := List.mem_map.1 this
    exact C73.Go.apart (hletter t ht) hx h1
  | wrapped h _ => exact .reference h

/-- The files of such trees are a package. -/
theorem package (h : Fit ts) : Package (ts.map (goSource [])) := by
  have hfirst : ∀ t : Tree, ∀ n ∈ C56.firsts (fun _ => false) (nodes t), n ∈ nodes t := fun t => C71.firsts_mem _ _
  have hclean : ∀ t ∈ ts, ∀ n ∈ C56.firsts (fun _ => false) (nodes t), Clean notInNames (C58.Go.base n) := fun t ht n hn =>
    C71.strict_clean ((h.legible t ht).name (hfirst t n hn))
  have hdecls : ∀ t ∈ ts, ∃ order, C58.Order order ∧ C58.Go.declsOf (goSource [] t) =
      (C56.firsts (fun _ => false) (nodes t)).map fun n => (C58.Go.head t (C58.Go.base n) n, C58.Go.fields order t (C58.Go.base n) n) := by
    intro t ht
    obtain ⟨order, ho, hr⟩ := C58.Go.file [] t (by simp) (h.legible t ht)
    refine ⟨order, ho, ?_⟩
    rw [hr, (names_eq h ht).2, List.map_map]
    rfl
  refine ⟨⟨C50.wanted [], fun x hx => ?_⟩, fun x hx s hs => ?_, fun x hx d hd f hf hne => ?_, ?_, fun x hx => ?_, h.closed, finite h, fun x hx d hd f hf he => ?_,
    fun x hx => ?_, fun x hx => ?_⟩
  · obtain ⟨t, ht, rfl⟩ := List.mem_map.1 hx
    have e : goSource [] t = copyright ++ c!"\n\n" ++ (c!"package " ++ C50.wanted []) ++ '\n' :: (goImports (goGen t) ++ (goGen t).field) := by
      simp [goSource, packageName, C50.wanted]
    rw [e]
    exact C50.third_line _ _ _ (by decide) (by decide)
  · obtain ⟨t, ht, rfl⟩ := List.mem_map.1 hx
    rw [(names_eq h ht).1] at hs
    obtain ⟨n, hn, rfl⟩ := List.mem_map.1 hs
    exact C80.word (h.names t ht n (hfirst t n hn))
  · obtain ⟨t, ht, rfl⟩ := List.mem_map.1 hx
    obtain ⟨order, ho, hr⟩ := hdecls t ht
    rw [hr] at hd
    obtain ⟨n, hn, rfl⟩ := List.mem_map.1 hd
    rcases C80.field_names ho t _ n f hf with e | e | ⟨m, hm, e⟩ | ⟨e, -⟩
    · rw [e]; exact ⟨'X', c!"MLName", rfl, by decide, by decide⟩
    · rw [e]; exact ⟨'V', c!"alue", rfl, by decide, by decide⟩
    · rw [e]
      refine C80.extended (C80.word (h.members t ht n (hfirst t n hn) m hm)) fun c hc => ?_
      split at hc
      · exact (by decide : ∀ d ∈ c!"Attr", (C13.letterly d || isAsciiDigit d) = true) c hc
      · cases hc
    · exact absurd e hne
  · have : (ts.map (goSource [])).flatMap C56.Go.names = ts.flatMap fun t => (C56.firsts (fun _ => false) (nodes t)).map C58.Go.base := by
      rw [List.flatMap_map, List.flatMap_def, List.flatMap_def]
      exact congrArg _ (List.map_congr_left fun t ht => (names_eq h ht).1)
    rw [this]; exact h.once
  · obtain ⟨t, ht, rfl⟩ := List.mem_map.1 hx
    exact C74.Go.file [] (by simp) (h.legible t ht) (h.apart t ht)
  · obtain ⟨t, ht, rfl⟩ := List.mem_map.1 hx
    obtain ⟨order, ho, hr⟩ := hdecls t ht
    rw [hr] at hd
    obtain ⟨n, hn, rfl⟩ := List.mem_map.1 hd
    have hn' := hfirst t n hn
    rcases C80.field_names ho t _ n f hf with e | e | ⟨m, hm, e⟩ | ⟨-, e, h1, h2⟩
    · rw [e] at he; cases he
    · rw [e] at he; cases he
    · obtain ⟨c, cs, e', -⟩ := C80.word (h.members t ht n hn' m hm)
      rw [e, e'] at he
      cases he
    · have hok := h.bases t ht n hn'
      rcases C71.Go.cases (fun s => names_all h) hok with h3 | ⟨h3, -⟩ | ⟨-, -, h3, h4⟩
      · exact absurd h3 h1
      · exact absurd h3 h2
      refine ⟨_, h3, by rw [e, h4], fun y hy d' hd' e' a ha => ?_⟩
      obtain ⟨t', ht', rfl⟩ := List.mem_map.1 hy
      obtain ⟨order', -, hr'⟩ := hdecls t' ht'
      rw [hr'] at hd'
      obtain ⟨m, hm, rfl⟩ := List.mem_map.1 hd'
      dsimp only at e' ha
      rw [C80.declared_eq t' (hclean t' ht' m hm)] at e'
      have hb : ∃ t'' ∈ ts, ∃ n' ∈ nodes t'', nodeName n' = baseOf n := by
        rcases hok with h5 | ⟨k, hk⟩ | ⟨h5, -, -⟩
        · exact absurd h5 h1
        · exact absurd (C71.Go.table hk).1 h2
        · obtain ⟨t'', ht'', h5⟩ := List.mem_flatMap.1 h5
          obtain ⟨n', h6, h7⟩ := List.mem_map.1 h5
          exact ⟨t'', ht'', n', (List.mem_filter.1 h6).1, h7⟩
      obtain ⟨t'', ht'', n', h6, h7⟩ := hb
      have h8 := h.differ t' ht' m (hfirst t' m hm) t'' ht'' n' h6 (by rw [h7]; exact e')
      have h9 := h.solid t ht n hn' h1 h2 t' ht' m hm (h8.trans h7)
      rw [C80.head_type t' (hclean t' ht' m hm) m ha] at h9
      exact of_decide_eq_true h9
  · obtain ⟨t, ht, rfl⟩ := List.mem_map.1 hx
    exact (C80.imports_exact [] (by simp) (h.legible t ht)).2 (h.imported t ht)
  · obtain ⟨t, ht, rfl⟩ := List.mem_map.1 hx
    exact C80.imports_used [] (by simp) (h.legible t ht)

end

/-! ## Projects -/

section
variable [Uni]

/-- Projects whose Go files are a package: no type is missing; names start with a letter that has a capital; names that differ, or
that are in different files, differ in Go; nothing is taken twice; and the conditions for bases and imports. -/
structure Suitable (π : Project) : Prop where
  bound : Bound π
  clear : ∀ f ∈ π.all, C74.ClearAll c!"attr" (π.docs f).decls
  reserved : ∀ f ∈ π.all, ∀ d ∈ (π.docs f).decls, ∀ k ∈ C74.keysOf c!"attr" d, k ≠ c!"xmlname" ∧ k ≠ c!"value"
  base : ∀ f ∈ π.all, ∀ n ∈ nodes (π.trees f), baseOf n ≠ [] → baseOf n ∉ goBuildinType →
    C74.key (baseOf n) ≠ [] ∧ C74.key (baseOf n) ∉ c!"xmlname" :: C74.labels c!"attr" n
  names : ∀ f ∈ π.all, ∀ d ∈ (π.docs f).decls, ∀ s ∈ namesOf d, Word s
  members : ∀ f ∈ π.all, ∀ d ∈ (π.docs f).decls, ∀ x ∈ C74.parts d, ∀ m ∈ x.2, Word m.1
  once : ∀ f ∈ π.all, ∀ d ∈ (π.docs f).decls, ∀ s ∈ namesOf d, ∀ f' ∈ π.all, ∀ d' ∈ (π.docs f').decls, ∀ s' ∈ namesOf d',
    Names.strict s = Names.strict s' → f = f' ∧ s = s'
  solid : ∀ f ∈ π.all, ∀ n ∈ nodes (π.trees f), baseOf n ≠ [] → baseOf n ∉ goBuildinType →
    ∀ f' ∈ π.all, ∀ m ∈ C56.firsts (fun _ => false) (nodes (π.trees f')), nodeName m = baseOf n → (aliased (π.trees f') m).all C80.solid = true
  imported : ∀ f ∈ π.all, Imported (summary (π.trees f))
  package : π.cfg.package = [] ∨ π.cfg.package = c!"schema"

variable [UniLaws] {π : Project}

theorem solid_alike {t t' : Tree} (h : bare t = bare t') (b : Str)
    (hs : ∀ m ∈ C56.firsts (fun _ => false) (nodes t'), nodeName m = b → (aliased t' m).all C80.solid = true) :
    ∀ m ∈ C56.firsts (fun _ => false) (nodes t), nodeName m = b → (aliased t m).all C80.solid = true := by
  have key : ∀ t : Tree, (∀ m ∈ C56.firsts (fun _ => false) (nodes (bare t)), nodeName m = b → (aliased (bare t) m).all C80.solid = true) ↔
      ∀ m ∈ C56.firsts (fun _ => false) (nodes t), nodeName m = b → (aliased t m).all C80.solid = true := by
    intro t
    have ha : ∀ n, aliased (C57.bare t) (C57.noDocNode C31.noDocE n) = aliased t n := fun n => by
      cases n <;> simp [C57.noDocNode, aliased, C80.type_bare, C31.noDocE, C31.noDocS, C31.noDocA, C31.noDocC, C31.noDocG, C31.noDocAG, C58.isUnion]
    rw [C59.nodes_bare, C59.firsts_map (f := C57.noDocNode C31.noDocE) (fun _ => rfl) C59.name_bare]
    simp only [List.mem_map, forall_exists_index, and_imp, forall_apply_eq_imp_iff₂, C59.name_bare, ha]
  rw [← key, h, key]; exact hs

theorem names_of (h : π.Sound) {f : Str} (hf : f ∈ π.all) {n : Node Element} (hn : n ∈ nodes (π.worded f)) :
    ∃ d ∈ (π.docs f).decls, nodeName n ∈ namesOf d :=
  C73.names_alike (ref := π.ref f) (by rw [(worded_tree h hf).1, h.trees f hf]) n hn

/-- The trees of such a project fit. -/
theorem fit (h : π.Sound) (hs : Suitable π) (ht : ∀ f ∈ π.all ++ π.included, Tidy (π.docs f)) (hl : π.cfg.lang = c!"Go") {S : List Str} (hd : S.Nodup)
    (hS : ∀ f ∈ S, f ∈ π.all) (hN : ∀ f ∈ S, ∀ g, π.Needs f g → g ∈ S) (hc : Complete go ((S.map π.worded).map (goSource []))) :
    Fit (S.map π.worded) := by
  have hw := fun f (hf : f ∈ S) => (worded_tree h (hS f hf)).1
  have hw' : ∀ f ∈ S, bare (π.worded f) = bare (treeOf (π.ref f) [] (π.docs f).decls) := fun f hf => by rw [hw f hf, h.trees f (hS f hf)]
  have each : ∀ {P : Tree → Prop}, (∀ f ∈ S, P (π.worded f)) → ∀ t ∈ S.map π.worded, P t := by
    intro P hP t ht
    obtain ⟨f, hf, rfl⟩ := List.mem_map.1 ht
    exact hP f hf
  have htn : (S.map π.worded).flatMap typeNames = typesOf π S := by
    rw [List.flatMap_map, typesOf, List.flatMap_def, List.flatMap_def]
    exact congrArg _ (List.map_congr_left fun f hf => by rw [← C71.typeNames_bare, hw f hf, C71.typeNames_bare])
  refine ⟨each fun f hf => C59.legible_alike (hw f hf) (trees_legible h ht (hS f hf)), each fun f hf n hn => ?_, each fun f hf => ?_,
    each fun f hf n hn => ?_, each fun f hf n hn m hm => ?_, each fun f hf n hn => each fun f' hf' n' hn' e => ?_, ?_,
    each fun f hf n hn h1 h2 => each fun f' hf' => ?_, each fun f hf => ?_, hc⟩
  · rw [htn, ← hl]
    have hk := nodes_alike (hw f hf) (trees_ok h hs.bound hS hN _ f hf (Nat.le_refl _)) n hn
    cases n with
    | complex v => exact hk.1
    | _ => exact .inl rfl
  · refine C74.Go.clear_apart (hs.clear f (hS f hf)) (hs.reserved f (hS f hf)) ?_ (hw' f hf)
    rw [← h.trees f (hS f hf)]
    exact hs.base f (hS f hf)
  · obtain ⟨d, hd, h1⟩ := names_of h (hS f hf) hn
    exact hs.names f (hS f hf) d hd _ h1
  · obtain ⟨n', hn', e, -⟩ := C74.alike (hw' f hf) hn
    rw [e] at hm
    rcases C74.tree_said _ _ [] n' hn' with h' | h'
    · cases h'
    · obtain ⟨d, hd, x, hx, hm'⟩ := h' m hm
      obtain ⟨u, hu, e⟩ := List.mem_map.1 hm'
      rw [← e]; exact hs.members f (hS f hf) d hd x hx u hu
  · obtain ⟨d, hd, h1⟩ := names_of h (hS f hf) hn
    obtain ⟨d', hd', h2⟩ := names_of h (hS f' hf') hn'
    exact (hs.once f (hS f hf) d hd _ h1 f' (hS f' hf') d' hd' _ h2 e).2
  · rw [List.flatMap_map, List.Nodup, List.pairwise_flatMap]
    refine ⟨fun f hf => ?_, ?_⟩
    · refine (C73.declarations_distinct (base := C58.Go.base) (numbered := C58.Go.numbered) (t := π.worded f) fun n hn n' hn' e => ?_).2
      obtain ⟨d, hd, h1⟩ := names_of h (hS f hf) hn
      obtain ⟨d', hd', h2⟩ := names_of h (hS f hf) hn'
      exact (hs.once f (hS f hf) d hd _ h1 f (hS f hf) d' hd' _ h2 e).2
    · refine List.Pairwise.imp_of_mem (fun {f f'} hf hf' hne x hx y hy e => ?_) hd
      subst e
      obtain ⟨n, hn, e⟩ := List.mem_map.1 hx
      obtain ⟨n', hn', e'⟩ := List.mem_map.1 hy
      obtain ⟨d, hd, h1⟩ := names_of h (hS f hf) (C71.firsts_mem _ _ n hn)
      obtain ⟨d', hd', h2⟩ := names_of h (hS f' hf') (C71.firsts_mem _ _ n' hn')
      exact hne (hs.once f (hS f hf) d hd _ h1 f' (hS f' hf') d' hd' _ h2 (e.trans e'.symm)).1
  · obtain ⟨n', hn', -, e⟩ := C74.alike (hw f hf) hn
    rw [e] at h1 h2 ⊢
    exact solid_alike (hw f' hf') _ (hs.solid f (hS f hf) n' hn' h1 h2 f' (hS f' hf'))
  · rw [← C80.summary_bare, hw f hf, C80.summary_bare]; exact hs.imported f (hS f hf)

/-- C105: the files that `Parse` writes for such a project are a package, before they are formatted.  (Missing: the projects that do not satisfy
`Suitable`, for many of which they are not, see below and C80.) -/
theorem project_partial (h : π.Sound) (hs : Suitable π) (ht : ∀ f ∈ π.all ++ π.included, Tidy (π.docs f)) (hl : π.cfg.lang = c!"Go")
    (hc : C104.Creatable π c!".go") (sh : Shared) (hf : Fresh π sh) :
    ∃ (gs : List Str) (source text : Str → Str) (t : Tree) (sh' : Shared), gs.Nodup ∧ (∀ g ∈ gs, g ∈ π.files) ∧
      (∀ f ∈ π.cfg.filePath :: gs, ∀ g, π.Needs f g → g ∈ gs) ∧
      Package ((π.cfg.filePath :: gs).map source) ∧
      (∀ f ∈ π.cfg.filePath :: gs, π.W.gofmt (source f) = some (text f)) ∧
      sh'.outputs = sh.outputs ++ gs.map (fun g => (C24.documentedPath (π.part g) c!".go", text g)) ++
        [(C24.documentedPath π.cfg c!".go", text π.cfg.filePath)] ∧
      Parse π.W π.cfg sh = .ok t sh' := by
  have hno : ∀ l : Str, l ≠ c!"Go" → π.cfg.lang ≠ l := fun l hne e => hne (e.symm.trans hl)
  obtain ⟨gs, text, t, sh', g1, g2, g3, g4, g5, g6, g7⟩ := files h hs.bound ht hc
    (fun f _ => ⟨fun e => absurd e (hno _ (by decide)), fun e => absurd e (hno _ (by decide)), fun e => absurd e (hno _ (by decide))⟩) sh hf
  have hS : ∀ f ∈ π.cfg.filePath :: gs, f ∈ π.all := by
    intro f hf
    rcases List.mem_cons.1 hf with rfl | hf
    · simp [Project.all]
    · exact List.mem_cons_of_mem _ (g2 f hf)
  have hsource : ∀ f, sourceIn π f = goSource [] (π.worded f) := fun f => by
    have : ∀ p, p = [] ∨ p = c!"schema" → goSource p (π.worded f) = goSource [] (π.worded f) := by
      rintro p (rfl | rfl) <;> rfl
    unfold sourceIn C103.sourceOf
    rw [if_pos hl]
    split
    · exact this _ hs.package
    · rfl
  have hmap : (π.cfg.filePath :: gs).map (sourceIn π) = ((π.cfg.filePath :: gs).map π.worded).map (goSource []) := by
    rw [List.map_map]
    exact List.map_congr_left fun f _ => hsource f
  refine ⟨gs, sourceIn π, text, t, sh', g1, g2, g3, ?_, fun f hf => ?_, g6, g7⟩
  · rw [hmap]
    refine package (fit h hs ht hl (List.nodup_cons.2 ⟨fun hm => h.other (g2 _ hm), g1⟩) hS (fun f hf g hg => List.mem_cons_of_mem _ (g3 f hf g hg)) ?_)
    rw [← hmap]
    have : reader π.cfg.lang = go := by rw [hl]; rfl
    rw [← this]; exact g4
  · have := g5 f hf
    rwa [if_pos hl] at this

end

/-! ## Examples -/

set_option synthInstance.maxSize 1000 in
theorem duo_suitable : @Suitable asciiUni duo :=
  @Suitable.mk asciiUni duo duo_bound (by decide +kernel) (by decide +kernel) (by decide +kernel) (by decide +kernel) (by decide +kernel) (by decide +kernel)
    (by decide +kernel) (by decide +kernel) (.inl rfl)

/-- Two files that are a package. -/
example : ∃ (gs : List Str) (source : Str → Str) (sh' : Shared), Package ((c!"a.xsd" :: gs).map source) ∧
    sh'.outputs = gs.map (fun g => (C24.documentedPath (duo.part g) c!".go", source g)) ++ [(C24.documentedPath duo.cfg c!".go", source c!"a.xsd")] := by
  obtain ⟨gs, source, text, t, sh', -, -, -, h1, h2, h3, -⟩ := @project_partial asciiUni asciiUniLaws duo duo_sound duo_suitable duo_tidy rfl duo_creatable {}
    ⟨rfl, rfl, rfl, fun _ _ => rfl⟩
  refine ⟨gs, source, sh', h1, ?_⟩
  have e : ∀ f ∈ c!"a.xsd" :: gs, text f = source f := fun f hf => (Option.some.inj (h2 f hf)).symm
  rw [h3, show text duo.cfg.filePath = source c!"a.xsd" from e _ List.mem_cons_self]
  congr 1
  exact List.map_congr_left fun g hg => by rw [e g (List.mem_cons_of_mem _ hg)]

/-- The generated files of two schemas, the first of which imports the second. -/
def outputsOf (package : Str) (a b : List Decl) : List Str :=
  ((@Parse asciiUni (Ex.world [("a.xsd", ({ root := at' [("xmlns:b", "urn:b")], heads := [.import (at' [("namespace", "urn:b"), ("schemaLocation", "b.xsd")])], decls := a } : Doc).tokens),
    ("b.xsd", ({ decls := b } : Doc).tokens)]) { filePath := c!"a.xsd", lang := c!"Go", outputDir := c!"out", package := package } {}).state.outputs).map (·.2)

/-- A type with one element. -/
def holder (name type : String) : Decl := .complex (at' [("name", name)]) (.elem (at' [("name", "x"), ("type", type)]) .nil)

/-- C105 is false if a package is given: the imported files are in the package `schema`. -/
theorem packages_differ : ¬ Package (outputsOf c!"custom" [holder "A" "b:B"] [holder "B" "xs:string"]) := by
  intro h
  obtain ⟨p, hp⟩ := h.clause
  have e : (outputsOf c!"custom" [holder "A" "b:B"] [holder "B" "xs:string"]).map (fun x => (C50.lines x)[2]?) =
      [some c!"package schema", some c!"package custom"] := by decide +kernel
  have hl : ∀ l ∈ [some c!"package schema", some c!"package custom"], l = some (c!"package " ++ p) := by
    rw [← e]
    intro l hm
    obtain ⟨x, hx, rfl⟩ := List.mem_map.1 hm
    exact hp x hx
  have := (hl _ List.mem_cons_self).trans (hl _ (List.mem_cons_of_mem _ List.mem_cons_self)).symm
  exact absurd this (by decide)

/-- C105 is false if two schemas declare the same name, as they may in different name spaces. -/
theorem declared_twice : ¬ Package (outputsOf [] [holder "A" "b:A"] [holder "A" "xs:string"]) := by
  intro h
  exact absurd h.once (by decide +kernel)

end Xgen.C105
