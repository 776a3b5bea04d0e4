import Verif.Props.C72

/-! # C73: types have a finite size

A struct that contains itself has no size; compilers reject it.  In Go all declared types are held by pointers or in slices, so
every type of the generated file has a size, however the types of the schema refer to each other.  C and Rust hold types by
value: there the types of a schema in order have a size, and recursive types do not. -/

namespace Xgen.C73
open Core C40 Decl
open C53 (NCName)
open C58 (Legible)
open C71 hiding file schema document

/-! ## Sizes -/

/-- Types with a size, given the declared names with the types they consist of: predefined types that are not declared anew,
references to whatever, values that contain a type with a size, and declared types that consist of such types. -/
inductive Sized (pre : List Str) (refs vals : List (Str × Str)) (decls : List (Str × List Str)) : Str → Prop
  | predefined {t : Str} : t ∈ pre → (∀ d ∈ decls, d.1 ≠ t) → Sized pre refs vals decls t
  | reference {t : Str} {w : Str × Str} : w ∈ refs → Sized pre refs vals decls (w.1 ++ t ++ w.2)
  | value {t : Str} {w : Str × Str} : w ∈ vals → Sized pre refs vals decls t → Sized pre refs vals decls (w.1 ++ t ++ w.2)
  | declared {t : Str} : (∃ d ∈ decls, d.1 = t) → (∀ d ∈ decls, d.1 = t → ∀ m ∈ d.2, Sized pre refs vals decls m) → Sized pre refs vals decls t

/-- Every declared type has a size. -/
def Finite (pre : List Str) (refs vals : List (Str × Str)) (decls : List (Str × List Str)) : Prop :=
  ∀ d ∈ decls, Sized pre refs vals decls d.1

/-- What Go consists of: pointers and slices are references. -/
def Go.sizes (text : Str) : List (Str × List Str) :=
  (C58.Go.declsOf text).map fun d => ((d.1.drop 5).takeWhile (fun c => c ≠ ' ' && c ≠ '\t'), C71.Go.mentions d)
/-- All types of a Go file have a size. -/
def Go.Finite (text : Str) : Prop := C73.Finite C71.Go.predefined [(c!"*", []), (c!"[]", [])] [] (sizes text)

/-- What C consists of: arrays contain their items. -/
def C.sizes (text : Str) : List (Str × List Str) := (C58.C.declsOf text).flatMap fun d => d.2.2.map fun n => (n, C71.C.mentions d)
/-- All types of a C file have a size. -/
def C.Finite (text : Str) : Prop := C73.Finite C71.C.predefined [] [([], c!"[]")] (sizes text)

/-- What Rust consists of: vectors are references, options contain their values. -/
def Rust.sizes (text : Str) : List (Str × List Str) :=
  (C58.Rust.declsOf text).map fun d => ((d.1.drop 11).takeWhile (fun c => c ≠ ' '), d.2.map (·.type))
/-- All types of a Rust file have a size. -/
def Rust.Finite (text : Str) : Prop := C73.Finite C71.Rust.predefined [(c!"Vec<", c!">")] [(c!"Option<", c!">")] (sizes text)

/-- Names that begin with a letter, or anything outside of ASCII. -/
def Letter (s : Str) : Prop := ∃ c r, s = c :: r ∧ (isAsciiLetter c = true ∨ 128 ≤ c.toNat)

/-- The names of a declaration. -/
def namesOf (d : Decl) : List Str := typeNamesOf d ++ itemNamesOf d

/-! ## Declarations in order -/

section
variable {pre : List Str} {refs vals wraps : List (Str × Str)} {decls : List (Str × List Str)}

theorem known_sized (hp : ∀ d ∈ decls, d.1 ∉ pre) (hw : ∀ w ∈ wraps, w ∈ refs ∨ w ∈ vals) {names : List Str}
    (hn : ∀ n ∈ names, Sized pre refs vals decls n) {t : Str} (h : Known pre wraps names t) : Sized pre refs vals decls t := by
  induction h with
  | predefined h => exact .predefined h fun d hd e => hp d hd (e ▸ h)
  | declared h => exact hn _ h
  | wrapped h _ ih => exact (hw _ h).elim (fun h => .reference h) fun h => .value h ih

/-- Every type consists of types that come before it. -/
def Sorted (pre : List Str) (wraps : List (Str × Str)) (decls : List (Str × List Str)) : Prop :=
  ∀ X d Y, decls = X ++ d :: Y → ∀ m ∈ d.2, Known pre wraps (X.map (·.1)) m

theorem sorted_finite (hp : ∀ d ∈ decls, d.1 ∉ pre) (hw : ∀ w ∈ wraps, w ∈ refs ∨ w ∈ vals) (hd : (decls.map (·.1)).Nodup)
    (hs : Sorted pre wraps decls) : Finite pre refs vals decls := by
  have key : ∀ Y X, decls = X ++ Y → (∀ d ∈ X, Sized pre refs vals decls d.1) → ∀ d ∈ Y, Sized pre refs vals decls d.1 := by
    intro Y
    induction Y with
    | nil => intro X _ _ d hd; cases hd
    | cons d Y ih =>
      intro X e hX
      have h1 : Sized pre refs vals decls d.1 := by
        refine .declared ⟨d, by rw [e]; simp, rfl⟩ fun d' hd' ed m hm => ?_
        have e' : d' = d := by
          rw [e, List.map_append, List.map_cons] at hd
          rw [e] at hd'
          obtain ⟨-, h2, h3⟩ := List.nodup_append.1 hd
          rcases List.mem_append.1 hd' with h | h
          · exact absurd ed (h3 d'.1 (List.mem_map_of_mem h) d.1 List.mem_cons_self)
          · rcases List.mem_cons.1 h with h | h
            · exact h
            · exact absurd (ed ▸ List.mem_map_of_mem h) (List.nodup_cons.1 h2).1
        rw [e'] at hm
        refine known_sized hp hw (fun n hn => ?_) (hs X d Y e m hm)
        obtain ⟨x, hx, rfl⟩ := List.mem_map.1 hn
        exact hX x hx
      intro d' hd'
      rcases List.mem_cons.1 hd' with rfl | hd'
      · exact h1
      · refine ih (X ++ [d]) (by rw [e]; simp) (fun x hx => ?_) d' hd'
        rcases List.mem_append.1 hx with hx | hx
        · exact hX x hx
        · rw [List.mem_singleton.1 hx]; exact h1
  exact key decls [] rfl fun _ h => by cases h

end

/-! ## Names -/

theorem takeWhile_eq {n r : Str} {p : Char → Bool} {b : Char} (h : ∀ c ∈ n, p c = true) (hb : p b = false) : (n ++ b :: r).takeWhile p = n := by
  rw [List.takeWhile_append_of_pos h, List.takeWhile_cons, if_neg (by rw [hb]; decide), List.append_nil]

theorem firsts_nodup (ns : List (Node Element)) : ((C56.firsts (fun _ => false) ns).map nodeName).Nodup := by
  induction ns with
  | nil => exact List.nodup_nil
  | cons x xs ih =>
    rw [C56.firsts, if_neg (by simp), List.map_cons, List.nodup_cons]
    exact ⟨by simp, ih.sublist (List.filter_sublist.map nodeName)⟩

/-- Different names have different target names: nothing is numbered. -/
theorem finals_distinct {base : Node Element → Str} {numbered : Node Element → Bool} (ns : List (Node Element)) : ∀ used,
    (ns.map base).Nodup → (∀ n ∈ ns, base n ∉ used) → C56.finals base numbered used ns = ns.map base := by
  induction ns with
  | nil => intro used _ _; rfl
  | cons n ns ih =>
    intro used hd hu
    obtain ⟨h1, h2⟩ := List.nodup_cons.1 hd
    rw [C56.finals]
    split
    · rw [List.count_eq_zero_of_not_mem (hu n List.mem_cons_self), ih _ h2]
      · rfl
      · intro m hm h
        rcases List.mem_cons.1 h with h | h
        · exact h1 (h ▸ List.mem_map_of_mem hm)
        · exact hu m (List.mem_cons_of_mem _ hm) h
    · rw [ih _ h2 fun m hm => hu m (List.mem_cons_of_mem _ hm)]; rfl

theorem declarations_distinct {base : Node Element → Str} {numbered : Node Element → Bool} {t : Tree}
    (hd : ∀ n ∈ nodes t, ∀ n' ∈ nodes t, base n = base n' → nodeName n = nodeName n') :
    C58.declarations base numbered (fun _ => false) t = (C56.firsts (fun _ => false) (nodes t)).map (fun n => (n, base n)) ∧
      ((C56.firsts (fun _ => false) (nodes t)).map base).Nodup := by
  have h : ((C56.firsts (fun _ => false) (nodes t)).map base).Nodup := by
    have h1 := firsts_nodup (nodes t)
    have h2 : ∀ n ∈ C56.firsts (fun _ => false) (nodes t), n ∈ nodes t := firsts_mem _ _
    generalize C56.firsts (fun _ => false) (nodes t) = ns at h1 h2
    induction ns with
    | nil => exact List.nodup_nil
    | cons n ns ih =>
      obtain ⟨h3, h4⟩ := List.nodup_cons.1 h1
      rw [List.map_cons, List.nodup_cons]
      refine ⟨fun h => ?_, ih h4 fun m hm => h2 m (List.mem_cons_of_mem _ hm)⟩
      obtain ⟨m, hm, e⟩ := List.mem_map.1 h
      exact h3 (hd m (h2 m (List.mem_cons_of_mem _ hm)) n (h2 n List.mem_cons_self) e ▸ List.mem_map_of_mem hm)
  refine ⟨?_, h⟩
  rw [C58.declarations, finals_distinct _ _ h (by simp)]
  generalize C56.firsts (fun _ => false) (nodes t) = ns
  induction ns with
  | nil => rfl
  | cons n ns ih => rw [List.map_cons, List.zip_cons_cons, ih, List.map_cons]

theorem decl_node (ty : Str → Str) (d : Decl) : ∀ n ∈ d.nodes ty, nodeName n ∈ namesOf d := by
  intro n hn
  cases ht : typelike n with
  | true => exact List.mem_append_left _ (node_names ty d n hn ht)
  | false =>
    have hnest : ∀ {cs : List ComplexType} {n : Node Element}, n ∈ cs.map Node.complex → typelike n = false → False := by
      intro cs n hn ht
      obtain ⟨c, -, rfl⟩ := List.mem_map.1 hn
      cases ht
    cases d with
    | simple as b => rw [List.mem_singleton.1 hn] at ht; cases ht
    | complex as b =>
      rcases List.mem_append.1 hn with hn | hn
      · exact (hnest hn ht).elim
      · rw [List.mem_singleton.1 hn] at ht; cases ht
    | element as => rw [List.mem_singleton.1 hn]; exact List.mem_append_right _ (List.mem_singleton.2 rfl)
    | anon as cas b =>
      rcases List.mem_append.1 hn with hn | hn
      · exact (hnest hn ht).elim
      · rcases List.mem_cons.1 hn with rfl | hn
        · cases ht
        · rw [List.mem_singleton.1 hn]
          exact List.mem_append_left _ (List.mem_append_right _ (List.mem_singleton.2 rfl))
    | elemAnon as ras fs => rw [List.mem_singleton.1 hn]; exact List.mem_append_right _ (List.mem_singleton.2 rfl)
    | group as b => rw [List.mem_singleton.1 hn] at ht; cases ht
    | attrGroup as b =>
      rcases List.mem_append.1 hn with hn | hn
      · obtain ⟨c, -, rfl⟩ := List.mem_map.1 hn; cases ht
      · rw [List.mem_singleton.1 hn] at ht; cases ht
    | «attribute» as => rw [List.mem_singleton.1 hn]; exact List.mem_append_right _ (List.mem_singleton.2 rfl)
    | attrAnon as ras fs => rw [List.mem_singleton.1 hn]; exact List.mem_append_right _ (List.mem_singleton.2 rfl)

theorem tree_node (ref : Tree → Str → Str) (ds : List Decl) : ∀ t : Tree, ∀ n ∈ nodes (treeOf ref t ds), n ∈ nodes t ∨ ∃ d ∈ ds, nodeName n ∈ namesOf d := by
  induction ds with
  | nil => intro t n hn; exact .inl hn
  | cons d ds ih =>
    intro t n hn
    rcases ih _ n hn with h | ⟨d', h1, h2⟩
    · rw [Xgen.Decl.nodes, List.filterMap_append, List.filterMap_map] at h
      rcases List.mem_append.1 h with h | h
      · exact .inl h
      · exact .inr ⟨d, List.mem_cons_self, decl_node (ref t) d n (by simpa using h)⟩
    · exact .inr ⟨d', List.mem_cons_of_mem _ h1, h2⟩

/-- The names of the components are those of the declarations. -/
theorem names_alike {ref : Tree → Str → Str} {ds : List Decl} {t : Tree} (h : C57.bare t = C57.bare (treeOf ref [] ds)) :
    ∀ n ∈ nodes t, ∃ d ∈ ds, nodeName n ∈ namesOf d := by
  intro n hn
  have h1 : C57.noDocNode C31.noDocE n ∈ nodes (C57.bare t) := by rw [C59.nodes_bare]; exact List.mem_map_of_mem hn
  rw [h, C59.nodes_bare] at h1
  obtain ⟨m, hm, e⟩ := List.mem_map.1 h1
  rcases tree_node ref ds [] m hm with h2 | ⟨d, h2, h3⟩
  · cases h2
  · refine ⟨d, h2, ?_⟩
    rw [← C59.name_bare n, ← e, C59.name_bare]; exact h3

section
variable [Uni] [UniLaws]

theorem upper_not_lower (c : Char) : isAsciiLower (Uni.upper c) = false := by
  by_cases h : c.toNat < 128
  · rw [UniLaws.upper_ascii c h]
    have : ∀ n < 128, isAsciiLower (asciiUpper (Char.ofNat n)) = false := by decide +kernel
    have := this c.toNat h
    rwa [Char.ofNat_toNat] at this
  · rcases UniLaws.upper_nonascii c (by omega) with h | h
    · simp only [isAsciiLower, Bool.and_eq_false_iff, decide_eq_false_iff_not]
      right; omega
    · simp only [isAsciiUpper, Bool.and_eq_true, decide_eq_true_eq] at h
      simp only [isAsciiLower, Bool.and_eq_false_iff, decide_eq_false_iff_not]
      left; omega

theorem strict_head {s : Str} (h : Letter s) : ∃ c r, Names.strict s = Uni.upper c :: r ∧ (isAsciiLetter c = true ∨ 128 ≤ c.toNat) := by
  obtain ⟨c, r, rfl, hc⟩ := h
  have ne : ∀ x ∈ [':', '.', '-', '_'], c ≠ x := by
    intro x hx e
    subst e
    rcases hc with hc | hc
    · exact absurd hc ((by decide : ∀ c ∈ [':', '.', '-', '_'], ¬ isAsciiLetter c = true) c hx)
    · exact absurd hc ((by decide : ∀ c ∈ [':', '.', '-', '_'], ¬ 128 ≤ c.toNat) c hx)
  refine ⟨c, Names.camel Names.colonDot Names.hyphenUnderscore false r, ?_, hc⟩
  simp [Names.strict, Names.camel, Names.colonDot, Names.hyphenUnderscore, ne]

theorem plain_head {s : Str} (h : NCName s) : ∃ c r, Names.plain s = Uni.upper c :: r := by
  obtain ⟨c, r, rfl, h1, h2⟩ := h.head
  have h3 : c ≠ ':' := fun e => h.colon (by rw [e]; simp)
  refine ⟨c, Names.camel Names.colonDot Names.hyphen false r, ?_⟩
  simp [Names.plain, Names.camel, Names.colonDot, Names.hyphen, h1, h2, h3]

end

/-! ## Go -/

namespace Go
variable [Uni] [UniLaws]

/-- A type that is not a value of a declared type. -/
def Indirect (s : Str) : Prop := s ∈ C71.Go.predefined ∨ s = c!"interface" ∨ ∃ r, s = '*' :: r ∨ s = '[' :: r

omit [UniLaws] in
theorem goType_indirect (s : Str) : Indirect (Names.goType goBuildinType s) := by
  unfold Names.goType
  split
  · rename_i h
    have : s ∈ C71.Go.predefined ∨ s = c!"interface" ∨ s.head? = some '[' :=
      (by decide : ∀ s ∈ goBuildinType, s ∈ C71.Go.predefined ∨ s = c!"interface" ∨ s.head? = some '[') s h
    rcases this with h | h | h
    · exact .inl h
    · exact .inr (.inl h)
    · cases s with
      | nil => cases h
      | cons c s => injection h with h; exact .inr (.inr ⟨s, .inr (by rw [h])⟩)
  · split
    · exact .inl (by decide)
    · exact .inr (.inr ⟨_, .inl rfl⟩)

omit [Uni] [UniLaws] in
theorem slice_indirect {s : Str} (h : Indirect s) (b : Bool) : Indirect ((if b then c!"[]" else []) ++ s) := by
  cases b with
  | true => exact .inr (.inr ⟨_, .inr rfl⟩)
  | false => exact h

/-- All types in a declaration are so. -/
theorem one (t : Tree) (order : List (Str × Str) → List (Str × Str)) (n : Node Element) {fn : Str} (hfn : Clean notInNames fn) :
    ∀ s ∈ C71.Go.mentions (C58.Go.head t fn n, C58.Go.fields order t fn n), Indirect s := by
  have ht : ∀ s, Indirect (C17.typeOf t s) := fun s => goType_indirect _
  have hx : Indirect c!"xml.Name" := .inl (by decide)
  have struct : C71.Go.headType (c!"type " ++ fn ++ c!" struct {") = none := C71.Go.headType_eq (b := ' ') hfn (.inl rfl)
  have complex : ∀ v, ∀ f ∈ C17.expected t fn v, Indirect f.type := by
    intro v f hf
    simp only [C17.expected, List.mem_append, List.mem_map] at hf
    rcases hf with ((((hf | ⟨e, he, rfl⟩) | ⟨e, he, rfl⟩) | ⟨e, he, rfl⟩) | ⟨e, he, rfl⟩) | hf
    · split at hf
      · rw [List.mem_singleton.1 hf]; exact hx
      · cases hf
    · exact ht _
    · exact ht _
    · exact slice_indirect (ht _) e.plural
    · exact slice_indirect (ht _) e.plural
    · split at hf
      · cases hf
      · split at hf <;> rw [List.mem_singleton.1 hf] <;> exact goType_indirect _
  intro s hs
  rcases List.mem_append.1 hs with hs | hs
  · rw [Option.mem_toList] at hs
    have hsyn : ∀ (b : Char) (r : Str), b = ' ' ∨ b = '\t' → Indirect r → C71.Go.headType (c!"type " ++ fn ++ b :: r) = some s → Indirect s := by
      intro b r hb hr e
      rw [C71.Go.headType_eq hfn hb] at e
      split at e
      · cases e
      · injection e with e; rw [← e]; exact hr
    cases n with
    | simple v =>
      simp only [C58.Go.head] at hs
      split at hs
      · exact hsyn ' ' _ (.inl rfl) (.inr (.inr ⟨_, .inr rfl⟩)) hs
      · split at hs
        · rw [struct] at hs; cases hs
        · exact hsyn ' ' _ (.inl rfl) (ht _) hs
    | attr v => exact hsyn '\t' _ (.inr rfl) (slice_indirect (ht _) v.plural) (by simpa [C58.Go.head] using hs)
    | elem v => exact hsyn '\t' _ (.inr rfl) (slice_indirect (ht _) v.plural) (by simpa [C58.Go.head] using hs)
    | complex v => cases struct.symm.trans hs
    | group v => cases struct.symm.trans hs
    | attrGroup v => cases struct.symm.trans hs
  · obtain ⟨f, hf, rfl⟩ := List.mem_map.1 hs
    cases n with
    | simple v =>
      simp only [C58.Go.fields] at hf
      split at hf
      · rcases List.mem_append.1 hf with hf | hf
        · split at hf
          · rw [List.mem_singleton.1 hf]; exact hx
          · cases hf
        · obtain ⟨m, hm, rfl⟩ := List.mem_map.1 hf
          exact goType_indirect _
      · cases hf
    | attr v => cases hf
    | elem v => cases hf
    | complex v => exact complex _ f hf
    | group v =>
      simp only [C58.Go.fields, C54.Go.group, List.mem_append, List.mem_map] at hf
      rcases hf with (hf | ⟨e, he, rfl⟩) | ⟨e, he, rfl⟩
      · split at hf
        · rw [List.mem_singleton.1 hf]; exact hx
        · cases hf
      · exact slice_indirect (ht _) e.plural
      · exact slice_indirect (ht _) e.plural
    | attrGroup v => exact complex _ f hf

/-- The name and the types of every declaration. -/
theorem sizes_eq (pkg : Str) {t : Tree} (hp : '\n' ∉ pkg) (hg : Legible t) : ∃ order, C58.Order order ∧ sizes (goSource pkg t) =
    (C58.declarations C58.Go.base C58.Go.numbered (fun _ => false) t).map fun x =>
      (x.2, C71.Go.mentions (C58.Go.head t x.2 x.1, C58.Go.fields order t x.2 x.1)) := by
  obtain ⟨order, ho, hr⟩ := C58.Go.file pkg t hp hg
  refine ⟨order, ho, ?_⟩
  rw [sizes, hr, List.map_map]
  refine List.map_congr_left fun x hx => ?_
  have hc := declared_clean hx (strict_clean (hg.name (mem_declarations hx).1))
  have hn : ∀ c ∈ x.2, (c ≠ ' ' && c ≠ '\t') = true := fun c h => by
    have h1 : c ≠ ' ' := fun e => hc ' ' (by decide) (e ▸ h)
    have h2 : c ≠ '\t' := fun e => hc '\t' (by decide) (e ▸ h)
    simp [h1, h2]
  have key : ∀ (b : Char) (r : Str), b = ' ' ∨ b = '\t' → ((c!"type " ++ x.2 ++ b :: r).drop 5).takeWhile (fun c => c ≠ ' ' && c ≠ '\t') = x.2 := by
    intro b r hb
    rw [show (c!"type " ++ x.2 ++ b :: r).drop 5 = x.2 ++ b :: r by simp]
    exact takeWhile_eq hn (by rcases hb with rfl | rfl <;> decide)
  refine Prod.ext ?_ rfl
  show ((C58.Go.head t x.2 x.1).drop 5).takeWhile _ = _
  cases x.1 with
  | simple v =>
    unfold C58.Go.head
    dsimp only
    split
    · exact key ' ' _ (.inl rfl)
    · split
      · exact key ' ' _ (.inl rfl)
      · exact key ' ' _ (.inl rfl)
  | attr v => rw [C58.Go.head, List.append_assoc c!"\t"]; exact key '\t' _ (.inr rfl)
  | elem v => rw [C58.Go.head, List.append_assoc c!"\t"]; exact key '\t' _ (.inr rfl)
  | _ => exact key ' ' _ (.inl rfl)

/-- No declared name is that of a type mentioned in a declaration. -/
theorem apart {t : Tree} (hn : ∀ n ∈ nodes t, Letter (nodeName n)) {x : Node Element × Str}
    (hx : x ∈ C58.declarations C58.Go.base C58.Go.numbered (fun _ => false) t) : ¬ Indirect x.2 := by
  obtain ⟨h1, h2⟩ := mem_declarations hx
  obtain ⟨c, r, h3, h4⟩ := strict_head (hn _ h1)
  have h5 : ∃ r', x.2 = Uni.upper c :: r' := by
    rcases h2 with e | ⟨k, e⟩
    · exact ⟨r, by rw [e]; exact h3⟩
    · refine ⟨if k = 1 then r else r ++ decimal k, ?_⟩
      rw [e, C14.numbered, C58.Go.base, h3]
      split <;> rfl
  obtain ⟨r', h5⟩ := h5
  have hsym : ∀ y ∈ ['*', '['], Uni.upper c ≠ y := by
    intro y hy e
    have h6 := (by decide : ∀ y ∈ ['*', '['], y.toNat < 128 ∧ isAsciiLetter y = false) y hy
    have e := (upper_eq_iff h6.1 h6.2 c).1 e
    subst e
    rcases h4 with h4 | h4
    · rw [h6.2] at h4; cases h4
    · omega
  have hl := upper_not_lower c
  rintro (h | h | ⟨r'', h | h⟩)
  · have := (by decide : ∀ s ∈ C71.Go.predefined, s.head?.all isAsciiLower = true) _ h
    rw [h5] at this
    simp only [List.head?_cons, Option.all_some] at this
    rw [hl] at this; cases this
  · rw [h5] at h
    injection h with h
    rw [h] at hl; cases hl
  · rw [h5] at h; injection h with h; exact hsym '*' (by decide) h
  · rw [h5] at h; injection h with h; exact hsym '[' (by decide) h

/-- The file of a tree without dangling references. -/
theorem file (pkg : Str) {t : Tree} (hp : '\n' ∉ pkg) (hg : Legible t) (hl : Linked c!"Go" t) (hn : ∀ n ∈ nodes t, Letter (nodeName n)) :
    Finite (goSource pkg t) := by
  obtain ⟨order, ho, hs⟩ := sizes_eq pkg hp hg
  have hm : ∀ d ∈ sizes (goSource pkg t), ¬ Indirect d.1 ∧ ∀ m ∈ d.2, Indirect m ∧ Known C71.Go.predefined C71.Go.wraps (C56.Go.names (goSource pkg t)) m := by
    intro d hd
    have hd' := hd
    rw [hs] at hd
    obtain ⟨x, hx, rfl⟩ := List.mem_map.1 hd
    refine ⟨apart hn hx, fun m hm => ⟨one t order x.1 (declared_clean hx (strict_clean (hg.name (mem_declarations hx).1))) m hm, ?_⟩⟩
    obtain ⟨e, he, ed⟩ := List.mem_map.1 hd'
    have := C71.Go.file pkg hp hg hl e he m
    injection ed with _ ed
    rw [ed] at this
    exact this hm
  intro d hd
  refine .declared ⟨d, hd, rfl⟩ fun d' hd' _ m hmm => ?_
  obtain ⟨h1, h2⟩ := (hm d' hd').2 m hmm
  cases h2 with
  | predefined h => exact .predefined h fun d'' h'' e => (hm d'' h'').1 (e ▸ h1)
  | declared h =>
    exfalso
    rw [C56.Go.file_names pkg t hp hg.sound] at h
    have : ∀ s ∈ C56.finals (fun n => Names.strict (nodeName n)) C58.Go.numbered [] (C56.firsts (fun _ => false) (nodes t)), ¬ Indirect s := by
      intro s hs'
      have e : (C58.declarations C58.Go.base C58.Go.numbered (fun _ => false) t).map (·.2) =
          C56.finals (fun n => Names.strict (nodeName n)) C58.Go.numbered [] (C56.firsts (fun _ => false) (nodes t)) := by
        rw [C58.declarations, List.map_snd_zip]
        · rfl
        · rw [C72.C.finals_length]; exact Nat.le_refl _
      rw [← e] at hs'
      obtain ⟨x, hx, rfl⟩ := List.mem_map.1 hs'
      exact apart hn hx
    exact this m h h1
  | wrapped h _ => exact .reference h

end Go

/-! ## C -/

namespace C
variable [Uni] [UniLaws]

/-- The file of a tree in order. -/
theorem file {t : Tree} (hg : Legible t) (hl : C72.InOrder c!"C" [] (nodes t)) (hn : ∀ n ∈ nodes t, NCName (nodeName n))
    (hd : ∀ n ∈ nodes t, ∀ n' ∈ nodes t, Names.plain (nodeName n) = Names.plain (nodeName n') → nodeName n = nodeName n') : Finite (cSource t) := by
  obtain ⟨order, ho, hr⟩ := C58.C.file t hg
  obtain ⟨h1, h2⟩ := declarations_distinct (base := C58.C.base) (numbered := C56.C.counted) hd
  rw [h1, List.map_map] at hr
  have hs : sizes (cSource t) = (C58.C.declsOf (cSource t)).map fun d => (d.2.2.headD [], C71.C.mentions d) := by
    rw [sizes, hr]
    generalize C56.firsts (fun _ => false) (nodes t) = ns
    induction ns with
    | nil => rfl
    | cons n ns ih => rw [List.map_cons, List.flatMap_cons, ih]; rfl
  have hnames : ∀ n : Node Element, C58.C.nameOf n (C58.C.base n) = C58.C.base n := fun n => by rw [C58.C.nameOf, ite_self]
  have hs' : (sizes (cSource t)).map (·.1) = (C56.firsts (fun _ => false) (nodes t)).map C58.C.base := by
    rw [hs, hr, List.map_map, List.map_map]
    exact List.map_congr_left fun n _ => hnames n
  refine sorted_finite (wraps := C71.C.wraps) (fun d hd => ?_) (fun w hw => .inr hw) (by rw [hs']; exact h2) fun X d Y e m hm => ?_
  · have : d.1 ∈ (sizes (cSource t)).map (·.1) := List.mem_map_of_mem hd
    rw [hs'] at this
    obtain ⟨n, hn', e⟩ := List.mem_map.1 this
    obtain ⟨c, r, hc⟩ := plain_head (hn n (firsts_mem _ _ n hn'))
    intro h
    have := (by decide : ∀ s ∈ C71.C.predefined, s.head?.all isAsciiLower = true) _ h
    rw [← e, C58.C.base, hc] at this
    simp only [List.head?_cons, Option.all_some] at this
    rw [upper_not_lower] at this; cases this
  · rw [hs] at e
    obtain ⟨X', Y', e1, rfl, e2⟩ := List.map_eq_append_iff.1 e
    obtain ⟨x, Y'', rfl, rfl, -⟩ := List.map_eq_cons_iff.1 e2
    have := C72.C.file hg hl X' x Y'' e1 m hm
    have e3 : X'.flatMap (·.2.2) = (X'.map fun d => (d.2.2.headD [], C71.C.mentions d)).map (·.1) := by
      rw [List.map_map]
      have hX : ∀ d ∈ X', ∃ n, d.2.2 = [n] := by
        intro d hd
        have : d ∈ C58.C.declsOf (cSource t) := by rw [e1]; exact List.mem_append_left _ hd
        rw [hr] at this
        obtain ⟨n, -, rfl⟩ := List.mem_map.1 this
        exact ⟨_, rfl⟩
      clear e e1 e2 this
      induction X' with
      | nil => rfl
      | cons d X' ih =>
        obtain ⟨n, hn⟩ := hX d List.mem_cons_self
        rw [List.flatMap_cons, List.map_cons, ih fun d hd => hX d (List.mem_cons_of_mem _ hd), hn]
        simp [hn]
    rw [← e3]; exact this

end C

/-! ## Rust -/

namespace Rust
variable [Uni] [UniLaws]

/-- The file of a tree in order, in which the first component with the name of a type is a type. -/
theorem file {t : Tree} (hg : Legible t) (hl : C72.InOrder c!"Rust" [] (nodes t)) (hled : Led (typeNames t) [] (nodes t))
    (hn : ∀ n ∈ nodes t, C56.Rust.baseName n ∉ C71.Rust.predefined)
    (hd : ∀ n ∈ nodes t, ∀ n' ∈ nodes t, C56.Rust.baseName n = C56.Rust.baseName n' → nodeName n = nodeName n') : Finite (rustSource t) := by
  obtain ⟨order, ho, hr⟩ := C58.Rust.file t hg
  obtain ⟨h1, h2⟩ := declarations_distinct (base := C56.Rust.baseName) (numbered := C58.Rust.numbered) hd
  rw [h1, List.map_map] at hr
  have hs : sizes (rustSource t) = (C56.firsts (fun _ => false) (nodes t)).map fun n => (C56.Rust.baseName n, (C58.Rust.members order t n).map (·.type)) := by
    rw [sizes, hr, List.map_map]
    refine List.map_congr_left fun n hn' => Prod.ext ?_ rfl
    have hc := hg.name (firsts_mem _ _ n hn')
    have h3 : ∀ c ∈ C56.Rust.baseName n, decide (c ≠ ' ') = true := by
      intro c hc'
      refine decide_eq_true fun e => ?_
      subst e
      have : ' ' ∉ C56.Rust.baseName n := by
        cases n with
        | elem v => rw [C56.Rust.baseName, ← Names.rust_member_name]; exact rustFieldName_absent (by decide) (by decide) (hc _ (by decide))
        | attr v => rw [C56.Rust.baseName, ← Names.rust_member_name]; exact rustFieldName_absent (by decide) (by decide) (hc _ (by decide))
        | _ => exact strict_clean hc _ (by decide)
      exact this hc'
    show ((c!"pub struct " ++ C56.Rust.baseName n ++ c!" {").drop 11).takeWhile _ = _
    rw [show (c!"pub struct " ++ C56.Rust.baseName n ++ c!" {").drop 11 = C56.Rust.baseName n ++ c!" {" by simp]
    exact takeWhile_eq h3 (by decide)
  refine sorted_finite (wraps := C71.Rust.wraps) (fun d hd => ?_) (fun w hw => ?_) ?_ fun X d Y e m hm => ?_
  · rw [hs] at hd
    obtain ⟨n, hn', rfl⟩ := List.mem_map.1 hd
    exact hn n (firsts_mem _ _ n hn')
  · rcases List.mem_cons.1 hw with rfl | hw
    · exact .inl (by decide)
    · exact .inr hw
  · rw [hs, List.map_map]; exact h2
  · rw [hs] at e
    obtain ⟨A, B, e1, rfl, e2⟩ := List.map_eq_append_iff.1 e
    obtain ⟨n, B', rfl, rfl, -⟩ := List.map_eq_cons_iff.1 e2
    obtain ⟨p, q, hpq, hp⟩ := C72.firsts_split e1
    have hn' : n ∈ nodes t := by rw [hpq]; simp
    obtain ⟨f, hf, rfl⟩ := List.mem_map.1 hm
    refine C71.Rust.one (C72.InOrder.means hpq hl) (fun s hs' => ?_) ho hn' (by rw [hpq] at hl; exact (C72.InOrder.append.1 hl).2.1) f hf
    obtain ⟨k, hk, rfl⟩ := List.mem_map.1 hs'
    obtain ⟨hk, htk⟩ := List.mem_filter.1 hk
    obtain ⟨k', hk', e'⟩ := hp k hk
    rw [List.map_map]
    refine List.mem_map.2 ⟨k', hk', ?_⟩
    have h4 : k' ∈ C56.firsts (fun _ => false) (nodes t) := by rw [e1]; exact List.mem_append_left _ hk'
    have h5 : typelike k' = true := hled.first k' h4 (by simp) (e' ▸ mem_types (by rw [hpq]; exact List.mem_append_left _ hk) htk)
    show C56.Rust.baseName k' = _
    rw [← e']
    cases k' with
    | elem v => cases h5
    | attr v => cases h5
    | _ => rfl

end Rust

/-! ## Documents -/

section
variable [Uni] [UniLaws] {W : World} {cfg : Cfg} {sh : Shared} {ds : List Decl} {toks : List Token}

/-- C73, Go.  (Missing: names that do not begin with a letter; the source is so before it is formatted.) -/
theorem go_partial (h : C59.Document W cfg sh ds toks) (hl : cfg.lang = c!"Go") (hp : '\n' ∉ cfg.package) (hb : Bound c!"Go" ds)
    (hn : ∀ d ∈ ds, ∀ s ∈ namesOf d, Letter s) : ∃ source, Go.Finite source ∧
    (∀ text, W.gofmt source = some text → ∃ t sh', Parse W cfg sh = .ok t sh' ∧
      sh'.outputs = sh.outputs ++ [(C24.documentedPath cfg c!".go", text)]) ∧
    (W.gofmt source = none → ∃ sh', Parse W cfg sh = .err .gofmt sh') := by
  obtain ⟨t, h2, h3, h4, h5⟩ := go_source h hl
  refine ⟨goSource cfg.package t, Go.file _ hp h3 (Document.linked h hl hb h2) fun n hn' => ?_, fun text ht => ⟨t, h4 text ht⟩, h5⟩
  obtain ⟨d, hd, hs⟩ := names_alike h2 n hn'
  exact hn d hd _ hs

/-- C73, C.  (Missing: schemas out of order; names that only differ in C.) -/
theorem c_partial (h : C59.Document W cfg sh ds toks) (hl : cfg.lang = c!"C") (hb : C72.Ordered c!"C" ds)
    (hn : ∀ d ∈ ds, ∀ s ∈ namesOf d, NCName s)
    (hd : ∀ d ∈ ds, ∀ s ∈ namesOf d, ∀ d' ∈ ds, ∀ s' ∈ namesOf d', Names.plain s = Names.plain s' → s = s') :
    ∃ t sh' text, Parse W cfg sh = .ok t sh' ∧ sh'.outputs = sh.outputs ++ [(C24.documentedPath cfg c!".h", text)] ∧ C.Finite text := by
  obtain ⟨t, sh', h1, h2, h3, h4⟩ := h.tree
  obtain ⟨sh'', h5, h6⟩ := h.write (t := t) (sh' := sh') (ext := c!".h") (text := cSource t) (by
    rw [generate, hl, C24.title_lang (by decide)]; rfl)
  have hr := h.regular
  rw [hl] at h2 hr
  have hnm := names_alike h2
  refine ⟨t, sh'', _, h4.trans h5, by rw [h6, h1], C.file h3 (C72.order_alike h2 (C72.ordered hb hr)) (fun n hn' => ?_) fun n hn' m hm' e => ?_⟩
  · obtain ⟨d, h7, h8⟩ := hnm n hn'
    exact hn d h7 _ h8
  · obtain ⟨d, h7, h8⟩ := hnm n hn'
    obtain ⟨d', h9, h10⟩ := hnm m hm'
    exact hd d h7 _ h8 d' h9 _ h10 e

/-- The names that Rust makes of a name: for types, for elements and attributes. -/
def rustNames (s : Str) : List Str := [Names.strict s, Names.rustMember rustKeywords s]

/-- C73, Rust.  (Missing: schemas out of order, unless lists are in between; elements named like types; names that Rust has
already, and names that only differ in Rust.) -/
theorem rust_partial (h : C59.Document W cfg sh ds toks) (hl : cfg.lang = c!"Rust") (hb : C72.Ordered c!"Rust" ds) (hsep : Separate ds)
    (hn : ∀ d ∈ ds, ∀ s ∈ namesOf d, ∀ x ∈ rustNames s, x ∉ C71.Rust.predefined)
    (hd : ∀ d ∈ ds, ∀ s ∈ namesOf d, ∀ d' ∈ ds, ∀ s' ∈ namesOf d', ∀ x ∈ rustNames s, x ∈ rustNames s' → s = s') :
    ∃ t sh' text, Parse W cfg sh = .ok t sh' ∧ sh'.outputs = sh.outputs ++ [(C24.documentedPath cfg c!".rs", text)] ∧ Rust.Finite text := by
  obtain ⟨t, sh', h1, h2, h3, h4⟩ := h.tree
  obtain ⟨sh'', h5, h6⟩ := h.write (t := t) (sh' := sh') (ext := c!".rs") (text := rustSource t) (by
    rw [generate, hl, C24.title_lang (by decide)]; rfl)
  have hr := h.regular
  rw [hl] at h2 hr
  have hnm := names_alike h2
  have hx : ∀ n : Node Element, C56.Rust.baseName n ∈ rustNames (nodeName n) := fun n => by
    cases n with
    | elem v => exact List.mem_cons_of_mem _ (List.mem_singleton.2 rfl)
    | attr v => exact List.mem_cons_of_mem _ (List.mem_singleton.2 rfl)
    | _ => exact List.mem_cons_self
  refine ⟨t, sh'', _, h4.trans h5, by rw [h6, h1], Rust.file h3 (C72.order_alike h2 (C72.ordered hb hr)) (led_alike h2 (tree_led _ hsep))
    (fun n hn' => ?_) fun n hn' m hm' e => ?_⟩
  · obtain ⟨d, h7, h8⟩ := hnm n hn'
    exact hn d h7 _ h8 _ (hx n)
  · obtain ⟨d, h7, h8⟩ := hnm n hn'
    obtain ⟨d', h9, h10⟩ := hnm m hm'
    exact hd d h7 _ h8 d' h9 _ h10 _ (hx n) (e ▸ hx m)

end

/-! ## Examples -/

open C70 (a base derived element attrib uses extension union list)

instance (s : Str) : Decidable (Letter s) :=
  decidable_of_iff (s.head?.any (fun c => isAsciiLetter c || decide (128 ≤ c.toNat)) = true) (by
    cases s with
    | nil => exact ⟨(fun h => by cases h), fun ⟨_, _, e, _⟩ => by cases e⟩
    | cons c s =>
      simp only [List.head?_cons, Option.any_some, Bool.or_eq_true, decide_eq_true_eq]
      exact ⟨fun h => ⟨c, s, rfl, h⟩, fun ⟨_, _, e, h⟩ => by cases e; exact h⟩)

/-- A type with a member of that type, and two types with members of each other. -/
def recursive : List Decl := [user "T", .complex (a [("name", "A")]) (.elem (a [("name", "b"), ("type", "B")]) .nil),
  .complex (a [("name", "B")]) (.elem (a [("name", "a"), ("type", "A")]) .nil)]

example : Bound c!"Go" recursive ∧ (∀ d ∈ recursive, ∀ s ∈ namesOf d, Letter s) ∧
    Go.sizes (C71.file c!"Go" recursive) = [(c!"T", [c!"*T"]), (c!"A", [c!"*B"]), (c!"B", [c!"*A"])] := by decide +kernel

example : Bound c!"Go" C71.schema ∧ ∀ d ∈ C71.schema, ∀ s ∈ namesOf d, Letter s := by decide +kernel

example : @C59.Document asciiUni (Ex.world [("a.xsd", schemaTokens C40.root recursive)]) (C59.doc c!"Go") {} recursive (schemaTokens C40.root recursive) :=
  @C59.Document.mk asciiUni _ _ _ _ _ rfl (by decide +kernel) ⟨C40.root, by decide +kernel⟩ (by decide +kernel)
      (.inr ⟨rfl, rfl, by decide, rfl⟩) (by decide +kernel) rfl rfl fun _ => rfl

/-- The conditions for C. -/
example : C72.Ordered c!"C" C72.schema ∧ (∀ d ∈ C72.schema, ∀ s ∈ namesOf d, NCName s) ∧
    (∀ d ∈ C72.schema, ∀ s ∈ namesOf d, ∀ d' ∈ C72.schema, ∀ s' ∈ namesOf d', @Names.plain asciiUni s = @Names.plain asciiUni s' → s = s') :=
  ⟨C72.example_order, by decide +kernel, by decide +kernel⟩

/-- The conditions for Rust. -/
example : C72.Ordered c!"Rust" C72.schema ∧ Separate C72.schema ∧
    (∀ d ∈ C72.schema, ∀ s ∈ namesOf d, ∀ x ∈ @rustNames asciiUni s, x ∉ C71.Rust.predefined) ∧
    (∀ d ∈ C72.schema, ∀ s ∈ namesOf d, ∀ d' ∈ C72.schema, ∀ s' ∈ namesOf d', ∀ x ∈ @rustNames asciiUni s, x ∈ @rustNames asciiUni s' → s = s') :=
  ⟨⟨by decide +kernel, by decide +kernel, fun d hd s hs k e =>
    (by decide +kernel : ∀ d ∈ C72.schema, ∀ s ∈ C72.valued d, s ∉ rustBuildinType) d hd s hs (C71.Rust.table e), by decide +kernel⟩,
    by decide +kernel, by decide +kernel, by decide +kernel⟩

/-- The structs of the example and what they consist of. -/
example : (Rust.sizes (C71.file c!"Rust" C72.schema)).drop 4 =
    [(c!"S", [c!"Option<String>", c!"String"]), (c!"T", [c!"Option<String>", c!"Option<String>", c!"String", c!"Vec<String>", c!"S"]),
     (c!"U", [c!"String", c!"String"]), (c!"L", [c!"Vec<String>"]), (c!"Line", [c!"T"]), (c!"Order", [c!"i32", c!"Line"]),
     (c!"unit", [c!"String"]), (c!"G", [c!"Order", c!"T"]), (c!"V", [c!"G"]), (c!"AG", [c!"Option<String>", c!"Option<String>"]),
     (c!"W", [c!"Vec<AG>"]), (c!"amount", [c!"String"])] := by decide +kernel

/-! ## Types without a size -/

/-- Types that contain each other have no size. -/
theorem endless {pre : List Str} {refs vals : List (Str × Str)} {decls : List (Str × List Str)} (S : List Str)
    (h1 : ∀ t ∈ S, t ∈ pre → ∃ d ∈ decls, d.1 = t) (h2 : ∀ t ∈ S, ∀ w ∈ refs, ¬ (w.1 <+: t ∧ w.2 <:+ t))
    (h3 : ∀ t ∈ S, ∀ w ∈ vals, w.1 <+: t ∧ w.2 <:+ t → (t.drop w.1.length).take (t.length - w.1.length - w.2.length) ∈ S)
    (h4 : ∀ t ∈ S, (∃ d ∈ decls, d.1 = t) → ∃ d ∈ decls, d.1 = t ∧ ∃ m ∈ d.2, m ∈ S) : ∀ t ∈ S, ¬ Sized pre refs vals decls t := by
  intro t ht h
  induction h with
  | predefined hp hd =>
    obtain ⟨d, hd', e⟩ := h1 _ ht hp
    exact hd d hd' e
  | reference hw => exact h2 _ ht _ hw ⟨⟨_, (List.append_assoc ..).symm⟩, ⟨_, rfl⟩⟩
  | @value t w hw _ ih =>
    have := h3 _ ht _ hw ⟨⟨_, (List.append_assoc ..).symm⟩, ⟨_, rfl⟩⟩
    refine ih ?_
    have e : (w.1 ++ t ++ w.2).length - w.1.length - w.2.length = t.length := by simp
    rw [e, List.append_assoc, List.drop_left, List.take_left] at this
    exact this
  | declared hd _ ih =>
    obtain ⟨d, hd, e, m, hm, hS⟩ := h4 _ ht hd
    exact ih d hd e m hm hS

/-- C73 is false for C: a type with a member of that type. -/
theorem c_recursive : Bound c!"C" recursive ∧ ¬ C.Finite (C71.file c!"C" recursive) := by
  refine ⟨by decide +kernel, fun h => ?_⟩
  have e : C.sizes (C71.file c!"C" recursive) = [(c!"T", [c!"T"]), (c!"A", [c!"B"]), (c!"B", [c!"A"])] := by decide +kernel
  unfold C.Finite at h
  rw [e] at h
  exact endless [c!"T"] (by decide) (by decide) (by decide) (by decide) c!"T" (by decide) (h (c!"T", [c!"T"]) (by decide))

/-- A type with an optional or repeated member of that type. -/
def selfish (k v : String) : Decl := .complex (a [("name", "T")]) (.elem (a [("name", "x"), ("type", "T"), (k, v)]) .nil)

/-- C73 is false for Rust: a type with a member of that type, even if it may be missing.  Lists of them do no harm. -/
theorem rust_recursive : Bound c!"Rust" [selfish "minOccurs" "0"] ∧ ¬ Rust.Finite (C71.file c!"Rust" [selfish "minOccurs" "0"]) ∧
    Rust.Finite (C71.file c!"Rust" [selfish "maxOccurs" "unbounded"]) := by
  refine ⟨by decide +kernel, fun h => ?_, ?_⟩
  · have e : Rust.sizes (C71.file c!"Rust" [selfish "minOccurs" "0"]) = [(c!"T", [c!"T"])] := by decide +kernel
    unfold Rust.Finite at h
    rw [e] at h
    exact endless [c!"T"] (by decide) (by decide) (by decide) (by decide) c!"T" (by decide) (h (c!"T", [c!"T"]) (by decide))
  · have e : Rust.sizes (C71.file c!"Rust" [selfish "maxOccurs" "unbounded"]) = [(c!"T", [c!"Vec<T>"])] := by decide +kernel
    unfold Rust.Finite
    rw [e]
    intro d hd
    refine .declared ⟨d, hd, rfl⟩ fun d' hd' _ m hm => ?_
    rw [List.mem_singleton.1 hd'] at hm
    rw [List.mem_singleton.1 hm]
    exact .reference (w := (c!"Vec<", c!">")) (t := c!"T") (by decide)

/-- C73 is false for Go: the underscore of a name goes away after it has been capitalised, so the type hides one of Go. -/
theorem go_hides : Bound c!"Go" [thing "_int"] ∧ Go.sizes (C71.file c!"Go" [thing "_int"]) = [(c!"int", [c!"xml.Name", c!"int"])] ∧
    ¬ Go.Finite (C71.file c!"Go" [thing "_int"]) := by
  have e : Go.sizes (C71.file c!"Go" [thing "_int"]) = [(c!"int", [c!"xml.Name", c!"int"])] := by decide +kernel
  refine ⟨by decide +kernel, e, fun h => ?_⟩
  unfold Go.Finite at h
  rw [e] at h
  exact endless [c!"int"] (by decide) (by decide) (by decide) (by decide) c!"int" (by decide) (h (c!"int", [c!"xml.Name", c!"int"]) (by decide))

end Xgen.C73
