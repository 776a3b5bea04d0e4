import Verif.Props.C15

/-! # C16: the imports of the generated Go file

No unused import: proved.  No missing import: false (`time_missing`, `xml_missing`); the exact conditions are proved. -/

namespace Xgen.C16
open Decl C15
variable [Uni]

/-- Which components become a struct. -/
def isStruct : Node Element → Bool
  | .simple v => !v.list && (v.union && v.memberTypes.length > 0)
  | .complex _ => true
  | .group _ => true
  | .attrGroup _ => true
  | _ => false

/-- The Go type of a schema type name. -/
def goType (tree : Tree) (s : Str) : Str := genGoFieldType (resolveIn tree s)

/-- The types used in the declaration of a component named `fn`, without slice markers. -/
def usedTypes (tree : Tree) (fn : Str) (n : Node Element) : List Str :=
  (if isStruct n && fn ≠ nodeName n then [c!"xml.Name"] else []) ++
  match n with
  | .simple v =>
    if v.list then [genGoFieldType (goType tree v.base)]
    else if v.union && v.memberTypes.length > 0 then
      (toSortedPairs v.memberTypes).map fun m => genGoFieldType (memberType tree m)
    else [goType tree v.base]
  | .complex v =>
    v.attributeGroup.map (fun a => goType tree a.ref) ++ v.attributes.map (fun a => goType tree a.type) ++
      v.groups.map (fun r => goType tree r.ref) ++ v.elements.map (fun e => goType tree e.type) ++
      (if v.base ≠ [] then [genGoFieldType v.base] else [])
  | .group v => v.elements.map (fun e => goType tree e.type) ++ v.groups.map (fun r => goType tree r.ref)
  | .attrGroup v => v.attributes.map (fun a => goType tree a.type)
  | .elem v => [goType tree v.type]
  | .attr v => [goType tree v.type]

/-- The declaration of a component, without the comment in front. -/
def code (tree : Tree) (fn : Str) (n : Node Element) : Str :=
  ((goLang tree).text n fn).drop (genFieldComment fn (match n with
    | .simple v => v.doc | .attr v => v.doc | .elem v => v.doc | .complex v => v.doc | .group v => v.doc
    | .attrGroup v => v.doc) c!"//").length

omit [Uni] in
theorem infix_flatMap {α : Type} (f : α → Str) (l : List α) (a : α) (h : a ∈ l) (s : Str) (hs : s <:+: f a) :
    s <:+: l.flatMap f := by
  obtain ⟨l1, l2, rfl⟩ := List.append_of_mem h
  rw [List.flatMap_append, List.flatMap_cons]
  exact hs.trans ⟨_, _, List.append_assoc _ _ _⟩

omit [Uni] in
theorem infix_app_l {s a b : Str} (h : s <:+: a) : s <:+: a ++ b := h.trans (List.prefix_append a b).isInfix

omit [Uni] in
theorem infix_app_r {s a b : Str} (h : s <:+: b) : s <:+: a ++ b := h.trans (List.suffix_append a b).isInfix

omit [Uni] in
theorem infix_refl (s : Str) : s <:+: s := List.infix_rfl

/-- Every type listed does occur in the code of the declaration. -/
theorem used_in_code (tree : Tree) (fn : Str) (n : Node Element) (s : Str) (h : s ∈ usedTypes tree fn n) :
    s <:+: code tree fn n := by
  have xmlInfix : ∀ name : Str, fn ≠ name → c!"xml.Name" <:+: goXMLNameLine fn name := by
    intro name hn
    unfold goXMLNameLine
    rw [if_pos hn]
    exact ⟨c!"\tXMLName\t", c!"\t`xml:\"" ++ name ++ c!"\"`\n", by simp [List.append_assoc]⟩
  unfold usedTypes at h
  rw [List.mem_append] at h
  cases n with
  | simple v =>
    simp only [code, goLang, goDecl, List.append_assoc, List.drop_left]
    by_cases h1 : v.list = true
    · simp only [isStruct, h1, Bool.not_true, Bool.false_and, Bool.false_eq_true, if_false, List.not_mem_nil, false_or,
        if_true, List.mem_singleton] at h ⊢
      subst h
      exact infix_app_r (infix_app_r (infix_app_r (infix_app_l (infix_refl _))))
    · by_cases h2 : (v.union && decide (v.memberTypes.length > 0)) = true
      · simp only [isStruct, h1, h2, nodeName, Bool.not_false, Bool.true_and, Bool.false_eq_true, if_false, if_true,
          decide_eq_true_eq] at h ⊢
        refine infix_app_r (infix_app_r (infix_app_r ?_))
        rcases h with h | h
        · split at h
          · rename_i hne
            simp only [List.mem_singleton] at h
            subst h
            exact infix_app_l (xmlInfix _ (of_decide_eq_true hne))
          · cases h
        · obtain ⟨m, hm, rfl⟩ := List.mem_map.1 h
          refine infix_app_r (infix_app_l (infix_flatMap _ _ m hm _ ?_))
          simp only [goMemberLine, List.append_assoc]
          exact infix_app_r (infix_app_r (infix_app_r (infix_app_l (infix_refl _))))
      · simp only [isStruct, h1, h2, Bool.not_false, Bool.true_and, Bool.false_eq_true, Bool.false_and, if_false,
          List.not_mem_nil, false_or, List.mem_singleton] at h ⊢
        subst h
        exact infix_app_r (infix_app_r (infix_app_r (infix_app_l (infix_refl _))))
  | complex v =>
    simp only [code, goLang, goDecl, List.append_assoc, List.drop_left, goComplexContent]
    simp only [isStruct, nodeName, Bool.true_and, decide_eq_true_eq, List.mem_append] at h
    refine infix_app_r (infix_app_r (infix_app_r ?_))
    rcases h with h | ((((h | h) | h) | h) | h)
    · split at h
      · rename_i hne
        simp only [List.mem_singleton] at h
        subst h
        exact infix_app_l (xmlInfix _ (of_decide_eq_true hne))
      · cases h
    · obtain ⟨m, hm, rfl⟩ := List.mem_map.1 h
      refine infix_app_r (infix_app_l (infix_flatMap _ _ m hm _ ?_))
      simp only [goAttrGroupLine, List.append_assoc]
      exact infix_app_r (infix_app_r (infix_app_r (infix_app_l (infix_refl _))))
    · obtain ⟨m, hm, rfl⟩ := List.mem_map.1 h
      refine infix_app_r (infix_app_r (infix_app_l (infix_flatMap _ _ m hm _ ?_)))
      simp only [goAttrLine, List.append_assoc]
      exact infix_app_r (infix_app_r (infix_app_r (infix_app_l (infix_refl _))))
    · obtain ⟨m, hm, rfl⟩ := List.mem_map.1 h
      refine infix_app_r (infix_app_r (infix_app_r (infix_app_l (infix_flatMap _ _ m hm _ ?_))))
      simp only [goGroupLine, List.append_assoc]
      exact infix_app_r (infix_app_r (infix_app_r (infix_app_r (infix_app_l (infix_refl _)))))
    · obtain ⟨m, hm, rfl⟩ := List.mem_map.1 h
      refine infix_app_r (infix_app_r (infix_app_r (infix_app_r (infix_app_l (infix_flatMap _ _ m hm _ ?_)))))
      simp only [goElemLine, List.append_assoc]
      exact infix_app_r (infix_app_r (infix_app_r (infix_app_r (infix_app_l (infix_refl _)))))
    · split at h
      · rename_i hb
        simp only [List.mem_singleton] at h
        subst h
        refine infix_app_r (infix_app_r (infix_app_r (infix_app_r (infix_app_r (infix_app_l ?_)))))
        unfold goBaseLine
        rw [if_pos hb]
        split
        · simp only [List.append_assoc]; exact infix_app_r (infix_app_l (infix_refl _))
        · simp only [List.append_assoc]; exact infix_app_r (infix_app_l (infix_refl _))
      · cases h
  | group v =>
    simp only [code, goLang, goDecl, List.append_assoc, List.drop_left]
    simp only [isStruct, nodeName, Bool.true_and, decide_eq_true_eq, List.mem_append] at h
    refine infix_app_r (infix_app_r (infix_app_r ?_))
    rcases h with h | (h | h)
    · split at h
      · rename_i hne
        simp only [List.mem_singleton] at h
        subst h
        exact infix_app_l (xmlInfix _ (of_decide_eq_true hne))
      · cases h
    · obtain ⟨m, hm, rfl⟩ := List.mem_map.1 h
      refine infix_app_r (infix_app_l (infix_flatMap _ _ m hm _ ?_))
      simp only [goGroupElemLine, List.append_assoc]
      exact infix_app_r (infix_app_r (infix_app_r (infix_app_r (infix_app_l (infix_refl _)))))
    · obtain ⟨m, hm, rfl⟩ := List.mem_map.1 h
      refine infix_app_r (infix_app_r (infix_app_l (infix_flatMap _ _ m hm _ ?_)))
      simp only [goGroupLine, List.append_assoc]
      exact infix_app_r (infix_app_r (infix_app_r (infix_app_r (infix_app_l (infix_refl _)))))
  | attrGroup v =>
    simp only [code, goLang, goDecl, List.append_assoc, List.drop_left]
    simp only [isStruct, nodeName, Bool.true_and, decide_eq_true_eq] at h
    refine infix_app_r (infix_app_r (infix_app_r ?_))
    rcases h with h | h
    · split at h
      · rename_i hne
        simp only [List.mem_singleton] at h
        subst h
        exact infix_app_l (xmlInfix _ (of_decide_eq_true hne))
      · cases h
    · obtain ⟨m, hm, rfl⟩ := List.mem_map.1 h
      refine infix_app_r (infix_app_l (infix_flatMap _ _ m hm _ ?_))
      simp only [goAttrLine, List.append_assoc]
      exact infix_app_r (infix_app_r (infix_app_r (infix_app_l (infix_refl _))))
  | elem v =>
    simp only [code, goLang, goDecl, List.append_assoc, List.drop_left]
    simp only [isStruct, Bool.false_and, Bool.false_eq_true, if_false, List.not_mem_nil, false_or,
      List.mem_singleton] at h
    subst h
    exact infix_app_r (infix_app_r (infix_app_r (infix_app_r (infix_app_l (infix_refl _)))))
  | attr v =>
    simp only [code, goLang, goDecl, List.append_assoc, List.drop_left]
    simp only [isStruct, Bool.false_and, Bool.false_eq_true, if_false, List.not_mem_nil, false_or,
      List.mem_singleton] at h
    subst h
    exact infix_app_r (infix_app_r (infix_app_r (infix_app_r (infix_app_l (infix_refl _)))))

/-- The declared components with their final Go names. -/
def decls (tree : Tree) : List (Node Element × Str) := named (goLang tree) [] (declared (goLang tree) (nodes tree))

/-- The uses of `time.Time` that lead to an import: item type of a list; attribute group, attribute or element of a complex
type. -/
def timeFlag (tree : Tree) : Node Element → Bool
  | .simple v => v.list && goType tree v.base = c!"time.Time"
  | .complex v => v.attributeGroup.any (fun a => goType tree a.ref = c!"time.Time") ||
      v.attributes.any (fun a => goType tree a.type = c!"time.Time") ||
      v.elements.any (fun e => goType tree e.type = c!"time.Time")
  | _ => false

/-! ## The flags -/

theorem genGoFieldType_time (s : Str) : genGoFieldType s = c!"time.Time" ↔ s = c!"time.Time" := by
  constructor
  · intro h
    unfold genGoFieldType at h
    split at h
    · exact h
    · simp only at h
      split at h
      · cases h
      · cases h
  · rintro rfl
    rfl

omit [Uni] in
theorem foldl_or {α : Type} (f : α → Bool) (l : List α) (b : Bool) :
    l.foldl (fun b x => b || f x) b = (b || l.any f) := by
  induction l generalizing b with
  | nil => simp
  | cons a l ih => rw [List.foldl_cons, ih, List.any_cons, Bool.or_assoc]

/-- The import of `time`: when one of the declared components uses it in one of the places of `timeFlag`. -/
theorem time_flag (tree : Tree) : (goGen tree).importTime = (decls tree).any fun x => timeFlag tree x.1 := by
  have := obs_eq (goLang tree) (goStep tree) tree (fun n _ => go_follows tree n) (fun g => g.importTime)
    (fun b x => b || timeFlag tree x.1) ?_
  · rw [goGen, this, foldl_or]
    rfl
  · intro n _ g hd
    have hd : g.ast.has (nodeName n) = false := hd.resolve_left (by simp [goLang])
    cases n with
    | simple v =>
      simp only [nodeName] at hd
      simp only [goStep, goSimpleType, timeFlag]
      rw [if_neg (by simpa using hd)]
      by_cases h1 : v.list = true
      · simp only [h1, if_true, Bool.true_and, goType]
        by_cases h2 : genGoFieldType (resolveIn tree v.base) = c!"time.Time"
        · rw [if_pos h2]; simp [h2, uniqueName, Gen.emit]
        · rw [if_neg h2]; simp [h2, uniqueName, Gen.emit]
      · simp only [h1, Bool.false_eq_true, if_false, Bool.false_and, Bool.or_false]
        split
        · split <;> rfl
        · rfl
    | complex v =>
      simp only [nodeName] at hd
      simp only [goStep, goComplexType, timeFlag]
      rw [if_neg (by simpa using hd)]
      have e : goComplexUsesTime tree v = (v.attributeGroup.any (fun a => goType tree a.ref = c!"time.Time") ||
          v.attributes.any (fun a => goType tree a.type = c!"time.Time") ||
          v.elements.any (fun e => goType tree e.type = c!"time.Time")) := by
        unfold goComplexUsesTime goType
        congr 3
        funext a
        rw [decide_eq_decide, genGoFieldType_time]
      rw [← e]
      by_cases h2 : goComplexUsesTime tree v = true
      · rw [if_pos h2, h2]; simp [uniqueName, Gen.emit]
      · simp only [Bool.not_eq_true] at h2
        rw [h2, if_neg (by decide), Bool.or_false]
        split <;> rfl
    | group v =>
      simp only [nodeName] at hd
      simp only [goStep, goGroup, timeFlag]
      rw [if_neg (by simpa using hd)]
      split <;> simp [uniqueName, Gen.emit]
    | attrGroup v =>
      simp only [nodeName] at hd
      simp only [goStep, goAttributeGroup, timeFlag]
      rw [if_neg (by simpa using hd)]
      split <;> simp [uniqueName, Gen.emit]
    | elem v =>
      simp only [nodeName] at hd
      simp only [goStep, goElement, timeFlag]
      rw [if_neg (by simpa using hd)]
      simp [Gen.emit]
    | attr v =>
      simp only [nodeName] at hd
      simp only [goStep, goAttribute, timeFlag]
      rw [if_neg (by simpa using hd)]
      simp [uniqueName, Gen.emit]

omit [Uni] in
theorem uniqueName_fst (b : Str) (g : Gen) : (uniqueName b g).1 = C14.numbered b (g.count.getNat b + 1) := by
  simp only [uniqueName, C14.numbered]
  by_cases e : g.count.getNat b + 1 = 1
  · rw [if_pos e, if_neg (by simpa using e)]
  · rw [if_neg e, if_pos e]

/-- The import of `encoding/xml`: when one of the structs is named differently from its component. -/
theorem xml_flag (tree : Tree) : (goGen tree).importEncodingXML =
    (decls tree).any fun x => isStruct x.1 && x.2 ≠ nodeName x.1 := by
  have := obs_eq (goLang tree) (goStep tree) tree (fun n _ => go_follows tree n) (fun g => g.importEncodingXML)
    (fun b x => b || (isStruct x.1 && x.2 ≠ nodeName x.1)) ?_
  · rw [goGen, this, foldl_or]
    rfl
  · intro n _ g hd
    have hd : g.ast.has (nodeName n) = false := hd.resolve_left (by simp [goLang])
    cases n with
    | simple v =>
      simp only [nodeName] at hd
      simp only [goStep, goSimpleType, isStruct]
      rw [if_neg (by simpa using hd)]
      by_cases h1 : v.list = true
      · simp only [h1, if_true, Bool.not_true, Bool.false_and, Bool.or_false]
        split <;> rfl
      · simp only [h1, Bool.false_eq_true, if_false, Bool.not_false, Bool.true_and]
        by_cases h2 : (v.union && decide (v.memberTypes.length > 0)) = true
        · rw [if_pos h2, h2, uniqueName_fst]
          simp only [goLang, if_true, nodeName, Bool.true_and]
          by_cases h3 : C14.numbered (goName v.name) (g.count.getNat (goName v.name) + 1) = v.name
          · simp [h3, uniqueName, Gen.emit]
          · rw [if_pos h3]; simp [h3, Gen.emit]
        · rw [if_neg h2]
          simp only [Bool.not_eq_true] at h2
          simp [h2, uniqueName, Gen.emit]
    | complex v =>
      simp only [nodeName] at hd
      simp only [goStep, goComplexType, isStruct, Bool.true_and]
      rw [if_neg (by simpa using hd), uniqueName_fst]
      simp only [goLang, if_true, nodeName]
      by_cases h3 : C14.numbered (goName v.name) (g.count.getNat (goName v.name) + 1) = v.name
      · simp only [h3, ne_eq, not_true, if_false, decide_false, Bool.or_false]
        split <;> rfl
      · rw [if_pos h3]
        simp only [ne_eq, h3, not_false_eq_true, decide_true, Bool.or_true]
        split <;> rfl
    | group v =>
      simp only [nodeName] at hd
      simp only [goStep, goGroup, isStruct, Bool.true_and]
      rw [if_neg (by simpa using hd), uniqueName_fst]
      simp only [goLang, if_true, nodeName]
      by_cases h3 : C14.numbered (goName v.name) (g.count.getNat (goName v.name) + 1) = v.name
      · simp [h3, uniqueName, Gen.emit]
      · rw [if_pos h3]; simp [h3, Gen.emit]
    | attrGroup v =>
      simp only [nodeName] at hd
      simp only [goStep, goAttributeGroup, isStruct, Bool.true_and]
      rw [if_neg (by simpa using hd), uniqueName_fst]
      simp only [goLang, if_true, nodeName]
      by_cases h3 : C14.numbered (goName v.name) (g.count.getNat (goName v.name) + 1) = v.name
      · simp [h3, uniqueName, Gen.emit]
      · rw [if_pos h3]; simp [h3, Gen.emit]
    | elem v =>
      simp only [nodeName] at hd
      simp only [goStep, goElement, isStruct]
      rw [if_neg (by simpa using hd)]
      simp [Gen.emit]
    | attr v =>
      simp only [nodeName] at hd
      simp only [goStep, goAttribute, isStruct]
      rw [if_neg (by simpa using hd)]
      simp [uniqueName, Gen.emit]

/-! ## The property -/

/-- The import lines of the generated file, by what is imported. -/
theorem source (pkg : Str) (tree : Tree) : goSource pkg tree =
    c!"// Code generated by xgen. DO NOT EDIT.\n\npackage " ++ (if pkg = [] then c!"schema" else pkg) ++ c!"\n" ++
    (match (goGen tree).importTime, (goGen tree).importEncodingXML with
      | true, true => c!"import (\n\t\"time\"\n\t\"encoding/xml\"\n)"
      | true, false => c!"import (\n\t\"time\"\n)"
      | false, true => c!"import (\n\t\"encoding/xml\"\n)"
      | false, false => []) ++ (goGen tree).field := by
  unfold goSource goImports packageName copyright
  cases (goGen tree).importTime <;> cases (goGen tree).importEncodingXML <;> rfl

theorem timeFlag_used (tree : Tree) (fn : Str) (n : Node Element) (h : timeFlag tree n = true) :
    c!"time.Time" ∈ usedTypes tree fn n := by
  unfold usedTypes
  refine List.mem_append_right _ ?_
  cases n with
  | simple v =>
    simp only [timeFlag, Bool.and_eq_true, decide_eq_true_eq] at h
    simp only [h.1, if_true, List.mem_singleton, h.2]
    rfl
  | complex v =>
    simp only [timeFlag, Bool.or_eq_true, List.any_eq_true, decide_eq_true_eq] at h
    simp only [List.mem_append, List.mem_map]
    rcases h with (h | h) | h
    · exact Or.inl (Or.inl (Or.inl (Or.inl h)))
    · exact Or.inl (Or.inl (Or.inl (Or.inr h)))
    · exact Or.inl (Or.inr h)
  | _ => cases h

/-- C16, no unused import of `time`: if it is imported, the code (not a comment) of a declaration uses `time.Time`. -/
theorem time_used (tree : Tree) (h : (goGen tree).importTime = true) :
    ∃ x ∈ decls tree, c!"time.Time" ∈ usedTypes tree x.2 x.1 ∧ c!"time.Time" <:+: code tree x.2 x.1 := by
  rw [time_flag, List.any_eq_true] at h
  obtain ⟨x, hx, hf⟩ := h
  exact ⟨x, hx, timeFlag_used _ _ _ hf, used_in_code _ _ _ _ (timeFlag_used _ _ _ hf)⟩

/-- C16, no unused import of `encoding/xml`. -/
theorem xml_used (tree : Tree) (h : (goGen tree).importEncodingXML = true) :
    ∃ x ∈ decls tree, c!"xml.Name" ∈ usedTypes tree x.2 x.1 ∧ c!"xml.Name" <:+: code tree x.2 x.1 := by
  rw [xml_flag, List.any_eq_true] at h
  obtain ⟨x, hx, hf⟩ := h
  have : c!"xml.Name" ∈ usedTypes tree x.2 x.1 := by
    unfold usedTypes
    rw [if_pos hf]
    exact List.mem_append_left _ (List.mem_singleton.2 rfl)
  exact ⟨x, hx, this, used_in_code _ _ _ _ this⟩

/-- The other direction is false for `time`: a simple type derived from a date or time. -/
theorem time_missing : ¬ ∀ tree : Tree,
    (∃ x ∈ @decls asciiUni tree, c!"time.Time" ∈ @usedTypes asciiUni tree x.2 x.1) →
      (@goGen asciiUni tree).importTime = true := by
  intro h
  have := h [some (.simple { name := c!"Day", base := c!"time.Time" })] ⟨_, List.mem_cons_self, by decide +kernel⟩
  revert this
  decide +kernel

/-- The other direction is false for `encoding/xml`: an attribute of type QName. -/
theorem xml_missing : ¬ ∀ tree : Tree,
    (∃ x ∈ @decls asciiUni tree, c!"xml.Name" ∈ @usedTypes asciiUni tree x.2 x.1) →
      (@goGen asciiUni tree).importEncodingXML = true := by
  intro h
  have := h [some (.complex { name := c!"T", attributes := [{ name := c!"q", type := c!"xml.Name" }] })]
    ⟨_, List.mem_cons_self, by decide +kernel⟩
  revert this
  decide +kernel

/-- The places whose use of `time.Time` goes unnoticed: simple types that are no lists, union members, groups, attribute
groups, top-level elements and attributes; group references and the base of complex types. -/
def blind (tree : Tree) : Node Element → List Str
  | .simple v => if v.list then [] else usedTypes tree v.name (.simple v)
  | .complex v => v.groups.map (fun r => goType tree r.ref) ++ (if v.base ≠ [] then [genGoFieldType v.base] else [])
  | n => usedTypes tree (nodeName n) n

/-- C16, the other direction for `time`, for trees without uses in blind places.  Missing: uses there (false,
`time_missing`). -/
theorem time_partial (tree : Tree) (hb : ∀ x ∈ decls tree, c!"time.Time" ∉ blind tree x.1) :
    (goGen tree).importTime = true ↔ ∃ x ∈ decls tree, c!"time.Time" ∈ usedTypes tree x.2 x.1 := by
  constructor
  · intro h
    obtain ⟨x, hx, h1, _⟩ := time_used tree h
    exact ⟨x, hx, h1⟩
  · rintro ⟨⟨n, fn⟩, hx, hu⟩
    have hn := hb _ hx
    rw [time_flag, List.any_eq_true]
    refine ⟨_, hx, ?_⟩
    have hxml : ∀ b : Bool, c!"time.Time" ∉ (if b = true then [c!"xml.Name"] else []) := by
      intro b; cases b <;> simp
    unfold usedTypes at hu
    rw [List.mem_append] at hu
    have hu := hu.resolve_left (hxml _)
    cases n with
    | simple v =>
      simp only [blind] at hn
      by_cases h1 : v.list = true
      · simp only [h1, if_true, List.mem_singleton] at hu
        have h2 := (genGoFieldType_time _).1 hu.symm
        simp [timeFlag, h1, h2]
      · rw [if_neg h1] at hn
        exact absurd (by unfold usedTypes; exact List.mem_append_right _ hu) hn
    | complex v =>
      simp only [blind, List.mem_append, not_or] at hn
      simp only [List.mem_append] at hu
      simp only [timeFlag, Bool.or_eq_true, List.any_eq_true, decide_eq_true_eq]
      rcases hu with (((h | h) | h) | h) | h
      · exact Or.inl (Or.inl (List.mem_map.1 h))
      · exact Or.inl (Or.inr (List.mem_map.1 h))
      · exact absurd h hn.1
      · exact Or.inr (List.mem_map.1 h)
      · exact absurd h hn.2
    | _ => exact absurd (by simp only [blind]; unfold usedTypes; exact List.mem_append_right _ hu) hn

/-- C16, the other direction for `encoding/xml`, for trees without fields or bases of type `xml.Name` (that is, without
uses of QName or NOTATION).  Missing: those (false, `xml_missing`). -/
theorem xml_partial (tree : Tree) (hb : ∀ x ∈ decls tree, c!"xml.Name" ∉ usedTypes tree (nodeName x.1) x.1) :
    (goGen tree).importEncodingXML = true ↔ ∃ x ∈ decls tree, c!"xml.Name" ∈ usedTypes tree x.2 x.1 := by
  constructor
  · intro h
    obtain ⟨x, hx, h1, _⟩ := xml_used tree h
    exact ⟨x, hx, h1⟩
  · rintro ⟨x, hx, hu⟩
    have hn := hb _ hx
    rw [xml_flag, List.any_eq_true]
    refine ⟨x, hx, ?_⟩
    refine Decidable.byContradiction fun hc => hn ?_
    unfold usedTypes at hu ⊢
    rw [if_neg hc] at hu
    exact List.mem_append_right _ hu

/-- A complex type with a date: imported and used. -/
example : (@goGen asciiUni [some (.complex { name := c!"t", elements := [{ name := c!"e", type := c!"time.Time" }] })]).importTime
    = true ∧ (@goGen asciiUni [some (.complex { name := c!"t" })]).importEncodingXML = true := by decide +kernel

/-- ... and it meets the hypothesis of `time_partial` and `xml_partial`. -/
example : (∀ x ∈ @decls asciiUni [some (.complex { name := c!"t", elements := [{ name := c!"e", type := c!"time.Time" }] })],
    c!"time.Time" ∉ @blind asciiUni [some (.complex { name := c!"t", elements := [{ name := c!"e", type := c!"time.Time" }] })]
      x.1) := by decide +kernel

end Xgen.C16
