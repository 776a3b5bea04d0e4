import Verif.Lemmas.Starts

/-! # C56: the names declared by a generated file

Reading the lines of the complete generated file that start a declaration gives exactly the names of the components, first of
each schema name, in document order, numbered from the second use of a target name on. -/

namespace Xgen.C56
open Decl
open C54 (Part)
variable [Uni]

/-! ## The names to expect -/

/-- The components to declare: the first of each name, apart from those declared whenever they occur. -/
def firsts (free : Node Element → Bool) : List (Node Element) → List (Node Element)
  | [] => []
  | n :: ns => n :: if free n then firsts free ns else (firsts free ns).filter fun m => free m || nodeName m ≠ nodeName n

/-- Their names: a target name gets the number of its uses among the numbered ones, from the second on. -/
def finals (base : Node Element → Str) (numbered : Node Element → Bool) : List Str → List (Node Element) → List Str
  | _, [] => []
  | used, n :: ns =>
    if numbered n then C14.numbered (base n) (used.count (base n) + 1) :: finals base numbered (base n :: used) ns
    else base n :: finals base numbered used ns

omit [Uni] in
theorem firsts_eq (L : Lang) (ns : List (Node Element)) : declared L ns = firsts L.free ns := by
  induction ns with
  | nil => rfl
  | cons n ns ih => rw [declared, firsts, ih]

omit [Uni] in
theorem finals_eq (L : Lang) (used : List Str) (ns : List (Node Element)) :
    (named L used ns).map (·.2) = finals L.base L.unique used ns := by
  induction ns generalizing used with
  | nil => rfl
  | cons n ns ih =>
    rw [named, finals, List.map_cons, ih, finalName]
    by_cases h : L.unique n = true
    · simp only [h, if_true]
    · simp only [h, if_false]; rfl

/-! ## Which trees -/

/-- The names and types in a component. -/
def strings : Node Element → List Str
  | .simple v => v.name :: v.base :: (v.memberTypes.map (·.1) ++ v.memberTypes.map (·.2) ++ v.enum)
  | .attr v => [v.name, v.type]
  | .elem v => [v.name, v.type]
  | .complex v => v.name :: v.base :: (v.attributes.map (·.name) ++ v.attributes.map (·.type) ++ v.elements.map (·.name) ++
      v.elements.map (·.type) ++ v.groups.map (·.name) ++ v.groups.map (·.ref) ++ v.attributeGroup.map (·.name) ++
      v.attributeGroup.map (·.ref))
  | .group v => v.name :: (v.elements.map (·.name) ++ v.elements.map (·.type) ++ v.groups.map (·.name) ++ v.groups.map (·.ref))
  | .attrGroup v => v.name :: (v.attributes.map (·.name) ++ v.attributes.map (·.type))

/-- No name or type contains a newline (documentation may), and no component name contains white space. -/
def Sound (tree : Tree) : Prop :=
  ∀ n ∈ nodes tree, (∀ s ∈ strings n, '\n' ∉ s) ∧ Clean notInNames (nodeName n)

instance (tree : Tree) : Decidable (Sound tree) := by unfold Sound Clean; infer_instance

omit [Uni] in
theorem Sound.types {tree : Tree} (h : Sound tree) : ∀ t ∈ treeTypes tree, '\n' ∉ t := by
  intro t ht
  unfold treeTypes at ht
  obtain ⟨n, hn, hs⟩ := List.mem_filterMap.1 ht
  cases n with
  | none => cases hs
  | some n =>
    have := (h n (List.mem_filterMap.2 ⟨some n, hn, rfl⟩)).1
    cases n with
    | simple v => injection hs with e; subst e; exact this _ (by simp [strings])
    | attr v => injection hs with e; subst e; exact this _ (by simp [strings])
    | elem v => injection hs with e; subst e; exact this _ (by simp [strings])
    | complex v => first | (injection hs with e; subst e; exact this _ (by simp [strings])) | cases hs
    | group v => cases hs
    | attrGroup v => cases hs

omit [Uni] in
theorem resolved {tree : Tree} {s : Str} (hs : '\n' ∉ s) (h : Sound tree) : '\n' ∉ resolveIn tree s := resolveIn_absent hs h.types

omit [Uni] in
theorem membered {tree : Tree} {m : Str × Str} (h1 : '\n' ∉ m.1) (h2 : '\n' ∉ m.2) (h : Sound tree) : '\n' ∉ memberType tree m := by
  unfold memberType
  split
  · rcases resolve_cases tree m.1 with e | e
    · rw [e]; exact h1
    · exact h.types _ e
  · exact h2

omit [Uni] in
theorem in_complex {v : ComplexType} (h : ∀ s ∈ strings (.complex v), '\n' ∉ s) :
    '\n' ∉ v.name ∧ '\n' ∉ v.base ∧ (∀ a ∈ v.attributes, '\n' ∉ a.name ∧ '\n' ∉ a.type) ∧
    (∀ e ∈ v.elements, '\n' ∉ e.name ∧ '\n' ∉ e.type) ∧ (∀ g ∈ v.groups, '\n' ∉ g.name ∧ '\n' ∉ g.ref) ∧
    (∀ a ∈ v.attributeGroup, '\n' ∉ a.name ∧ '\n' ∉ a.ref) := by
  simp only [strings, List.mem_cons, List.mem_append, List.mem_map] at h
  refine ⟨h _ (by simp), h _ (by simp), fun a ha => ⟨h _ ?_, h _ ?_⟩, fun a ha => ⟨h _ ?_, h _ ?_⟩, fun a ha => ⟨h _ ?_, h _ ?_⟩,
    fun a ha => ⟨h _ ?_, h _ ?_⟩⟩
  · exact .inr (.inr (.inl (.inl (.inl (.inl (.inl (.inl (.inl ⟨a, ha, rfl⟩))))))))
  · exact .inr (.inr (.inl (.inl (.inl (.inl (.inl (.inl (.inr ⟨a, ha, rfl⟩))))))))
  · exact .inr (.inr (.inl (.inl (.inl (.inl (.inl (.inr ⟨a, ha, rfl⟩)))))))
  · exact .inr (.inr (.inl (.inl (.inl (.inl (.inr ⟨a, ha, rfl⟩))))))
  · exact .inr (.inr (.inl (.inl (.inl (.inr ⟨a, ha, rfl⟩)))))
  · exact .inr (.inr (.inl (.inl (.inr ⟨a, ha, rfl⟩))))
  · exact .inr (.inr (.inl (.inr ⟨a, ha, rfl⟩)))
  · exact .inr (.inr (.inr ⟨a, ha, rfl⟩))

omit [Uni] in
theorem in_group {v : Group} (h : ∀ s ∈ strings (.group v), '\n' ∉ s) :
    '\n' ∉ v.name ∧ (∀ e ∈ v.elements, '\n' ∉ e.name ∧ '\n' ∉ e.type) ∧ (∀ g ∈ v.groups, '\n' ∉ g.name ∧ '\n' ∉ g.ref) := by
  simp only [strings, List.mem_cons, List.mem_append, List.mem_map] at h
  refine ⟨h _ (by simp), fun a ha => ⟨h _ ?_, h _ ?_⟩, fun a ha => ⟨h _ ?_, h _ ?_⟩⟩
  · exact .inr (.inl (.inl (.inl ⟨a, ha, rfl⟩)))
  · exact .inr (.inl (.inl (.inr ⟨a, ha, rfl⟩)))
  · exact .inr (.inl (.inr ⟨a, ha, rfl⟩))
  · exact .inr (.inr ⟨a, ha, rfl⟩)

omit [Uni] in
theorem in_attrGroup {v : AttributeGroup} (h : ∀ s ∈ strings (.attrGroup v), '\n' ∉ s) :
    '\n' ∉ v.name ∧ (∀ a ∈ v.attributes, '\n' ∉ a.name ∧ '\n' ∉ a.type) := by
  simp only [strings, List.mem_cons, List.mem_append, List.mem_map] at h
  refine ⟨h _ (by simp), fun a ha => ⟨h _ ?_, h _ ?_⟩⟩
  · exact .inr (.inl ⟨a, ha, rfl⟩)
  · exact .inr (.inr ⟨a, ha, rfl⟩)

omit [Uni] in
theorem in_simple {v : SimpleType} (h : ∀ s ∈ strings (.simple v), '\n' ∉ s) :
    '\n' ∉ v.name ∧ '\n' ∉ v.base ∧ (∀ m ∈ toSortedPairs v.memberTypes, '\n' ∉ m.1 ∧ '\n' ∉ m.2) ∧ ∀ e ∈ v.enum, '\n' ∉ e := by
  simp only [strings, List.mem_cons, List.mem_append, List.mem_map] at h
  refine ⟨h _ (by simp), h _ (by simp), fun a ha => ⟨h _ ?_, h _ ?_⟩, fun e he => h _ (by simp [he])⟩
  · exact .inr (.inr (.inl (.inl ⟨a, (C08.toSortedPairs_perm _).mem_iff.1 ha, rfl⟩)))
  · exact .inr (.inr (.inl (.inr ⟨a, (C08.toSortedPairs_perm _).mem_iff.1 ha, rfl⟩)))

/-- Whether a component has members: the others become synonyms in Go and C. -/
def isStruct : Node Element → Bool
  | .simple v => !v.list && (v.union && v.memberTypes.length > 0)
  | .attr _ => false
  | .elem _ => false
  | _ => true

/-! ## Reading -/

/-- The name after a keyword at the start of a line. -/
def header (kw l : Str) : Option Str :=
  if kw <+: l then some ((l.drop kw.length).takeWhile fun c => c ≠ ' ' ∧ c ≠ '\t') else none

/-- What lines inside of declarations start with. -/
def inner (c : Char) : Bool := c ∈ ['\r', '/', '\t', '}', '@', '#']

omit [Uni] in
theorem header_eq {kw n t : Str} {b : Char} (hn : ' ' ∉ n) (hn2 : '\t' ∉ n) (hb : b = ' ' ∨ b = '\t') :
    header kw (kw ++ n ++ b :: t) = some n := by
  have h1 : ∀ x ∈ n, decide (x ≠ ' ' ∧ x ≠ '\t') = true := fun x hx => by
    simp only [decide_eq_true_eq]
    exact ⟨fun e => hn (e ▸ hx), fun e => hn2 (e ▸ hx)⟩
  have h2 : decide (b ≠ ' ' ∧ b ≠ '\t') = false := by rcases hb with rfl | rfl <;> decide
  unfold header
  rw [if_pos ⟨n ++ b :: t, by simp⟩, List.append_assoc, List.drop_left, List.takeWhile_append_of_pos h1, List.takeWhile_cons, h2]
  simp

omit [Uni] in
theorem header_none {kw l : Str} {c : Char} (hk : kw.head? = some c) (hc : inner c = false)
    (h : ∀ d, l.head? = some d → inner d = true) : header kw l = none := by
  unfold header
  rw [if_neg]
  rintro ⟨t, rfl⟩
  cases kw with
  | nil => cases hk
  | cons d kw =>
    cases hk
    have := h c rfl
    rw [hc] at this
    cases this

omit [Uni] in
theorem outer_inner (c : Char) (h : outer c = true) : inner c = true := by
  unfold outer at h
  unfold inner
  simp only [List.mem_cons, List.not_mem_nil, or_false, decide_eq_true_eq] at h ⊢
  rcases h with h | h | h | h <;> simp [h]

omit [Uni] in
/-- All declarations of a file. -/
theorem whole {r : Str → Option Str} {L : Lang} {pre : Str} {used : List Str} {ns : List (Node Element)}
    (hp : Part (List.filterMap r) pre []) (h : ∀ x ∈ named L used ns, Part (List.filterMap r) (L.text x.1 x.2) [x.2]) (hr : r [] = none) :
    (splitOn '\n' (pre ++ render L used ns)).filterMap r = finals L.base L.unique used ns := by
  rw [render_named, ← finals_eq]
  have := (hp.append (Part.flatMap h)).done (tail := []) (by simp [splitOn, hr])
  rw [List.append_nil] at this
  exact this

omit [Uni] in
theorem mem_nodes {L : Lang} {ns : List (Node Element)} {used : List Str} {x : Node Element × Str}
    (hx : x ∈ named L used (declared L ns)) : x.1 ∈ ns := by
  have : x.1 ∈ (named L used (declared L ns)).map (·.1) := List.mem_map.2 ⟨x, hx, rfl⟩
  rw [map_fst_named] at this
  exact (declared_sublist L ns).subset this

/-! ## Go -/

namespace Go

/-- The declared names of a Go source. -/
def names (text : Str) : List Str := (splitOn '\n' text).filterMap (header c!"type ")

omit [Uni] in
theorem quiet (l : Str) (h : ∀ c, l.head? = some c → inner c = true) : header c!"type " l = none :=
  header_none rfl (by decide) h

omit [Uni] in
theorem decl {fn doc t body : Str} {b : Char} (hfn : Clean notInNames fn) (hb : b = ' ' ∨ b = '\t') (ht : '\n' ∉ t)
    (hc : calm inner true body = true) : Starts inner (goDecl fn doc (b :: t ++ '\n' :: body)) (c!"type " ++ fn ++ b :: t) body where
  text := ⟨genFieldComment fn doc c!"//", Outer.comment fn doc (hfn _ (by decide)), by simp [goDecl]⟩
  line := by rcases hb with rfl | rfl <;> simp [hfn '\n' (by decide), ht]
  rest := hc

/-- The rest of the head line, after the name. -/
def rest (tree : Tree) : Node Element → Str
  | .simple v =>
    if v.list then c!" []" ++ genGoFieldType (genGoFieldType (resolveIn tree v.base))
    else if v.union && decide (v.memberTypes.length > 0) then c!" struct {"
    else c!" " ++ genGoFieldType (resolveIn tree v.base)
  | .attr v => c!"\t" ++ goPlural v.plural ++ genGoFieldType (resolveIn tree v.type)
  | .elem v => c!"\t" ++ goPlural v.plural ++ genGoFieldType (resolveIn tree v.type)
  | _ => c!" struct {"

variable [UniLaws]

theorem name_nl {s : Str} (h : '\n' ∉ s) : '\n' ∉ goName s := goName_absent (by decide) h
theorem type_nl {s : Str} (h : '\n' ∉ s) : '\n' ∉ genGoFieldType s := goType_absent (by decide) (by decide) h

theorem xmlName (fn : Str) {n : Str} (h : '\n' ∉ n) : calm inner true (goXMLNameLine fn n) = true := by
  unfold goXMLNameLine
  split
  · simp [calm, inner, calm_inside h]
  · rfl

theorem plural_nl (b : Bool) : '\n' ∉ goPlural b := by cases b <;> decide

theorem attrs {tree : Tree} (hs : Sound tree) {as : List Attribute} (h : ∀ a ∈ as, '\n' ∉ a.name ∧ '\n' ∉ a.type) :
    calm inner true (as.flatMap (goAttrLine tree)) = true := calm_flatMap fun a ha => by
  obtain ⟨h1, h2⟩ := h a ha
  simp only [goAttrLine, List.append_assoc]
  cases a.optional <;>
    simp [calm, inner, calm_inside (name_nl h1), calm_inside (type_nl (resolved h2 hs)), calm_inside h1]

theorem groups {tree : Tree} (hs : Sound tree) {gs : List GroupRef} (h : ∀ a ∈ gs, '\n' ∉ a.name ∧ '\n' ∉ a.ref) :
    calm inner true (gs.flatMap (goGroupLine tree)) = true := calm_flatMap fun a ha => by
  obtain ⟨h1, h2⟩ := h a ha
  simp only [goGroupLine, List.append_assoc]
  simp [calm, inner, calm_inside (name_nl h1), calm_inside (type_nl (resolved h2 hs)), calm_inside (plural_nl _)]

theorem base_line {s : Str} (h : '\n' ∉ s) : calm inner true (goBaseLine s) = true := by
  unfold goBaseLine
  split
  · simp only [List.append_assoc]
    split <;> simp [calm, inner, calm_inside (type_nl h)]
  · rfl

theorem text_starts {tree : Tree} (hs : Sound tree) {n : Node Element} (hn : n ∈ nodes tree) {fn : Str} (hfn : Clean notInNames fn) :
    ∃ body, Starts inner ((C15.goLang tree).text n fn) (c!"type " ++ fn ++ rest tree n) body ∧ (isStruct n = false → body = []) := by
  have hstr := (hs n hn).1
  cases n with
  | simple v =>
    obtain ⟨h0, hb, hm, -⟩ := in_simple hstr
    have hb := type_nl (resolved hb hs)
    simp only [C15.goLang, rest, isStruct]
    by_cases h1 : v.list = true
    · rw [if_pos h1, if_pos h1]
      exact ⟨_, decl (t := c!"[]" ++ genGoFieldType (genGoFieldType (resolveIn tree v.base))) (body := []) hfn (.inl rfl) (by simp [type_nl hb]) rfl,
        fun _ => rfl⟩
    · rw [if_neg h1, if_neg h1]
      by_cases h2 : (v.union && decide (v.memberTypes.length > 0)) = true
      · rw [if_pos h2, if_pos h2]
        have := decl (fn := fn) (doc := v.doc) (b := ' ') (t := c!"struct {")
          (body := goXMLNameLine fn v.name ++ ((toSortedPairs v.memberTypes).flatMap (goMemberLine tree) ++ c!"}\n")) hfn (.inl rfl) (by decide)
          (by
            rw [calm_append true (xmlName fn h0), calm_append true]
            · rfl
            · refine calm_flatMap fun m hm' => ?_
              obtain ⟨h1, h2⟩ := hm m hm'
              simp only [goMemberLine, List.append_assoc]
              simp [calm, inner, calm_inside (name_nl h1), calm_inside (type_nl (membered h1 h2 hs))])
        exact ⟨_, by simpa using this, fun h => absurd h (by simp [h1, h2])⟩
      · rw [if_neg h2, if_neg h2]
        exact ⟨_, decl (t := genGoFieldType (resolveIn tree v.base)) (body := []) hfn (.inl rfl) hb rfl, fun _ => rfl⟩
  | attr v =>
    have hb := type_nl (resolved (hstr v.type (by simp [strings])) hs)
    have := decl (fn := fn) (doc := v.doc) (b := '\t') (t := goPlural v.plural ++ genGoFieldType (resolveIn tree v.type)) (body := []) hfn (.inr rfl)
      (by simp [hb, plural_nl]) rfl
    exact ⟨_, by simpa [C15.goLang, rest] using this, fun _ => rfl⟩
  | elem v =>
    have hb := type_nl (resolved (hstr v.type (by simp [strings])) hs)
    have := decl (fn := fn) (doc := v.doc) (b := '\t') (t := goPlural v.plural ++ genGoFieldType (resolveIn tree v.type)) (body := []) hfn (.inr rfl)
      (by simp [hb, plural_nl]) rfl
    exact ⟨_, by simpa [C15.goLang, rest] using this, fun _ => rfl⟩
  | complex v =>
    obtain ⟨h0, hb, ha, he, hg, hag⟩ := in_complex hstr
    have := decl (fn := fn) (doc := v.doc) (b := ' ') (t := c!"struct {")
      (body := goXMLNameLine fn v.name ++ (v.attributeGroup.flatMap (goAttrGroupLine tree) ++ (v.attributes.flatMap (goAttrLine tree) ++
        (v.groups.flatMap (goGroupLine tree) ++ (v.elements.flatMap (goElemLine tree) ++ (goBaseLine v.base ++ c!"}\n")))))) hfn (.inl rfl) (by decide)
      (by
        rw [calm_append true (xmlName fn h0), calm_append true, calm_append true (attrs hs ha), calm_append true (groups hs hg), calm_append true,
          calm_append true (base_line hb)]
        · rfl
        · refine calm_flatMap fun a ha => ?_
          obtain ⟨h1, h2⟩ := he a ha
          simp only [goElemLine, List.append_assoc]
          simp [calm, inner, calm_inside (name_nl h1), calm_inside (type_nl (resolved h2 hs)), calm_inside (plural_nl _), calm_inside h1]
        · refine calm_flatMap fun a ha => ?_
          obtain ⟨h1, h2⟩ := hag a ha
          simp only [goAttrGroupLine, List.append_assoc]
          simp [calm, inner, calm_inside (name_nl h1), calm_inside (type_nl (resolved h2 hs))])
    exact ⟨_, by simpa [C15.goLang, goComplexContent, rest] using this, fun h => by cases h⟩
  | group v =>
    obtain ⟨h0, he, hg⟩ := in_group hstr
    have := decl (fn := fn) (doc := v.doc) (b := ' ') (t := c!"struct {")
      (body := goXMLNameLine fn v.name ++ (v.elements.flatMap (goGroupElemLine tree) ++ (v.groups.flatMap (goGroupLine tree) ++ c!"}\n")))
      hfn (.inl rfl) (by decide)
      (by
        rw [calm_append true (xmlName fn h0), calm_append true, calm_append true (groups hs hg)]
        · rfl
        · refine calm_flatMap fun a ha => ?_
          obtain ⟨h1, h2⟩ := he a ha
          simp only [goGroupElemLine, List.append_assoc]
          simp [calm, inner, calm_inside (name_nl h1), calm_inside (type_nl (resolved h2 hs)), calm_inside (plural_nl _)])
    exact ⟨_, by simpa [C15.goLang, rest] using this, fun h => by cases h⟩
  | attrGroup v =>
    obtain ⟨h0, ha⟩ := in_attrGroup hstr
    have := decl (fn := fn) (doc := v.doc) (b := ' ') (t := c!"struct {")
      (body := goXMLNameLine fn v.name ++ (v.attributes.flatMap (goAttrLine tree) ++ c!"}\n")) hfn (.inl rfl) (by decide)
      (by rw [calm_append true (xmlName fn h0), calm_append true (attrs hs ha)]; rfl)
    exact ⟨_, by simpa [C15.goLang, rest] using this, fun h => by cases h⟩

omit [UniLaws] in
theorem rest_form (tree : Tree) (n : Node Element) : ∃ b t, (b = ' ' ∨ b = '\t') ∧ rest tree n = b :: t := by
  cases n with
  | simple v =>
    simp only [rest]
    split
    · exact ⟨_, _, .inl rfl, rfl⟩
    · split <;> exact ⟨_, _, .inl rfl, rfl⟩
  | attr v => exact ⟨_, _, .inr rfl, rfl⟩
  | elem v => exact ⟨_, _, .inr rfl, rfl⟩
  | _ => exact ⟨_, _, .inl rfl, rfl⟩

theorem text_names {tree : Tree} (hs : Sound tree) {n : Node Element} (hn : n ∈ nodes tree) {fn : Str} (hfn : Clean notInNames fn) :
    Part (List.filterMap (header c!"type ")) ((C15.goLang tree).text n fn) [fn] := by
  obtain ⟨body, h, -⟩ := text_starts hs hn hfn
  obtain ⟨b, t, hb, e⟩ := rest_form tree n
  refine h.part quiet outer_inner ?_
  rw [e]
  exact header_eq (hfn _ (by decide)) (hfn _ (by decide)) hb

omit [Uni] [UniLaws] in
theorem names_paren {s : Str} (h : s.head? = none ∨ s.head? = some '\r') : names (')' :: s) = names s := by
  cases s with
  | nil => decide
  | cons c s =>
    rcases h with h | h
    · cases h
    · injection h with h
      subst h
      obtain ⟨p, ps, e1, e2⟩ := splitOn_cons_ne (sep := '\n') (c := '\r') (by decide) s
      obtain ⟨q, qs, e3, e4⟩ := splitOn_cons_ne (sep := '\n') (c := ')') (by decide) ('\r' :: s)
      unfold names
      rw [e2] at e3
      injection e3 with e5 e6
      rw [e4, e2, ← e5, ← e6, List.filterMap_cons, List.filterMap_cons]
      have h1 : header c!"type " (')' :: '\r' :: p) = none := by simp [header]
      have h2 : header c!"type " ('\r' :: p) = none := by simp [header]
      rw [h1, h2]

omit [UniLaws] in
theorem head_field (tree : Tree) : (goGen tree).field.head? = none ∨ (goGen tree).field.head? = some '\r' := by
  rw [C15.go]
  cases declared (C15.goLang tree) (nodes tree) with
  | nil => exact .inl rfl
  | cons n ns =>
    refine .inr ?_
    have h : ∀ (fn doc c x : Str), (goDecl fn doc c ++ x).head? = some '\r' := by
      intro fn doc c x
      unfold goDecl genFieldComment
      split <;> simp
    rw [render]
    cases n <;> simp only [C15.goLang] <;> exact h _ _ _ _

/-- C56, Go: the names declared by a source file. -/
theorem file_names (pkg : Str) (tree : Tree) (hp : '\n' ∉ pkg) (hs : Sound tree) : names (goSource pkg tree) =
    finals (fun n => Names.strict (nodeName n)) (fun n => match n with | .elem _ => false | _ => true) []
      (firsts (fun _ => false) (nodes tree)) := by
  have hpk : '\n' ∉ packageName pkg := by
    unfold packageName
    split
    · decide
    · exact hp
  have hbody : ∀ pre, Part (List.filterMap (header c!"type ")) pre [] → names (pre ++ (goGen tree).field) =
      finals (fun n => Names.strict (nodeName n)) (fun n => match n with | .elem _ => false | _ => true) []
      (firsts (fun _ => false) (nodes tree)) := by
    intro pre hpre
    rw [C15.go, names, whole hpre ?_ (by decide), firsts_eq]
    · congr 1
      funext n
      exact Names.go_name _
    · intro x hx
      have hn := mem_nodes hx
      refine text_names hs hn fun c hc => named_absent ((by decide : ∀ x ∈ notInNames, x.isDigit = false) c hc) hx ?_
      exact goName_absent ((by decide : ∀ x ∈ notInNames, Sym x) c hc) ((hs _ hn).2 c hc)
  have p1 : Part (List.filterMap (header c!"type ")) (copyright ++ c!"\n" ++ c!"\n" ++ (c!"package " ++ packageName pkg ++ c!"\n")) [] := by
    refine Part.append (xs := []) (ys := []) (Part.append (xs := []) (ys := []) (Part.lines (Lines.one (by decide)) (by decide))
      (Part.lines (Lines.one (a := []) (by decide)) (by decide))) (Part.lines (Lines.one (by simp [hpk])) (by simp [header]))
  have hc : calm inner true ((if (goGen tree).importTime then c!"\t\"time\"\n" else []) ++
      (if (goGen tree).importEncodingXML then c!"\t\"encoding/xml\"\n" else [])) = true := by
    cases (goGen tree).importTime <;> cases (goGen tree).importEncodingXML <;> rfl
  unfold goSource goImports
  simp only
  generalize (if (goGen tree).importTime then c!"\t\"time\"\n" else []) ++
    (if (goGen tree).importEncodingXML then c!"\t\"encoding/xml\"\n" else []) = i at hc ⊢
  split
  · have p2 : Part (List.filterMap (header c!"type ")) (c!"import (\n" ++ i) [] :=
      Part.append (xs := []) (ys := []) (Part.lines (Lines.one (a := c!"import (") (by decide)) (by decide)) (calm_part quiet hc)
    obtain ⟨ls, h1, h2⟩ := p1.append p2
    have e : ∀ i x : Str, copyright ++ c!"\n\npackage " ++ packageName pkg ++ c!"\n" ++ (c!"import (\n" ++ i ++ c!")") ++ x =
      (copyright ++ c!"\n" ++ c!"\n" ++ (c!"package " ++ packageName pkg ++ c!"\n")) ++ (c!"import (\n" ++ i) ++ (')' :: x) := by
        intro i x; simp
    rw [e, names, h1, h2]
    have := names_paren (head_field tree)
    have h0 := hbody [] Part.nil
    rw [List.nil_append] at h0
    rw [h0] at this
    exact this
  · have := hbody _ p1
    rw [← this]
    simp

end Go

/-! ## Java -/

namespace Java

/-- The declared names of a Java source. -/
def names (text : Str) : List Str := (splitOn '\n' text).filterMap (header c!"public class ")

omit [Uni] in
theorem quiet (l : Str) (h : ∀ c, l.head? = some c → inner c = true) : header c!"public class " l = none :=
  header_none rfl (by decide) h

omit [Uni] in
theorem decl {pre fn t body : Str} (hpre : Outer pre) (hfn : Clean notInNames fn) (ht : '\n' ∉ t)
    (hc : calm inner true body = true) :
    Starts inner (pre ++ (c!"public class " ++ fn ++ ' ' :: t ++ c!"\n") ++ body) (c!"public class " ++ fn ++ ' ' :: t) body where
  text := ⟨pre, hpre, rfl⟩
  line := by simp [hfn '\n' (by decide), ht]
  rest := hc

omit [Uni] in
theorem commented {fn doc t body : Str} (hfn : Clean notInNames fn) (ht : '\n' ∉ t) (hc : calm inner true body = true) :
    Starts inner (genFieldComment fn doc c!"//" ++ (c!"public class " ++ fn ++ ' ' :: t ++ c!"\n") ++ body) (c!"public class " ++ fn ++ ' ' :: t) body :=
  decl (Outer.comment fn doc (hfn _ (by decide))) hfn ht hc

omit [Uni] in
theorem wrapped {pre kind name fn content : Str} (hpre : Outer pre) (hfn : Clean notInNames fn)
    (hk : '\n' ∉ kind) (hn : '\n' ∉ name) (hc : calm inner true content = true) :
    Starts inner (pre ++ javaWrapper kind name fn content) (c!"public class " ++ fn ++ c!" {") (content ++ c!"}\n") := by
  have h1 : calm outer true (c!"@XmlAccessorType(XmlAccessType.FIELD)\n@" ++ kind ++ c!"(required = true, name = \"" ++ name ++ c!"\")\n") = true := by
    simp only [List.append_assoc]
    simp [calm, outer, calm_inside hk, calm_inside hn]
  have := decl (hpre.append (Outer.calm h1)) hfn (t := c!"{") (body := content ++ c!"}\n") (by decide)
    (by rw [calm_append true hc]; rfl)
  simpa [javaWrapper] using this

/-- The rest of the head line, after the name. -/
def rest (tree : Tree) : Node Element → Str
  | .complex v => javaExtends tree v.base ++ c!" {"
  | _ => c!" {"

variable [UniLaws]

theorem name_nl {s : Str} (h : '\n' ∉ s) : '\n' ∉ javaName s := cName_absent (by decide) h
theorem type_nl {s : Str} (h : '\n' ∉ s) : '\n' ∉ genJavaFieldType s := javaType_absent (by decide) h

omit [Uni] [UniLaws] in
theorem plural_nl (b : Bool) {t : Str} (h : '\n' ∉ t) : '\n' ∉ javaPlural b t := by cases b <;> simp [javaPlural, h]

theorem attrs {tree : Tree} (hs : Sound tree) {as : List Attribute} (h : ∀ a ∈ as, '\n' ∉ a.name ∧ '\n' ∉ a.type) :
    calm inner true (as.flatMap (javaAttrLine tree)) = true := calm_flatMap fun a ha => by
  obtain ⟨h1, h2⟩ := h a ha
  simp only [javaAttrLine, List.append_assoc]
  cases a.optional <;>
    simp [calm, inner, calm_inside (name_nl h1), calm_inside (type_nl (resolved h2 hs)), calm_inside h1]

theorem elems {tree : Tree} (hs : Sound tree) {es : List Element} (h : ∀ a ∈ es, '\n' ∉ a.name ∧ '\n' ∉ a.type) :
    calm inner true (es.flatMap (javaElemLine tree)) = true := calm_flatMap fun a ha => by
  obtain ⟨h1, h2⟩ := h a ha
  simp only [javaElemLine, List.append_assoc]
  simp [calm, inner, calm_inside (name_nl h1), calm_inside (plural_nl _ (type_nl (resolved h2 hs))), calm_inside h1]

theorem groups {tree : Tree} (hs : Sound tree) {gs : List GroupRef} (h : ∀ a ∈ gs, '\n' ∉ a.name ∧ '\n' ∉ a.ref) :
    calm inner true (gs.flatMap (javaGroupLine tree)) = true := calm_flatMap fun a ha => by
  obtain ⟨h1, h2⟩ := h a ha
  simp only [javaGroupLine, List.append_assoc]
  simp [calm, inner, calm_inside (name_nl h1), calm_inside (plural_nl _ (type_nl (resolved h2 hs)))]

theorem text_starts {tree : Tree} (hs : Sound tree) {n : Node Element} (hn : n ∈ nodes tree) {fn : Str} (hfn : Clean notInNames fn) :
    ∃ body, Starts inner ((C15.javaLang tree).text n fn) (c!"public class " ++ fn ++ rest tree n) body := by
  have hstr := (hs n hn).1
  have nl : Outer c!"\n" := Outer.calm rfl
  cases n with
  | simple v =>
    obtain ⟨h0, hb, hm, -⟩ := in_simple hstr
    have hb := type_nl (resolved hb hs)
    simp only [C15.javaLang, rest]
    by_cases h1 : v.list = true
    · rw [if_pos h1]
      refine ⟨_, wrapped nl hfn (by decide) h0 ?_⟩
      simp only [List.append_assoc]
      simp [calm, inner, calm_inside (name_nl h0), calm_inside hb]
    · rw [if_neg h1]
      split
      · have := commented (fn := fn) (doc := v.doc) (t := c!"{")
          (body := (toSortedPairs v.memberTypes).flatMap (javaMemberLine tree) ++ c!"}\n") hfn (by decide)
          (by
            rw [calm_append true]
            · rfl
            · refine calm_flatMap fun m hm' => ?_
              obtain ⟨h1, h2⟩ := hm m hm'
              simp only [javaMemberLine, List.append_assoc]
              simp [calm, inner, calm_inside (name_nl h1), calm_inside (type_nl (membered h1 h2 hs))])
        exact ⟨_, by simpa [javaDecl] using this⟩
      · refine ⟨_, wrapped (Outer.comment fn v.doc (hfn _ (by decide))) hfn (by decide) h0 ?_⟩
        simp only [List.append_assoc]
        simp [calm, inner, calm_inside (name_nl h0), calm_inside hb]
  | attr v =>
    have h0 := hstr v.name (by simp [strings])
    have hb := plural_nl v.plural (type_nl (resolved (hstr v.type (by simp [strings])) hs))
    refine ⟨_, wrapped nl hfn (by decide) h0 ?_⟩
    simp only [List.append_assoc]
    simp [calm, inner, calm_inside (name_nl h0), calm_inside hb]
  | elem v =>
    have h0 := hstr v.name (by simp [strings])
    have hb := plural_nl v.plural (type_nl (resolved (hstr v.type (by simp [strings])) hs))
    refine ⟨_, wrapped nl hfn (by decide) h0 ?_⟩
    simp only [List.append_assoc]
    simp [calm, inner, calm_inside (name_nl h0), calm_inside hb]
  | complex v =>
    obtain ⟨h0, hb, ha, he, hg, hag⟩ := in_complex hstr
    have hb := type_nl (resolved hb hs)
    have hbody : calm inner true (v.attributeGroup.flatMap (javaAttrGroupLine tree) ++ (v.attributes.flatMap (javaAttrLine tree) ++
        (v.groups.flatMap (javaGroupLine tree) ++ (v.elements.flatMap (javaElemLine tree) ++ (javaValueLine tree v.base ++ c!"}\n"))))) = true := by
      rw [calm_append true, calm_append true (attrs hs ha), calm_append true (groups hs hg), calm_append true (elems hs he), calm_append true]
      · rfl
      · unfold javaValueLine
        split
        · simp only [List.append_assoc]
          simp [calm, inner, calm_inside hb]
        · rfl
      · refine calm_flatMap fun a ha => ?_
        obtain ⟨h1, h2⟩ := hag a ha
        simp only [javaAttrGroupLine, List.append_assoc]
        simp [calm, inner, calm_inside (name_nl h1), calm_inside (type_nl (resolved h2 hs))]
    by_cases hx : (v.base ≠ [] && !isBuiltInJavaType v.base) = true
    · have := commented (fn := fn) (doc := v.doc) (t := c!"extends " ++ genJavaFieldType (resolveIn tree v.base) ++ c!"  {") hfn (by simp [hb]) hbody
      have e : javaExtends tree v.base = c!" extends " ++ genJavaFieldType (resolveIn tree v.base) ++ c!" " := by rw [javaExtends, if_pos hx]
      exact ⟨_, by simpa [C15.javaLang, javaComplexContent, e, rest] using this⟩
    · have := commented (fn := fn) (doc := v.doc) (t := c!"{") hfn (by decide) hbody
      have e : javaExtends tree v.base = [] := by rw [javaExtends, if_neg hx]
      exact ⟨_, by simpa [C15.javaLang, javaComplexContent, e, rest] using this⟩
  | group v =>
    obtain ⟨h0, he, hg⟩ := in_group hstr
    have := commented (fn := fn) (doc := v.doc) (t := c!"{")
      (body := v.elements.flatMap (javaElemLine tree) ++ (v.groups.flatMap (javaGroupLine tree) ++ c!"}\n"))
      hfn (by decide) (by rw [calm_append true (elems hs he), calm_append true (groups hs hg)]; rfl)
    exact ⟨_, by simpa [C15.javaLang, javaDecl, rest] using this⟩
  | attrGroup v =>
    obtain ⟨h0, ha⟩ := in_attrGroup hstr
    have := commented (fn := fn) (doc := v.doc) (t := c!"{")
      (body := v.attributes.flatMap (javaAttrGroupAttrLine tree) ++ c!"}\n") hfn (by decide)
      (by
        rw [calm_append true]
        · rfl
        · refine calm_flatMap fun a h => ?_
          obtain ⟨h1, h2⟩ := ha a h
          simp only [javaAttrGroupAttrLine, List.append_assoc]
          cases a.optional <;>
            simp [calm, inner, calm_inside (name_nl h1), calm_inside (type_nl (resolved h2 hs)), calm_inside h1])
    exact ⟨_, by simpa [C15.javaLang, javaDecl, rest] using this⟩

omit [UniLaws] in
theorem rest_form (tree : Tree) (n : Node Element) : ∃ t, rest tree n = ' ' :: t := by
  cases n with
  | complex v =>
    simp only [rest, javaExtends]
    split <;> exact ⟨_, rfl⟩
  | _ => exact ⟨_, rfl⟩

theorem text_names {tree : Tree} (hs : Sound tree) {n : Node Element} (hn : n ∈ nodes tree) {fn : Str} (hfn : Clean notInNames fn) :
    Part (List.filterMap (header c!"public class ")) ((C15.javaLang tree).text n fn) [fn] := by
  obtain ⟨body, h⟩ := text_starts hs hn hfn
  obtain ⟨t, e⟩ := rest_form tree n
  refine h.part quiet outer_inner ?_
  rw [e]
  exact header_eq (hfn _ (by decide)) (hfn _ (by decide)) (.inl rfl)

/-- C56, Java. -/
theorem file_names (pkg : Str) (tree : Tree) (hp : '\n' ∉ pkg) (hs : Sound tree) : names (javaSource pkg tree) =
    finals (fun n => Names.plain (nodeName n)) (fun _ => true) [] (firsts (fun _ => false) (nodes tree)) := by
  have hpk : '\n' ∉ packageName pkg := by
    unfold packageName
    split
    · decide
    · exact hp
  have p1 : Part (List.filterMap (header c!"public class ")) (copyright ++ c!"\n" ++ c!"\n" ++ (c!"package " ++ packageName pkg ++ c!";" ++ c!"\n") ++
      (c!"\n" ++ javaImports ++ c!"\n")) [] := by
    refine Part.append (xs := []) (ys := []) (Part.append (xs := []) (ys := [])
      (Part.append (xs := []) (ys := []) (Part.lines (Lines.one (by decide)) (by decide))
      (Part.lines (Lines.one (a := []) (by decide)) (by decide))) (Part.lines (Lines.one (by simp [hpk])) (by simp [header]))) ?_
    exact calm_part (q := fun c => c ≠ 'p') (fun l h => by
      unfold header
      rw [if_neg]
      rintro ⟨t, rfl⟩
      exact absurd (h 'p' rfl) (by decide)) (by decide +kernel)
  have e : javaSource pkg tree = (copyright ++ c!"\n" ++ c!"\n" ++ (c!"package " ++ packageName pkg ++ c!";" ++ c!"\n") ++
      (c!"\n" ++ javaImports ++ c!"\n")) ++ (javaGen tree).field := by simp [javaSource]
  rw [e, C15.java, names, whole p1 ?_ (by decide), firsts_eq]
  · congr 1
    funext n
    exact Names.java_name _
  · intro x hx
    have hn := mem_nodes hx
    refine text_names hs hn fun c hc => named_absent ((by decide : ∀ x ∈ notInNames, x.isDigit = false) c hc) hx ?_
    exact cName_absent ((by decide : ∀ x ∈ notInNames, Sym x) c hc) ((hs _ hn).2 c hc)

end Java

/-! ## Rust -/

namespace Rust

/-- The declared names of a Rust source. -/
def names (text : Str) : List Str := (splitOn '\n' text).filterMap (header c!"pub struct ")

omit [Uni] in
theorem quiet (l : Str) (h : ∀ c, l.head? = some c → inner c = true) : header c!"pub struct " l = none :=
  header_none rfl (by decide) h

omit [Uni] in
theorem struct {pre fn content : Str} (hpre : Outer pre) (hfn : Clean notInNames fn) (hc : calm inner true content = true) :
    Starts inner (pre ++ rustStruct fn content) (c!"pub struct " ++ fn ++ c!" {") (content ++ c!"}\n") where
  text := ⟨pre ++ c!"#[derive(Debug, Deserialize, Serialize, PartialEq)]\n", hpre.append (Outer.calm (by decide +kernel)), by simp [rustStruct]⟩
  line := by simp [hfn '\n' (by decide)]
  rest := by rw [calm_append true hc]; rfl

omit [Uni] in
theorem decl {fn doc content : Str} (hfn : Clean notInNames fn) (hc : calm inner true content = true) :
    ∃ body, Starts inner (rustDecl fn doc content) (c!"pub struct " ++ fn ++ c!" {") body := by
  have h1 : Outer c!"\n" := Outer.calm rfl
  exact ⟨_, struct (h1.append (Outer.comment fn doc (hfn _ (by decide)))) hfn hc⟩

variable [UniLaws]

theorem name_nl {s : Str} (h : '\n' ∉ s) : '\n' ∉ rustFieldName s := rustFieldName_absent (by decide) (by decide) h
theorem type_nl {s : Str} (h : '\n' ∉ s) : '\n' ∉ genRustFieldType s := rustType_absent (by decide) h

theorem field {x t : Str} (n : Str) (hx : '\n' ∉ x) (hn : '\n' ∉ n) (ht : '\n' ∉ t) :
    calm inner true (rustField x n t) = true := by
  simp only [rustField, List.append_assoc]
  simp [calm, inner, calm_inside hx, calm_inside hn, calm_inside ht]

theorem member {tree : Tree} (hs : Sound tree) (b : Bool) {n t : Str} (hn : '\n' ∉ n) (ht : '\n' ∉ t) :
    calm inner true (rustGroupMember tree b n t) = true := by
  have := type_nl (resolved ht hs)
  refine field _ hn (name_nl hn) ?_
  cases b <;> simp [rustVec, this]

theorem text_starts {tree : Tree} (hs : Sound tree) {n : Node Element} (hn : n ∈ nodes tree) {fn : Str} (hfn : Clean notInNames fn) :
    ∃ body, Starts inner ((C15.rustLang tree).text n fn) (c!"pub struct " ++ fn ++ c!" {") body := by
  have hstr := (hs n hn).1
  cases n with
  | simple v =>
    obtain ⟨h0, hb, hm, -⟩ := in_simple hstr
    have hb := type_nl (resolved hb hs)
    simp only [C15.rustLang]
    by_cases h1 : v.list = true
    · rw [if_pos h1]
      exact decl hfn (field _ h0 (name_nl h0) (by simp [rustVec, hb]))
    · rw [if_neg h1]
      split
      · have nl : Outer c!"\n" := Outer.calm rfl
        refine ⟨_, struct nl hfn (calm_flatMap fun m hm' => ?_)⟩
        obtain ⟨h1, h2⟩ := hm m hm'
        exact field _ h0 (name_nl h1) (type_nl (membered h1 h2 hs))
      · exact decl hfn (field _ h0 (name_nl h0) hb)
  | attr v => exact decl hfn (member hs _ (hstr v.name (by simp [strings])) (hstr v.type (by simp [strings])))
  | elem v => exact decl hfn (member hs _ (hstr v.name (by simp [strings])) (hstr v.type (by simp [strings])))
  | complex v =>
    obtain ⟨h0, hb, ha, he, hg, hag⟩ := in_complex hstr
    have hb := type_nl (resolved hb hs)
    refine decl hfn ?_
    simp only [rustComplexContent, List.append_assoc]
    rw [calm_append true, calm_append true, calm_append true, calm_append true]
    · unfold rustBaseLine
      split
      · split
        · exact field _ (by decide) (by decide) hb
        · simp only [List.append_assoc]
          simp [calm, inner, calm_inside (name_nl hb), calm_inside hb]
      · rfl
    · refine calm_flatMap fun a h => field _ (he a h).1 (name_nl (he a h).1) ?_
      have := type_nl (resolved (he a h).2 hs)
      split
      · simp [rustVec, this]
      · split <;> simp [rustOption, this]
    · refine calm_flatMap fun a h => field _ (hg a h).1 (name_nl (hg a h).1) ?_
      have := type_nl (resolved (hg a h).2 hs)
      split <;> simp [rustVec, this]
    · refine calm_flatMap fun a h => field _ (ha a h).1 (name_nl (ha a h).1) ?_
      have := type_nl (resolved (ha a h).2 hs)
      split <;> simp [rustOption, this]
    · refine calm_flatMap fun a h => field _ (hag a h).1 (name_nl (hag a h).1) ?_
      have := type_nl (resolved (hag a h).2 hs)
      simp [rustVec, this]
  | group v =>
    obtain ⟨h0, he, hg⟩ := in_group hstr
    refine decl hfn ?_
    rw [calm_append true]
    · exact calm_flatMap fun a h => member hs _ (hg a h).1 (hg a h).2
    · exact calm_flatMap fun a h => member hs _ (he a h).1 (he a h).2
  | attrGroup v =>
    obtain ⟨h0, ha⟩ := in_attrGroup hstr
    refine decl hfn (calm_flatMap fun a h => field _ (ha a h).1 (name_nl (ha a h).1) ?_)
    have := type_nl (resolved (ha a h).2 hs)
    split <;> simp [rustOption, rustVec, this]

theorem text_names {tree : Tree} (hs : Sound tree) {n : Node Element} (hn : n ∈ nodes tree) {fn : Str} (hfn : Clean notInNames fn) :
    Part (List.filterMap (header c!"pub struct ")) ((C15.rustLang tree).text n fn) [fn] := by
  obtain ⟨body, h⟩ := text_starts hs hn hfn
  refine h.part quiet outer_inner ?_
  exact header_eq (t := c!"{") (hfn _ (by decide)) (hfn _ (by decide)) (.inl rfl)

/-- The name of a declaration in Rust. -/
def baseName (n : Node Element) : Str :=
  match n with
  | .elem v => Names.rustMember rustKeywords v.name
  | .attr v => Names.rustMember rustKeywords v.name
  | n => Names.strict (nodeName n)

/-- C56, Rust: elements and attributes are named like members. -/
theorem file_names (tree : Tree) (hs : Sound tree) : names (rustSource tree) =
    finals baseName (fun n => match n with | .elem _ => false | .attr _ => false | _ => true) [] (firsts (fun _ => false) (nodes tree)) := by
  have p1 : Part (List.filterMap (header c!"pub struct ")) (copyright ++
      c!"\n\n#[macro_use]\nextern crate serde_derive;\nextern crate serde;\nextern crate serde_xml_rs;\n\nuse serde_xml_rs::from_reader;\n") [] := by
    exact calm_part (q := fun c => c ≠ 'p') (fun l h => by
      unfold header
      rw [if_neg]
      rintro ⟨t, rfl⟩
      exact absurd (h 'p' rfl) (by decide)) (by decide +kernel)
  unfold rustSource
  rw [C15.rust, names, whole p1 ?_ (by decide), firsts_eq]
  · congr 1
    funext n
    cases n with
    | elem v => exact Names.rust_member_name _
    | attr v => exact Names.rust_member_name _
    | _ => exact Names.rust_struct_name _
  · intro x hx
    have hn := mem_nodes hx
    refine text_names hs hn fun c hc => named_absent ((by decide : ∀ x ∈ notInNames, x.isDigit = false) c hc) hx ?_
    have h1 : Sym c := (by decide : ∀ x ∈ notInNames, Sym x) c hc
    have h2 : c ≠ '_' := (by decide : ∀ x ∈ notInNames, x ≠ '_') c hc
    have h3 := (hs _ hn).2 c hc
    obtain ⟨n, fn⟩ := x
    cases n with
    | elem v => exact rustFieldName_absent h1 h2 h3
    | attr v => exact rustFieldName_absent h1 h2 h3
    | _ => exact rustStructName_absent h1 h3

end Rust

/-! ## TypeScript -/

namespace TS

/-- Reading the start of a declaration. -/
def read (l : Str) : Option Str :=
  (header c!"export class " l).or ((header c!"export type " l).or (header c!"export enum " l))

/-- The declared names of a TypeScript source. -/
def names (text : Str) : List Str := (splitOn '\n' text).filterMap TS.read

omit [Uni] in
theorem quiet (l : Str) (h : ∀ c, l.head? = some c → inner c = true) : TS.read l = none := by
  unfold TS.read
  rw [header_none rfl (by decide) h, header_none rfl (by decide) h, header_none rfl (by decide) h]
  rfl

omit [Uni] in
theorem decl {kw fn doc t body : Str} (hk : '\n' ∉ kw) (hfn : Clean notInNames fn) (ht : '\n' ∉ t) (hc : calm inner true body = true) :
    Starts inner (genFieldComment fn doc c!"//" ++ (kw ++ fn ++ ' ' :: t ++ c!"\n") ++ body) (kw ++ fn ++ ' ' :: t) body where
  text := ⟨_, Outer.comment fn doc (hfn _ (by decide)), rfl⟩
  line := by simp [hk, hfn '\n' (by decide), ht]
  rest := hc

omit [Uni] in
theorem class_decl {fn doc t body : Str} (hfn : Clean notInNames fn) (ht : '\n' ∉ t) (hc : calm inner true body = true) :
    Starts inner (genFieldComment fn doc c!"//" ++ (c!"export class " ++ fn ++ ' ' :: t ++ c!"\n") ++ body) (c!"export class " ++ fn ++ ' ' :: t) body :=
  decl (by decide) hfn ht hc

omit [Uni] in
theorem alias {fn doc t : Str} (hfn : Clean notInNames fn) (ht : '\n' ∉ t) :
    Starts inner (tsAlias fn doc (c!" " ++ t ++ c!";\n")) (c!"export type " ++ fn ++ (c!" = " ++ t ++ c!";")) [] := by
  have := decl (kw := c!"export type ") (by decide) hfn (doc := doc) (t := c!"= " ++ t ++ c!";") (body := []) (by simp [ht]) rfl
  simpa [tsAlias, tsComment] using this

/-- The keyword of a declaration. -/
def keyword : Node Element → Str
  | .simple v =>
    if v.list then c!"export type "
    else if v.union && decide (v.memberTypes.length > 0) then c!"export class "
    else if v.enum.length > 0 then c!"export enum "
    else c!"export type "
  | .attr _ => c!"export type "
  | .elem _ => c!"export type "
  | _ => c!"export class "

/-- The rest of the head line, after the name. -/
def rest (tree : Tree) : Node Element → Str
  | .simple v =>
    if v.list then c!" = " ++ genTypeScriptFieldType (resolveIn tree v.base) true ++ c!";"
    else if v.union && decide (v.memberTypes.length > 0) then c!" {"
    else if v.enum.length > 0 then c!" {"
    else c!" = " ++ genTypeScriptFieldType (resolveIn tree v.base) false ++ c!";"
  | .attr v => c!" = " ++ genTypeScriptFieldType (resolveIn tree v.type) v.plural ++ c!";"
  | .elem v => c!" = " ++ genTypeScriptFieldType (resolveIn tree v.type) v.plural ++ c!";"
  | .complex v => tsExtends tree v.base ++ c!" {"
  | _ => c!" {"

variable [UniLaws]

theorem name_nl {s : Str} (h : '\n' ∉ s) : '\n' ∉ tsName s := cName_absent (by decide) h
theorem type_nl (b : Bool) {s : Str} (h : '\n' ∉ s) : '\n' ∉ genTypeScriptFieldType s b := tsType_absent (by decide) (by decide) h

theorem attrs {tree : Tree} (hs : Sound tree) {as : List Attribute} (h : ∀ a ∈ as, '\n' ∉ a.name ∧ '\n' ∉ a.type) :
    calm inner true (as.flatMap (tsAttrLine tree)) = true := calm_flatMap fun a ha => by
  obtain ⟨h1, h2⟩ := h a ha
  simp only [tsAttrLine, List.append_assoc]
  cases a.optional <;>
    simp [calm, inner, calm_inside (name_nl h1), calm_inside (type_nl a.plural (resolved h2 hs))]

theorem elems {tree : Tree} (hs : Sound tree) {es : List Element} (h : ∀ a ∈ es, '\n' ∉ a.name ∧ '\n' ∉ a.type) :
    calm inner true (es.flatMap (tsElemLine tree)) = true := calm_flatMap fun a ha => by
  obtain ⟨h1, h2⟩ := h a ha
  simp only [tsElemLine, List.append_assoc]
  simp [calm, inner, calm_inside (name_nl h1), calm_inside (type_nl a.plural (resolved h2 hs))]

theorem groups {tree : Tree} (hs : Sound tree) {gs : List GroupRef} (h : ∀ a ∈ gs, '\n' ∉ a.name ∧ '\n' ∉ a.ref) :
    calm inner true (gs.flatMap (tsGroupLine tree)) = true := calm_flatMap fun a ha => by
  obtain ⟨h1, h2⟩ := h a ha
  simp only [tsGroupLine, List.append_assoc]
  simp [calm, inner, calm_inside (name_nl h1), calm_inside (type_nl a.plural (resolved h2 hs))]

theorem text_starts {tree : Tree} (hs : Sound tree) {n : Node Element} (hn : n ∈ nodes tree) {fn : Str} (hfn : Clean notInNames fn) :
    ∃ body, Starts inner ((C15.tsLang tree).text n fn) (keyword n ++ fn ++ rest tree n) body ∧ (keyword n = c!"export type " → body = []) := by
  have hstr := (hs n hn).1
  cases n with
  | simple v =>
    obtain ⟨h0, hb, hm, hen⟩ := in_simple hstr
    have hb : ∀ b, '\n' ∉ genTypeScriptFieldType (resolveIn tree v.base) b := fun b => type_nl b (resolved hb hs)
    simp only [C15.tsLang, rest, keyword]
    by_cases h1 : v.list = true
    · rw [if_pos h1, if_pos h1, if_pos h1]
      have := alias (fn := fn) (doc := v.doc) hfn (hb true)
      exact ⟨_, by simpa [tsAlias] using this, fun _ => rfl⟩
    · rw [if_neg h1, if_neg h1, if_neg h1]
      by_cases h2 : (v.union && decide (v.memberTypes.length > 0)) = true
      · rw [if_pos h2, if_pos h2, if_pos h2]
        have := class_decl (fn := fn) (doc := v.doc) (t := c!"{")
          (body := (toSortedPairs v.memberTypes).flatMap (tsMemberLine tree) ++ c!"}\n") hfn (by decide)
          (by
            rw [calm_append true]
            · rfl
            · refine calm_flatMap fun m hm' => ?_
              obtain ⟨h1, h2⟩ := hm m hm'
              simp only [tsMemberLine, List.append_assoc]
              simp [calm, inner, calm_inside (name_nl h1), calm_inside (type_nl false (membered h1 h2 hs))])
        exact ⟨_, by simpa [tsClass, tsComment] using this, fun h => absurd h (by decide)⟩
      · rw [if_neg h2, if_neg h2, if_neg h2]
        by_cases h3 : v.enum.length > 0
        · rw [if_pos h3, if_pos h3, if_pos h3]
          have := decl (kw := c!"export enum ") (by decide) (fn := fn) (doc := v.doc) (t := c!"{")
            (body := v.enum.flatMap (tsEnumLine (genTypeScriptFieldType (resolveIn tree v.base) false)) ++ c!"}\n") hfn (by decide)
            (by
              rw [calm_append true]
              · rfl
              · refine calm_flatMap fun e he => ?_
                have := hen e he
                unfold tsEnumLine
                simp only [List.append_assoc]
                split
                · simp [calm, inner, calm_inside this]
                · split <;> simp [calm, inner, calm_inside this])
          exact ⟨_, by simpa [tsComment] using this, fun h => absurd h (by decide)⟩
        · rw [if_neg h3, if_neg h3, if_neg h3]
          exact ⟨_, alias hfn (hb false), fun _ => rfl⟩
  | attr v => exact ⟨_, alias hfn (type_nl _ (resolved (hstr v.type (by simp [strings])) hs)), fun _ => rfl⟩
  | elem v => exact ⟨_, alias hfn (type_nl _ (resolved (hstr v.type (by simp [strings])) hs)), fun _ => rfl⟩
  | complex v =>
    obtain ⟨h0, hb, ha, he, hg, hag⟩ := in_complex hstr
    have hb := type_nl false (resolved hb hs)
    have hbody : calm inner true (v.attributeGroup.flatMap (tsAttrGroupLine tree) ++ (v.attributes.flatMap (tsAttrLine tree) ++
        (v.groups.flatMap (tsGroupLine tree) ++ (v.elements.flatMap (tsElemLine tree) ++ (tsValueLine tree v.base ++ c!"}\n"))))) = true := by
      rw [calm_append true, calm_append true (attrs hs ha), calm_append true (groups hs hg), calm_append true (elems hs he), calm_append true]
      · rfl
      · unfold tsValueLine
        split
        · simp only [List.append_assoc]
          simp [calm, inner, calm_inside hb]
        · rfl
      · refine calm_flatMap fun a ha => ?_
        obtain ⟨h1, h2⟩ := hag a ha
        simp only [tsAttrGroupLine, List.append_assoc]
        simp [calm, inner, calm_inside (name_nl h1), calm_inside (type_nl false (resolved h2 hs))]
    by_cases hx : (v.base ≠ [] && !isBuiltInTypeScriptType v.base) = true
    · have := class_decl (fn := fn) (doc := v.doc) (t := c!"extends " ++ genTypeScriptFieldType (resolveIn tree v.base) false ++ c!"  {") hfn
        (by simp [hb]) hbody
      have e : tsExtends tree v.base = c!" extends " ++ genTypeScriptFieldType (resolveIn tree v.base) false ++ c!" " := by rw [tsExtends, if_pos hx]
      exact ⟨_, by simpa [C15.tsLang, tsComplexContent, e, tsComment, rest, keyword] using this, fun h => absurd h (by simp [keyword])⟩
    · have := class_decl (fn := fn) (doc := v.doc) (t := c!"{") hfn (by decide) hbody
      have e : tsExtends tree v.base = [] := by rw [tsExtends, if_neg hx]
      exact ⟨_, by simpa [C15.tsLang, tsComplexContent, e, tsComment, rest, keyword] using this, fun h => absurd h (by simp [keyword])⟩
  | group v =>
    obtain ⟨h0, he, hg⟩ := in_group hstr
    have := class_decl (fn := fn) (doc := v.doc) (t := c!"{")
      (body := v.elements.flatMap (tsElemLine tree) ++ (v.groups.flatMap (tsGroupLine tree) ++ c!"}\n"))
      hfn (by decide) (by rw [calm_append true (elems hs he), calm_append true (groups hs hg)]; rfl)
    exact ⟨_, by simpa [C15.tsLang, tsClass, tsComment, rest, keyword] using this, fun h => absurd h (by simp [keyword])⟩
  | attrGroup v =>
    obtain ⟨h0, ha⟩ := in_attrGroup hstr
    have := class_decl (fn := fn) (doc := v.doc) (t := c!"{")
      (body := v.attributes.flatMap (tsAttrLine tree) ++ c!"}\n") hfn (by decide)
      (by rw [calm_append true (attrs hs ha)]; rfl)
    exact ⟨_, by simpa [C15.tsLang, tsClass, tsComment, rest, keyword] using this, fun h => absurd h (by simp [keyword])⟩

omit [UniLaws] in
theorem rest_form (tree : Tree) (n : Node Element) : ∃ t, rest tree n = ' ' :: t := by
  cases n with
  | simple v =>
    simp only [rest]
    split
    · exact ⟨_, rfl⟩
    · split
      · exact ⟨_, rfl⟩
      · split <;> exact ⟨_, rfl⟩
  | complex v =>
    simp only [rest, tsExtends]
    split <;> exact ⟨_, rfl⟩
  | _ => exact ⟨_, rfl⟩

omit [Uni] [UniLaws] in
theorem keyword_form (n : Node Element) : keyword n = c!"export class " ∨ keyword n = c!"export type " ∨ keyword n = c!"export enum " := by
  cases n with
  | simple v =>
    simp only [keyword]
    split
    · exact .inr (.inl rfl)
    · split
      · exact .inl rfl
      · split
        · exact .inr (.inr rfl)
        · exact .inr (.inl rfl)
  | attr v => exact .inr (.inl rfl)
  | elem v => exact .inr (.inl rfl)
  | _ => exact .inl rfl

theorem text_names {tree : Tree} (hs : Sound tree) {n : Node Element} (hn : n ∈ nodes tree) {fn : Str} (hfn : Clean notInNames fn) :
    Part (List.filterMap TS.read) ((C15.tsLang tree).text n fn) [fn] := by
  obtain ⟨body, h, -⟩ := text_starts hs hn hfn
  obtain ⟨t, e⟩ := rest_form tree n
  refine h.part quiet outer_inner ?_
  rw [e]
  have := header_eq (kw := keyword n) (t := t) (hfn ' ' (by decide)) (hfn '\t' (by decide)) (.inl rfl)
  unfold TS.read
  rcases keyword_form n with k | k | k <;> rw [k] at this ⊢ <;> rw [this]
  · rfl
  · simp [header]
  · simp [header]

/-- C56, TypeScript: enumerations are declared whenever they occur.  (Missing: lists with enumeration values after components of their name.) -/
theorem file_names_partial (tree : Tree) (hs : Sound tree) (he : C15.ListsNew (nodes tree)) : names (tsSource tree) =
    finals (fun n => Names.plain (nodeName n)) (fun _ => true) [] (firsts C15.isEnum (nodes tree)) := by
  have p1 : Part (List.filterMap TS.read) (copyright ++ c!"\n") [] := calm_part quiet (by decide +kernel)
  unfold tsSource
  rw [C15.ts_partial tree he, names, whole p1 ?_ (by decide), firsts_eq]
  · congr 1
    funext n
    exact Names.ts_name _
  · intro x hx
    have hn := mem_nodes hx
    refine text_names hs hn fun c hc => named_absent ((by decide : ∀ x ∈ notInNames, x.isDigit = false) c hc) hx ?_
    exact cName_absent ((by decide : ∀ x ∈ notInNames, Sym x) c hc) ((hs _ hn).2 c hc)

end TS

/-! ## C -/

namespace C

/-- Whether a component is counted. -/
def counted : Node Element → Bool
  | .elem _ => false
  | _ => true

/-- The names of C: numbers are counted for all but elements, but only structs show them. -/
def finals : List Str → List (Node Element) → List Str
  | _, [] => []
  | used, n :: ns =>
    let b := Names.plain (nodeName n)
    (if isStruct n then C14.numbered b (used.count b + 1) else b) ::
      finals (if counted n then b :: used else used) ns

/-- What lines inside of declarations start with in C. -/
def inner (c : Char) : Bool := c ∈ ['\r', '/', '\t']

/-- Reading the name in `} name;` and `typedef type name;`. -/
def read (l : Str) : Option Str :=
  if l.getLast? = some ';' then
    if c!"} " <+: l then some (l.dropLast.drop 2)
    else if c!"typedef " <+: l then
      let m := l.dropLast
      some (splitLast ' ' (if c!"[]" <:+ m then m.dropLast.dropLast else m)).2
    else none
  else none

/-- The declared names of a C source. -/
def names (text : Str) : List Str := (splitOn '\n' text).filterMap C.read

omit [Uni] in
theorem quiet (l : Str) (h : ∀ c, l.head? = some c → inner c = true) : C.read l = none := by
  unfold C.read
  split
  · rw [if_neg, if_neg]
    · rintro ⟨t, rfl⟩
      exact absurd (h 't' rfl) (by decide)
    · rintro ⟨t, rfl⟩
      exact absurd (h '}' rfl) (by decide)
  · rfl

omit [Uni] in
theorem read_close (n : Str) : C.read (c!"} " ++ n ++ c!";") = some n := by
  unfold C.read
  rw [if_pos List.getLast?_concat, if_pos ⟨n ++ c!";", by simp⟩, List.dropLast_concat]
  simp

omit [Uni] in
theorem read_typedef {t n : Str} (b : Bool) (hn : Clean notInNames n) : C.read (c!"typedef " ++ (t ++ c!" " ++ n ++ cPlural b) ++ c!";") = some n := by
  unfold C.read
  rw [if_pos List.getLast?_concat, if_neg (by simp), if_pos ⟨t ++ c!" " ++ n ++ cPlural b ++ c!";", by simp⟩]
  simp only [List.dropLast_concat]
  have e : c!"typedef " ++ (t ++ c!" " ++ n) = (c!"typedef " ++ t) ++ ' ' :: n := by simp
  cases b with
  | true =>
    have : c!"typedef " ++ (t ++ c!" " ++ n ++ cPlural true) = (c!"typedef " ++ (t ++ c!" " ++ n)) ++ c!"[" ++ c!"]" := by simp [cPlural]
    rw [this, if_pos ⟨c!"typedef " ++ (t ++ c!" " ++ n), by simp⟩, List.dropLast_concat, List.dropLast_concat, e,
      splitLast_eq (hn _ (by decide))]
  | false =>
    have : c!"typedef " ++ (t ++ c!" " ++ n ++ cPlural false) = (c!"typedef " ++ t) ++ ' ' :: n := by simp [cPlural]
    rw [this, if_neg, splitLast_eq (hn _ (by decide))]
    rintro ⟨x, hx⟩
    have h1 := congrArg List.getLast? hx
    have h2 : (x ++ c!"[]").getLast? = some ']' := by
      rw [show x ++ c!"[]" = (x ++ c!"[") ++ c!"]" by simp]; exact List.getLast?_concat
    rw [h2, List.getLast?_append] at h1
    cases n with
    | nil => simp at h1
    | cons c n =>
      have h3 : (' ' :: c :: n).getLast? = (c :: n).getLast? := by simp [List.getLast?_cons]
      rw [h3] at h1
      have h4 : (c :: n).getLast? = some ']' := by
        cases h5 : (c :: n).getLast? with
        | none => simp at h5
        | some d => rw [h5] at h1; simpa using h1.symm
      exact hn ']' (by decide) (List.mem_of_getLast? h4)

omit [Uni] in
/-- A struct. -/
theorem struct {fn doc body : Str} (hfn : '\n' ∉ fn) (hc : calm inner true body = true) :
    Part (List.filterMap C.read) (cDecl fn doc (c!"struct {\n" ++ body ++ c!"}")) [fn] := by
  have p1 := comment_part quiet (by decide) (by decide) fn doc hfn
  have p2 : Part (List.filterMap C.read) (c!"typedef struct {" ++ c!"\n") [] := Part.lines (Lines.one (by decide)) (by decide)
  have p3 : Part (List.filterMap C.read) (c!"} " ++ fn ++ c!";" ++ c!"\n") [fn] :=
    Part.lines (Lines.one (by simp [hfn])) (by rw [List.filterMap_cons, read_close]; rfl)
  have := (p1.append (p2.append (calm_part quiet hc))).append p3
  simpa [cDecl] using this

omit [Uni] in
/-- A synonym. -/
theorem synonym {pre t n : Str} (b : Bool) (hpre : Part (List.filterMap C.read) pre []) (hn : Clean notInNames n) (ht : '\n' ∉ t) :
    Part (List.filterMap C.read) (pre ++ c!"typedef " ++ (t ++ c!" " ++ n ++ cPlural b) ++ c!";\n") [n] := by
  have p2 : Part (List.filterMap C.read) (c!"typedef " ++ (t ++ c!" " ++ n ++ cPlural b) ++ c!";" ++ c!"\n") [n] :=
    Part.lines (Lines.one (by cases b <;> simp [hn '\n' (by decide), ht, cPlural])) (by rw [List.filterMap_cons, read_typedef b hn]; rfl)
  simpa using hpre.append p2

/-- What lines other than head lines start with. -/
def around (c : Char) : Bool := c ∈ ['\r', '/', '@', '#', '\t', '}']

omit [Uni] in
theorem inner_around (c : Char) (h : inner c = true) : around c = true := by
  unfold inner at h
  unfold around
  simp only [List.mem_cons, List.not_mem_nil, or_false, decide_eq_true_eq] at h ⊢
  rcases h with h | h | h <;> simp [h]

omit [Uni] in
theorem outer_around (c : Char) (h : outer c = true) : around c = true := by
  unfold outer at h
  unfold around
  simp only [List.mem_cons, List.not_mem_nil, or_false, decide_eq_true_eq] at h ⊢
  rcases h with h | h | h | h <;> simp [h]

omit [Uni] in
theorem calm_around {b : Bool} {s : Str} (h : calm inner b s = true) : calm around b s = true := by
  induction s generalizing b with
  | nil => exact h
  | cons c s ih =>
    cases b with
    | false => exact ih h
    | true =>
      rw [calm] at h ⊢
      split at h
      · rw [if_pos (by assumption)]; exact ih h
      · rw [if_neg (by assumption)]
        rw [Bool.and_eq_true] at h ⊢
        exact ⟨inner_around c h.1, ih h.2⟩

omit [Uni] in
theorem struct_starts {fn doc body : Str} (hfn : '\n' ∉ fn) (hc : calm inner true body = true) :
    Starts around (cDecl fn doc (c!"struct {\n" ++ body ++ c!"}")) c!"typedef struct {" (body ++ (c!"} " ++ fn ++ c!";\n")) where
  text := ⟨_, Outer.comment fn doc hfn, by simp [cDecl]⟩
  line := by decide
  rest := by
    rw [calm_append true (calm_around hc)]
    simp only [List.append_assoc]
    simp [calm, around, calm_inside hfn]

omit [Uni] in
theorem synonym_starts {pre t n : Str} (b : Bool) (hpre : Outer pre) (hn : Clean notInNames n) (ht : '\n' ∉ t) :
    Starts around (pre ++ c!"typedef " ++ (t ++ c!" " ++ n ++ cPlural b) ++ c!";\n") (c!"typedef " ++ (t ++ c!" " ++ n ++ cPlural b) ++ c!";") [] where
  text := ⟨pre, hpre, by simp⟩
  line := by cases b <;> simp [hn '\n' (by decide), ht, cPlural]
  rest := rfl

/-- The head line of a declaration. -/
def head (tree : Tree) : Node Element → Str
  | .simple v =>
    if v.list then c!"typedef " ++ (genCFieldType (genCFieldType (resolveIn tree v.base)) ++ c!" " ++ cName v.name ++ cPlural true) ++ c!";"
    else if v.union && decide (v.memberTypes.length > 0) then c!"typedef struct {"
    else
      let r := innerArray (genCFieldType (resolveIn tree v.base))
      c!"typedef " ++ (r.1 ++ c!" " ++ cName v.name ++ cPlural r.2) ++ c!";"
  | .attr v =>
    let r := innerArray (genCFieldType (resolveIn tree v.type))
    c!"typedef " ++ (r.1 ++ c!" " ++ cName v.name ++ cPlural (r.2 || v.plural)) ++ c!";"
  | .elem v =>
    let r := innerArray (genCFieldType (resolveIn tree v.type))
    c!"typedef " ++ (r.1 ++ c!" " ++ cName v.name ++ cPlural (r.2 || v.plural)) ++ c!";"
  | _ => c!"typedef struct {"

variable [UniLaws]

theorem name_nl {s : Str} (h : '\n' ∉ s) : '\n' ∉ cName s := cName_absent (by decide) h
theorem type_nl {s : Str} (h : '\n' ∉ s) : '\n' ∉ genCFieldType s := cType_absent (by decide) h

omit [Uni] [UniLaws] in
theorem inner_nl {s : Str} (h : '\n' ∉ s) : '\n' ∉ (innerArray s).1 := by
  rw [C48.C.innerArray_eq]; exact C48.C.item_absent h

omit [Uni] [UniLaws] in
theorem plural_nl (b : Bool) : '\n' ∉ cPlural b := by cases b <;> decide

theorem attrs {tree : Tree} (hs : Sound tree) {as : List Attribute} (h : ∀ a ∈ as, '\n' ∉ a.name ∧ '\n' ∉ a.type) :
    calm inner true (as.flatMap (cAttrLine tree)) = true := calm_flatMap fun a ha => by
  obtain ⟨h1, h2⟩ := h a ha
  simp only [cAttrLine, List.append_assoc]
  cases a.optional <;>
    simp [calm, inner, calm_inside (name_nl h1), calm_inside (inner_nl (type_nl (resolved h2 hs))), calm_inside (plural_nl _)]

theorem groups {tree : Tree} (hs : Sound tree) {gs : List GroupRef} (h : ∀ a ∈ gs, '\n' ∉ a.name ∧ '\n' ∉ a.ref) :
    calm inner true (gs.flatMap (cGroupLine tree)) = true := calm_flatMap fun a ha => by
  obtain ⟨h1, h2⟩ := h a ha
  simp only [cGroupLine, List.append_assoc]
  simp [calm, inner, calm_inside (name_nl h1), calm_inside (type_nl (resolved h2 hs)), calm_inside (plural_nl _)]

theorem text_names {tree : Tree} (hs : Sound tree) {n : Node Element} (hn : n ∈ nodes tree) {fn : Str} (hfn : Clean notInNames fn)
    (he : ∀ v, n = .elem v → fn = cName v.name) :
    Part (List.filterMap C.read) ((C15.cLang tree).text n fn) [if isStruct n then fn else cName (nodeName n)] := by
  obtain ⟨hstr, hname⟩ := hs n hn
  have hname : Clean notInNames (cName (nodeName n)) :=
    fun x hx => cName_absent ((by decide : ∀ x ∈ notInNames, Sym x) x hx) (hname x hx)
  have hcom : ∀ doc, Part (List.filterMap C.read) (genFieldComment fn doc c!"//") [] :=
    fun doc => comment_part quiet (by decide) (by decide) fn doc (hfn _ (by decide))
  cases n with
  | simple v =>
    obtain ⟨h0, hb, hm, -⟩ := in_simple hstr
    have hb := type_nl (resolved hb hs)
    simp only [C15.cLang, isStruct]
    by_cases h1 : v.list = true
    · have := synonym true (hcom v.doc) hname (type_nl hb)
      simpa [h1, cPlural, nodeName] using this
    · rw [if_neg h1]
      simp only [h1, Bool.not_false, Bool.true_and]
      split
      · refine struct (hfn _ (by decide)) (calm_flatMap fun m hm' => ?_)
        obtain ⟨h1, h2⟩ := hm m hm'
        simp only [cMemberLine, List.append_assoc]
        simp [calm, inner, calm_inside (name_nl h1), calm_inside (inner_nl (type_nl (membered h1 h2 hs))), calm_inside (plural_nl _)]
      · exact synonym _ (hcom v.doc) hname (inner_nl hb)
  | attr v =>
    exact synonym _ (hcom v.doc) hname (inner_nl (type_nl (resolved (hstr v.type (by simp [strings])) hs)))
  | elem v =>
    have nl : Part (List.filterMap C.read) c!"\n" [] := calm_part quiet rfl
    rw [he v rfl]
    exact synonym _ nl hname (inner_nl (type_nl (resolved (hstr v.type (by simp [strings])) hs)))
  | complex v =>
    obtain ⟨h0, hb, ha, he, hg, hag⟩ := in_complex hstr
    have hbody : calm inner true (v.attributeGroup.flatMap (cAttrGroupLine tree) ++ (v.attributes.flatMap (cAttrLine tree) ++
        (v.groups.flatMap (cGroupLine tree) ++ v.elements.flatMap (cElemLine tree)))) = true := by
      rw [calm_append true, calm_append true (attrs hs ha), calm_append true (groups hs hg)]
      · refine calm_flatMap fun a ha => ?_
        obtain ⟨h1, h2⟩ := he a ha
        simp only [cElemLine, List.append_assoc]
        simp [calm, inner, calm_inside (name_nl h1), calm_inside (inner_nl (type_nl (resolved h2 hs))), calm_inside (plural_nl _)]
      · refine calm_flatMap fun a ha => ?_
        obtain ⟨h1, h2⟩ := hag a ha
        simp only [cAttrGroupLine, List.append_assoc]
        simp [calm, inner, calm_inside (name_nl h1), calm_inside (type_nl (resolved h2 hs))]
    have := struct (doc := v.doc) (hfn '\n' (by decide)) hbody
    simpa [C15.cLang, isStruct, cComplexContent] using this
  | group v =>
    obtain ⟨h0, he, hg⟩ := in_group hstr
    have := struct (doc := v.doc) (hfn '\n' (by decide)) (body := v.elements.flatMap (cGroupElemLine tree) ++ v.groups.flatMap (cGroupLine tree))
      (by
        rw [calm_append true]
        · exact groups hs hg
        · refine calm_flatMap fun a ha => ?_
          obtain ⟨h1, h2⟩ := he a ha
          simp only [cGroupElemLine, List.append_assoc]
          simp [calm, inner, calm_inside (name_nl h1), calm_inside (type_nl (resolved h2 hs)), calm_inside (plural_nl _)])
    simpa [C15.cLang, isStruct] using this
  | attrGroup v =>
    obtain ⟨h0, ha⟩ := in_attrGroup hstr
    have := struct (doc := v.doc) (hfn '\n' (by decide)) (attrs hs ha)
    simpa [C15.cLang, isStruct] using this

theorem text_starts {tree : Tree} (hs : Sound tree) {n : Node Element} (hn : n ∈ nodes tree) {fn : Str} (hfn : Clean notInNames fn)
    (he : ∀ v, n = .elem v → fn = cName v.name) :
    ∃ body, Starts around ((C15.cLang tree).text n fn) (head tree n) body ∧ (isStruct n = false → body = []) := by
  obtain ⟨hstr, hname⟩ := hs n hn
  have hname : Clean notInNames (cName (nodeName n)) :=
    fun x hx => cName_absent ((by decide : ∀ x ∈ notInNames, Sym x) x hx) (hname x hx)
  have hcom : ∀ doc, Outer (genFieldComment fn doc c!"//") := fun doc => Outer.comment fn doc (hfn _ (by decide))
  cases n with
  | simple v =>
    obtain ⟨h0, hb, hm, -⟩ := in_simple hstr
    have hb := type_nl (resolved hb hs)
    simp only [C15.cLang, head, isStruct]
    by_cases h1 : v.list = true
    · have := synonym_starts true (hcom v.doc) hname (type_nl hb)
      exact ⟨_, by simpa [h1, cPlural, nodeName] using this, fun _ => rfl⟩
    · rw [if_neg h1, if_neg h1]
      simp only [h1, Bool.not_false, Bool.true_and]
      by_cases h2 : (v.union && decide (v.memberTypes.length > 0)) = true
      · rw [if_pos h2, if_pos h2]
        refine ⟨_, struct_starts (hfn _ (by decide)) (calm_flatMap fun m hm' => ?_), fun h => by rw [h2] at h; cases h⟩
        obtain ⟨h1, h2⟩ := hm m hm'
        simp only [cMemberLine, List.append_assoc]
        simp [calm, inner, calm_inside (name_nl h1), calm_inside (inner_nl (type_nl (membered h1 h2 hs))), calm_inside (plural_nl _)]
      · rw [if_neg h2, if_neg h2]
        exact ⟨_, synonym_starts _ (hcom v.doc) hname (inner_nl hb), fun _ => rfl⟩
  | attr v =>
    exact ⟨_, synonym_starts _ (hcom v.doc) hname (inner_nl (type_nl (resolved (hstr v.type (by simp [strings])) hs))), fun _ => rfl⟩
  | elem v =>
    have nl : Outer c!"\n" := Outer.calm rfl
    rw [he v rfl]
    exact ⟨_, synonym_starts _ nl hname (inner_nl (type_nl (resolved (hstr v.type (by simp [strings])) hs))), fun _ => rfl⟩
  | complex v =>
    obtain ⟨h0, hb, ha, he, hg, hag⟩ := in_complex hstr
    have hbody : calm inner true (v.attributeGroup.flatMap (cAttrGroupLine tree) ++ (v.attributes.flatMap (cAttrLine tree) ++
        (v.groups.flatMap (cGroupLine tree) ++ v.elements.flatMap (cElemLine tree)))) = true := by
      rw [calm_append true, calm_append true (attrs hs ha), calm_append true (groups hs hg)]
      · refine calm_flatMap fun a ha => ?_
        obtain ⟨h1, h2⟩ := he a ha
        simp only [cElemLine, List.append_assoc]
        simp [calm, inner, calm_inside (name_nl h1), calm_inside (inner_nl (type_nl (resolved h2 hs))), calm_inside (plural_nl _)]
      · refine calm_flatMap fun a ha => ?_
        obtain ⟨h1, h2⟩ := hag a ha
        simp only [cAttrGroupLine, List.append_assoc]
        simp [calm, inner, calm_inside (name_nl h1), calm_inside (type_nl (resolved h2 hs))]
    have := struct_starts (doc := v.doc) (hfn '\n' (by decide)) hbody
    exact ⟨_, by simpa [C15.cLang, head, cComplexContent] using this, fun h => by cases h⟩
  | group v =>
    obtain ⟨h0, he, hg⟩ := in_group hstr
    have := struct_starts (doc := v.doc) (hfn '\n' (by decide)) (body := v.elements.flatMap (cGroupElemLine tree) ++ v.groups.flatMap (cGroupLine tree))
      (by
        rw [calm_append true]
        · exact groups hs hg
        · refine calm_flatMap fun a ha => ?_
          obtain ⟨h1, h2⟩ := he a ha
          simp only [cGroupElemLine, List.append_assoc]
          simp [calm, inner, calm_inside (name_nl h1), calm_inside (type_nl (resolved h2 hs)), calm_inside (plural_nl _)])
    exact ⟨_, by simpa [C15.cLang, head] using this, fun h => by cases h⟩
  | attrGroup v =>
    obtain ⟨h0, ha⟩ := in_attrGroup hstr
    have := struct_starts (doc := v.doc) (hfn '\n' (by decide)) (attrs hs ha)
    exact ⟨_, by simpa [C15.cLang, head] using this, fun h => by cases h⟩

theorem finals_eq (tree : Tree) (used : List Str) (ns : List (Node Element)) :
    (named (C15.cLang tree) used ns).map (fun x => if isStruct x.1 then x.2 else cName (nodeName x.1)) = finals used ns := by
  induction ns generalizing used with
  | nil => rfl
  | cons n ns ih =>
    rw [named, finals, List.map_cons, ih]
    congr 1
    · cases n <;> simp [finalName, C15.cLang, isStruct, Names.c_name]
    · cases n <;> simp [C15.cLang, nodeName, Names.c_name, counted]

omit [UniLaws] in
theorem elem_name (tree : Tree) {used : List Str} {ns : List (Node Element)} {x : Node Element × Str}
    (hx : x ∈ named (C15.cLang tree) used ns) (v : Element) (hv : x.1 = .elem v) : x.2 = cName v.name := by
  induction ns generalizing used with
  | nil => cases hx
  | cons n ns ih =>
    rw [named] at hx
    rcases List.mem_cons.1 hx with rfl | hx
    · simp only at hv
      rw [hv]; rfl
    · exact ih hx

/-- C56, C. -/
theorem file_names (tree : Tree) (hs : Sound tree) : names (cSource tree) = finals [] (firsts (fun _ => false) (nodes tree)) := by
  have p1 : Part (List.filterMap C.read) (copyright ++ c!"\n") [] := calm_part quiet (by decide +kernel)
  have hp : Part (List.filterMap C.read) (render (C15.cLang tree) [] (declared (C15.cLang tree) (nodes tree)))
      ((named (C15.cLang tree) [] (declared (C15.cLang tree) (nodes tree))).map fun x => if isStruct x.1 then x.2 else cName (nodeName x.1)) := by
    rw [render_named]
    refine Part.flatMap fun x hx => ?_
    have hn := mem_nodes hx
    refine text_names hs hn (fun c hc => named_absent ((by decide : ∀ x ∈ notInNames, x.isDigit = false) c hc) hx ?_) (elem_name tree hx)
    exact cName_absent ((by decide : ∀ x ∈ notInNames, Sym x) c hc) ((hs _ hn).2 c hc)
  have := (p1.append hp).done (tail := []) (by decide)
  rw [List.append_nil, finals_eq, firsts_eq] at this
  unfold cSource names
  rw [C15.c, firsts_eq]
  exact this

end C

/-! ## Examples -/

/-- A schema with two components of one target name, an element, a union and an enumeration. -/
def sample : Tree :=
  [some (.complex { name := c!"my-type", doc := c!"type X struct\ntype Y int", elements := [{ name := c!"a", type := c!"xs:int" }] }), none,
   some (.simple { name := c!"my.type", base := c!"string" }), some (.elem { name := c!"my:Type", type := c!"tns:my-type" }),
   some (.simple { name := c!"my-type", base := c!"int" }),
   some (.simple { name := c!"either", union := true, memberTypes := [(c!"b", []), (c!"a", c!"string")] }),
   some (.simple { name := c!"kind", base := c!"string", enum := [c!"on", c!"off"] })]

example : Sound sample := by decide +kernel
example : C15.ListsNew (nodes sample) := .of_none (by decide)
example : Go.names (@goSource asciiUni c!"p" sample) = [c!"Mytype", c!"MyType", c!"MyType", c!"Either", c!"Kind"] := by decide +kernel
example : Java.names (@javaSource asciiUni c!"p" sample) = [c!"Mytype", c!"MyType", c!"MyType2", c!"Either", c!"Kind"] := by decide +kernel
example : C.names (@cSource asciiUni sample) = [c!"Mytype", c!"MyType", c!"MyType", c!"Either", c!"Kind"] := by decide +kernel
example : Rust.names (@rustSource asciiUni sample) = [c!"Mytype", c!"MyType", c!"my_type", c!"Either", c!"Kind"] := by decide +kernel
example : TS.names (@tsSource asciiUni sample) = [c!"Mytype", c!"MyType", c!"MyType2", c!"Either", c!"Kind"] := by decide +kernel

end Xgen.C56
