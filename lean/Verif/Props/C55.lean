import Verif.Props.C54
import Verif.Props.C08

/-! # C55: simple types, lists, unions and global elements and attributes, read back

A simple type, element or attribute is declared as another name for exactly its type, a list as a collection of its item
type, a union as a structure with one member per member type.  Go and C and TypeScript declare synonyms, Java and Rust
structures with a single member.  False for lists of user types in Go: the item type becomes a pointer to a pointer. -/

namespace Xgen.C55
open C54 (Part)
variable [Uni]

/-- Neither a list nor a union with named members. -/
def Plain (v : SimpleType) : Prop := v.list = false ∧ (v.union = false ∨ v.memberTypes = [])

/-- A union with named members. -/
def Union (v : SimpleType) : Prop := v.list = false ∧ v.union = true ∧ v.memberTypes ≠ []

/-- What a member of a union means: its recorded type, or else the first declaration of its name. -/
def memberMeaning (tree : Tree) (m : Str × Str) : Str :=
  if m.2 ≠ [] then m.2
  else match (tree.filterMap C07.declares).find? (fun d => d.1 = m.1) with
    | some d => d.2
    | none => m.1

omit [Uni] in
theorem memberMeaning_eq (tree : Tree) (m : Str × Str) : memberType tree m = memberMeaning tree m := by
  unfold memberType memberMeaning
  by_cases h : m.2 = []
  · rw [if_pos h, if_neg (by simpa using h), C07.resolves_to_first]
    cases (tree.filterMap C07.declares).find? _ <;> rfl
  · rw [if_neg h, if_pos h]

/-- The names and types in a simple type contain no quotes, separators or white space. -/
structure Tidy (tree : Tree) (v : SimpleType) : Prop where
  name : Clean notInNames v.name
  base : Clean notInTypes v.base
  member : ∀ m ∈ v.memberTypes, Clean notInNames m.1 ∧ Clean notInTypes m.2
  tree : ∀ t ∈ treeTypes tree, Clean notInTypes t

omit [Uni] in
theorem member_clean {tree : Tree} {m : Str × Str} (h1 : Clean notInNames m.1) (h2 : Clean notInTypes m.2)
    (ht : ∀ t ∈ treeTypes tree, Clean notInTypes t) : Clean notInTypes (memberType tree m) := by
  unfold memberType
  split
  · intro x hx
    have hn : x ∉ m.1 := h1 x ((by decide : ∀ x ∈ notInTypes, x ∈ notInNames) x hx)
    rcases resolve_cases tree m.1 with e | e
    · rw [e]; exact hn
    · exact ht _ e x hx
  · exact h2

omit [Uni] in
/-- The lines of a comment are empty or start with a slash or a carriage return. -/
theorem comment_heads (name doc : Str) (hn : '\n' ∉ name) : ∃ ls, Lines (genFieldComment name doc c!"//") ls ∧
    ∀ l ∈ ls, l.head? = none ∨ l.head? = some '\r' ∨ l.head? = some '/' := by
  have h := C09.comment_lines name doc c!"//" hn (by decide)
  obtain ⟨a, ha⟩ : ∃ a, genFieldComment name doc c!"//" = a ++ c!"\n" := by
    unfold genFieldComment
    split
    · exact ⟨c!"\r\n" ++ c!"//" ++ c!" " ++ name ++ c!" ...\r", by simp⟩
    · exact ⟨c!"\r\n" ++ c!"//" ++ c!" " ++ name ++ c!" is " ++ docReplace c!"//" doc ++ c!"\r", by simp⟩
  rw [ha] at h ⊢
  refine ⟨splitOn '\n' a, ?_, ?_⟩
  · intro b
    rw [List.append_assoc, List.singleton_append, splitOn_append_cons]
  · intro l hl
    have hl' : l ∈ splitOn '\n' (a ++ c!"\n") := by
      rw [splitOn_append_cons]; exact List.mem_append_left _ hl
    rcases h _ hl' with (h | h) | h
    · subst h; exact .inl rfl
    · subst h; exact .inr (.inl rfl)
    · obtain ⟨t, ht⟩ := h; subst ht; exact .inr (.inr rfl)

omit [Uni] in
theorem skip {β : Type} {r : Str → Option β} {ls : List Str}
    (h : ∀ l ∈ ls, l.head? = none ∨ l.head? = some '\r' ∨ l.head? = some '/')
    (hr : ∀ l : Str, l.head? = none ∨ l.head? = some '\r' ∨ l.head? = some '/' → r l = none) : ls.filterMap r = [] :=
  List.filterMap_eq_nil_iff.2 fun l hl => hr l (h l hl)

omit [Uni] in
theorem no_prefix {p l : Str} {c : Char} (hp : p.head? = some c) (h1 : c ≠ '\r') (h2 : c ≠ '/')
    (h : l.head? = none ∨ l.head? = some '\r' ∨ l.head? = some '/') : ¬ p <+: l := by
  rintro ⟨t, rfl⟩
  cases p with
  | nil => cases hp
  | cons d p =>
    injection hp with e
    subst e
    rcases h with h | h | h
    · cases h
    · injection h with e; exact h1 e
    · injection h with e; exact h2 e

/-! ## Go -/

namespace Go
open C17

/-- Reading `type name type`. -/
def readType (l : Str) : Option (Str × Str) :=
  if c!"type " <+: l then
    let r := l.drop 5
    some (r.takeWhile (fun c => c ≠ ' ' ∧ c ≠ '\t'), (r.dropWhile (fun c => c ≠ ' ' ∧ c ≠ '\t')).drop 1)
  else none

/-- The types declared by a text. -/
def types (text : Str) : List (Str × Str) := (splitOn '\n' text).filterMap readType

omit [Uni] in
theorem readType_eq {n t : Str} {b : Char} (hn : ' ' ∉ n) (hn2 : '\t' ∉ n) (hb : b = ' ' ∨ b = '\t') :
    readType (c!"type " ++ n ++ b :: t) = some (n, t) := by
  have h1 : ∀ x ∈ n, decide (x ≠ ' ' ∧ x ≠ '\t') = true := fun x hx => by
    simp only [decide_eq_true_eq]
    exact ⟨fun e => hn (e ▸ hx), fun e => hn2 (e ▸ hx)⟩
  have h2 : decide (b ≠ ' ' ∧ b ≠ '\t') = false := by rcases hb with rfl | rfl <;> decide
  have e : (c!"type " ++ n ++ b :: t).drop 5 = n ++ b :: t := by simp
  unfold readType
  rw [if_pos ⟨n ++ b :: t, by simp⟩, e]
  simp only
  rw [List.takeWhile_append_of_pos h1, List.dropWhile_append_of_pos h1, List.takeWhile_cons, List.dropWhile_cons, h2]
  simp

omit [Uni] in
theorem declared {fn doc t : Str} {b : Char} (hfn : Clean notInNames fn) (ht : '\n' ∉ t) (hb : b = ' ' ∨ b = '\t') :
    types (goDecl fn doc (b :: t ++ c!"\n")) = [(fn, t)] := by
  obtain ⟨cl, hcl, hcl'⟩ := comment_heads fn doc (hfn _ (by decide))
  have p1 : Part (List.filterMap readType) _ [] := Part.lines hcl (skip hcl' fun l h => by
    unfold readType; rw [if_neg (no_prefix (c := 't') rfl (by decide) (by decide) h)])
  have p2 : Part (List.filterMap readType) (c!"type " ++ fn ++ b :: t ++ c!"\n") [(fn, t)] := by
    refine Part.lines (Lines.one ?_) ?_
    · rcases hb with rfl | rfl <;> simp [hfn '\n' (by decide), ht]
    · rw [List.filterMap_cons, readType_eq (hfn _ (by decide)) (hfn _ (by decide)) hb]; rfl
  have := (p1.append p2).done (tail := []) (by decide)
  unfold types
  have e : goDecl fn doc (b :: t ++ c!"\n") = genFieldComment fn doc c!"//" ++ (c!"type " ++ fn ++ b :: t ++ c!"\n") ++ [] := by
    simp [goDecl]
  rw [e, this]
  rfl

variable [UniLaws]

theorem simple (tree : Tree) (fn : Str) (v : SimpleType) (hfn : Clean notInNames fn) (hv : Plain v) (h : Tidy tree v) :
    types ((C15.goLang tree).text (.simple v) fn) = [(fn, typeOf tree v.base)] := by
  have hu : (v.union && decide (v.memberTypes.length > 0)) = false := by rcases hv.2 with e | e <;> simp [e]
  have := declared (doc := v.doc) (t := genGoFieldType (resolveIn tree v.base)) hfn
    (goType_absent (by decide) (by decide) (resolveIn_clean h.base h.tree _ (by decide))) (.inl rfl)
  simp only [C15.goLang, hv.1, hu, typeOf, ← Names.go_type, ← Names.meaning_eq]
  exact this

theorem global_element (tree : Tree) (fn : Str) (v : Element) (hfn : Clean notInNames fn) (hv : Clean notInTypes v.type)
    (ht : ∀ t ∈ treeTypes tree, Clean notInTypes t) :
    types ((C15.goLang tree).text (.elem v) fn) = [(fn, (if v.plural then c!"[]" else []) ++ typeOf tree v.type)] := by
  have := declared (doc := v.doc) (t := (if v.plural then c!"[]" else []) ++ genGoFieldType (resolveIn tree v.type)) hfn
    (C54.Go.typed (.inl rfl) _ hv ht) (.inr rfl)
  simp only [C15.goLang, typeOf, ← Names.go_type, ← Names.meaning_eq]
  rw [← this]
  simp [goPlural]

theorem global_attribute (tree : Tree) (fn : Str) (v : Attribute) (hfn : Clean notInNames fn) (hv : Clean notInTypes v.type)
    (ht : ∀ t ∈ treeTypes tree, Clean notInTypes t) :
    types ((C15.goLang tree).text (.attr v) fn) = [(fn, (if v.plural then c!"[]" else []) ++ typeOf tree v.type)] := by
  have := declared (doc := v.doc) (t := (if v.plural then c!"[]" else []) ++ genGoFieldType (resolveIn tree v.type)) hfn
    (C54.Go.typed (.inl rfl) _ hv ht) (.inr rfl)
  simp only [C15.goLang, typeOf, ← Names.go_type, ← Names.meaning_eq]
  rw [← this]
  simp [goPlural]

/-- What is declared for a list: the target type is computed twice. -/
theorem list_twice (tree : Tree) (fn : Str) (v : SimpleType) (hfn : Clean notInNames fn) (hv : v.list = true) (h : Tidy tree v) :
    types ((C15.goLang tree).text (.simple v) fn) = [(fn, c!"[]" ++ Names.goType goBuildinType (typeOf tree v.base))] := by
  have h1 : '\n' ∉ genGoFieldType (genGoFieldType (resolveIn tree v.base)) :=
    goType_absent (by decide) (by decide) (goType_absent (by decide) (by decide) (resolveIn_clean h.base h.tree _ (by decide)))
  have := declared (doc := v.doc) (t := c!"[]" ++ genGoFieldType (genGoFieldType (resolveIn tree v.base))) hfn
    (by simp [h1]) (.inl rfl)
  simp only [C15.goLang, hv, typeOf, ← Names.go_type, ← Names.meaning_eq]
  exact this

/-- Lists of built-in types.  (Missing: lists of user types, see `pointer_to_pointer`.) -/
theorem list_partial (tree : Tree) (fn : Str) (v : SimpleType) (hfn : Clean notInNames fn) (hv : v.list = true) (h : Tidy tree v)
    (hb : Names.meaning tree v.base ∈ goBuildinType) :
    types ((C15.goLang tree).text (.simple v) fn) = [(fn, c!"[]" ++ typeOf tree v.base)] := by
  rw [list_twice tree fn v hfn hv h]
  have : typeOf tree v.base = Names.meaning tree v.base := by simp [typeOf, Names.goType, hb]
  rw [this, Names.goType, if_pos hb]

theorem union_at (tree : Tree) (fn : Str) (v : SimpleType) (hfn : '\n' ∉ fn) (hv : Union v) (h : Tidy tree v) :
    C17.read ((C15.goLang tree).text (.simple v) fn) =
      (if fn ≠ v.name then [⟨c!"XMLName", c!"xml.Name", some (v.name, [])⟩] else []) ++
      (toSortedPairs v.memberTypes).map fun m => ⟨Names.strict m.1, Names.goType goBuildinType (memberMeaning tree m), none⟩ := by
  have hu : (v.union && decide (v.memberTypes.length > 0)) = true := by
    simp [hv.2.1, List.length_pos_iff.2 hv.2.2]
  have hm : Part (List.filterMap readLine) ((toSortedPairs v.memberTypes).flatMap (goMemberLine tree))
      ((toSortedPairs v.memberTypes).map fun m => (⟨goName m.1, genGoFieldType (memberType tree m), none⟩ : Field)) := by
    refine Part.flatMap fun m hm => ?_
    obtain ⟨h1, h2⟩ := h.member m ((C08.toSortedPairs_perm _).mem_iff.1 hm)
    have h3 := member_clean h1 h2 h.tree
    exact C54.Go.member (goName_absent (by decide) (h1 _ (by decide))) (goName_absent (by decide) (h1 _ (by decide)))
      (goType_absent (by decide) (by decide) (h3 _ (by decide))) (goType_absent (by decide) (by decide) (h3 _ (by decide)))
  have := (((C54.Go.opened fn v.doc hfn).append (C54.Go.xmlName fn v.name h.name)).append hm).done (tail := c!"}\n") (by decide)
  unfold C17.read
  have ht : (C15.goLang tree).text (.simple v) fn = ((genFieldComment fn v.doc c!"//" ++ (c!"type " ++ fn ++ c!" struct {" ++ c!"\n")) ++
      goXMLNameLine fn v.name) ++ (toSortedPairs v.memberTypes).flatMap (goMemberLine tree) ++ c!"}\n" := by
    simp only [C15.goLang, hv.1, hu, goDecl, List.append_assoc, if_true]
    rfl
  rw [ht, this]
  simp only [Names.go_name, Names.go_type, memberMeaning_eq, List.nil_append]

theorem union (tree : Tree) (fn : Str) (v : SimpleType) (hfn : '\n' ∉ fn) (hv : Union v) (h : Tidy tree v) :
    ∃ ms : List (Str × Str), ms.Perm v.memberTypes ∧ C08.Sorted ms ∧ C17.read ((C15.goLang tree).text (.simple v) fn) =
      (if fn ≠ v.name then [⟨c!"XMLName", c!"xml.Name", some (v.name, [])⟩] else []) ++
      ms.map fun m => ⟨Names.strict m.1, Names.goType goBuildinType (memberMeaning tree m), none⟩ :=
  ⟨toSortedPairs v.memberTypes, C08.toSortedPairs_perm _, C08.toSortedPairs_sorted _, union_at tree fn v hfn hv h⟩

end Go

/-! ## C -/

namespace C
open C48.C

/-- Reading `typedef type name;`. -/
def readTypedef (l : Str) : Option Member :=
  if c!"typedef " <+: l ∧ l.getLast? = some ';' then readLine ('\t' :: l.drop 8) else none

/-- The synonyms declared by a text. -/
def typedefs (text : Str) : List Member := (splitOn '\n' text).filterMap readTypedef

omit [Uni] in
theorem declared {pre : Str} {ls : List Str} {t n : Str} {b : Bool} (hp : Lines pre ls)
    (hl : ∀ l ∈ ls, l.head? = none ∨ l.head? = some '\r' ∨ l.head? = some '/') (hn : Clean notInNames n) (ht : Clean notInTypes t) :
    typedefs (pre ++ c!"typedef " ++ (t ++ c!" " ++ n ++ cPlural b) ++ c!";\n") = [⟨t, n, b, []⟩] := by
  have p1 : Part (List.filterMap readTypedef) pre [] := Part.lines hp (skip hl fun l h => by
    unfold readTypedef; rw [if_neg fun e => (no_prefix (c := 't') rfl (by decide) (by decide) h) e.1])
  have p2 : Part (List.filterMap readTypedef) (c!"typedef " ++ (t ++ c!" " ++ n ++ cPlural b) ++ c!";" ++ c!"\n") [⟨t, n, b, []⟩] := by
    refine Part.lines (Lines.one ?_) ?_
    · simp [hn '\n' (by decide), ht '\n' (by decide), plural_nl b]
    · rw [List.filterMap_cons]
      have e : readTypedef (c!"typedef " ++ (t ++ c!" " ++ n ++ cPlural b) ++ c!";") = some ⟨t, n, b, []⟩ := by
        unfold readTypedef
        rw [if_pos ⟨⟨t ++ c!" " ++ n ++ cPlural b ++ c!";", by simp⟩, List.getLast?_concat⟩]
        have e : '\t' :: (c!"typedef " ++ (t ++ c!" " ++ n ++ cPlural b) ++ c!";").drop 8 =
            c!"\t" ++ t ++ c!" " ++ n ++ cPlural b ++ c!";" ++ [] := by simp
        rw [e, readLine_eq b (hn _ (by decide)) (hn _ (by decide)) (hn _ (by decide)) (ht _ (by decide))]
      rw [e]; rfl
  have := (p1.append p2).done (tail := []) (by decide)
  unfold typedefs
  have e : pre ++ c!"typedef " ++ (t ++ c!" " ++ n ++ cPlural b) ++ c!";\n" =
      pre ++ (c!"typedef " ++ (t ++ c!" " ++ n ++ cPlural b) ++ c!";" ++ c!"\n") ++ [] := by simp
  rw [e, this]
  rfl

variable [UniLaws]

theorem name_clean {s : Str} (h : Clean notInNames s) : Clean notInNames (cName s) :=
  fun x hx => cName_absent ((by decide : ∀ x ∈ notInNames, Sym x) x hx) (h x hx)

theorem type_clean {s : Str} (h : Clean notInTypes s) : Clean notInTypes (genCFieldType s) :=
  fun x hx => cType_absent ((by decide : ∀ x ∈ notInTypes, Sym x) x hx) (h x hx)

omit [Uni] [UniLaws] in
theorem item_clean {s : Str} (h : Clean notInTypes s) : Clean notInTypes (item s) := fun x hx => item_absent (h x hx)

theorem simple (tree : Tree) (fn : Str) (v : SimpleType) (hfn : '\n' ∉ fn) (hv : Plain v) (h : Tidy tree v) :
    typedefs ((C15.cLang tree).text (.simple v) fn) = [⟨item (typeOf tree v.base), Names.plain v.name, isArray (typeOf tree v.base), []⟩] := by
  have hu : (v.union && decide (v.memberTypes.length > 0)) = false := by rcases hv.2 with e | e <;> simp [e]
  obtain ⟨cl, hcl, hcl'⟩ := comment_heads fn v.doc hfn
  have ht := type_clean (resolveIn_clean h.base h.tree)
  have := declared (b := isArray (genCFieldType (resolveIn tree v.base))) hcl hcl' (name_clean h.name) (item_clean ht)
  simp only [C15.cLang, hv.1, hu, typeOf, ← Names.c_type, ← Names.c_name, ← Names.meaning_eq, innerArray_eq]
  exact this

theorem global_element (tree : Tree) (fn : Str) (v : Element) (hfn : Clean notInNames fn) (hv : Clean notInTypes v.type)
    (ht : ∀ t ∈ treeTypes tree, Clean notInTypes t) : typedefs ((C15.cLang tree).text (.elem v) fn) =
      [⟨item (typeOf tree v.type), fn, isArray (typeOf tree v.type) || v.plural, []⟩] := by
  have := declared (b := isArray (genCFieldType (resolveIn tree v.type)) || v.plural) (Lines.one (a := []) (by decide)) (by simp)
    hfn (item_clean (type_clean (resolveIn_clean hv ht)))
  simp only [C15.cLang, typeOf, ← Names.c_type, ← Names.meaning_eq, innerArray_eq]
  exact this

theorem global_attribute (tree : Tree) (fn : Str) (v : Attribute) (hfn : '\n' ∉ fn) (hn : Clean notInNames v.name)
    (hv : Clean notInTypes v.type) (ht : ∀ t ∈ treeTypes tree, Clean notInTypes t) :
    typedefs ((C15.cLang tree).text (.attr v) fn) =
      [⟨item (typeOf tree v.type), Names.plain v.name, isArray (typeOf tree v.type) || v.plural, []⟩] := by
  obtain ⟨cl, hcl, hcl'⟩ := comment_heads fn v.doc hfn
  have := declared (b := isArray (genCFieldType (resolveIn tree v.type)) || v.plural) hcl hcl' (name_clean hn)
    (item_clean (type_clean (resolveIn_clean hv ht)))
  simp only [C15.cLang, typeOf, ← Names.c_type, ← Names.c_name, ← Names.meaning_eq, innerArray_eq]
  exact this

theorem word_idem (t : Str) : Names.cap (Names.camel Names.dot Names.hyphen true (Names.cap (Names.camel Names.dot Names.hyphen true t))) =
    Names.cap (Names.camel Names.dot Names.hyphen true t) := by
  have hno : ∀ (b : Bool) (s : Str), ∀ c ∈ Names.camel Names.dot Names.hyphen b s, c ≠ '.' ∧ c ≠ '-' := by
    intro b s
    induction s generalizing b with
    | nil => intro c hc; cases hc
    | cons d s ih =>
      intro c hc
      rw [Names.camel] at hc
      split at hc
      · exact ih _ c hc
      · split at hc
        · exact ih _ c hc
        · rename_i h1 h2
          rcases List.mem_cons.1 hc with rfl | hc
          · have hd : d ≠ '.' ∧ d ≠ '-' := ⟨by simpa [Names.dot] using h1, by simpa [Names.hyphen] using h2⟩
            split
            · exact ⟨fun e => hd.1 ((upper_eq_iff (by decide) (by decide) d).1 e), fun e => hd.2 ((upper_eq_iff (by decide) (by decide) d).1 e)⟩
            · exact hd
          · exact ih _ c hc
  have hid : ∀ s : Str, (∀ c ∈ s, c ≠ '.' ∧ c ≠ '-') → Names.camel Names.dot Names.hyphen false s = s := by
    intro s hs
    induction s with
    | nil => rfl
    | cons c s ih =>
      have := hs c (by simp)
      rw [Names.camel, if_neg (by simp [Names.dot, this.1]), if_neg (by simp [Names.hyphen, this.2]), ih fun d hd => hs d (by simp [hd])]
      rfl
  have hs := hno true t
  cases hc : Names.camel Names.dot Names.hyphen true t with
  | nil => rfl
  | cons c s =>
    rw [hc] at hs
    have h1 := hs c (by simp)
    rw [Names.cap, Names.camel, if_neg, if_neg]
    · rw [hid s fun d hd => hs d (by simp [hd])]
      simp [Names.cap, UniLaws.upper_idem]
    · simp only [Names.hyphen, decide_eq_true_eq]
      exact fun e => h1.2 ((upper_eq_iff (by decide) (by decide) c).1 e)
    · simp only [Names.dot, decide_eq_true_eq]
      exact fun e => h1.1 ((upper_eq_iff (by decide) (by decide) c).1 e)

/-- A target type of C is its own target type. -/
theorem type_idem (t : Str) : Names.plainType c!"void" cBuildInType (Names.plainType c!"void" cBuildInType t) =
    Names.plainType c!"void" cBuildInType t := by
  by_cases h : t ∈ cBuildInType
  · have : Names.plainType c!"void" cBuildInType t = t := by simp only [Names.plainType, h, if_true]
    rw [this, this]
  · by_cases hw : Names.cap (Names.camel Names.dot Names.hyphen true t) = []
    · have : Names.plainType c!"void" cBuildInType t = c!"void" := by simp only [Names.plainType, h, hw, if_true, if_false]
      rw [this]
      decide_cbv
    · have : Names.plainType c!"void" cBuildInType t = Names.cap (Names.camel Names.dot Names.hyphen true t) := by
        simp only [Names.plainType, h, hw, if_false]
      rw [this, Names.plainType, word_idem]
      split
      · rfl
      · first | rfl | rw [if_neg hw]

/-- A list is an array of its item type. -/
theorem list (tree : Tree) (fn : Str) (v : SimpleType) (hfn : '\n' ∉ fn) (hv : v.list = true) (h : Tidy tree v) :
    typedefs ((C15.cLang tree).text (.simple v) fn) = [⟨typeOf tree v.base, Names.plain v.name, true, []⟩] := by
  obtain ⟨cl, hcl, hcl'⟩ := comment_heads fn v.doc hfn
  have ht := type_clean (type_clean (resolveIn_clean h.base h.tree))
  have := declared (b := true) hcl hcl' (name_clean h.name) ht
  have e : genCFieldType (genCFieldType (resolveIn tree v.base)) = typeOf tree v.base := by
    rw [Names.c_type, Names.c_type, type_idem, typeOf, Names.meaning_eq]
  rw [e] at this
  have ht : (C15.cLang tree).text (.simple v) fn = genFieldComment fn v.doc c!"//" ++ c!"typedef " ++
      (typeOf tree v.base ++ c!" " ++ cName v.name ++ cPlural true) ++ c!";\n" := by
    simp [C15.cLang, hv, e, cPlural]
  rw [ht, this, Names.c_name]

theorem union_at (tree : Tree) (fn : Str) (v : SimpleType) (hfn : '\n' ∉ fn) (hv : Union v) (h : Tidy tree v) :
    C48.C.read ((C15.cLang tree).text (.simple v) fn) =
      (toSortedPairs v.memberTypes).map fun m => ⟨item (Names.plainType c!"void" cBuildInType (memberMeaning tree m)), Names.plain m.1,
        isArray (Names.plainType c!"void" cBuildInType (memberMeaning tree m)), []⟩ := by
  have hu : (v.union && decide (v.memberTypes.length > 0)) = true := by
    simp [hv.2.1, List.length_pos_iff.2 hv.2.2]
  have hm : Part (List.filterMap readLine) ((toSortedPairs v.memberTypes).flatMap (cMemberLine tree))
      ((toSortedPairs v.memberTypes).map fun m => (⟨item (genCFieldType (memberType tree m)), cName m.1,
        isArray (genCFieldType (memberType tree m)), []⟩ : Member)) := by
    refine Part.flatMap fun m hm => ?_
    obtain ⟨h1, h2⟩ := h.member m ((C08.toSortedPairs_perm _).mem_iff.1 hm)
    have := C54.C.member (isArray (genCFieldType (memberType tree m))) (name_clean h1)
      (item_clean (type_clean (member_clean h1 h2 h.tree)))
    simpa [cMemberLine, innerArray_eq] using this
  obtain ⟨cl, hcl, hcl'⟩ := comment_untabbed fn v.doc hfn
  have hh : Part (List.filterMap readLine) (c!"typedef struct {" ++ c!"\n") [] := Part.lines (Lines.one (by decide)) (by decide)
  have htail : List.filterMap readLine (splitOn '\n' (c!"} " ++ fn ++ c!";\n")) = [] := by
    have := Lines.one (a := c!"} " ++ fn ++ c!";") (by simp [hfn]) []
    have e : c!"} " ++ fn ++ c!";\n" = c!"} " ++ fn ++ c!";" ++ c!"\n" ++ [] := by simp
    rw [e, this]
    simp [readLine, splitOn]
  have := ((Part.lines hcl (untabbed hcl')).append (hh.append hm)).done htail
  unfold C48.C.read
  have ht : (C15.cLang tree).text (.simple v) fn = genFieldComment fn v.doc c!"//" ++ ((c!"typedef struct {" ++ c!"\n") ++
      (toSortedPairs v.memberTypes).flatMap (cMemberLine tree)) ++ (c!"} " ++ fn ++ c!";\n") := by
    simp only [C15.cLang, hv.1, hu, cDecl, List.append_assoc, if_true]
    rfl
  rw [ht, this]
  simp only [Names.c_name, Names.c_type, memberMeaning_eq, List.nil_append]

theorem union (tree : Tree) (fn : Str) (v : SimpleType) (hfn : '\n' ∉ fn) (hv : Union v) (h : Tidy tree v) :
    ∃ ms : List (Str × Str), ms.Perm v.memberTypes ∧ C08.Sorted ms ∧ C48.C.read ((C15.cLang tree).text (.simple v) fn) =
      ms.map fun m => ⟨item (Names.plainType c!"void" cBuildInType (memberMeaning tree m)), Names.plain m.1,
        isArray (Names.plainType c!"void" cBuildInType (memberMeaning tree m)), []⟩ :=
  ⟨toSortedPairs v.memberTypes, C08.toSortedPairs_perm _, C08.toSortedPairs_sorted _, union_at tree fn v hfn hv h⟩

end C

/-! ## TypeScript -/

namespace TS
open C48.TS

/-- Reading `export type name = type;`. -/
def readAlias (l : Str) : Option (Str × Str) :=
  if c!"export type " <+: l then
    let d := splitFirst ' ' (l.drop 12)
    some (d.1, (d.2.drop 2).dropLast)
  else none

/-- The synonyms declared by a text. -/
def aliases (text : Str) : List (Str × Str) := (splitOn '\n' text).filterMap readAlias

omit [Uni] in
theorem declared {fn doc t : Str} (hfn : Clean notInNames fn) (ht : '\n' ∉ t) :
    aliases (tsAlias fn doc (c!" " ++ t ++ c!";\n")) = [(fn, t)] := by
  obtain ⟨cl, hcl, hcl'⟩ := comment_heads fn doc (hfn _ (by decide))
  have p1 : Part (List.filterMap readAlias) _ [] := Part.lines hcl (skip hcl' fun l h => by
    unfold readAlias; rw [if_neg (no_prefix (c := 'e') rfl (by decide) (by decide) h)])
  have p2 : Part (List.filterMap readAlias) (c!"export type " ++ fn ++ c!" = " ++ t ++ c!";" ++ c!"\n") [(fn, t)] := by
    refine Part.lines (Lines.one ?_) ?_
    · simp [hfn '\n' (by decide), ht]
    · have e : readAlias (c!"export type " ++ fn ++ c!" = " ++ t ++ c!";") = some (fn, t) := by
        unfold readAlias
        have e : (c!"export type " ++ fn ++ c!" = " ++ t ++ c!";").drop 12 = fn ++ ' ' :: (c!"= " ++ t ++ c!";") := by simp
        rw [if_pos ⟨fn ++ c!" = " ++ t ++ c!";", by simp⟩, e]
        simp only [splitFirst_eq (hfn ' ' (by decide))]
        simp
      rw [List.filterMap_cons, e]; rfl
  have := (p1.append p2).done (tail := []) (by decide)
  unfold aliases
  have e : tsAlias fn doc (c!" " ++ t ++ c!";\n") = genFieldComment fn doc c!"//" ++ (c!"export type " ++ fn ++ c!" = " ++ t ++ c!";" ++ c!"\n") ++ [] := by
    simp [tsAlias, tsComment]
  rw [e, this]
  rfl

variable [UniLaws]

theorem type_nl {tree : Tree} {s : Str} (b : Bool) (hs : Clean notInTypes s) (ht : ∀ t ∈ treeTypes tree, Clean notInTypes t) :
    '\n' ∉ genTypeScriptFieldType (resolveIn tree s) b :=
  tsType_absent (by decide) (by decide) (resolveIn_clean hs ht _ (by decide))

theorem simple (tree : Tree) (fn : Str) (v : SimpleType) (hfn : Clean notInNames fn) (hv : Plain v) (he : v.enum = [])
    (h : Tidy tree v) : aliases ((C15.tsLang tree).text (.simple v) fn) = [(fn, typeOf tree v.base false)] := by
  have hu : (v.union && decide (v.memberTypes.length > 0)) = false := by rcases hv.2 with e | e <;> simp [e]
  have := declared (doc := v.doc) hfn (type_nl false h.base h.tree)
  simp only [C15.tsLang, hv.1, hu, he, typeOf, ← Names.ts_type, ← Names.meaning_eq]
  exact this

theorem global_element (tree : Tree) (fn : Str) (v : Element) (hfn : Clean notInNames fn) (hv : Clean notInTypes v.type)
    (ht : ∀ t ∈ treeTypes tree, Clean notInTypes t) :
    aliases ((C15.tsLang tree).text (.elem v) fn) = [(fn, typeOf tree v.type v.plural)] := by
  have := declared (doc := v.doc) hfn (type_nl v.plural hv ht)
  simp only [C15.tsLang, typeOf, ← Names.ts_type, ← Names.meaning_eq]
  exact this

theorem global_attribute (tree : Tree) (fn : Str) (v : Attribute) (hfn : Clean notInNames fn) (hv : Clean notInTypes v.type)
    (ht : ∀ t ∈ treeTypes tree, Clean notInTypes t) :
    aliases ((C15.tsLang tree).text (.attr v) fn) = [(fn, typeOf tree v.type v.plural)] := by
  have := declared (doc := v.doc) hfn (type_nl v.plural hv ht)
  simp only [C15.tsLang, typeOf, ← Names.ts_type, ← Names.meaning_eq]
  exact this

theorem list (tree : Tree) (fn : Str) (v : SimpleType) (hfn : Clean notInNames fn) (hv : v.list = true) (h : Tidy tree v) :
    aliases ((C15.tsLang tree).text (.simple v) fn) = [(fn, typeOf tree v.base true)] := by
  have := declared (doc := v.doc) hfn (type_nl true h.base h.tree)
  simp only [typeOf, ← Names.ts_type, ← Names.meaning_eq]
  rw [← this]
  simp [C15.tsLang, hv, tsAlias]

theorem union_at (tree : Tree) (fn : Str) (v : SimpleType) (hfn : '\n' ∉ fn) (hv : Union v) (h : Tidy tree v) :
    C48.TS.read ((C15.tsLang tree).text (.simple v) fn) =
      (toSortedPairs v.memberTypes).map fun m => ⟨Names.plain m.1, Names.tsType typeScriptBuildInType (memberMeaning tree m) false⟩ := by
  have hu : (v.union && decide (v.memberTypes.length > 0)) = true := by
    simp [hv.2.1, List.length_pos_iff.2 hv.2.2]
  have hm : Part (List.filterMap readLine) ((toSortedPairs v.memberTypes).flatMap (tsMemberLine tree))
      ((toSortedPairs v.memberTypes).map fun m => (⟨tsName m.1, genTypeScriptFieldType (memberType tree m) false⟩ : Member)) := by
    refine Part.flatMap fun m hm => ?_
    obtain ⟨h1, h2⟩ := h.member m ((C08.toSortedPairs_perm _).mem_iff.1 hm)
    have := C54.TS.member (n := tsName m.1) (t := genTypeScriptFieldType (memberType tree m) false)
      (cName_absent (by decide) (h1 _ (by decide))) (colon_tsName m.1)
      (tsType_absent (by decide) (by decide) (member_clean h1 h2 h.tree _ (by decide)))
    simpa [tsMemberLine] using this
  obtain ⟨cl, hcl, hcl'⟩ := comment_untabbed fn v.doc hfn
  have hh : Part (List.filterMap readLine) (c!"export class " ++ fn ++ c!" {" ++ c!"\n") [] :=
    Part.lines (Lines.one (by simp [hfn])) (by simp [readLine])
  have := ((Part.lines hcl (untabbed hcl')).append (hh.append hm)).done (tail := c!"}\n") (by decide)
  unfold C48.TS.read
  have ht : (C15.tsLang tree).text (.simple v) fn = genFieldComment fn v.doc c!"//" ++ ((c!"export class " ++ fn ++ c!" {" ++ c!"\n") ++
      (toSortedPairs v.memberTypes).flatMap (tsMemberLine tree)) ++ c!"}\n" := by
    simp only [C15.tsLang, hv.1, hu, tsClass, tsComment, List.append_assoc, if_true]
    rfl
  rw [ht, this]
  simp only [Names.ts_name, Names.ts_type, memberMeaning_eq, List.nil_append]

theorem union (tree : Tree) (fn : Str) (v : SimpleType) (hfn : '\n' ∉ fn) (hv : Union v) (h : Tidy tree v) :
    ∃ ms : List (Str × Str), ms.Perm v.memberTypes ∧ C08.Sorted ms ∧ C48.TS.read ((C15.tsLang tree).text (.simple v) fn) =
      ms.map fun m => ⟨Names.plain m.1, Names.tsType typeScriptBuildInType (memberMeaning tree m) false⟩ :=
  ⟨toSortedPairs v.memberTypes, C08.toSortedPairs_perm _, C08.toSortedPairs_sorted _, union_at tree fn v hfn hv h⟩

end TS

/-! ## Java -/

namespace Java
open C48.Java

omit [Uni] in
/-- Reading a wrapper class after a text without tabbed lines. -/
theorem declared {pre : Str} {ls : List Str} {kind name fn t n : Str} (hp : Lines pre ls) (hl : ∀ l ∈ ls, ∀ r, l ≠ '\t' :: r)
    (hk : '\n' ∉ kind) (hname : '\n' ∉ name) (hfn : '\n' ∉ fn) (hn : '\n' ∉ n) (hn2 : ' ' ∉ n) (ht : '\n' ∉ t) :
    C48.Java.read (pre ++ javaWrapper kind name fn (c!"\tprotected " ++ t ++ c!" " ++ n ++ c!";\n")) = [⟨none, t, n⟩] ∧
    c!"@" ++ kind ++ c!"(required = true, name = \"" ++ name ++ c!"\")" ∈
      splitOn '\n' (pre ++ javaWrapper kind name fn (c!"\tprotected " ++ t ++ c!" " ++ n ++ c!";\n")) ∧
    c!"public class " ++ fn ++ c!" {" ∈
      splitOn '\n' (pre ++ javaWrapper kind name fn (c!"\tprotected " ++ t ++ c!" " ++ n ++ c!";\n")) := by
  have l1 := Lines.one (a := c!"@XmlAccessorType(XmlAccessType.FIELD)") (by decide)
  have l2 := Lines.one (a := c!"@" ++ kind ++ c!"(required = true, name = \"" ++ name ++ c!"\")") (by simp [hk, hname])
  have l3 := Lines.one (a := c!"public class " ++ fn ++ c!" {") (by simp [hfn])
  have l4 := Lines.one (a := c!"\t" ++ (c!"protected " ++ t ++ c!" " ++ n ++ c!";")) (by simp [hn, ht])
  have hall := (((hp.append l1).append (l2.append l3)).append l4) c!"}\n"
  have e : pre ++ javaWrapper kind name fn (c!"\tprotected " ++ t ++ c!" " ++ n ++ c!";\n") =
      ((pre ++ (c!"@XmlAccessorType(XmlAccessType.FIELD)" ++ c!"\n")) ++
        ((c!"@" ++ kind ++ c!"(required = true, name = \"" ++ name ++ c!"\")" ++ c!"\n") ++ (c!"public class " ++ fn ++ c!" {" ++ c!"\n")) ++
        (c!"\t" ++ (c!"protected " ++ t ++ c!" " ++ n ++ c!";") ++ c!"\n")) ++ c!"}\n" := by
    simp [javaWrapper]
  have b0 : Block field ((ls ++ [c!"@XmlAccessorType(XmlAccessType.FIELD)"]) ++
      ([c!"@" ++ kind ++ c!"(required = true, name = \"" ++ name ++ c!"\")"] ++ [c!"public class " ++ fn ++ c!" {"])) [] := by
    refine Block.untabbed fun l hl' r => ?_
    simp only [List.mem_append, List.mem_singleton] at hl'
    rcases hl' with (hl' | rfl) | rfl | rfl
    · exact hl l hl' r
    all_goals simp
  have b1 : Block field [c!"\t" ++ (c!"protected " ++ t ++ c!" " ++ n ++ c!";")] [⟨none, t, n⟩] := Block.one (field_eq hn2)
  refine ⟨?_, ?_, ?_⟩
  · unfold C48.Java.read
    rw [e, hall, (b0.append b1)]
    have : scan field none (splitOn '\n' c!"}\n") = [] := by decide
    rw [this]; rfl
  · rw [e, hall]; simp
  · rw [e, hall]; simp

variable [UniLaws]

theorem type_nl {tree : Tree} {s : Str} (hs : Clean notInTypes s) (ht : ∀ t ∈ treeTypes tree, Clean notInTypes t) :
    '\n' ∉ genJavaFieldType (resolveIn tree s) :=
  javaType_absent (by decide) (resolveIn_clean hs ht _ (by decide))

/-- The text declares the class `fn` for the XML component `name` of the given kind with a single member. -/
def Declares (text kind name fn type : Str) : Prop :=
  C48.Java.read text = [⟨none, type, Names.plain name⟩] ∧
  c!"@" ++ kind ++ c!"(required = true, name = \"" ++ name ++ c!"\")" ∈ splitOn '\n' text ∧
  c!"public class " ++ fn ++ c!" {" ∈ splitOn '\n' text

theorem simple (tree : Tree) (fn : Str) (v : SimpleType) (hfn : '\n' ∉ fn) (hv : Plain v) (h : Tidy tree v) :
    Declares ((C15.javaLang tree).text (.simple v) fn) c!"XmlAttribute" v.name fn (typeOf tree v.base) := by
  have hu : (v.union && decide (v.memberTypes.length > 0)) = false := by rcases hv.2 with e | e <;> simp [e]
  obtain ⟨cl, hcl, hcl'⟩ := comment_untabbed fn v.doc hfn
  have := declared (kind := c!"XmlAttribute") (n := javaName v.name) hcl hcl' (by decide) (h.name _ (by decide)) hfn
    (cName_absent (by decide) (h.name _ (by decide))) (cName_absent (by decide) (h.name _ (by decide))) (type_nl h.base h.tree)
  simp only [Declares, C15.javaLang, hv.1, hu, typeOf, ← Names.java_type, ← Names.java_name, ← Names.meaning_eq]
  exact this

theorem list (tree : Tree) (fn : Str) (v : SimpleType) (hfn : '\n' ∉ fn) (hv : v.list = true) (h : Tidy tree v) :
    Declares ((C15.javaLang tree).text (.simple v) fn) c!"XmlAttribute" v.name fn (c!"List<" ++ typeOf tree v.base ++ c!">") := by
  have := declared (kind := c!"XmlAttribute") (n := javaName v.name) (t := c!"List<" ++ genJavaFieldType (resolveIn tree v.base) ++ c!">")
    (Lines.one (a := []) (by decide)) (by simp) (by decide) (h.name _ (by decide)) hfn
    (cName_absent (by decide) (h.name _ (by decide))) (cName_absent (by decide) (h.name _ (by decide)))
    (by simp [type_nl h.base h.tree])
  have e : (C15.javaLang tree).text (.simple v) fn = [] ++ c!"\n" ++ javaWrapper c!"XmlAttribute" v.name fn
      (c!"\tprotected " ++ (c!"List<" ++ genJavaFieldType (resolveIn tree v.base) ++ c!">") ++ c!" " ++ javaName v.name ++ c!";\n") := by
    simp [C15.javaLang, hv]
  rw [e]
  simp only [Declares, typeOf, ← Names.java_type, ← Names.java_name, ← Names.meaning_eq]
  exact this

theorem global_element (tree : Tree) (fn : Str) (v : Element) (hfn : '\n' ∉ fn) (hn : Clean notInNames v.name) (hv : Clean notInTypes v.type)
    (ht : ∀ t ∈ treeTypes tree, Clean notInTypes t) :
    Declares ((C15.javaLang tree).text (.elem v) fn) c!"XmlElement" v.name fn (listOf v.plural (typeOf tree v.type)) := by
  have := declared (kind := c!"XmlElement") (n := javaName v.name) (Lines.one (a := []) (by decide)) (by simp) (by decide)
    (hn _ (by decide)) hfn (cName_absent (by decide) (hn _ (by decide))) (cName_absent (by decide) (hn _ (by decide)))
    (C54.Java.listOf_nl (b := v.plural) (type_nl hv ht))
  simp only [Declares, C15.javaLang, typeOf, ← Names.java_type, ← Names.java_name, ← Names.meaning_eq]
  exact this

theorem global_attribute (tree : Tree) (fn : Str) (v : Attribute) (hfn : '\n' ∉ fn) (hn : Clean notInNames v.name) (hv : Clean notInTypes v.type)
    (ht : ∀ t ∈ treeTypes tree, Clean notInTypes t) :
    Declares ((C15.javaLang tree).text (.attr v) fn) c!"XmlAttribute" v.name fn (listOf v.plural (typeOf tree v.type)) := by
  have := declared (kind := c!"XmlAttribute") (n := javaName v.name) (Lines.one (a := []) (by decide)) (by simp) (by decide)
    (hn _ (by decide)) hfn (cName_absent (by decide) (hn _ (by decide))) (cName_absent (by decide) (hn _ (by decide)))
    (C54.Java.listOf_nl (b := v.plural) (type_nl hv ht))
  simp only [Declares, C15.javaLang, typeOf, ← Names.java_type, ← Names.java_name, ← Names.meaning_eq]
  exact this

theorem union_at (tree : Tree) (fn : Str) (v : SimpleType) (hfn : '\n' ∉ fn) (hv : Union v) (h : Tidy tree v) :
    C48.Java.read ((C15.javaLang tree).text (.simple v) fn) =
      (toSortedPairs v.memberTypes).map fun m => ⟨some c!"@XmlElement(required = true)",
        Names.plainType c!"void" javaBuildInType (memberMeaning tree m), Names.plain m.1⟩ := by
  have hu : (v.union && decide (v.memberTypes.length > 0)) = true := by
    simp [hv.2.1, List.length_pos_iff.2 hv.2.2]
  have hm : Part (scan field none) ((toSortedPairs v.memberTypes).flatMap (javaMemberLine tree))
      ((toSortedPairs v.memberTypes).map fun m => (⟨some c!"@XmlElement(required = true)",
        genJavaFieldType (memberType tree m), javaName m.1⟩ : Member)) := by
    refine Part.flatMap fun m hm => ?_
    obtain ⟨h1, h2⟩ := h.member m ((C08.toSortedPairs_perm _).mem_iff.1 hm)
    have := C54.Java.annotated (a := c!"XmlElement(required = true)") (n := javaName m.1) (by decide)
      (cName_absent (by decide) (h1 _ (by decide))) (cName_absent (by decide) (h1 _ (by decide)))
      (javaType_absent (by decide) (member_clean h1 h2 h.tree '\n' (by decide)))
    simpa [javaMemberLine] using this
  have := ((C54.Java.opened fn v.doc hfn).append hm).done (tail := c!"}\n") (by decide)
  unfold C48.Java.read
  have ht : (C15.javaLang tree).text (.simple v) fn = (genFieldComment fn v.doc c!"//" ++ (c!"public class " ++ fn ++ c!" {" ++ c!"\n")) ++
      (toSortedPairs v.memberTypes).flatMap (javaMemberLine tree) ++ c!"}\n" := by
    simp only [C15.javaLang, hv.1, hu, javaDecl, List.append_assoc, if_true]
    rfl
  rw [ht, this]
  simp only [Names.java_name, Names.java_type, memberMeaning_eq, List.nil_append]

theorem union (tree : Tree) (fn : Str) (v : SimpleType) (hfn : '\n' ∉ fn) (hv : Union v) (h : Tidy tree v) :
    ∃ ms : List (Str × Str), ms.Perm v.memberTypes ∧ C08.Sorted ms ∧ C48.Java.read ((C15.javaLang tree).text (.simple v) fn) =
      ms.map fun m => ⟨some c!"@XmlElement(required = true)",
        Names.plainType c!"void" javaBuildInType (memberMeaning tree m), Names.plain m.1⟩ :=
  ⟨toSortedPairs v.memberTypes, C08.toSortedPairs_perm _, C08.toSortedPairs_sorted _, union_at tree fn v hfn hv h⟩

end Java

/-! ## Rust -/

namespace Rust
open C48.Rust

omit [Uni] in
/-- Reading a struct with one field. -/
theorem declared {fn doc x n t : Str} (hfn : '\n' ∉ fn) (hx : '\n' ∉ x) (hn : '\n' ∉ n) (hn2 : ':' ∉ n) (ht : '\n' ∉ t) :
    C48.Rust.read (rustDecl fn doc (rustField x n t)) = [⟨rename x, n, t⟩] := by
  have := ((C54.Rust.opened fn doc hfn).append (C54.Rust.member hx hn hn2 ht)).done (tail := c!"}\n") (by decide)
  unfold C48.Rust.read
  rw [C54.Rust.closed, this]
  rfl

variable [UniLaws]

theorem type_nl {tree : Tree} {s : Str} (hs : Clean notInTypes s) (ht : ∀ t ∈ treeTypes tree, Clean notInTypes t) :
    '\n' ∉ genRustFieldType (resolveIn tree s) :=
  rustType_absent (by decide) (resolveIn_clean hs ht _ (by decide))

theorem simple (tree : Tree) (fn : Str) (v : SimpleType) (hfn : '\n' ∉ fn) (hv : Plain v) (h : Tidy tree v) :
    C48.Rust.read ((C15.rustLang tree).text (.simple v) fn) =
      [⟨rename v.name, Names.rustMember rustKeywords v.name, typeOf tree v.base⟩] := by
  have hu : (v.union && decide (v.memberTypes.length > 0)) = false := by rcases hv.2 with e | e <;> simp [e]
  have := declared (doc := v.doc) hfn (h.name _ (by decide)) (rustFieldName_absent (by decide) (by decide) (h.name _ (by decide)))
    (colon_rustFieldName v.name) (type_nl h.base h.tree)
  simp only [C15.rustLang, hv.1, hu, typeOf, ← Names.rust_type, ← Names.rust_member_name, ← Names.meaning_eq]
  exact this

theorem list (tree : Tree) (fn : Str) (v : SimpleType) (hfn : '\n' ∉ fn) (hv : v.list = true) (h : Tidy tree v) :
    C48.Rust.read ((C15.rustLang tree).text (.simple v) fn) =
      [⟨rename v.name, Names.rustMember rustKeywords v.name, vec (typeOf tree v.base)⟩] := by
  have := declared (doc := v.doc) (t := vec (genRustFieldType (resolveIn tree v.base))) hfn (h.name _ (by decide))
    (rustFieldName_absent (by decide) (by decide) (h.name _ (by decide))) (colon_rustFieldName v.name)
    (by simp [vec, type_nl h.base h.tree])
  simp only [C15.rustLang, hv, typeOf, ← Names.rust_type, ← Names.rust_member_name, ← Names.meaning_eq]
  exact this

theorem global_element (tree : Tree) (fn : Str) (v : Element) (hfn : '\n' ∉ fn) (hn : Clean notInNames v.name) (hv : Clean notInTypes v.type)
    (ht : ∀ t ∈ treeTypes tree, Clean notInTypes t) : C48.Rust.read ((C15.rustLang tree).text (.elem v) fn) =
      [⟨rename v.name, Names.rustMember rustKeywords v.name, if v.plural then vec (typeOf tree v.type) else typeOf tree v.type⟩] := by
  have := declared (doc := v.doc) (t := if v.plural then vec (genRustFieldType (resolveIn tree v.type)) else genRustFieldType (resolveIn tree v.type))
    hfn (hn _ (by decide)) (rustFieldName_absent (by decide) (by decide) (hn _ (by decide))) (colon_rustFieldName v.name)
    (by split <;> simp [vec, type_nl hv ht])
  simp only [C15.rustLang, typeOf, ← Names.rust_type, ← Names.rust_member_name, ← Names.meaning_eq]
  exact this

theorem global_attribute (tree : Tree) (fn : Str) (v : Attribute) (hfn : '\n' ∉ fn) (hn : Clean notInNames v.name) (hv : Clean notInTypes v.type)
    (ht : ∀ t ∈ treeTypes tree, Clean notInTypes t) : C48.Rust.read ((C15.rustLang tree).text (.attr v) fn) =
      [⟨rename v.name, Names.rustMember rustKeywords v.name, if v.plural then vec (typeOf tree v.type) else typeOf tree v.type⟩] := by
  have := declared (doc := v.doc) (t := if v.plural then vec (genRustFieldType (resolveIn tree v.type)) else genRustFieldType (resolveIn tree v.type))
    hfn (hn _ (by decide)) (rustFieldName_absent (by decide) (by decide) (hn _ (by decide))) (colon_rustFieldName v.name)
    (by split <;> simp [vec, type_nl hv ht])
  simp only [C15.rustLang, typeOf, ← Names.rust_type, ← Names.rust_member_name, ← Names.meaning_eq]
  exact this

theorem union_at (tree : Tree) (fn : Str) (v : SimpleType) (hfn : '\n' ∉ fn) (hv : Union v) (h : Tidy tree v) :
    C48.Rust.read ((C15.rustLang tree).text (.simple v) fn) =
      (toSortedPairs v.memberTypes).map fun m => ⟨rename v.name, Names.rustMember rustKeywords m.1, Names.rustType rustBuildinType (memberMeaning tree m)⟩ := by
  have hu : (v.union && decide (v.memberTypes.length > 0)) = true := by
    simp [hv.2.1, List.length_pos_iff.2 hv.2.2]
  have hm : Part (scan field none) ((toSortedPairs v.memberTypes).flatMap (rustMemberLine tree v.name))
      ((toSortedPairs v.memberTypes).map fun m => (⟨rename v.name, rustFieldName m.1, genRustFieldType (memberType tree m)⟩ : Member)) := by
    refine Part.flatMap fun m hm => ?_
    obtain ⟨h1, h2⟩ := h.member m ((C08.toSortedPairs_perm _).mem_iff.1 hm)
    exact C54.Rust.member (h.name _ (by decide)) (rustFieldName_absent (by decide) (by decide) (h1 _ (by decide)))
      (colon_rustFieldName m.1) (rustType_absent (by decide) (member_clean h1 h2 h.tree _ (by decide)))
  have p0 : Part (scan field none) (([] ++ c!"\n") ++ ((c!"#[derive(Debug, Deserialize, Serialize, PartialEq)]" ++ c!"\n") ++
      (c!"pub struct " ++ fn ++ c!" {" ++ c!"\n"))) [] :=
    Part.append (xs := []) (ys := []) (Part.block (Lines.one (by decide)) (Block.untabbed (by simp)))
      (Part.append (xs := []) (ys := []) (Part.block (Lines.one (by decide)) (Block.untabbed (by simp)))
        (Part.block (Lines.one (by simp [hfn])) (Block.untabbed (by simp))))
  have := (p0.append hm).done (tail := c!"}\n") (by decide)
  unfold C48.Rust.read
  have ht : (C15.rustLang tree).text (.simple v) fn = (([] ++ c!"\n") ++ ((c!"#[derive(Debug, Deserialize, Serialize, PartialEq)]" ++ c!"\n") ++
      (c!"pub struct " ++ fn ++ c!" {" ++ c!"\n"))) ++ (toSortedPairs v.memberTypes).flatMap (rustMemberLine tree v.name) ++ c!"}\n" := by
    simp only [C15.rustLang, hv.1, hu, rustStruct, List.append_assoc, if_true]
    rfl
  rw [ht, this]
  simp only [Names.rust_member_name, Names.rust_type, memberMeaning_eq, List.nil_append]

/-- The members of a union all carry the XML name of the union. -/
theorem union (tree : Tree) (fn : Str) (v : SimpleType) (hfn : '\n' ∉ fn) (hv : Union v) (h : Tidy tree v) :
    ∃ ms : List (Str × Str), ms.Perm v.memberTypes ∧ C08.Sorted ms ∧ C48.Rust.read ((C15.rustLang tree).text (.simple v) fn) =
      ms.map fun m => ⟨rename v.name, Names.rustMember rustKeywords m.1, Names.rustType rustBuildinType (memberMeaning tree m)⟩ :=
  ⟨toSortedPairs v.memberTypes, C08.toSortedPairs_perm _, C08.toSortedPairs_sorted _, union_at tree fn v hfn hv h⟩

end Rust

/-! ## Examples and the exception -/

/-- A list of a user type. -/
def listOfUsers : SimpleType := { name := c!"users", base := c!"tns:user", list := true }

/-- A union of a declared and a recorded member. -/
def sample : SimpleType := { name := c!"u", union := true, memberTypes := [(c!"size", []), (c!"other-name", c!"string")] }

example : Tidy [] listOfUsers := by constructor <;> decide
example : Tidy [] sample := by constructor <;> decide
example : Union sample := by simp [Union, sample]
example : Plain { name := c!"p", base := c!"xs:string" } := by simp [Plain]
example : @Go.types ((@C15.goLang asciiUni []).text (.elem { name := c!"e", type := c!"tns:t", plural := true, doc := c!"a\nb" }) c!"E") =
    [(c!"E", c!"[]*T")] := by decide +kernel
example : C48.TS.read ((@C15.tsLang asciiUni [some (.simple { name := c!"size", base := c!"number" })]).text (.simple sample) c!"U") =
    [⟨c!"Size", c!"number"⟩, ⟨c!"Othername", c!"string"⟩] := by decide +kernel

/-- Go: the items of a list of a user type are pointers to pointers. -/
theorem Go.pointer_to_pointer : ¬ ∀ (tree : Tree) (fn : Str) (v : SimpleType), Clean notInNames fn → v.list = true → Tidy tree v →
    Go.types ((@C15.goLang asciiUni tree).text (.simple v) fn) = [(fn, c!"[]" ++ @C17.typeOf asciiUni tree v.base)] := by
  intro h
  have := h [] c!"Users" listOfUsers (by decide) rfl (by constructor <;> decide)
  revert this
  decide +kernel

example : Go.types ((@C15.goLang asciiUni []).text (.simple listOfUsers) c!"Users") = [(c!"Users", c!"[]**User")] := by decide +kernel

/-- Rust: the members of a union do not carry their own names in XML. -/
theorem Rust.misnamed : ¬ ∀ (tree : Tree) (fn : Str) (v : SimpleType), '\n' ∉ fn → Union v → Tidy tree v →
    ∃ ms : List (Str × Str), ms.Perm v.memberTypes ∧ C48.Rust.read ((@C15.rustLang asciiUni tree).text (.simple v) fn) =
      ms.map fun m => ⟨C48.Rust.rename m.1, @Names.rustMember asciiUni rustKeywords m.1,
        @Names.rustType asciiUni rustBuildinType (memberMeaning tree m)⟩ := by
  intro h
  obtain ⟨ms, hp, h⟩ := h [] c!"U" sample (by decide) (by simp [Union, sample]) (by constructor <;> decide)
  have h1 : (C48.Rust.read ((@C15.rustLang asciiUni []).text (.simple sample) c!"U")).map (·.annotation) =
      [C48.Rust.rename c!"u", C48.Rust.rename c!"u"] := by decide +kernel
  rw [h, List.map_map] at h1
  have h2 : C48.Rust.rename c!"size" ∈ ms.map ((·.annotation) ∘ fun m => (⟨C48.Rust.rename m.1, @Names.rustMember asciiUni rustKeywords m.1,
        @Names.rustType asciiUni rustBuildinType (memberMeaning [] m)⟩ : C48.Rust.Member)) :=
    List.mem_map.2 ⟨(c!"size", []), hp.mem_iff.2 (by decide), rfl⟩
  rw [h1] at h2
  revert h2
  decide

end Xgen.C55
