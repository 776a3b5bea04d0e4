import Verif.Props.C15
import Verif.Spec.Names

/-! # C53: a reference to a declared type names its declaration

In every language a member whose type is a declared, not built-in component is given the very name (in Go a pointer to it)
under which the component is declared, provided no component declared before has the same target name.  Without that
proviso the property is false (`confused`): a reference never carries the number that makes the declared name unique. -/

namespace Xgen.C53
variable [Uni]

/-- What XML requires of every name without colon (NCName), as far as it matters here: it is not empty, contains no colon,
and starts with neither a hyphen nor a dot. -/
structure NCName (s : Str) : Prop where
  head : ∃ c r, s = c :: r ∧ c ≠ '-' ∧ c ≠ '.'
  colon : ':' ∉ s

omit [Uni] in
theorem usedAfter (L : Decl.Lang) (used : List Str) (pre post : List (Node Element)) (n : Node Element) :
    (Decl.named L used (pre ++ n :: post))[pre.length]? =
      some (n, Decl.finalName L (((pre.filter L.unique).map L.base).reverse ++ used) n) := by
  induction pre generalizing used with
  | nil => rfl
  | cons m pre ih =>
    rw [List.cons_append, Decl.named, List.length_cons, List.getElem?_cons_succ, ih]
    cases h : L.unique m <;> simp [h]

omit [Uni] in
/-- The first component with its target name is declared under this name. -/
theorem first_name (L : Decl.Lang) (pre post : List (Node Element)) (n : Node Element)
    (h : ∀ m ∈ pre, L.unique m = true → L.base m ≠ L.base n) :
    (Decl.named L [] (pre ++ n :: post))[pre.length]? = some (n, L.base n) := by
  rw [usedAfter, Decl.finalName]
  split
  · rw [List.count_eq_zero_of_not_mem]
    · rfl
    · simp only [List.append_nil, List.mem_reverse, List.mem_map, List.mem_filter, not_exists, not_and]
      intro m hm
      exact h m hm.1 hm.2
  · rfl

omit [Uni] in
theorem camel_no_colon {del : Char → Bool} [Uni] (b : Bool) {s : Str} (h : ':' ∉ s) :
    Names.camel Names.colonDot del b s = Names.camel Names.dot del b s := by
  induction s generalizing b with
  | nil => rfl
  | cons c s ih =>
    simp only [List.mem_cons, not_or] at h
    have : Names.colonDot c = Names.dot c := by simp [Names.colonDot, Names.dot, Ne.symm h.1]
    simp only [Names.camel, this, ih _ h.2]

variable [UniLaws]

/-- The word of a type is the name of its declaration. -/
theorem word_eq {s : Str} (h : NCName s) : Names.cap (Names.camel Names.dot Names.hyphen true s) = Names.plain s := by
  obtain ⟨c, r, rfl, h1, h2⟩ := h.head
  rw [Names.plain, camel_no_colon true h.colon]
  have hd : Names.dot c = false := by simp [Names.dot, h2]
  have hh : Names.hyphen c = false := by simp [Names.hyphen, h1]
  simp only [Names.camel, hd, hh, Names.cap]
  simp [UniLaws.upper_idem, Names.cap]

theorem word_strict {s : Str} (h : NCName s) :
    (Names.cap (Names.camel Names.dot Names.hyphen true s)).filter (· ≠ '_') = Names.strict s := by
  rw [word_eq h, Names.plain]
  have hu : ∀ c, (decide (Uni.upper c = '_')) = decide (c = '_') := fun c => by
    simp only [upper_eq_iff (x := '_') (by decide) (by decide)]
  have := Names.filter_camel Names.colonDot (fun c => c = '_') Names.hyphen hu true s
  simp only [ne_eq, decide_not]
  rw [this]
  rfl

theorem plain_ne_nil {s : Str} (h : NCName s) (hc : s.head? ≠ some ':') : Names.plain s ≠ [] := by
  obtain ⟨c, r, rfl, h1, h2⟩ := h.head
  have : c ≠ ':' := fun e => hc (by simp [e])
  simp [Names.plain, Names.camel, Names.colonDot, Names.hyphen, h1, h2, this]

omit [UniLaws] in
theorem NCName.plain_ne {s : Str} [UniLaws] (h : NCName s) : Names.plain s ≠ [] :=
  plain_ne_nil h (fun e => h.colon (by
    obtain ⟨c, r, rfl, _⟩ := h.head
    simp at e; simp [e]))

/-- C53 for Go. -/
theorem go_partial (tree : Tree) (pre post : List (Node Element)) (n : Node Element) (t : Str)
    (hd : Decl.declared (C15.goLang tree) (Decl.nodes tree) = pre ++ n :: post)
    (hf : ∀ m ∈ pre, (C15.goLang tree).unique m = true → Names.strict (Decl.nodeName m) ≠ Names.strict (Decl.nodeName n))
    (hn : NCName (Decl.nodeName n)) (he : Names.strict (Decl.nodeName n) ≠ []) (hb : Decl.nodeName n ∉ goBuildinType)
    (ht : Names.meaning tree t = Decl.nodeName n) :
    ∃ name, (Decl.named (C15.goLang tree) [] (Decl.declared (C15.goLang tree) (Decl.nodes tree)))[pre.length]? = some (n, name) ∧
      genGoFieldType (resolveIn tree t) = '*' :: name := by
  refine ⟨Names.strict (Decl.nodeName n), ?_, ?_⟩
  · rw [hd, first_name]
    · simp [C15.goLang, Names.go_name]
    · intro m hm hu
      simp only [C15.goLang, Names.go_name]
      exact hf m hm hu
  · rw [Names.meaning_eq, ht, Names.go_type, Names.goType, if_neg hb, word_strict hn]
    cases h : Names.strict (Decl.nodeName n) with
    | nil => exact absurd h he
    | cons c r => rfl

/-- C53 for C. -/
theorem c_partial (tree : Tree) (pre post : List (Node Element)) (n : Node Element) (t : Str)
    (hd : Decl.declared (C15.cLang tree) (Decl.nodes tree) = pre ++ n :: post)
    (hf : ∀ m ∈ pre, (C15.cLang tree).unique m = true → Names.plain (Decl.nodeName m) ≠ Names.plain (Decl.nodeName n))
    (hn : NCName (Decl.nodeName n)) (hb : Decl.nodeName n ∉ cBuildInType)
    (ht : Names.meaning tree t = Decl.nodeName n) :
    ∃ name, (Decl.named (C15.cLang tree) [] (Decl.declared (C15.cLang tree) (Decl.nodes tree)))[pre.length]? = some (n, name) ∧
      genCFieldType (resolveIn tree t) = name := by
  refine ⟨Names.plain (Decl.nodeName n), ?_, ?_⟩
  · rw [hd, first_name]
    · simp [C15.cLang, Names.c_name]
    · intro m hm hu
      simp only [C15.cLang, Names.c_name]
      exact hf m hm hu
  · rw [Names.meaning_eq, ht, Names.c_type, Names.plainType, if_neg hb, word_eq hn, if_neg hn.plain_ne]

/-- C53 for Java. -/
theorem java_partial (tree : Tree) (pre post : List (Node Element)) (n : Node Element) (t : Str)
    (hd : Decl.declared (C15.javaLang tree) (Decl.nodes tree) = pre ++ n :: post)
    (hf : ∀ m ∈ pre, Names.plain (Decl.nodeName m) ≠ Names.plain (Decl.nodeName n))
    (hn : NCName (Decl.nodeName n)) (hb : Decl.nodeName n ∉ javaBuildInType)
    (ht : Names.meaning tree t = Decl.nodeName n) :
    ∃ name, (Decl.named (C15.javaLang tree) [] (Decl.declared (C15.javaLang tree) (Decl.nodes tree)))[pre.length]? =
      some (n, name) ∧ genJavaFieldType (resolveIn tree t) = name := by
  refine ⟨Names.plain (Decl.nodeName n), ?_, ?_⟩
  · rw [hd, first_name]
    · simp [C15.javaLang, Names.java_name]
    · intro m hm hu
      simp only [C15.javaLang, Names.java_name]
      exact hf m hm
  · rw [Names.meaning_eq, ht, Names.java_type, Names.plainType, if_neg hb, word_eq hn, if_neg hn.plain_ne]

/-- C53 for TypeScript; a type called any or Any means the neutral type. -/
theorem ts_partial (tree : Tree) (pre post : List (Node Element)) (n : Node Element) (t : Str)
    (hd : Decl.declared (C15.tsLang tree) (Decl.nodes tree) = pre ++ n :: post)
    (hf : ∀ m ∈ pre, Names.plain (Decl.nodeName m) ≠ Names.plain (Decl.nodeName n))
    (hn : NCName (Decl.nodeName n)) (hb : Decl.nodeName n ∉ typeScriptBuildInType)
    (ha : Names.plain (Decl.nodeName n) ≠ c!"Any") (ht : Names.meaning tree t = Decl.nodeName n) :
    ∃ name, (Decl.named (C15.tsLang tree) [] (Decl.declared (C15.tsLang tree) (Decl.nodes tree)))[pre.length]? =
      some (n, name) ∧ genTypeScriptFieldType (resolveIn tree t) false = name := by
  refine ⟨Names.plain (Decl.nodeName n), ?_, ?_⟩
  · rw [hd, first_name]
    · simp [C15.tsLang, Names.ts_name]
    · intro m hm hu
      simp only [C15.tsLang, Names.ts_name]
      exact hf m hm
  · rw [Names.meaning_eq, ht, Names.ts_type, Names.tsType, if_neg hb]
    simp [word_eq hn, hn.plain_ne, ha]

/-- C53 for Rust.  Elements and attributes are declared under member names, so they are left out. -/
theorem rust_partial (tree : Tree) (pre post : List (Node Element)) (n : Node Element) (t : Str)
    (hd : Decl.declared (C15.rustLang tree) (Decl.nodes tree) = pre ++ n :: post)
    (hf : ∀ m ∈ pre, (C15.rustLang tree).unique m = true → Names.strict (Decl.nodeName m) ≠ Names.strict (Decl.nodeName n))
    (hu : (C15.rustLang tree).unique n = true)
    (he : Names.strict (Decl.nodeName n) ≠ []) (hb : Decl.nodeName n ∉ rustBuildinType)
    (ht : Names.meaning tree t = Decl.nodeName n) :
    ∃ name, (Decl.named (C15.rustLang tree) [] (Decl.declared (C15.rustLang tree) (Decl.nodes tree)))[pre.length]? =
      some (n, name) ∧ genRustFieldType (resolveIn tree t) = name := by
  have hbase : ∀ m, (C15.rustLang tree).unique m = true → (C15.rustLang tree).base m = Names.strict (Decl.nodeName m) := by
    intro m hm
    cases m <;> simp [C15.rustLang] at hm ⊢ <;> exact Names.rust_struct_name _
  refine ⟨Names.strict (Decl.nodeName n), ?_, ?_⟩
  · rw [hd, first_name, hbase n hu]
    intro m hm hum
    rw [hbase m hum, hbase n hu]
    exact hf m hm hum
  · rw [Names.meaning_eq, ht, Names.rust_type, Names.rustType, if_neg hb, if_neg he]

/-! ## The negation -/

/-- Two types whose names differ by a hyphen only, and a type that refers to the second. -/
def twins : Tree :=
  [some (.complex { name := c!"a-b" }), some (.complex { name := c!"ab" }),
   some (.complex { name := c!"user", elements := [{ name := c!"e", type := c!"tns:ab" }] })]

/-- C53 without the proviso is false: the reference to the second type names the first. -/
theorem confused : ¬ ∀ (tree : Tree) (pre post : List (Node Element)) (n : Node Element) (t : Str),
    Decl.declared (@C15.goLang asciiUni tree) (Decl.nodes tree) = pre ++ n :: post → NCName (Decl.nodeName n) →
    @Names.strict asciiUni (Decl.nodeName n) ≠ [] → Decl.nodeName n ∉ goBuildinType →
    Names.meaning tree t = Decl.nodeName n →
    ∃ name, (Decl.named (@C15.goLang asciiUni tree) [] (Decl.declared (@C15.goLang asciiUni tree) (Decl.nodes tree)))[pre.length]? =
      some (n, name) ∧ @genGoFieldType asciiUni (resolveIn tree t) = '*' :: name := by
  intro h
  obtain ⟨name, h1, h2⟩ := h twins [.complex { name := c!"a-b" }]
    [.complex { name := c!"user", elements := [{ name := c!"e", type := c!"tns:ab" }] }] (.complex { name := c!"ab" }) c!"tns:ab"
    (by rfl) ⟨⟨'a', c!"b", rfl, by decide, by decide⟩, by decide⟩ (by decide +kernel) (by decide +kernel) (by decide +kernel)
  have e1 : (Decl.named (@C15.goLang asciiUni twins) [] (Decl.declared (@C15.goLang asciiUni twins) (Decl.nodes twins)))[1]? =
      some (.complex { name := c!"ab" }, c!"Ab2") := by rfl
  have e2 : @genGoFieldType asciiUni (resolveIn twins c!"tns:ab") = c!"*Ab" := by decide +kernel
  rw [show [Node.complex { name := c!"a-b" }].length = 1 from rfl, e1] at h1
  rw [e2] at h2
  simp only [Option.some.injEq, Prod.mk.injEq, true_and] at h1
  subst h1
  exact absurd h2 (by decide)

/-- The generated text: the declaration is Ab2, the field has type *Ab. -/
example : (@goGen asciiUni twins).field =
    c!"\r\n// Ab ...\r\ntype Ab struct {\n\tXMLName\txml.Name\t`xml:\"a-b\"`\n}\n" ++
    c!"\r\n// Ab2 ...\r\ntype Ab2 struct {\n\tXMLName\txml.Name\t`xml:\"ab\"`\n}\n" ++
    c!"\r\n// User ...\r\ntype User struct {\n\tXMLName\txml.Name\t`xml:\"user\"`\n\tE\t*Ab\t`xml:\"e\"`\n}\n" := by
  decide +kernel

/-- The hypotheses of `go_partial` hold for the third type. -/
example : @genGoFieldType asciiUni (resolveIn twins c!"tns:user") = c!"*User" := by
  obtain ⟨name, h1, h2⟩ := @go_partial asciiUni asciiUniLaws twins [.complex { name := c!"a-b" }, .complex { name := c!"ab" }] []
    (.complex { name := c!"user", elements := [{ name := c!"e", type := c!"tns:ab" }] }) c!"tns:user" (by rfl)
    (by decide +kernel) ⟨⟨'u', c!"ser", rfl, by decide, by decide⟩, by decide⟩ (by decide +kernel) (by decide +kernel)
    (by decide +kernel)
  have e1 : (Decl.named (@C15.goLang asciiUni twins) [] (Decl.declared (@C15.goLang asciiUni twins) (Decl.nodes twins)))[2]? =
      some (.complex { name := c!"user", elements := [{ name := c!"e", type := c!"tns:ab" }] }, c!"User") := by rfl
  rw [show [Node.complex { name := c!"a-b" }, Node.complex { name := c!"ab" }].length = 2 from rfl, e1] at h1
  simp only [Option.some.injEq, Prod.mk.injEq, true_and] at h1
  rw [h2, ← h1]

end Xgen.C53
