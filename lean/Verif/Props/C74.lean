import Verif.Props.C73

/-! # C74: members of a declaration have different names

Two members of one name are an error in every target language.  Members are named after the names in the schema; the names
of members differ where the names in the schema differ in more than case and punctuation, and where no name looks like one
that a generator makes up (`XMLName`, `Value`, the suffix `Attr`, the name of the base type). -/

namespace Xgen.C74
open Core C40 Decl
open C58 (Legible isUnion)

section
variable [Uni]

/-! ## Names up to case and punctuation -/

/-- A letter or digit of ASCII, or anything outside of ASCII. -/
def alnum (c : Char) : Bool := isAsciiLetter c || isAsciiDigit c || 128 ≤ c.toNat

/-- A character, whatever its case. -/
def fold (c : Char) : Char := if c.toNat < 128 then asciiLower c else Uni.lower (Uni.upper c)

/-- A name without punctuation, in small letters. -/
def key (s : Str) : Str := (s.filter alnum).map fold

/-- In small letters the characters are those they are.  That is so in ASCII (`ascii_steady`). -/
def Steady (s : Str) : Prop := ∀ c ∈ s, fold (Uni.lower c) = fold c ∧ fold (Uni.lower (Uni.upper c)) = fold c

instance (s : Str) : Decidable (Steady s) := by unfold Steady; infer_instance

theorem key_append (s t : Str) : key (s ++ t) = key s ++ key t := by simp [key]

theorem key_cons (c : Char) (s : Str) : key (c :: s) = key [c] ++ key s := key_append [c] s

theorem key_skip {c : Char} (h : alnum c = false) : key [c] = [] := by simp [key, h]

omit [Uni] in
theorem lower_upper (c : Char) : asciiLower (asciiUpper c) = asciiLower c := by
  apply char_ext
  have h1 := asciiLower_toNat (asciiUpper c)
  have h2 := asciiLower_toNat c
  have h3 := asciiUpper_toNat c
  simp only [isAsciiLower, isAsciiUpper, Bool.and_eq_true, decide_eq_true_eq] at h1 h2 h3
  rw [h1, h2]
  split at h3 <;> split <;> split <;> omega

omit [Uni] in
theorem ascii_upper {c : Char} (h : c.toNat < 128) : (asciiUpper c).toNat < 128 := by
  rw [asciiUpper_toNat]; split <;> omega

omit [Uni] in
theorem ascii_lower {c : Char} (h : c.toNat < 128) : (asciiLower c).toNat < 128 := by
  rw [asciiLower_toNat]; split
  · rename_i h'
    simp only [isAsciiUpper, Bool.and_eq_true, decide_eq_true_eq] at h'
    omega
  · exact h

section
variable [UniLaws]

theorem alnum_upper (c : Char) : alnum (Uni.upper c) = alnum c := by
  rw [Bool.eq_iff_iff]
  by_cases hc : c.toNat < 128
  · rw [UniLaws.upper_ascii c hc]
    have h := asciiUpper_toNat c
    simp only [isAsciiLower, Bool.and_eq_true, decide_eq_true_eq] at h
    simp only [alnum, isAsciiLetter, isAsciiUpper, isAsciiLower, isAsciiDigit, Bool.or_eq_true, Bool.and_eq_true, decide_eq_true_eq]
    split at h <;> omega
  · have h := UniLaws.upper_nonascii c (by omega)
    simp only [isAsciiUpper, Bool.and_eq_true, decide_eq_true_eq] at h
    simp only [alnum, isAsciiLetter, isAsciiUpper, isAsciiLower, isAsciiDigit, Bool.or_eq_true, Bool.and_eq_true, decide_eq_true_eq]
    omega

theorem alnum_lower (c : Char) : alnum (Uni.lower c) = alnum c := by
  rw [Bool.eq_iff_iff]
  by_cases hc : c.toNat < 128
  · rw [UniLaws.lower_ascii c hc]
    have h := asciiLower_toNat c
    simp only [isAsciiUpper, Bool.and_eq_true, decide_eq_true_eq] at h
    simp only [alnum, isAsciiLetter, isAsciiUpper, isAsciiLower, isAsciiDigit, Bool.or_eq_true, Bool.and_eq_true, decide_eq_true_eq]
    split at h <;> omega
  · have h := UniLaws.lower_nonascii c (by omega)
    simp only [isAsciiLower, Bool.and_eq_true, decide_eq_true_eq] at h
    simp only [alnum, isAsciiLetter, isAsciiUpper, isAsciiLower, isAsciiDigit, Bool.or_eq_true, Bool.and_eq_true, decide_eq_true_eq]
    omega

theorem fold_upper (c : Char) : fold (Uni.upper c) = fold c := by
  by_cases hc : c.toNat < 128
  · rw [UniLaws.upper_ascii c hc, fold, if_pos (ascii_upper hc), fold, if_pos hc, lower_upper]
  · rw [fold, fold, if_neg hc, UniLaws.upper_idem]
    split
    · rename_i h; rw [UniLaws.lower_ascii _ h]
    · rfl

theorem key_upper (c : Char) : key [Uni.upper c] = key [c] := by
  by_cases h : alnum c = true <;> simp [key, alnum_upper, h, fold_upper]

theorem ascii_steady {s : Str} (h : ∀ c ∈ s, c.toNat < 128) : Steady s := fun c hc => by
  have hc := h c hc
  have hu := ascii_upper hc
  rw [UniLaws.upper_ascii c hc, UniLaws.lower_ascii c hc, UniLaws.lower_ascii _ hu, lower_upper]
  have h1 : fold (asciiLower c) = fold c := by rw [fold, if_pos (ascii_lower hc), fold, if_pos hc, asciiLower_idem]
  exact ⟨h1, h1⟩

theorem camel_key {sep del : Char → Bool} (hs : ∀ c, sep c = true → alnum c = false) (hd : ∀ c, del c = true → alnum c = false) (s : Str) :
    ∀ b, key (Names.camel sep del b s) = key s := by
  induction s with
  | nil => intro b; rfl
  | cons c s ih =>
    intro b
    rw [Names.camel, key_cons c s]
    by_cases h1 : sep c = true
    · rw [if_pos h1, key_skip (hs c h1)]; exact ih _
    · rw [if_neg h1]
      by_cases h2 : del c = true
      · rw [if_pos h2, key_skip (hd c h2)]; exact ih _
      · rw [if_neg h2, key_cons, ih false]
        cases b with
        | true => rw [if_pos rfl, key_upper]
        | false => rw [if_neg (by decide)]

theorem camel_steady {sep del : Char → Bool} (s : Str) (h : Steady s) : ∀ b, Steady (Names.camel sep del b s) := by
  induction s with
  | nil => intro b; exact h
  | cons c s ih =>
    intro b
    have ih := ih fun x hx => h x (List.mem_cons_of_mem _ hx)
    have hc := h c List.mem_cons_self
    rw [Names.camel]
    split
    · exact ih _
    · split
      · exact ih _
      · intro x hx
        rcases List.mem_cons.1 hx with rfl | hx
        · split
          · rw [UniLaws.upper_idem, fold_upper]; exact ⟨hc.2, hc.2⟩
          · exact hc
        · exact ih false x hx

omit [UniLaws] in
omit [Uni] in
theorem colonDot_alnum (c : Char) (h : Names.colonDot c = true) : alnum c = false := by
  simp only [Names.colonDot, Bool.or_eq_true, decide_eq_true_eq] at h
  rcases h with rfl | rfl <;> decide

omit [UniLaws] in
omit [Uni] in
theorem dot_alnum (c : Char) (h : Names.dot c = true) : alnum c = false := by
  simp only [Names.dot, decide_eq_true_eq] at h
  subst h; decide

omit [UniLaws] in
omit [Uni] in
theorem hyphen_alnum (c : Char) (h : Names.hyphen c = true) : alnum c = false := by
  simp only [Names.hyphen, decide_eq_true_eq] at h
  subst h; decide

omit [UniLaws] in
omit [Uni] in
theorem under_alnum (c : Char) (h : Names.hyphenUnderscore c = true) : alnum c = false := by
  simp only [Names.hyphenUnderscore, Bool.or_eq_true, decide_eq_true_eq] at h
  rcases h with rfl | rfl <;> decide

theorem key_plain (s : Str) : key (Names.plain s) = key s := camel_key colonDot_alnum hyphen_alnum s true

theorem key_strict (s : Str) : key (Names.strict s) = key s := camel_key colonDot_alnum under_alnum s true

theorem key_cap (s : Str) : key (Names.cap s) = key s := by
  cases s with
  | nil => rfl
  | cons c s => rw [Names.cap, key_cons, key_upper, ← key_cons]

theorem key_goType {s : Str} (hb : s ∉ goBuildinType) (hk : key s ≠ []) :
    key ((Names.goType goBuildinType s).dropWhile (· = '*')) = key s := by
  have h1 := camel_key dot_alnum hyphen_alnum s true
  have h3 : key ((Names.cap (Names.camel Names.dot Names.hyphen true s)).filter (· ≠ '_')) = key s := by
    rw [← h1, ← key_cap (Names.camel Names.dot Names.hyphen true s)]
    unfold key
    rw [List.filter_filter]
    congr 2
    funext c
    by_cases hc : c = '_'
    · subst hc; rfl
    · simp [hc]
  unfold Names.goType
  rw [if_neg hb]
  cases e : (Names.cap (Names.camel Names.dot Names.hyphen true s)).filter (· ≠ '_') with
  | nil => rw [e] at h3; exact absurd h3.symm hk
  | cons c w =>
    rw [e] at h3
    show key (('*' :: c :: w).dropWhile (· = '*')) = _
    have : ∀ w : Str, key (w.dropWhile (· = '*')) = key w := fun w => by
      induction w with
      | nil => rfl
      | cons c w ih =>
        rw [List.dropWhile_cons]
        by_cases hc : c = '*'
        · subst hc; rw [if_pos (by decide), ih, key_cons, key_skip (by decide), List.nil_append]
        · rw [if_neg (by simpa using hc)]
    rw [this, key_cons, key_skip (by decide), List.nil_append, h3]

theorem key_snake (s : Str) (h : Steady s) : ∀ p, key (Names.snake p s) = key s := by
  induction s with
  | nil => intro p; rfl
  | cons c s ih =>
    intro p
    have ih := ih fun x hx => h x (List.mem_cons_of_mem _ hx)
    rw [Names.snake]
    dsimp only
    rw [key_append, key_cons, ih, key_cons c s, ← List.append_assoc]
    congr 1
    have h1 : ∀ b : Bool, key (if b = true then ['_'] else []) = [] := fun b => by cases b <;> rfl
    rw [h1, List.nil_append]
    by_cases hc : c = '-'
    · subst hc; rw [if_pos rfl]; rfl
    · rw [if_neg hc]
      by_cases ha : alnum c = true <;> simp [key, alnum_lower, ha, (h c List.mem_cons_self).1]

/-- A member in Rust: the suffix of keywords aside, the same key. -/
theorem key_rust {s : Str} (h : Steady s) :
    key (Names.rustMember rustKeywords s) = key s ∨ key (Names.rustMember rustKeywords s) = key s ++ c!"attr" := by
  have h1 := camel_key colonDot_alnum hyphen_alnum s true
  have h2 := key_snake _ (camel_steady (sep := Names.colonDot) (del := Names.hyphen) s h true) none
  unfold Names.rustMember
  dsimp only
  split
  · exact .inr (by rw [key_append]; unfold Names.plain; rw [h2, h1]; rfl)
  · exact .inl (h2.trans h1)

theorem rust_inj {s t : Str} (hs : Steady s) (ht : Steady t) (h0 : key s ≠ key t) (h1 : key s ≠ key t ++ c!"attr") (h2 : key t ≠ key s ++ c!"attr") :
    Names.rustMember rustKeywords s ≠ Names.rustMember rustKeywords t := by
  intro e
  have e := congrArg key e
  rcases key_rust hs with h | h <;> rcases key_rust ht with h' | h' <;> rw [h, h'] at e
  · exact h0 e
  · exact h1 e
  · exact h2 e.symm
  · exact h0 (List.append_cancel_right e)

end

/-! ## The members of a component -/

/-- The names a component gives to its members, and whether they are attributes. -/
def membersOf : Node Element → List (Str × Bool)
  | .simple v => if isUnion v then v.memberTypes.map fun m => (m.1, false) else []
  | .complex v => v.attributeGroup.map (fun a => (a.name, false)) ++ v.attributes.map (fun a => (a.name, true)) ++
      v.groups.map (fun g => (g.name, false)) ++ v.elements.map (fun e => (e.name, false))
  | .group v => v.elements.map (fun e => (e.name, false)) ++ v.groups.map (fun g => (g.name, false))
  | .attrGroup v => v.attributes.map fun a => (a.name, true)
  | _ => []

/-- The key of a member, with a suffix for attributes. -/
def label (suffix : Str) (m : Str × Bool) : Str := key m.1 ++ if m.2 then suffix else []

/-- The keys of the members. -/
def labels (suffix : Str) (n : Node Element) : List Str := (membersOf n).map (label suffix)

/-- The names are not only punctuation. -/
def Named (n : Node Element) : Prop := ∀ m ∈ membersOf n, key m.1 ≠ []

/-- The base type. -/
def baseOf : Node Element → Str
  | .complex v => v.base
  | _ => []

/-- The text of a simple content. -/
def valueKey (builtin : List Str) (n : Node Element) : List Str := if baseOf n ≠ [] ∧ baseOf n ∈ builtin then [c!"value"] else []

/-- The keys are different from each other and from `xmlname`, `value` and the base type. -/
def Go.Apart (n : Node Element) : Prop :=
  Named n ∧ (c!"xmlname" :: labels c!"attr" n).Nodup ∧
  (baseOf n ≠ [] → if baseOf n ∈ goBuildinType then c!"value" ∉ labels c!"attr" n
    else key (baseOf n) ≠ [] ∧ key (baseOf n) ∉ c!"xmlname" :: labels c!"attr" n)

/-- The keys are different from each other and from `value`. -/
def Apart (builtin : List Str) (n : Node Element) : Prop := Named n ∧ (valueKey builtin n ++ labels c!"attr" n).Nodup

/-- The member for the base type in Rust. -/
def Rust.baseOf (tree : Tree) (n : Node Element) : List Str :=
  if C74.baseOf n = [] then [] else if C74.baseOf n ∈ rustBuildinType then [c!"value"]
  else [Names.rustType rustBuildinType (Names.meaning tree (C74.baseOf n))]

/-- The keys of all members in Rust. -/
def Rust.keys (tree : Tree) (n : Node Element) : List Str := labels [] n ++ (Rust.baseOf tree n).map key

/-- The keys are different from each other, from `value` and the base type, also where a suffix is added to keywords. -/
def Rust.Apart (tree : Tree) (n : Node Element) : Prop :=
  Named n ∧ (∀ s ∈ (membersOf n).map (·.1) ++ Rust.baseOf tree n, Steady s) ∧ (Rust.keys tree n).Nodup ∧ ∀ k ∈ Rust.keys tree n, ∀ k' ∈ Rust.keys tree n, k ≠ k' ++ c!"attr"

/-- The name of a Go field: that of its type, if it is embedded. -/
def Go.fieldName (f : C17.Field) : Str := if f.name = [] then f.type.dropWhile (· = '*') else f.name

/-- The members of all declarations of a file have different names. -/
def Go.Distinct (text : Str) : Prop := ∀ d ∈ C58.Go.declsOf text, (d.2.map fieldName).Nodup
/-- The members of all declarations of a file have different names. -/
def C.Distinct (text : Str) : Prop := ∀ d ∈ C58.C.declsOf text, (d.2.1.map (·.name)).Nodup
/-- The members of all declarations of a file have different names. -/
def Java.Distinct (text : Str) : Prop := ∀ d ∈ C58.Java.declsOf text, (d.2.map (·.name)).Nodup
/-- The members of all declarations of a file have different names. -/
def Rust.Distinct (text : Str) : Prop := ∀ d ∈ C58.Rust.declsOf text, (d.2.map (·.name)).Nodup
/-- The members of all classes of a file have different names. -/
def TS.Distinct (text : Str) : Prop := ∀ d ∈ C58.TS.declsOf text, ∀ ms, d.2 = .class ms → (ms.map (·.name)).Nodup

/-! ## One component -/

theorem nodup_of_key {l : List Str} {k : List Str} (h : l.map key = k) (hk : k.Nodup) : l.Nodup := by
  subst h
  exact List.Pairwise.of_map key (fun a b hab e => hab (congrArg key e)) hk

section
variable [UniLaws]

omit [UniLaws] in
theorem nonempty_name {s : Str} {t : Str} (h : key s = key t) (ht : key t ≠ []) : s ≠ [] := by
  rintro rfl; exact ht h.symm

theorem Go.plain_key {s t : Str} {tag : Option (Str × List Str)} (h : key s ≠ []) : key (Go.fieldName ⟨Names.strict s, t, tag⟩) = key s := by
  unfold Go.fieldName
  rw [if_neg (nonempty_name (key_strict s) h)]
  exact key_strict s

theorem Go.attr_key (s t : Str) (tag : Option (Str × List Str)) :
    key (Go.fieldName ⟨Names.strict s ++ c!"Attr", t, tag⟩) = key s ++ c!"attr" := by
  unfold Go.fieldName
  rw [if_neg (show Names.strict s ++ c!"Attr" ≠ [] by simp)]
  show key (Names.strict s ++ c!"Attr") = _
  rw [key_append, key_strict]; rfl

omit [UniLaws] in
theorem map_keys {α : Type} {l : List α} {f g : α → Str} (h : ∀ x ∈ l, key (f x) = g x) : (l.map f).map key = l.map g := by
  rw [List.map_map]
  exact List.map_congr_left fun x hx => h x hx

omit [UniLaws] in
/-- The field with the XML name. -/
theorem Go.xml_key {α : Type} {l : List α} {f : α → Str} {k : List Str} {fn name : Str} (h : (l.map f).map key = k) (hk : (c!"xmlname" :: k).Nodup) :
    ((if fn ≠ name then [c!"XMLName"] else []) ++ l.map f).Nodup := by
  subst h
  split
  · exact nodup_of_key (l := c!"XMLName" :: l.map f) rfl hk
  · exact nodup_of_key (l := l.map f) rfl (List.nodup_cons.1 hk).2

omit [UniLaws] in
omit [Uni] in
theorem Go.xml_fields {fn name : Str} {l : List C17.Field} (h : ((if fn ≠ name then [c!"XMLName"] else []) ++ l.map Go.fieldName).Nodup) :
    (((if fn ≠ name then [(⟨c!"XMLName", c!"xml.Name", some (name, [])⟩ : C17.Field)] else []) ++ l).map Go.fieldName).Nodup := by
  rw [List.map_append]
  by_cases e : fn ≠ name
  · rw [if_pos e] at h ⊢; exact h
  · rw [if_neg e] at h ⊢; exact h

omit [UniLaws] in
omit [Uni] in
theorem ordered_nodup {order : List (Str × Str) → List (Str × Str)} (ho : C58.Order order) {l : List (Str × Str)} {f : Str × Str → Str}
    (h : (l.map f).Nodup) : ((order l).map f).Nodup := ((ho l).1.map f).nodup_iff.2 h

theorem Go.complex_fields {tree : Tree} {fn : Str} {v : ComplexType} (h : Go.Apart (.complex v)) : ((C17.expected tree fn v).map Go.fieldName).Nodup := by
  obtain ⟨h1, h2, h3⟩ := h
  unfold C17.expected
  simp only [List.append_assoc]
  refine Go.xml_fields ?_
  have hn : ∀ m ∈ membersOf (.complex v), key m.1 ≠ [] := h1
  simp only [membersOf, List.mem_append, List.mem_map] at hn
  have e1 := map_keys (l := v.attributeGroup) (f := fun a => Go.fieldName ⟨Names.strict a.name, C17.typeOf tree a.ref, none⟩)
    (g := fun a => label c!"attr" (a.name, false)) fun a ha => (Go.plain_key (hn (a.name, false) (.inl (.inl (.inl ⟨a, ha, rfl⟩))))).trans (List.append_nil _).symm
  have e2 := map_keys (l := v.attributes) (f := fun a => Go.fieldName ⟨Names.strict a.name ++ c!"Attr", C17.typeOf tree a.type,
      some (a.name, if a.optional then [c!"attr", c!"omitempty"] else [c!"attr"])⟩)
    (g := fun a => label c!"attr" (a.name, true)) fun a ha => Go.attr_key ..
  have e3 := map_keys (l := v.groups) (f := fun g => Go.fieldName ⟨Names.strict g.name, (if g.plural then c!"[]" else []) ++ C17.typeOf tree g.ref, none⟩)
    (g := fun a => label c!"attr" (a.name, false)) fun a ha => (Go.plain_key (hn (a.name, false) (.inl (.inr ⟨a, ha, rfl⟩)))).trans (List.append_nil _).symm
  have e4 := map_keys (l := v.elements) (f := fun e => Go.fieldName ⟨Names.strict e.name, (if e.plural then c!"[]" else []) ++ C17.typeOf tree e.type, some (e.name, [])⟩)
    (g := fun a => label c!"attr" (a.name, false)) fun a ha => (Go.plain_key (hn (a.name, false) (.inr ⟨a, ha, rfl⟩))).trans (List.append_nil _).symm
  have hlab : labels c!"attr" (.complex v) = v.attributeGroup.map (fun a => label c!"attr" (a.name, false)) ++ (v.attributes.map (fun a => label c!"attr" (a.name, true)) ++
      (v.groups.map (fun a => label c!"attr" (a.name, false)) ++ v.elements.map (fun a => label c!"attr" (a.name, false)))) := by
    simp [labels, membersOf, Function.comp_def]
  by_cases hb : v.base = []
  · refine Go.xml_key ?_ h2
    rw [if_pos hb, List.append_nil, hlab]
    simp only [List.map_append, List.map_map, Function.comp_def] at e1 e2 e3 e4 ⊢
    rw [e1, e2, e3, e4]
  · have h3 : if v.base ∈ goBuildinType then c!"value" ∉ labels c!"attr" (.complex v)
      else key v.base ≠ [] ∧ key v.base ∉ c!"xmlname" :: labels c!"attr" (.complex v) := h3 hb
    rw [if_neg hb]
    by_cases hbb : v.base ∈ goBuildinType
    · rw [if_pos hbb] at h3 ⊢
      refine Go.xml_key (k := labels c!"attr" (.complex v) ++ [c!"value"]) ?_ ?_
      · rw [hlab]
        simp only [List.map_append, List.map_map, Function.comp_def, List.append_assoc] at e1 e2 e3 e4 ⊢
        rw [e1, e2, e3, e4]
        rfl
      · rw [← List.cons_append, List.nodup_append]
        refine ⟨h2, by simp, ?_⟩
        intro a ha b hb' e
        rw [List.mem_singleton.1 hb'] at e
        subst e
        rcases List.mem_cons.1 ha with e | ha
        · exact absurd e (by decide)
        · exact h3 ha
    · rw [if_neg hbb] at h3 ⊢
      refine Go.xml_key (k := labels c!"attr" (.complex v) ++ [key v.base]) ?_ ?_
      · rw [hlab]
        simp only [List.map_append, List.map_map, Function.comp_def, List.append_assoc] at e1 e2 e3 e4 ⊢
        rw [e1, e2, e3, e4]
        simp only [List.map_cons, List.map_nil, Go.fieldName, if_true]
        rw [key_goType hbb h3.1]
      · rw [← List.cons_append, List.nodup_append]
        refine ⟨h2, by simp, ?_⟩
        intro a ha b hb' e
        rw [List.mem_singleton.1 hb'] at e
        subst e
        exact h3.2 ha

/-- The fields of one declaration. -/
theorem Go.one {order : List (Str × Str) → List (Str × Str)} (ho : C58.Order order) {tree : Tree} {fn : Str} {n : Node Element} (h : Go.Apart n) :
    ((C58.Go.fields order tree fn n).map Go.fieldName).Nodup := by
  have hn : ∀ m ∈ membersOf n, key m.1 ≠ [] := h.1
  cases n with
  | attr v => exact List.nodup_nil
  | elem v => exact List.nodup_nil
  | complex v => exact Go.complex_fields h
  | attrGroup v =>
    refine Go.complex_fields ⟨?_, ?_, fun hb => ?_⟩
    · simpa [Named, membersOf, C54.withAttrs] using hn
    · have := h.2.1
      simpa [labels, membersOf, C54.withAttrs] using this
    · exact absurd rfl hb
  | simple v =>
    unfold C58.Go.fields
    dsimp only
    by_cases hu : isUnion v = true
    · rw [if_pos hu]
      have h2 := h.2.1
      simp only [membersOf, labels, hu, if_true, List.map_map] at hn h2
      refine Go.xml_fields (Go.xml_key rfl ?_)
      rw [List.map_map, List.map_map, List.nodup_cons]
      have e : ∀ m ∈ order v.memberTypes, ((key ∘ Go.fieldName) ∘ fun m : Str × Str => (⟨Names.strict m.1, Names.goType goBuildinType (C55.memberMeaning tree m), none⟩ : C17.Field)) m =
          (label c!"attr" ∘ fun m : Str × Str => (m.1, false)) m := fun m hm =>
        (Go.plain_key (hn (m.1, false) (List.mem_map.2 ⟨m, (ho _).1.mem_iff.1 hm, rfl⟩))).trans (List.append_nil _).symm
      have e := List.map_congr_left e
      rw [e]
      refine ⟨fun hx => (List.nodup_cons.1 h2).1 ?_, ordered_nodup ho (List.nodup_cons.1 h2).2⟩
      exact ((ho v.memberTypes).1.map _).mem_iff.1 hx
    · rw [if_neg hu]; exact List.nodup_nil
  | group v =>
    unfold C58.Go.fields C54.Go.group
    simp only [List.append_assoc]
    have h2 := h.2.1
    simp only [membersOf, List.mem_append, List.mem_map] at hn
    have e3 := map_keys (l := v.groups) (f := fun g => Go.fieldName ⟨Names.strict g.name, (if g.plural then c!"[]" else []) ++ C17.typeOf tree g.ref, none⟩)
      (g := fun a => label c!"attr" (a.name, false)) fun a ha => (Go.plain_key (hn (a.name, false) (.inr ⟨a, ha, rfl⟩))).trans (List.append_nil _).symm
    have e4 := map_keys (l := v.elements) (f := fun e => Go.fieldName ⟨Names.strict e.name, (if e.plural then c!"[]" else []) ++ C17.typeOf tree e.type, none⟩)
      (g := fun a => label c!"attr" (a.name, false)) fun a ha => (Go.plain_key (hn (a.name, false) (.inl ⟨a, ha, rfl⟩))).trans (List.append_nil _).symm
    refine Go.xml_fields (Go.xml_key ?_ h2)
    simp only [labels, membersOf, List.map_append, List.map_map, Function.comp_def] at e3 e4 ⊢
    rw [e3, e4]

theorem Go.file (pkg : Str) {t : Tree} (hp : '\n' ∉ pkg) (hl : Legible t) (h : ∀ n ∈ nodes t, Go.Apart n) : Go.Distinct (goSource pkg t) := by
  obtain ⟨order, ho, e⟩ := C58.Go.file pkg t hp hl
  intro d hd
  rw [e] at hd
  obtain ⟨x, hx, rfl⟩ := List.mem_map.1 hd
  exact Go.one ho (h x.1 (C71.mem_declarations hx).1)

/-! ## C, Java and TypeScript -/

/-- The name of a member. -/
def memberName (suffix : Str) (m : Str × Bool) : Str := Names.plain m.1 ++ if m.2 then suffix else []

theorem names_key {n : Node Element} : ((membersOf n).map (memberName c!"Attr")).map key = labels c!"attr" n :=
  map_keys fun m _ => by
    rw [memberName, key_append, key_plain, label]
    cases m.2 <;> rfl

theorem names_nodup {builtin : List Str} {n : Node Element} (h : Apart builtin n) : ((membersOf n).map (memberName c!"Attr")).Nodup :=
  nodup_of_key (names_key) (List.nodup_append.1 h.2).2.1

/-- Members with a value at the end. -/
theorem value_nodup {builtin : List Str} {v : ComplexType} (h : Apart builtin (.complex v)) {w : Str} (hw : key w = c!"value") :
    ((membersOf (.complex v)).map (memberName c!"Attr") ++ if v.base ≠ [] ∧ v.base ∈ builtin then [w] else []).Nodup := by
  have h2 := h.2
  by_cases e : v.base ≠ [] ∧ v.base ∈ builtin
  · rw [if_pos e]
    rw [valueKey, if_pos (show baseOf (.complex v) ≠ [] ∧ baseOf (.complex v) ∈ builtin from e)] at h2
    refine nodup_of_key (k := labels c!"attr" (.complex v) ++ [c!"value"]) (by rw [List.map_append, names_key, List.map_singleton, hw]) ?_
    exact (List.perm_append_comm.nodup_iff).1 h2
  · rw [if_neg e, List.append_nil]
    exact names_nodup h

theorem union_nodup {builtin : List Str} {v : SimpleType} {order : List (Str × Str) → List (Str × Str)} (ho : C58.Order order)
    (h : Apart builtin (.simple v)) (hu : isUnion v = true) : ((order v.memberTypes).map fun m => Names.plain m.1).Nodup := by
  refine ordered_nodup ho ?_
  have := names_nodup h
  simpa [membersOf, hu, memberName, Function.comp_def] using this

omit [UniLaws] in
theorem C.complex_names (tree : Tree) (v : ComplexType) : (C48.C.expected tree v).map (·.name) = (membersOf (.complex v)).map (memberName c!"Attr") := by
  simp [C48.C.expected, membersOf, memberName, Function.comp_def]

/-- The members of one declaration. -/
theorem C.one {order : List (Str × Str) → List (Str × Str)} (ho : C58.Order order) {tree : Tree} {n : Node Element} (h : Apart [] n) :
    ((C58.C.members order tree n).map (·.name)).Nodup := by
  have hn := names_nodup h
  cases n with
  | attr v => exact List.nodup_nil
  | elem v => exact List.nodup_nil
  | complex v => unfold C58.C.members; dsimp only; rw [C.complex_names]; exact hn
  | attrGroup v =>
    unfold C58.C.members; dsimp only; rw [C.complex_names]
    simpa [membersOf, C54.withAttrs] using hn
  | group v =>
    unfold C58.C.members C54.C.group
    simpa [membersOf, memberName, Function.comp_def] using hn
  | simple v =>
    unfold C58.C.members
    dsimp only
    by_cases hu : isUnion v = true
    · rw [if_pos hu, List.map_map]; exact union_nodup ho h hu
    · rw [if_neg hu]; exact List.nodup_nil

theorem C.file {t : Tree} (hl : Legible t) (h : ∀ n ∈ nodes t, Apart [] n) : C.Distinct (cSource t) := by
  obtain ⟨order, ho, e⟩ := C58.C.file t hl
  intro d hd
  rw [e] at hd
  obtain ⟨x, hx, rfl⟩ := List.mem_map.1 hd
  exact C.one ho (h x.1 (C71.mem_declarations hx).1)

omit [UniLaws] in
theorem Java.complex_names (tree : Tree) (v : ComplexType) : (C48.Java.expected tree v).map (·.name) =
    (membersOf (.complex v)).map (memberName c!"Attr") ++ if v.base ≠ [] ∧ v.base ∈ javaBuildInType then [c!"value"] else [] := by
  have e : (v.base ≠ [] && decide (v.base ∈ javaBuildInType)) = decide (v.base ≠ [] ∧ v.base ∈ javaBuildInType) := by
    rw [Bool.decide_and]
  unfold C48.Java.expected
  rw [e, List.map_append]
  congr 1
  · simp [membersOf, memberName, Function.comp_def]
  · by_cases h : v.base ≠ [] ∧ v.base ∈ javaBuildInType
    · rw [if_pos h, if_pos (by simpa using h)]; rfl
    · rw [if_neg h, if_neg (by simpa using h)]; rfl

/-- The members of one declaration. -/
theorem Java.one {order : List (Str × Str) → List (Str × Str)} (ho : C58.Order order) {tree : Tree} {n : Node Element} (h : Apart javaBuildInType n) :
    ((C58.Java.members order tree n).map (·.name)).Nodup := by
  have hn := names_nodup h
  cases n with
  | attr v => exact List.pairwise_singleton ..
  | elem v => exact List.pairwise_singleton ..
  | complex v => unfold C58.Java.members; dsimp only; rw [Java.complex_names]; exact value_nodup h rfl
  | attrGroup v =>
    unfold C58.Java.members C54.Java.attrs
    dsimp only
    rw [List.map_map]
    simp only [membersOf, List.map_map, Function.comp_def, memberName, if_true] at hn
    refine List.Pairwise.of_map (S := (· ≠ ·)) (· ++ c!"Attr") (fun a b hab e => hab (congrArg (· ++ c!"Attr") e)) ?_
    rw [List.map_map]
    exact hn
  | group v =>
    unfold C58.Java.members C54.Java.group
    simpa [membersOf, memberName, Function.comp_def] using hn
  | simple v =>
    unfold C58.Java.members
    dsimp only
    by_cases hli : v.list = true
    · rw [if_pos hli]; exact List.pairwise_singleton ..
    · rw [if_neg hli]
      by_cases hu : isUnion v = true
      · rw [if_pos hu, List.map_map]; exact union_nodup ho h hu
      · rw [if_neg hu]; exact List.pairwise_singleton ..

theorem Java.file (pkg : Str) {t : Tree} (hp : '\n' ∉ pkg) (hl : Legible t) (h : ∀ n ∈ nodes t, Apart javaBuildInType n) :
    Java.Distinct (javaSource pkg t) := by
  obtain ⟨order, ho, e⟩ := C58.Java.file pkg t hp hl
  intro d hd
  rw [e] at hd
  obtain ⟨x, hx, rfl⟩ := List.mem_map.1 hd
  exact Java.one ho (h x.1 (C71.mem_declarations hx).1)

omit [UniLaws] in
theorem TS.complex_names (tree : Tree) (v : ComplexType) : (C48.TS.expected tree v).map (·.name) =
    (membersOf (.complex v)).map (memberName c!"Attr") ++ if v.base ≠ [] ∧ v.base ∈ typeScriptBuildInType then [c!"Value"] else [] := by
  have e : (v.base ≠ [] && decide (v.base ∈ typeScriptBuildInType)) = decide (v.base ≠ [] ∧ v.base ∈ typeScriptBuildInType) := by
    rw [Bool.decide_and]
  unfold C48.TS.expected
  rw [e, List.map_append]
  congr 1
  · simp [membersOf, memberName, Function.comp_def]
  · by_cases h : v.base ≠ [] ∧ v.base ∈ typeScriptBuildInType
    · rw [if_pos h, if_pos (by simpa using h)]; rfl
    · rw [if_neg h, if_neg (by simpa using h)]; rfl

/-- The members of one declaration. -/
theorem TS.one {order : List (Str × Str) → List (Str × Str)} (ho : C58.Order order) {tree : Tree} {n : Node Element} (h : Apart typeScriptBuildInType n)
    {ms : List C48.TS.Member} (hm : C58.TS.members order tree n = .class ms) : (ms.map (·.name)).Nodup := by
  have hn := names_nodup h
  cases n with
  | attr v => cases hm; exact List.nodup_nil
  | elem v => cases hm; exact List.nodup_nil
  | complex v => cases hm; rw [TS.complex_names]; exact value_nodup h rfl
  | attrGroup v =>
    cases hm
    rw [TS.complex_names, if_neg (fun e => e.1 rfl), List.append_nil]
    simpa [membersOf, C54.withAttrs] using hn
  | group v =>
    cases hm
    unfold C54.TS.group
    simpa [membersOf, memberName, Function.comp_def] using hn
  | simple v =>
    unfold C58.TS.members at hm
    dsimp only at hm
    by_cases hli : v.list = true
    · rw [if_pos hli] at hm; cases hm; exact List.nodup_nil
    · rw [if_neg hli] at hm
      by_cases hu : isUnion v = true
      · rw [if_pos hu] at hm; cases hm; rw [List.map_map]; exact union_nodup ho h hu
      · rw [if_neg hu] at hm
        by_cases he : v.enum ≠ []
        · rw [if_pos he] at hm; cases hm
        · rw [if_neg he] at hm; cases hm; exact List.nodup_nil

/-- TypeScript.  (Missing: lists with enumeration values, and values that cannot be read, see C49.) -/
theorem TS.file_partial {t : Tree} (hl : Legible t) (hv : C58.TS.PlainValues t) (he : C15.ListsNew (nodes t))
    (h : ∀ n ∈ nodes t, Apart typeScriptBuildInType n) : TS.Distinct (tsSource t) := by
  obtain ⟨order, ho, e⟩ := C58.TS.file_partial t hl hv he
  intro d hd ms hm
  rw [e] at hd
  obtain ⟨x, hx, rfl⟩ := List.mem_map.1 hd
  exact TS.one ho (h x.1 (C71.mem_declarations hx).1) hm

/-! ## Rust -/

theorem Rust.value_name : Names.rustMember rustKeywords c!"value" = c!"value" := by
  have h : Names.plain c!"value" = c!"Value" := by
    simp [Names.plain, Names.camel, Names.colonDot, Names.hyphen, UniLaws.upper_ascii, asciiUpper, isAsciiLower]
  unfold Names.rustMember
  rw [h]
  have h' : Names.snake none c!"Value" = c!"value" := by
    have : ∀ c : Char, c.toNat < 128 → Uni.lower c = asciiLower c := UniLaws.lower_ascii
    unfold Names.snake Names.snake Names.snake Names.snake Names.snake Names.snake
    rw [this 'V' (by decide), this 'a' (by decide), this 'l' (by decide), this 'u' (by decide), this 'e' (by decide)]
    decide
  rw [h']
  decide

omit [UniLaws] in
theorem Rust.complex_names (tree : Tree) (v : ComplexType) (hval : Names.rustMember rustKeywords c!"value" = c!"value") :
    (C48.Rust.expected tree v).map (·.name) =
      (((membersOf (.complex v)).map (·.1)) ++ Rust.baseOf tree (.complex v)).map (Names.rustMember rustKeywords) := by
  have eb : Rust.baseOf tree (.complex v) = if v.base = [] then [] else if v.base ∈ rustBuildinType then [c!"value"]
      else [Names.rustType rustBuildinType (Names.meaning tree v.base)] := rfl
  unfold C48.Rust.expected
  rw [eb, List.map_append, List.map_append]
  have e : (if v.base = [] then [] else if v.base ∈ rustBuildinType then
        [(⟨C48.Rust.rename c!"$value", c!"value", C48.Rust.typeOf tree v.base⟩ : C48.Rust.Member)]
      else [⟨some c!"#[serde(flatten)]", Names.rustMember rustKeywords (C48.Rust.typeOf tree v.base), C48.Rust.typeOf tree v.base⟩]).map (·.name) =
      (if v.base = [] then [] else if v.base ∈ rustBuildinType then [c!"value"] else [Names.rustType rustBuildinType (Names.meaning tree v.base)]).map
        (Names.rustMember rustKeywords) := by
    by_cases h1 : v.base = []
    · rw [if_pos h1, if_pos h1]; rfl
    · rw [if_neg h1, if_neg h1]
      by_cases h2 : v.base ∈ rustBuildinType
      · rw [if_pos h2, if_pos h2, List.map_singleton, List.map_singleton, hval]
      · rw [if_neg h2, if_neg h2]; rfl
  rw [e]
  congr 1
  simp [membersOf, Function.comp_def]

theorem Rust.names_nodup {tree : Tree} {n : Node Element} (h : Rust.Apart tree n) :
    ((((membersOf n).map (·.1)) ++ Rust.baseOf tree n).map (Names.rustMember rustKeywords)).Nodup := by
  obtain ⟨h1, h2, h3, h4⟩ := h
  have e : Rust.keys tree n = ((membersOf n).map (·.1) ++ Rust.baseOf tree n).map key := by
    rw [Rust.keys, labels, List.map_append, List.map_map]
    congr 1
    refine List.map_congr_left fun m _ => ?_
    rw [label]; cases m.2 <;> simp
  rw [e] at h3 h4
  unfold List.Nodup at h3 ⊢
  rw [List.pairwise_map] at h3 ⊢
  refine List.Pairwise.imp_of_mem (fun {a b} hx hy hab => ?_) h3
  exact rust_inj (h2 a hx) (h2 b hy) hab (h4 _ (List.mem_map_of_mem hx) _ (List.mem_map_of_mem hy))
    (h4 _ (List.mem_map_of_mem hy) _ (List.mem_map_of_mem hx))

/-- The members of one declaration. -/
theorem Rust.one {order : List (Str × Str) → List (Str × Str)} (ho : C58.Order order) {tree : Tree} {n : Node Element} (h : Rust.Apart tree n) :
    ((C58.Rust.members order tree n).map (·.name)).Nodup := by
  have hn := Rust.names_nodup h
  cases n with
  | attr v => exact List.pairwise_singleton ..
  | elem v => exact List.pairwise_singleton ..
  | complex v => unfold C58.Rust.members; dsimp only; rw [Rust.complex_names tree v Rust.value_name]; exact hn
  | attrGroup v =>
    unfold C58.Rust.members C54.Rust.attrs
    simpa [membersOf, Rust.baseOf, C74.baseOf, Function.comp_def] using hn
  | group v =>
    unfold C58.Rust.members C54.Rust.group
    simpa [membersOf, Rust.baseOf, C74.baseOf, Function.comp_def] using hn
  | simple v =>
    unfold C58.Rust.members
    dsimp only
    by_cases hli : v.list = true
    · rw [if_pos hli]; exact List.pairwise_singleton ..
    · rw [if_neg hli]
      by_cases hu : isUnion v = true
      · rw [if_pos hu, List.map_map]
        refine ordered_nodup ho (f := fun m => Names.rustMember rustKeywords m.1) ?_
        simpa [membersOf, hu, Rust.baseOf, C74.baseOf, Function.comp_def] using hn
      · rw [if_neg hu]; exact List.pairwise_singleton ..

theorem Rust.file {t : Tree} (hl : Legible t) (h : ∀ n ∈ nodes t, Rust.Apart t n) : Rust.Distinct (rustSource t) := by
  obtain ⟨order, ho, e⟩ := C58.Rust.file t hl
  intro d hd
  rw [e] at hd
  obtain ⟨x, hx, rfl⟩ := List.mem_map.1 hd
  exact Rust.one ho (h x.1 (C71.mem_declarations hx).1)

end

/-! ## What a schema says -/

/-- What a name is used for; an element with its reference and type, or with the base of its anonymous restriction. -/
inductive Use where
  | «attribute»
  | attrGroup
  | group
  | element (says : List (Option Str))
  | member
deriving DecidableEq, Repr

/-- The names that contents give to members, and what for; without the contents of anonymous types. -/
def said : Content → List (Str × Use)
  | .nil => []
  | .elem as k => (nameOf as, .element [attr? as c!"ref", attr? as c!"type"]) :: said k
  | .anon as _ _ k => (nameOf as, .element [attr? as c!"ref", attr? as c!"type"]) :: said k
  | .elemAnon as ras _ k => (nameOf as, .element [attr? ras c!"base"]) :: said k
  | .choice _ b k => said b ++ said k
  | .group as k => (nameOf as, .group) :: said k
  | .attrGroup as k => (nameOf as, .attrGroup) :: said k
  | .attribute as k => (nameOf as, .attribute) :: said k
  | .attrAnon as _ k => (nameOf as, .attribute) :: said k
  | .ext _ b k => said b ++ said k
  | .restr _ _ b k => said b ++ said k

/-- The contents of the anonymous types inside contents. -/
def bodies : Content → List Content
  | .nil => []
  | .elem _ k => bodies k
  | .anon _ _ b k => b :: (bodies b ++ bodies k)
  | .elemAnon _ _ _ k => bodies k
  | .choice _ b k => bodies b ++ bodies k
  | .group _ k => bodies k
  | .attrGroup _ k => bodies k
  | .attribute _ k => bodies k
  | .attrAnon _ _ k => bodies k
  | .ext _ b k => bodies b ++ bodies k
  | .restr _ _ b k => bodies b ++ bodies k

/-- The members of the types of a declaration, and whether elements and group references may be repeated: in groups they may not. -/
def parts : Decl → List (Bool × List (Str × Use))
  | .simple _ (.union uas) => [(true, (((attr? uas c!"memberTypes").map fun v => splitOn ' ' v).getD []).map fun t => (Names.localPart t, .member))]
  | .complex _ b => (b :: bodies b).map fun c => (true, said c)
  | .anon _ _ b => (b :: bodies b).map fun c => (true, said c)
  | .group _ b => [(false, said b)]
  | .attrGroup _ b => [(true, said b)]
  | _ => []

/-- Whether a name is used for an attribute. -/
def Use.isAttr (u : Use) : Bool := u = .attribute
/-- Attributes and attribute groups are used once. -/
def Use.once (u : Use) : Bool := u = .attribute || u = .attrGroup

/-- The key of a use. -/
def keyOf (suffix : Str) (x : Str × Use) : Str := label suffix (x.1, x.2.isAttr)

/-- The names are not only punctuation, things with the same key are the same thing, and nothing is said twice
that may not be. -/
structure Clear (suffix : Str) (x : Bool × List (Str × Use)) : Prop where
  named : ∀ m ∈ x.2, key m.1 ≠ []
  same : ∀ m ∈ x.2, ∀ m' ∈ x.2, keyOf suffix m = keyOf suffix m' → m = m'
  once : ((x.2.filter fun m => !x.1 || m.2.once).map (keyOf suffix)).Nodup

/-- The keys of a declaration. -/
def keysOf (suffix : Str) (d : Decl) : List Str := (parts d).flatMap fun x => x.2.map (keyOf suffix)

/-! ## The components of a clear schema -/

/-- The type of an element from what is said about it. -/
def typeFrom (ty : Str → Str) (name : Str) : List (Option Str) → Str
  | [b] => ty ((b.map fun t => ty (ty t)).getD [])
  | r :: t :: _ => match r.or t with
    | some t => ty t
    | none => ty name
  | [] => []

section
variable (ty : Str → Str)

omit [Uni] in
theorem element_said (b : Content) : ∀ p, ∀ e ∈ elements ty p b, ∃ w, (e.name, Use.element w) ∈ said b ∧ e.type = typeFrom ty e.name w := by
  induction b with
  | nil => intro p e he; cases he
  | elem as k ih =>
    intro p e he
    rcases List.mem_cons.1 he with rfl | he
    · exact ⟨_, List.mem_cons_self, rfl⟩
    · obtain ⟨w, h, h'⟩ := ih p e he; exact ⟨w, List.mem_cons_of_mem _ h, h'⟩
  | anon as cas b k _ ih =>
    intro p e he
    rcases List.mem_cons.1 he with rfl | he
    · exact ⟨_, List.mem_cons_self, rfl⟩
    · obtain ⟨w, h, h'⟩ := ih p e he; exact ⟨w, List.mem_cons_of_mem _ h, h'⟩
  | elemAnon as ras fs k ih =>
    intro p e he
    rcases List.mem_cons.1 he with rfl | he
    · exact ⟨_, List.mem_cons_self, rfl⟩
    · obtain ⟨w, h, h'⟩ := ih p e he; exact ⟨w, List.mem_cons_of_mem _ h, h'⟩
  | choice as b k ihb ih =>
    intro p e he
    rcases List.mem_append.1 he with he | he
    · obtain ⟨w, h, h'⟩ := ihb _ e he; exact ⟨w, List.mem_append_left _ h, h'⟩
    · obtain ⟨w, h, h'⟩ := ih p e he; exact ⟨w, List.mem_append_right _ h, h'⟩
  | ext as b k ihb ih =>
    intro p e he
    rcases List.mem_append.1 he with he | he
    · obtain ⟨w, h, h'⟩ := ihb _ e he; exact ⟨w, List.mem_append_left _ h, h'⟩
    · obtain ⟨w, h, h'⟩ := ih p e he; exact ⟨w, List.mem_append_right _ h, h'⟩
  | restr as fs b k ihb ih =>
    intro p e he
    rcases List.mem_append.1 he with he | he
    · obtain ⟨w, h, h'⟩ := ihb _ e he; exact ⟨w, List.mem_append_left _ h, h'⟩
    · obtain ⟨w, h, h'⟩ := ih p e he; exact ⟨w, List.mem_append_right _ h, h'⟩
  | group as k ih => intro p e he; obtain ⟨w, h, h'⟩ := ih p e he; exact ⟨w, List.mem_cons_of_mem _ h, h'⟩
  | attrGroup as k ih => intro p e he; obtain ⟨w, h, h'⟩ := ih p e he; exact ⟨w, List.mem_cons_of_mem _ h, h'⟩
  | «attribute» as k ih => intro p e he; obtain ⟨w, h, h'⟩ := ih p e he; exact ⟨w, List.mem_cons_of_mem _ h, h'⟩
  | attrAnon as s k ih => intro p e he; obtain ⟨w, h, h'⟩ := ih p e he; exact ⟨w, List.mem_cons_of_mem _ h, h'⟩

/-- Uses for elements. -/
def Use.isElement : Use → Bool
  | .element _ => true
  | _ => false

omit [Uni] in
theorem elements_said (b : Content) : ∀ p, (elements ty p b).map (·.name) = ((said b).filter fun x => x.2.isElement).map (·.1) := by
  induction b <;> intro p <;> simp_all [-Bool.forall_bool, elements, said, Use.isElement, elementOf, elemAnonOf]

omit [Uni] in
theorem groups_said (b : Content) : ∀ p, (groups ty p b).map (fun g => (g.name, Use.group)) = (said b).filter fun x => x.2 = .group := by
  induction b <;> intro p <;> simp_all [-Bool.forall_bool, groups, said, groupOf]

omit [Uni] in
theorem attributes_said (b : Content) : (attributes ty b).map (fun a => (a.name, Use.attribute)) = (said b).filter fun x => x.2 = .attribute := by
  induction b <;> simp_all [attributes, said, attributeOf, attrAnonOf]

omit [Uni] in
theorem attrGroups_said (b : Content) : (attrGroups ty b).map (fun a => (a.name, Use.attrGroup)) = (said b).filter fun x => x.2 = .attrGroup := by
  induction b <;> simp_all [attrGroups, said, attrGroupOf]

end

/-- The name and type of an element. -/
def facts (e : Element) : Str × Str := (e.name, e.type)

omit [Uni] in
theorem addElement_facts (e : Element) (es : List Element) (h : ∀ x ∈ es, x.name = e.name → x.type = e.type) :
    (addElement e es).map facts = if e.name ∈ es.map (·.name) then es.map facts else es.map facts ++ [facts e] := by
  induction es with
  | nil => rfl
  | cons x xs ih =>
    have ih := ih fun y hy => h y (List.mem_cons_of_mem _ hy)
    rw [addElement]
    by_cases hx : x.name = e.name
    · rw [if_pos hx, if_pos (h x List.mem_cons_self hx), if_pos (by simp [hx])]
      rfl
    · rw [if_neg hx, List.map_cons, ih]
      have : e.name ∈ (x :: xs).map (·.name) ↔ e.name ∈ xs.map (·.name) := by
        simp [Ne.symm hx]
      by_cases h' : e.name ∈ xs.map (·.name)
      · rw [if_pos h', if_pos (this.2 h')]; rfl
      · rw [if_neg h', if_neg fun h => h' (this.1 h)]; rfl

theorem elements_clear (Q : Str × Str → Prop) (hQ : ∀ a b, Q a → Q b → key a.1 = key b.1 → a = b) (l : List Element) : ∀ acc : List Element,
    (∀ e ∈ l, Q (facts e)) → (∀ e ∈ acc, Q (facts e)) → (acc.map fun e => key e.name).Nodup →
    ((l.foldl (fun es e => addElement e es) acc).map fun e => key e.name).Nodup ∧ ∀ e ∈ l.foldl (fun es e => addElement e es) acc, Q (facts e) := by
  induction l with
  | nil => intro acc _ h2 h3; exact ⟨h3, h2⟩
  | cons e l ih =>
    intro acc h1 h2 h3
    have he := h1 e List.mem_cons_self
    have hf := addElement_facts e acc fun x hx hn => congrArg Prod.snd (hQ (facts x) (facts e) (h2 x hx) he (congrArg key hn))
    refine ih (addElement e acc) (fun x hx => h1 x (List.mem_cons_of_mem _ hx)) (fun x hx => ?_) ?_
    · have : facts x ∈ (addElement e acc).map facts := List.mem_map_of_mem hx
      rw [hf] at this
      split at this
      · obtain ⟨y, hy, hxy⟩ := List.mem_map.1 this; rw [← hxy]; exact h2 y hy
      · rcases List.mem_append.1 this with this | this
        · obtain ⟨y, hy, hxy⟩ := List.mem_map.1 this; rw [← hxy]; exact h2 y hy
        · rw [List.mem_singleton.1 this]; exact he
    · have e1 : ∀ es : List Element, es.map (fun e => key e.name) = (es.map facts).map fun f => key f.1 := fun es => by rw [List.map_map]; rfl
      rw [e1, hf]
      split
      · rw [← e1]; exact h3
      · rename_i hn
        rw [List.map_append, ← e1, List.nodup_append]
        refine ⟨h3, by simp, ?_⟩
        intro a ha b hb hab
        rw [List.map_singleton, List.mem_singleton] at hb
        subst hb
        obtain ⟨x, hx, rfl⟩ := List.mem_map.1 ha
        have := congrArg Prod.fst (hQ (facts x) (facts e) (h2 x hx) he hab)
        exact hn (List.mem_map.2 ⟨x, hx, this⟩)

theorem groups_clear (Q : Str → Prop) (hQ : ∀ a b, Q a → Q b → key a = key b → a = b) (l : List GroupRef) : ∀ acc : List GroupRef,
    (∀ g ∈ l, Q g.name) → (∀ g ∈ acc, Q g.name) → (acc.map fun g => key g.name).Nodup →
    ((l.foldl (fun gs g => addGroup g gs) acc).map fun g => key g.name).Nodup ∧ ∀ g ∈ l.foldl (fun gs g => addGroup g gs) acc, Q g.name := by
  induction l with
  | nil => intro acc _ h2 h3; exact ⟨h3, h2⟩
  | cons e l ih =>
    intro acc h1 h2 h3
    have he := h1 e List.mem_cons_self
    have h1' := fun x hx => h1 x (List.mem_cons_of_mem _ hx)
    rw [List.foldl_cons]
    unfold addGroup
    by_cases h : acc.any (fun x => x.name = e.name) = true
    · rw [if_pos h]; exact ih acc h1' h2 h3
    · rw [if_neg h]
      refine ih _ h1' (fun x hx => ?_) ?_
      · rcases List.mem_append.1 hx with hx | hx
        · exact h2 x hx
        · rw [List.mem_singleton.1 hx]; exact he
      · rw [List.map_append, List.nodup_append]
        refine ⟨h3, by simp, ?_⟩
        intro a ha b hb hab
        rw [List.map_singleton, List.mem_singleton] at hb
        subst hb
        obtain ⟨x, hx, rfl⟩ := List.mem_map.1 ha
        exact h (List.any_eq_true.2 ⟨x, hx, by simpa using hQ _ _ (h2 x hx) he hab⟩)

/-- The members of a component are clear: their names, and their names and keys among those said. -/
structure Fine (suffix : Str) (l : List (Str × Use)) (n : Node Element) : Prop where
  named : Named n
  said : ∀ m ∈ membersOf n, m.1 ∈ l.map (·.1)
  nodup : (labels suffix n).Nodup
  keys : ∀ k ∈ labels suffix n, k ∈ l.map (keyOf suffix)

omit [Uni] in
theorem nodup_four {A B C D : List Str} (hA : A.Nodup) (hB : B.Nodup) (hC : C.Nodup) (hD : D.Nodup) (h1 : ∀ a ∈ A, a ∉ B ∧ a ∉ C ∧ a ∉ D)
    (h2 : ∀ b ∈ B, b ∉ C ∧ b ∉ D) (h3 : ∀ c ∈ C, c ∉ D) : (A ++ B ++ C ++ D).Nodup := by
  rw [List.append_assoc, List.append_assoc, List.nodup_append]
  refine ⟨hA, List.nodup_append.2 ⟨hB, List.nodup_append.2 ⟨hC, hD, fun a ha b hb e => h3 a ha (e ▸ hb)⟩, fun a ha b hb e => ?_⟩, fun a ha b hb e => ?_⟩
  · subst e
    rcases List.mem_append.1 hb with hb | hb
    · exact (h2 a ha).1 hb
    · exact (h2 a ha).2 hb
  · subst e
    rcases List.mem_append.1 hb with hb | hb
    · exact (h1 a ha).1 hb
    · rcases List.mem_append.1 hb with hb | hb
      · exact (h1 a ha).2.1 hb
      · exact (h1 a ha).2.2 hb

section
variable (ty : Str → Str) {suffix : Str}

/-- What is used once has different keys. -/
theorem once_nodup {b : Content} {m : Bool} (h : Clear suffix (m, said b)) (u : Use) (hu : u.once = true) :
    (((said b).filter fun x => x.2 = u).map (keyOf suffix)).Nodup := by
  refine h.once.sublist (List.Sublist.map _ ?_)
  have : ((said b).filter fun x => x.2 = u) = ((said b).filter fun x => !m || x.2.once).filter fun x => x.2 = u := by
    rw [List.filter_filter]
    congr 1
    funext x
    by_cases e : x.2 = u
    · simp [e, hu]
    · simp [e]
  rw [this]
  exact List.filter_sublist

theorem complex_fine {b : Content} (h : Clear suffix (true, said b)) (p : Bool) (name : Str) :
    Fine suffix (said b) (.complex (complexOf ty p name b)) := by
  have hag := attrGroups_said ty b
  have hat := attributes_said ty b
  have hgr := groups_said ty b p
  obtain ⟨he1, he2⟩ := elements_clear (fun f => ∃ w, (f.1, Use.element w) ∈ said b ∧ f.2 = typeFrom ty f.1 w) (by
    rintro ⟨n, t⟩ ⟨n', t'⟩ ⟨w, hw, e⟩ ⟨w', hw', e'⟩ hk
    have := h.same _ hw _ hw' (by simpa [keyOf, label, Use.isAttr] using hk)
    cases this
    dsimp only at e e'
    rw [e, e']) (elements ty p b) [] (fun e he => element_said ty b p e he) (fun e he => by cases he) List.nodup_nil
  obtain ⟨hg1, hg2⟩ := groups_clear (fun n => (n, Use.group) ∈ said b) (by
    intro n n' hn hn' hk
    have := h.same _ hn _ hn' (by simpa [keyOf, label, Use.isAttr] using hk)
    exact congrArg Prod.fst this) (groups ty p b) [] (fun g hg => by
      have : (g.name, Use.group) ∈ (groups ty p b).map fun g => (g.name, Use.group) := List.mem_map.2 ⟨g, hg, rfl⟩
      rw [hgr] at this
      exact (List.mem_filter.1 this).1) (fun e he => by cases he) List.nodup_nil
  have hA : ∀ a ∈ attrGroups ty b, (a.name, Use.attrGroup) ∈ said b := fun a ha => by
    have : (a.name, Use.attrGroup) ∈ (attrGroups ty b).map fun g => (g.name, Use.attrGroup) := List.mem_map.2 ⟨a, ha, rfl⟩
    rw [hag] at this
    exact (List.mem_filter.1 this).1
  have hB : ∀ a ∈ attributes ty b, (a.name, Use.attribute) ∈ said b := fun a ha => by
    have : (a.name, Use.attribute) ∈ (attributes ty b).map fun g => (g.name, Use.attribute) := List.mem_map.2 ⟨a, ha, rfl⟩
    rw [hat] at this
    exact (List.mem_filter.1 this).1
  have key' : ∀ m ∈ membersOf (.complex (complexOf ty p name b)), ∃ u, (m.1, u) ∈ said b ∧ label suffix m = keyOf suffix (m.1, u) := by
    intro m hm
    simp only [membersOf, complexOf, extend, List.nil_append, List.mem_append, List.mem_map] at hm
    rcases hm with ((⟨a, ha, rfl⟩ | ⟨a, ha, rfl⟩) | ⟨a, ha, rfl⟩) | ⟨a, ha, rfl⟩
    · exact ⟨_, hA a ha, rfl⟩
    · exact ⟨_, hB a ha, rfl⟩
    · exact ⟨_, hg2 a ha, rfl⟩
    · obtain ⟨w, hw, -⟩ := he2 a ha; exact ⟨_, hw, rfl⟩
  refine ⟨fun m hm => ?_, fun m hm => ?_, ?_, fun k hk => ?_⟩
  · obtain ⟨u, hu, -⟩ := key' m hm
    exact h.named _ hu
  · obtain ⟨u, hu, -⟩ := key' m hm
    exact List.mem_map.2 ⟨_, hu, rfl⟩
  · have e : labels suffix (.complex (complexOf ty p name b)) =
        ((attrGroups ty b).map (fun a => (a.name, Use.attrGroup))).map (keyOf suffix) ++ ((attributes ty b).map (fun a => (a.name, Use.attribute))).map (keyOf suffix) ++
        ((groups ty p b).foldl (fun gs g => addGroup g gs) []).map (fun g => key g.name) ++
        ((elements ty p b).foldl (fun es e => addElement e es) []).map (fun g => key g.name) := by
      simp [labels, membersOf, complexOf, extend, keyOf, label, Use.isAttr, Function.comp_def]
    rw [e, hag, hat]
    have hK : ∀ {k u}, k ∈ ((said b).filter fun x => x.2 = u).map (keyOf suffix) → ∃ x ∈ said b, x.2 = u ∧ keyOf suffix x = k := by
      intro k u hk
      obtain ⟨x, hx, rfl⟩ := List.mem_map.1 hk
      obtain ⟨hx, hu⟩ := List.mem_filter.1 hx
      exact ⟨x, hx, by simpa using hu, rfl⟩
    have hG : ∀ {k}, k ∈ ((groups ty p b).foldl (fun gs g => addGroup g gs) []).map (fun g => key g.name) → ∃ x ∈ said b, x.2 = .group ∧ keyOf suffix x = k := by
      intro k hk
      obtain ⟨g, hg, rfl⟩ := List.mem_map.1 hk
      exact ⟨_, hg2 g hg, rfl, by simp [keyOf, label, Use.isAttr]⟩
    have hE : ∀ {k}, k ∈ ((elements ty p b).foldl (fun es e => addElement e es) []).map (fun g => key g.name) → ∃ x ∈ said b, x.2.isElement = true ∧ keyOf suffix x = k := by
      intro k hk
      obtain ⟨g, hg, rfl⟩ := List.mem_map.1 hk
      obtain ⟨w, hw, -⟩ := he2 g hg
      exact ⟨_, hw, rfl, by simp [keyOf, label, Use.isAttr, facts]⟩
    refine nodup_four (once_nodup h _ rfl) (once_nodup h _ rfl) hg1 he1 (fun k hk => ?_) (fun k hk => ?_) (fun k hk => ?_)
    · obtain ⟨x, hx, hu, hxk⟩ := hK hk
      refine ⟨fun h' => ?_, fun h' => ?_, fun h' => ?_⟩
      · obtain ⟨y, hy, hv, hyk⟩ := hK h'
        rw [h.same x hx y hy (hxk.trans hyk.symm), hv] at hu; cases hu
      · obtain ⟨y, hy, hv, hyk⟩ := hG h'
        rw [h.same x hx y hy (hxk.trans hyk.symm), hv] at hu; cases hu
      · obtain ⟨y, hy, hv, hyk⟩ := hE h'
        rw [← h.same x hx y hy (hxk.trans hyk.symm), hu] at hv; cases hv
    · obtain ⟨x, hx, hu, hxk⟩ := hK hk
      refine ⟨fun h' => ?_, fun h' => ?_⟩
      · obtain ⟨y, hy, hv, hyk⟩ := hG h'
        rw [h.same x hx y hy (hxk.trans hyk.symm), hv] at hu; cases hu
      · obtain ⟨y, hy, hv, hyk⟩ := hE h'
        rw [← h.same x hx y hy (hxk.trans hyk.symm), hu] at hv; cases hv
    · obtain ⟨x, hx, hu, hxk⟩ := hG hk
      intro h'
      obtain ⟨y, hy, hv, hyk⟩ := hE h'
      rw [← h.same x hx y hy (hxk.trans hyk.symm), hu] at hv; cases hv
  · obtain ⟨m, hm, rfl⟩ := List.mem_map.1 hk
    obtain ⟨u, hu, e⟩ := key' m hm
    rw [e]; exact List.mem_map_of_mem hu

omit [Uni] in
theorem nested_body (b : Content) : ∀ p, ∀ c ∈ nested ty p b, ∃ b' ∈ bodies b, ∃ q name, c = complexOf ty q name b' := by
  induction b with
  | nil => intro p c hc; cases hc
  | anon as cas b k ihb ih =>
    intro p c hc
    rcases List.mem_append.1 hc with hc | hc
    · rcases List.mem_append.1 hc with hc | hc
      · obtain ⟨b', h, h'⟩ := ihb p c hc
        exact ⟨b', List.mem_cons_of_mem _ (List.mem_append_left _ h), h'⟩
      · rw [List.mem_singleton.1 hc]
        exact ⟨b, List.mem_cons_self, _, _, rfl⟩
    · obtain ⟨b', h, h'⟩ := ih p c hc
      exact ⟨b', List.mem_cons_of_mem _ (List.mem_append_right _ h), h'⟩
  | choice as b k ihb ih =>
    intro p c hc
    rcases List.mem_append.1 hc with hc | hc
    · obtain ⟨b', h, h'⟩ := ihb _ c hc; exact ⟨b', List.mem_append_left _ h, h'⟩
    · obtain ⟨b', h, h'⟩ := ih p c hc; exact ⟨b', List.mem_append_right _ h, h'⟩
  | ext as b k ihb ih =>
    intro p c hc
    rcases List.mem_append.1 hc with hc | hc
    · obtain ⟨b', h, h'⟩ := ihb _ c hc; exact ⟨b', List.mem_append_left _ h, h'⟩
    · obtain ⟨b', h, h'⟩ := ih p c hc; exact ⟨b', List.mem_append_right _ h, h'⟩
  | restr as fs b k ihb ih =>
    intro p c hc
    rcases List.mem_append.1 hc with hc | hc
    · obtain ⟨b', h, h'⟩ := ihb _ c hc; exact ⟨b', List.mem_append_left _ h, h'⟩
    · obtain ⟨b', h, h'⟩ := ih p c hc; exact ⟨b', List.mem_append_right _ h, h'⟩
  | elem as k ih => exact ih
  | elemAnon as ras fs k ih => exact ih
  | group as k ih => exact ih
  | attrGroup as k ih => exact ih
  | «attribute» as k ih => exact ih
  | attrAnon as s k ih => exact ih

theorem Fine.none {l : List (Str × Use)} {n : Node Element} (h : membersOf n = []) : Fine suffix l n := by
  refine ⟨fun m hm => ?_, fun m hm => ?_, ?_, fun k hk => ?_⟩
  · rw [h] at hm; cases hm
  · rw [h] at hm; cases hm
  · rw [labels, h]; exact List.nodup_nil
  · rw [labels, h] at hk; cases hk

theorem group_fine {b : Content} (h : Clear suffix (false, said b)) (p : Bool) (v : Group) (he : v.elements = elements ty p b) (hg : v.groups = groups ty p b) :
    Fine suffix (said b) (.group v) := by
  have h1 := elements_said ty b p
  have h2 := groups_said ty b p
  have hn : (((said b).filter fun x => x.2.isElement) ++ ((said b).filter fun x => x.2 = .group)).Nodup ∧
      ((((said b).filter fun x => x.2.isElement) ++ ((said b).filter fun x => x.2 = .group)).map (keyOf suffix)).Nodup := by
    have h3 : ((said b).map (keyOf suffix)).Nodup := by
      have := h.once
      rw [List.filter_eq_self.2 (by simp)] at this
      exact this
    have h4 : ((((said b).filter fun x => x.2.isElement) ++ ((said b).filter fun x => x.2 = .group)).map (keyOf suffix)).Nodup := by
      rw [List.map_append, List.nodup_append]
      refine ⟨h3.sublist (List.filter_sublist.map _), h3.sublist (List.filter_sublist.map _), ?_⟩
      intro k hk k' hk' e
      obtain ⟨x, hx, rfl⟩ := List.mem_map.1 hk
      obtain ⟨y, hy, rfl⟩ := List.mem_map.1 hk'
      obtain ⟨hx, hu⟩ := List.mem_filter.1 hx
      obtain ⟨hy, hv⟩ := List.mem_filter.1 hy
      rw [h.same x hx y hy e, of_decide_eq_true hv] at hu
      cases hu
    exact ⟨List.Pairwise.of_map (S := (· ≠ ·)) (keyOf suffix) (fun a b hab e => hab (congrArg _ e)) h4, h4⟩
  have em : membersOf (.group v) = (((said b).filter fun x => x.2.isElement) ++ ((said b).filter fun x => x.2 = .group)).map fun x => (x.1, false) := by
    simp only [membersOf, he, hg, List.map_append]
    congr 1
    · have := congrArg (List.map fun s => (s, false)) h1
      rw [List.map_map, List.map_map] at this
      exact this
    · have := congrArg (List.map fun x : Str × Use => (x.1, false)) h2
      rw [List.map_map] at this
      exact this
  have el : labels suffix (.group v) = (((said b).filter fun x => x.2.isElement) ++ ((said b).filter fun x => x.2 = .group)).map (keyOf suffix) := by
    rw [labels, em, List.map_map]
    refine List.map_congr_left fun x hx => ?_
    have : x.2.isAttr = false := by
      rcases List.mem_append.1 hx with hx | hx
      · have := (List.mem_filter.1 hx).2
        cases h' : x.2 <;> simp [h', Use.isElement] at this <;> rfl
      · rw [of_decide_eq_true (List.mem_filter.1 hx).2]; rfl
    rw [keyOf, this]; rfl
  have hs : ∀ x ∈ ((said b).filter fun x => x.2.isElement) ++ ((said b).filter fun x => x.2 = .group), x ∈ said b := fun x hx => by
    rcases List.mem_append.1 hx with hx | hx <;> exact (List.mem_filter.1 hx).1
  refine ⟨fun m hm => ?_, fun m hm => ?_, by rw [el]; exact hn.2, fun k hk => ?_⟩
  · rw [em] at hm
    obtain ⟨x, hx, rfl⟩ := List.mem_map.1 hm
    exact h.named x (hs x hx)
  · rw [em] at hm
    obtain ⟨x, hx, rfl⟩ := List.mem_map.1 hm
    exact List.mem_map.2 ⟨x, hs x hx, rfl⟩
  · rw [el] at hk
    obtain ⟨x, hx, rfl⟩ := List.mem_map.1 hk
    exact List.mem_map_of_mem (hs x hx)

theorem attrGroup_fine {b : Content} {m : Bool} (h : Clear suffix (m, said b)) (v : AttributeGroup) (ha : v.attributes = attributes ty b) :
    Fine suffix (said b) (.attrGroup v) := by
  have hat := attributes_said ty b
  have em : membersOf (.attrGroup v) = ((said b).filter fun x => x.2 = .attribute).map fun x => (x.1, true) := by
    rw [← hat, List.map_map]
    simp only [membersOf, ha]
    rfl
  have el : labels suffix (.attrGroup v) = ((said b).filter fun x => x.2 = .attribute).map (keyOf suffix) := by
    rw [labels, em, List.map_map]
    refine List.map_congr_left fun x hx => ?_
    rw [keyOf, of_decide_eq_true (List.mem_filter.1 hx).2]; rfl
  refine ⟨fun m hm => ?_, fun m hm => ?_, by rw [el]; exact once_nodup h _ rfl, fun k hk => ?_⟩
  · rw [em] at hm
    obtain ⟨x, hx, rfl⟩ := List.mem_map.1 hm
    exact h.named x (List.mem_filter.1 hx).1
  · rw [em] at hm
    obtain ⟨x, hx, rfl⟩ := List.mem_map.1 hm
    exact List.mem_map.2 ⟨x, (List.mem_filter.1 hx).1, rfl⟩
  · rw [el] at hk
    obtain ⟨x, hx, rfl⟩ := List.mem_map.1 hk
    exact List.mem_map_of_mem (List.mem_filter.1 hx).1

omit [Uni] in
theorem union_keys (l : List Str) (f : Str → Str) : ∀ m : GoMap Str, m.keys.Nodup → (l.foldl (fun m t => m.set (Names.localPart t) (f t)) m).keys.Nodup ∧
    ∀ k ∈ (l.foldl (fun m t => m.set (Names.localPart t) (f t)) m).keys, k ∈ m.keys ∨ k ∈ l.map Names.localPart := by
  induction l with
  | nil => intro m h; exact ⟨h, fun k hk => .inl hk⟩
  | cons t l ih =>
    intro m h
    obtain ⟨h1, h2⟩ := ih (m.set (Names.localPart t) (f t)) (GoMap.nodup_keys_set m h _ _)
    refine ⟨h1, fun k hk => ?_⟩
    rcases h2 k hk with h' | h'
    · rcases (GoMap.mem_keys_set m _ _ _).1 h' with rfl | h'
      · exact .inr List.mem_cons_self
      · exact .inl h'
    · exact .inr (List.mem_cons_of_mem _ h')

theorem union_fine {l : List Str} (h : Clear suffix (true, l.map fun t => (Names.localPart t, .member))) {v : SimpleType}
    (hv : v.memberTypes = l.foldl (fun (m : GoMap Str) t => m.set (Names.localPart t) (ty t)) []) :
    Fine suffix (l.map fun t => (Names.localPart t, .member)) (.simple v) := by
  by_cases hu : isUnion v = true
  · obtain ⟨h1, h2⟩ := union_keys l ty [] List.nodup_nil
    rw [← hv] at h1 h2
    have h2 : ∀ k ∈ v.memberTypes.keys, (k, Use.member) ∈ l.map fun t => (Names.localPart t, Use.member) := fun k hk => by
      rcases h2 k hk with h' | h'
      · cases h'
      · obtain ⟨t, ht, rfl⟩ := List.mem_map.1 h'; exact List.mem_map.2 ⟨t, ht, rfl⟩
    have em : membersOf (.simple v) = v.memberTypes.keys.map fun k => (k, false) := by
      simp only [membersOf, hu, if_true, GoMap.keys, List.map_map]; rfl
    have el : labels suffix (.simple v) = v.memberTypes.keys.map fun k => keyOf suffix (k, .member) := by
      rw [labels, em, List.map_map]; rfl
    refine ⟨fun m hm => ?_, fun m hm => ?_, ?_, fun k hk => ?_⟩
    · rw [em] at hm
      obtain ⟨k, hk, rfl⟩ := List.mem_map.1 hm
      exact h.named _ (h2 k hk)
    · rw [em] at hm
      obtain ⟨k, hk, rfl⟩ := List.mem_map.1 hm
      exact List.mem_map.2 ⟨_, h2 k hk, rfl⟩
    · rw [el]
      unfold List.Nodup at h1 ⊢
      rw [List.pairwise_map]
      refine List.Pairwise.imp_of_mem (fun {a b} ha hb hab e => hab ?_) h1
      exact congrArg Prod.fst (h.same _ (h2 a ha) _ (h2 b hb) e)
    · rw [el] at hk
      obtain ⟨k', hk', rfl⟩ := List.mem_map.1 hk
      exact List.mem_map.2 ⟨_, h2 k' hk', rfl⟩
  · exact Fine.none (by simp [membersOf, hu])

/-- The components of a clear declaration. -/
theorem decl_fine {d : Decl} (h : ∀ x ∈ parts d, Clear suffix x) : ∀ n ∈ d.nodes ty, Fine suffix [] n ∨ ∃ x ∈ parts d, Fine suffix x.2 n := by
  have hcomplex : ∀ b : Content, (∀ x ∈ ((b :: bodies b).map fun c => (true, said c)), Clear suffix x) → ∀ n, n ∈ (nested ty false b).map Node.complex →
      ∃ x ∈ ((b :: bodies b).map fun c => (true, said c)), Fine suffix x.2 n := by
    intro b hb n hn
    obtain ⟨c, hc, rfl⟩ := List.mem_map.1 hn
    obtain ⟨b', hb', q, name, rfl⟩ := nested_body ty b false c hc
    have hm : (true, said b') ∈ ((b :: bodies b).map fun c => (true, said c)) := List.mem_map.2 ⟨b', List.mem_cons_of_mem _ hb', rfl⟩
    exact ⟨_, hm, complex_fine ty (hb _ hm) q name⟩
  intro n hn
  cases d with
  | simple as b =>
    rw [List.mem_singleton.1 hn]
    cases b with
    | restriction ras fs => exact .inl (Fine.none (by simp [membersOf, isUnion, simpleOf]))
    | list las => exact .inl (Fine.none (by simp [membersOf, isUnion, simpleOf]))
    | union uas => exact .inr ⟨_, List.mem_singleton.2 rfl, union_fine ty (h _ (List.mem_singleton.2 rfl)) rfl⟩
  | complex as b =>
    rcases List.mem_append.1 hn with hn | hn
    · exact .inr (hcomplex b h n hn)
    · rw [List.mem_singleton.1 hn]
      exact .inr ⟨_, List.mem_cons_self, complex_fine ty (h _ List.mem_cons_self) _ _⟩
  | element as => rw [List.mem_singleton.1 hn]; exact .inl (Fine.none rfl)
  | anon as cas b =>
    rcases List.mem_append.1 hn with hn | hn
    · exact .inr (hcomplex b h n hn)
    · rcases List.mem_cons.1 hn with rfl | hn
      · exact .inr ⟨_, List.mem_cons_self, complex_fine ty (h _ List.mem_cons_self) _ _⟩
      · rw [List.mem_singleton.1 hn]; exact .inl (Fine.none rfl)
  | elemAnon as ras fs => rw [List.mem_singleton.1 hn]; exact .inl (Fine.none rfl)
  | group as b =>
    rw [List.mem_singleton.1 hn]
    exact .inr ⟨_, List.mem_singleton.2 rfl, group_fine ty (h _ (List.mem_singleton.2 rfl)) false _ rfl rfl⟩
  | attrGroup as b =>
    rcases List.mem_append.1 hn with hn | hn
    · obtain ⟨c, hc, rfl⟩ := List.mem_map.1 hn
      refine .inl (Fine.none ?_)
      have : ∀ b : Content, ∀ c ∈ attrGroups ty b, c.attributes = [] := by
        intro b
        induction b <;> simp_all [Core.attrGroups, attrGroupOf, or_imp]
      simp [membersOf, this b c hc]
    · rw [List.mem_singleton.1 hn]
      exact .inr ⟨_, List.mem_singleton.2 rfl, attrGroup_fine ty (h _ (List.mem_singleton.2 rfl)) _ rfl⟩
  | «attribute» as => rw [List.mem_singleton.1 hn]; exact .inl (Fine.none rfl)
  | attrAnon as ras fs => rw [List.mem_singleton.1 hn]; exact .inl (Fine.none rfl)

end

/-- Declarations whose names are clear. -/
def ClearAll (suffix : Str) (ds : List Decl) : Prop := ∀ d ∈ ds, ∀ x ∈ parts d, Clear suffix x

theorem tree_fine {suffix : Str} (ref : Tree → Str → Str) (ds : List Decl) : ∀ t : Tree, ClearAll suffix ds → ∀ n ∈ nodes (treeOf ref t ds), n ∈ nodes t ∨
    (Named n ∧ (labels suffix n).Nodup ∧ ∀ k ∈ labels suffix n, ∃ d ∈ ds, k ∈ keysOf suffix d) := by
  induction ds with
  | nil => intro t _ n hn; exact .inl hn
  | cons d ds ih =>
    intro t h n hn
    rcases ih _ (fun d' hd' => h d' (List.mem_cons_of_mem _ hd')) n hn with h' | ⟨h1, h2, h3⟩
    · rw [Xgen.Decl.nodes, List.filterMap_append, List.filterMap_map] at h'
      rcases List.mem_append.1 h' with h' | h'
      · exact .inl h'
      · right
        rcases decl_fine (ref t) (h d List.mem_cons_self) n (by simpa using h') with hf | ⟨x, hx, hf⟩
        · exact ⟨hf.named, hf.nodup, fun k hk => by cases hf.keys k hk⟩
        · exact ⟨hf.named, hf.nodup, fun k hk => ⟨d, List.mem_cons_self, List.mem_flatMap.2 ⟨x, hx, hf.keys k hk⟩⟩⟩
    · exact .inr ⟨h1, h2, fun k hk => by obtain ⟨d', hd', hk'⟩ := h3 k hk; exact ⟨d', List.mem_cons_of_mem _ hd', hk'⟩⟩

omit [Uni] in
theorem addElement_name {e x : Element} {es : List Element} (h : x ∈ addElement e es) : x.name = e.name ∨ x.name ∈ es.map (·.name) := by
  induction es with
  | nil => exact .inl (by rw [List.mem_singleton.1 h])
  | cons y ys ih =>
    rw [addElement] at h
    split at h
    · split at h
      · rcases List.mem_cons.1 h with rfl | h
        · exact .inr (by simp)
        · exact .inr (List.mem_map.2 ⟨x, List.mem_cons_of_mem _ h, rfl⟩)
      · rcases List.mem_append.1 h with h | h
        · exact .inr (List.mem_map_of_mem h)
        · exact .inl (by rw [List.mem_singleton.1 h])
    · rcases List.mem_cons.1 h with rfl | h
      · exact .inr (by simp)
      · rcases ih h with h | h
        · exact .inl h
        · exact .inr (by rw [List.map_cons]; exact List.mem_cons_of_mem _ h)

omit [Uni] in
theorem elements_names (l : List Element) : ∀ acc : List Element, ∀ e ∈ l.foldl (fun es e => addElement e es) acc,
    e.name ∈ l.map (·.name) ∨ e.name ∈ acc.map (·.name) := by
  induction l with
  | nil => intro acc e he; exact .inr (List.mem_map_of_mem he)
  | cons x l ih =>
    intro acc e he
    rcases ih _ e he with h | h
    · exact .inl (by rw [List.map_cons]; exact List.mem_cons_of_mem _ h)
    · obtain ⟨y, hy, e'⟩ := List.mem_map.1 h
      rw [← e']
      rcases addElement_name hy with h | h
      · exact .inl (by simp [h])
      · exact .inr h

omit [Uni] in
theorem groups_names (l : List GroupRef) : ∀ acc : List GroupRef, ∀ e ∈ l.foldl (fun gs g => addGroup g gs) acc,
    e.name ∈ l.map (·.name) ∨ e.name ∈ acc.map (·.name) := by
  induction l with
  | nil => intro acc e he; exact .inr (List.mem_map_of_mem he)
  | cons x l ih =>
    intro acc e he
    rcases ih _ e he with h | h
    · exact .inl (by rw [List.map_cons]; exact List.mem_cons_of_mem _ h)
    · dsimp only [addGroup] at h
      split at h
      · exact .inr h
      · rw [List.map_append] at h
        rcases List.mem_append.1 h with h | h
        · exact .inr h
        · exact .inl (by simp only [List.map_cons, List.map_nil, List.mem_singleton] at h; simp [h])

section
variable (ty : Str → Str)

omit [Uni] in
/-- The names in a content. -/
theorem content_names (b : Content) (p : Bool) : (∀ a ∈ attrGroups ty b, a.name ∈ (said b).map (·.1)) ∧ (∀ a ∈ attributes ty b, a.name ∈ (said b).map (·.1)) ∧
    (∀ n ∈ (groups ty p b).map (·.name), n ∈ (said b).map (·.1)) ∧ ∀ n ∈ (elements ty p b).map (·.name), n ∈ (said b).map (·.1) := by
  refine ⟨fun a ha => ?_, fun a ha => ?_, fun n hn => ?_, fun n hn => ?_⟩
  · have h := List.mem_map_of_mem (f := fun a : AttributeGroup => (a.name, Use.attrGroup)) ha
    rw [attrGroups_said] at h
    exact List.mem_map.2 ⟨_, (List.mem_filter.1 h).1, rfl⟩
  · have h := List.mem_map_of_mem (f := fun a : Attribute => (a.name, Use.attribute)) ha
    rw [attributes_said] at h
    exact List.mem_map.2 ⟨_, (List.mem_filter.1 h).1, rfl⟩
  · obtain ⟨g, hg, rfl⟩ := List.mem_map.1 hn
    have h := List.mem_map_of_mem (f := fun a : GroupRef => (a.name, Use.group)) hg
    rw [groups_said] at h
    exact List.mem_map.2 ⟨_, (List.mem_filter.1 h).1, rfl⟩
  · rw [elements_said] at hn
    obtain ⟨x, hx, rfl⟩ := List.mem_map.1 hn
    exact List.mem_map.2 ⟨x, (List.mem_filter.1 hx).1, rfl⟩

omit [Uni] in
theorem complex_said (b : Content) (p : Bool) (name : Str) : ∀ m ∈ membersOf (.complex (complexOf ty p name b)), m.1 ∈ (said b).map (·.1) := by
  intro m hm
  obtain ⟨h1, h2, h3, h4⟩ := content_names ty b p
  simp only [membersOf, complexOf, extend, List.nil_append, List.mem_append, List.mem_map] at hm
  rcases hm with ((⟨a, ha, rfl⟩ | ⟨a, ha, rfl⟩) | ⟨a, ha, rfl⟩) | ⟨a, ha, rfl⟩
  · exact h1 a ha
  · exact h2 a ha
  · rcases groups_names _ _ a ha with h | h
    · exact h3 _ h
    · cases h
  · rcases elements_names _ _ a ha with h | h
    · exact h4 _ h
    · cases h

omit [Uni] in
/-- The names of the members of a declaration. -/
theorem decl_said (d : Decl) : ∀ n ∈ d.nodes ty, ∀ m ∈ membersOf n, ∃ x ∈ parts d, m.1 ∈ x.2.map (·.1) := by
  have hcomplex : ∀ b : Content, ∀ n, n ∈ (nested ty false b).map Node.complex → ∀ m ∈ membersOf n,
      ∃ x ∈ ((b :: bodies b).map fun c => (true, said c)), m.1 ∈ x.2.map (·.1) := by
    intro b n hn m hm
    obtain ⟨c, hc, rfl⟩ := List.mem_map.1 hn
    obtain ⟨b', hb', q, name, rfl⟩ := nested_body ty b false c hc
    exact ⟨_, List.mem_map.2 ⟨b', List.mem_cons_of_mem _ hb', rfl⟩, complex_said ty b' q name m hm⟩
  intro n hn m hm
  cases d with
  | simple as b =>
    rw [List.mem_singleton.1 hn] at hm
    cases b with
    | restriction ras fs => simp [membersOf, isUnion, simpleOf] at hm
    | list las => simp [membersOf, isUnion, simpleOf] at hm
    | union uas =>
      refine ⟨_, List.mem_singleton.2 rfl, ?_⟩
      simp only [membersOf] at hm
      split at hm
      · obtain ⟨x, hx, rfl⟩ := List.mem_map.1 hm
        rcases (union_keys _ ty [] List.nodup_nil).2 x.1 (List.mem_map_of_mem hx) with h | h
        · cases h
        · rw [List.map_map]; exact h
      · cases hm
  | complex as b =>
    rcases List.mem_append.1 hn with hn | hn
    · exact hcomplex b n hn m hm
    · rw [List.mem_singleton.1 hn] at hm
      exact ⟨_, List.mem_cons_self, complex_said ty b _ _ m hm⟩
  | element as => rw [List.mem_singleton.1 hn] at hm; cases hm
  | anon as cas b =>
    rcases List.mem_append.1 hn with hn | hn
    · exact hcomplex b n hn m hm
    · rcases List.mem_cons.1 hn with rfl | hn
      · exact ⟨_, List.mem_cons_self, complex_said ty b _ _ m hm⟩
      · rw [List.mem_singleton.1 hn] at hm; cases hm
  | elemAnon as ras fs => rw [List.mem_singleton.1 hn] at hm; cases hm
  | group as b =>
    rw [List.mem_singleton.1 hn] at hm
    refine ⟨_, List.mem_singleton.2 rfl, ?_⟩
    obtain ⟨-, -, h3, h4⟩ := content_names ty b false
    rcases List.mem_append.1 hm with hm | hm
    · obtain ⟨e, he, rfl⟩ := List.mem_map.1 hm
      exact h4 _ (List.mem_map_of_mem he)
    · obtain ⟨e, he, rfl⟩ := List.mem_map.1 hm
      exact h3 _ (List.mem_map_of_mem he)
  | attrGroup as b =>
    rcases List.mem_append.1 hn with hn | hn
    · obtain ⟨c, hc, rfl⟩ := List.mem_map.1 hn
      have : ∀ b : Content, ∀ c ∈ attrGroups ty b, c.attributes = [] := by
        intro b
        induction b <;> simp_all [Core.attrGroups, attrGroupOf, or_imp]
      simp [membersOf, this b c hc] at hm
    · rw [List.mem_singleton.1 hn] at hm
      refine ⟨_, List.mem_singleton.2 rfl, ?_⟩
      obtain ⟨a, ha, rfl⟩ := List.mem_map.1 hm
      exact (content_names ty b false).2.1 a ha
  | «attribute» as => rw [List.mem_singleton.1 hn] at hm; cases hm
  | attrAnon as ras fs => rw [List.mem_singleton.1 hn] at hm; cases hm

end

omit [Uni] in
/-- The names of the members are said in the schema. -/
theorem tree_said (ref : Tree → Str → Str) (ds : List Decl) : ∀ t : Tree, ∀ n ∈ nodes (treeOf ref t ds), n ∈ nodes t ∨
    ∀ m ∈ membersOf n, ∃ d ∈ ds, ∃ x ∈ parts d, m.1 ∈ x.2.map (·.1) := by
  induction ds with
  | nil => intro t n hn; exact .inl hn
  | cons d ds ih =>
    intro t n hn
    rcases ih _ n hn with h' | h'
    · rw [Xgen.Decl.nodes, List.filterMap_append, List.filterMap_map] at h'
      rcases List.mem_append.1 h' with h' | h'
      · exact .inl h'
      · right
        intro m hm
        obtain ⟨x, hx, h⟩ := decl_said (ref t) d n (by simpa using h') m hm
        exact ⟨d, List.mem_cons_self, x, hx, h⟩
    · exact .inr fun m hm => by obtain ⟨d', hd', hk'⟩ := h' m hm; exact ⟨d', List.mem_cons_of_mem _ hd', hk'⟩

/-! ## Documentation -/

omit [Uni] in
theorem members_bare (n : Node Element) : membersOf (C57.noDocNode C31.noDocE n) = membersOf n := by
  cases n <;> simp [C57.noDocNode, membersOf, C31.noDocE, C31.noDocS, C31.noDocA, C31.noDocC, C31.noDocG, C31.noDocAG, Function.comp_def, isUnion]

omit [Uni] in
theorem base_bare (n : Node Element) : baseOf (C57.noDocNode C31.noDocE n) = baseOf n := by cases n <;> rfl

omit [Uni] in
/-- A component of a documented tree, and one of the tree without documentation. -/
theorem alike {t t' : Tree} (h : C57.bare t = C57.bare t') {n : Node Element} (hn : n ∈ nodes t) :
    ∃ m ∈ nodes t', membersOf n = membersOf m ∧ baseOf n = baseOf m := by
  have h1 : C57.noDocNode C31.noDocE n ∈ nodes (C57.bare t) := by rw [C59.nodes_bare]; exact List.mem_map_of_mem hn
  rw [h, C59.nodes_bare] at h1
  obtain ⟨m, hm, e⟩ := List.mem_map.1 h1
  exact ⟨m, hm, by rw [← members_bare n, ← e, members_bare], by rw [← base_bare n, ← e, base_bare]⟩

/-! ## Documents -/

/-- In Go: no key is `xmlname`, `value` or that of the base type. -/
structure Go.Free (ds : List Decl) : Prop where
  clear : ClearAll c!"attr" ds
  reserved : ∀ d ∈ ds, ∀ k ∈ keysOf c!"attr" d, k ≠ c!"xmlname" ∧ k ≠ c!"value"
  base : ∀ n ∈ nodes (treeOf (typeRef c!"Go" false) [] ds), baseOf n ≠ [] → baseOf n ∉ goBuildinType →
    key (baseOf n) ≠ [] ∧ key (baseOf n) ∉ c!"xmlname" :: labels c!"attr" n

/-- In Java and TypeScript: no key is `value`; in C anything. -/
structure Free (reserved : List Str) (ds : List Decl) : Prop where
  clear : ClearAll c!"attr" ds
  reserved : ∀ d ∈ ds, ∀ k ∈ keysOf c!"attr" d, k ∉ reserved

/-- In Rust: attributes are named like elements, and no key is that of another one with the suffix, `value` or that of the base
type. -/
structure Rust.Free (ds : List Decl) : Prop where
  clear : ClearAll [] ds
  steady : ∀ d ∈ ds, ∀ x ∈ parts d, ∀ m ∈ x.2, Steady m.1
  base : ∀ n ∈ nodes (treeOf (typeRef c!"Rust" false) [] ds), ∀ s ∈ Rust.baseOf (treeOf (typeRef c!"Rust" false) [] ds) n,
    Steady s ∧ key s ∉ labels [] n
  suffix : ∀ n ∈ nodes (treeOf (typeRef c!"Rust" false) [] ds), ∀ k ∈ Rust.keys (treeOf (typeRef c!"Rust" false) [] ds) n,
    ∀ k' ∈ Rust.keys (treeOf (typeRef c!"Rust" false) [] ds) n, k ≠ k' ++ c!"attr"

section
variable [UniLaws] {W : World} {cfg : Cfg} {sh : Shared} {ds : List Decl} {toks : List Token}

omit [UniLaws] in
theorem Go.clear_apart {ref : Tree → Str → Str} (hc : ClearAll c!"attr" ds) (hv : ∀ d ∈ ds, ∀ k ∈ keysOf c!"attr" d, k ≠ c!"xmlname" ∧ k ≠ c!"value")
    (hbase : ∀ n ∈ nodes (treeOf ref [] ds), baseOf n ≠ [] → baseOf n ∉ goBuildinType →
      key (baseOf n) ≠ [] ∧ key (baseOf n) ∉ c!"xmlname" :: labels c!"attr" n)
    {t : Tree} (h : C57.bare t = C57.bare (treeOf ref [] ds)) : ∀ n ∈ nodes t, Go.Apart n := by
  intro n hn
  obtain ⟨m, hm, e1, e2⟩ := alike h hn
  rcases tree_fine _ ds [] hc m hm with h' | ⟨h1, h2, h3⟩
  · cases h'
  · have el : labels c!"attr" n = labels c!"attr" m := by rw [labels, e1, labels]
    refine ⟨by rw [Named, e1]; exact h1, ?_, fun hb => ?_⟩
    · rw [el, List.nodup_cons]
      refine ⟨fun hk => ?_, h2⟩
      obtain ⟨d, hd, hk⟩ := h3 _ hk
      exact (hv d hd _ hk).1 rfl
    · rw [el, e2]
      rw [e2] at hb
      split
      · intro hk
        obtain ⟨d, hd, hk⟩ := h3 _ hk
        exact (hv d hd _ hk).2 rfl
      · rename_i hbb
        exact hbase m hm hb hbb

omit [UniLaws] in
theorem Go.free_apart (hf : Go.Free ds) {t : Tree} (h : C57.bare t = C57.bare (treeOf (typeRef c!"Go" false) [] ds)) : ∀ n ∈ nodes t, Go.Apart n :=
  Go.clear_apart hf.clear hf.reserved hf.base h

omit [UniLaws] in
theorem free_apart {builtin : List Str} {lang : Str} {reserved : List Str} (hr : builtin = [] ∨ c!"value" ∈ reserved) (hf : Free reserved ds) {t : Tree}
    (h : C57.bare t = C57.bare (treeOf (typeRef lang false) [] ds)) : ∀ n ∈ nodes t, Apart builtin n := by
  intro n hn
  obtain ⟨m, hm, e1, e2⟩ := alike h hn
  rcases tree_fine _ ds [] hf.clear m hm with h' | ⟨h1, h2, h3⟩
  · cases h'
  · have el : labels c!"attr" n = labels c!"attr" m := by rw [labels, e1, labels]
    refine ⟨by rw [Named, e1]; exact h1, ?_⟩
    rw [el, List.nodup_append]
    refine ⟨?_, h2, fun a ha b hb e => ?_⟩
    · unfold valueKey; split <;> simp
    · subst e
      unfold valueKey at ha
      split at ha
      · rename_i hb'
        rcases hr with rfl | hr
        · cases hb'.2
        · obtain ⟨d, hd, hk⟩ := h3 _ hb
          rw [List.mem_singleton.1 ha] at hk
          exact hf.reserved d hd _ hk hr
      · cases ha

omit [UniLaws] in
theorem Rust.free_apart (hf : Rust.Free ds) {t : Tree} (h : C57.bare t = C57.bare (treeOf (typeRef c!"Rust" false) [] ds)) : ∀ n ∈ nodes t, Rust.Apart t n := by
  intro n hn
  obtain ⟨m, hm, e1, e2⟩ := alike h hn
  have em : Names.meaning t = Names.meaning (treeOf (typeRef c!"Rust" false) [] ds) := by rw [← C59.meaning_bare t, h, C59.meaning_bare]
  rcases tree_fine _ ds [] hf.clear m hm with h' | ⟨h1, h2, h3⟩
  · cases h'
  · have el : labels [] n = labels [] m := by rw [labels, e1, labels]
    have eb : Rust.baseOf t n = Rust.baseOf (treeOf (typeRef c!"Rust" false) [] ds) m := by unfold Rust.baseOf; rw [e2, em]
    have ek : Rust.keys t n = Rust.keys (treeOf (typeRef c!"Rust" false) [] ds) m := by unfold Rust.keys; rw [el, eb]
    refine ⟨by rw [Named, e1]; exact h1, ?_, ?_, ?_⟩
    · rw [eb, e1]
      intro s hs
      rcases List.mem_append.1 hs with hs | hs
      · obtain ⟨x, hx, rfl⟩ := List.mem_map.1 hs
        rcases tree_said _ ds [] m hm with h' | h'
        · cases h'
        · obtain ⟨d, hd, y, hy, hm'⟩ := h' x hx
          obtain ⟨u, hu, e⟩ := List.mem_map.1 hm'
          rw [← e]; exact hf.steady d hd y hy u hu
      · exact (hf.base m hm s hs).1
    · rw [ek, Rust.keys, List.nodup_append]
      refine ⟨h2, ?_, fun a ha b hb e => ?_⟩
      · unfold Rust.baseOf; split
        · exact List.nodup_nil
        · split <;> simp
      · obtain ⟨s, hs, rfl⟩ := List.mem_map.1 hb
        exact (hf.base m hm s hs).2 (e ▸ ha)
    · rw [ek]; exact hf.suffix m hm

/-- C74, Go: in the source before it is formatted. -/
theorem go_partial (h : C59.Document W cfg sh ds toks) (hl : cfg.lang = c!"Go") (hp : '\n' ∉ cfg.package) (hf : Go.Free ds) :
    ∃ source, Go.Distinct source ∧
    (∀ text, W.gofmt source = some text → ∃ t sh', Parse W cfg sh = .ok t sh' ∧
      sh'.outputs = sh.outputs ++ [(C24.documentedPath cfg c!".go", text)]) ∧
    (W.gofmt source = none → ∃ sh', Parse W cfg sh = .err .gofmt sh') := by
  obtain ⟨t, h2, h3, h4, h5⟩ := C71.go_source h hl
  rw [hl] at h2
  exact ⟨goSource cfg.package t, Go.file _ hp h3 (Go.free_apart hf h2), fun text ht => ⟨t, h4 text ht⟩, h5⟩

/-- C74, C. -/
theorem c_partial (h : C59.Document W cfg sh ds toks) (hl : cfg.lang = c!"C") (hf : Free [] ds) : ∃ t sh' text, Parse W cfg sh = .ok t sh' ∧
    sh'.outputs = sh.outputs ++ [(C24.documentedPath cfg c!".h", text)] ∧ C.Distinct text := by
  obtain ⟨t, sh', h1, h2, h3, h4⟩ := h.tree
  obtain ⟨sh'', h5, h6⟩ := h.write (t := t) (sh' := sh') (ext := c!".h") (text := cSource t) (by
    rw [generate, hl, C24.title_lang (by decide)]; rfl)
  exact ⟨t, sh'', _, h4.trans h5, by rw [h6, h1], C.file h3 (free_apart (.inl rfl) hf h2)⟩

/-- C74, Java. -/
theorem java_partial (h : C59.Document W cfg sh ds toks) (hl : cfg.lang = c!"Java") (hp : '\n' ∉ cfg.package) (hf : Free [c!"value"] ds) :
    ∃ t sh' text, Parse W cfg sh = .ok t sh' ∧ sh'.outputs = sh.outputs ++ [(C24.documentedPath cfg c!".java", text)] ∧ Java.Distinct text := by
  obtain ⟨t, sh', h1, h2, h3, h4⟩ := h.tree
  obtain ⟨sh'', h5, h6⟩ := h.write (t := t) (sh' := sh') (ext := c!".java") (text := javaSource cfg.package t) (by
    rw [generate, hl, C24.title_lang (by decide)]; rfl)
  exact ⟨t, sh'', _, h4.trans h5, by rw [h6, h1], Java.file _ hp h3 (free_apart (.inr (by decide)) hf h2)⟩

/-- C74, Rust. -/
theorem rust_partial (h : C59.Document W cfg sh ds toks) (hl : cfg.lang = c!"Rust") (hf : Rust.Free ds) : ∃ t sh' text, Parse W cfg sh = .ok t sh' ∧
    sh'.outputs = sh.outputs ++ [(C24.documentedPath cfg c!".rs", text)] ∧ Rust.Distinct text := by
  obtain ⟨t, sh', h1, h2, h3, h4⟩ := h.tree
  obtain ⟨sh'', h5, h6⟩ := h.write (t := t) (sh' := sh') (ext := c!".rs") (text := rustSource t) (by
    rw [generate, hl, C24.title_lang (by decide)]; rfl)
  rw [hl] at h2
  exact ⟨t, sh'', _, h4.trans h5, by rw [h6, h1], Rust.file h3 (Rust.free_apart hf h2)⟩

/-- C74, TypeScript.  (Missing: enumeration values that cannot be read, see C49.) -/
theorem ts_partial (h : C59.Document W cfg sh ds toks) (hv : C59.ValuesOk toks) (hl : cfg.lang = c!"TypeScript") (hf : Free [c!"value"] ds) :
    ∃ t sh' text, Parse W cfg sh = .ok t sh' ∧ sh'.outputs = sh.outputs ++ [(C24.documentedPath cfg c!".ts", text)] ∧ TS.Distinct text := by
  obtain ⟨t, sh', h1, h2, h3, h4⟩ := h.tree
  have he : ∀ n ∈ Xgen.Decl.nodes t, C59.EnumOk n := C59.document_enums h hv h2
  obtain ⟨sh'', h5, h6⟩ := h.write (t := t) (sh' := sh') (ext := c!".ts") (text := tsSource t) (by
    rw [generate, hl, C24.title_lang (by decide)]; rfl)
  exact ⟨t, sh'', _, h4.trans h5, by rw [h6, h1],
    TS.file_partial h3 (fun n hn => (he n hn).1) (.of_none fun n hn => (he n hn).2) (free_apart (.inr (by decide)) hf h2)⟩

end

instance (suffix : Str) (x : Bool × List (Str × Use)) : Decidable (Clear suffix x) :=
  decidable_of_iff ((∀ m ∈ x.2, key m.1 ≠ []) ∧ (∀ m ∈ x.2, ∀ m' ∈ x.2, keyOf suffix m = keyOf suffix m' → m = m') ∧
      ((x.2.filter fun m => !x.1 || m.2.once).map (keyOf suffix)).Nodup)
    ⟨fun h => ⟨h.1, h.2.1, h.2.2⟩, fun h => ⟨h.named, h.same, h.once⟩⟩

instance (suffix : Str) (ds : List Decl) : Decidable (ClearAll suffix ds) := by unfold ClearAll; infer_instance

end

/-! ## Examples -/

open C70 (a)

/-- A type with a base type, repeated elements, an attribute and a nested type with members of the same names. -/
def purchase : Decl := .complex (a [("name", "purchase")]) (.ext (a [("base", "item")])
  (.choice [] (.elem (a [("name", "one"), ("type", "xs:int")]) (.elem (a [("name", "last-one"), ("type", "T")]) .nil))
  (.choice [] (.elem (a [("name", "last-one"), ("type", "T")]) (.elem (a [("name", "one"), ("type", "xs:int")]) .nil))
  (.anon (a [("name", "total")]) [] (.elem (a [("name", "one"), ("type", "T")]) .nil)
  (.attribute (a [("name", "number"), ("type", "xs:int")]) .nil)))) .nil)

/-- A schema with everything. -/
def schema : List Decl := C71.thing "item" :: purchase :: C71.schema

theorem go_free : @Go.Free asciiUni schema := @Go.Free.mk asciiUni _ (by decide +kernel) (by decide +kernel) (by decide +kernel)
theorem free (reserved : List Str) (h : reserved = [] ∨ reserved = [c!"value"]) : @Free asciiUni reserved schema := by
  rcases h with rfl | rfl <;> exact @Free.mk asciiUni _ _ (by decide +kernel) (by decide +kernel)
theorem rust_free : @Rust.Free asciiUni schema := @Rust.Free.mk asciiUni _ (by decide +kernel) (by decide +kernel) (by decide +kernel) (by decide +kernel)

theorem document (lang : Str) (h : lang ∈ C24.extensions.map (·.1)) :
    @C59.Document asciiUni (Ex.world [("a.xsd", schemaTokens C40.root schema)]) (C59.doc lang) {} schema (schemaTokens C40.root schema) := by
  have hr : Regular (typeRef lang false) [] schema := by
    simp only [C24.extensions, List.map_cons, List.map_nil, List.mem_cons, List.not_mem_nil, or_false] at h
    rcases h with rfl | rfl | rfl | rfl | rfl <;> decide +kernel
  exact @C59.Document.mk asciiUni _ _ _ _ _ rfl (by decide +kernel) ⟨C40.root, by decide +kernel⟩ (by decide +kernel)
      (.inr ⟨rfl, rfl, by decide, rfl⟩) hr rfl rfl fun _ => rfl

/-- The members of `purchase`. -/
example : ((C58.Go.declsOf (C71.file c!"Go" schema)).getD 2 default).2.map Go.fieldName =
    [c!"XMLName", c!"NumberAttr", c!"One", c!"Lastone", c!"Total", c!"Item"] := by decide +kernel
example : ((C58.Rust.declsOf (C71.file c!"Rust" schema)).getD 2 default).2.map (·.name) =
    [c!"number", c!"one", c!"lastone", c!"total", c!"item"] := by decide +kernel

/-! ## Names that are not clear -/

/-- A complex type with contents. -/
def type (b : Content) : List Decl := [.complex (a [("name", "T")]) b]
/-- An element. -/
def el (n : String) (k : Content := .nil) : Content := .elem (a [("name", n), ("type", "xs:int")]) k
/-- An attribute. -/
def at' (n : String) (k : Content := .nil) : Content := .attribute (a [("name", n), ("type", "xs:int")]) k

/-- The documents are regular. -/
def Usual (ds : List Decl) : Prop := ∀ lang ∈ C24.extensions.map (·.1), Regular (typeRef lang false) [] ds

instance (ds : List Decl) : Decidable (Usual ds) := by unfold Usual; infer_instance

/-- Names that only differ in case: one name in all languages. -/
theorem case_collides : let ds := type (el "item" (el "Item"))
    Usual ds ∧ ¬ Go.Distinct (C71.file c!"Go" ds) ∧ ¬ C.Distinct (C71.file c!"C" ds) ∧ ¬ Java.Distinct (C71.file c!"Java" ds) ∧
    ¬ Rust.Distinct (C71.file c!"Rust" ds) ∧ (C58.TS.declsOf (C71.file c!"TypeScript" ds)).map (·.2) =
      [.class [⟨c!"Item", c!"number"⟩, ⟨c!"Item", c!"number"⟩]] := by
  unfold Go.Distinct C.Distinct Java.Distinct Rust.Distinct
  decide +kernel

/-- Names that only differ in punctuation. -/
theorem punctuation_collides : let ds := type (el "first-name" (el "firstname"))
    Usual ds ∧ ¬ Go.Distinct (C71.file c!"Go" ds) ∧ ¬ C.Distinct (C71.file c!"C" ds) ∧ ¬ Java.Distinct (C71.file c!"Java" ds) ∧
    ¬ Rust.Distinct (C71.file c!"Rust" ds) := by
  unfold Go.Distinct C.Distinct Java.Distinct Rust.Distinct
  decide +kernel

/-- An element that looks like an attribute. -/
theorem attr_collides : let ds := type (el "idAttr" (at' "id"))
    Usual ds ∧ ¬ Go.Distinct (C71.file c!"Go" ds) ∧ ¬ C.Distinct (C71.file c!"C" ds) ∧ ¬ Java.Distinct (C71.file c!"Java" ds) := by
  unfold Go.Distinct C.Distinct Java.Distinct
  decide +kernel

/-- Groups do not merge repeated elements. -/
theorem group_collides : let ds := [.group (a [("name", "G")]) (.choice [] (el "x") (.choice [] (el "x") .nil))]
    Usual ds ∧ ¬ Go.Distinct (C71.file c!"Go" ds) ∧ ¬ C.Distinct (C71.file c!"C" ds) ∧ ¬ Java.Distinct (C71.file c!"Java" ds) ∧
    ¬ Rust.Distinct (C71.file c!"Rust" ds) := by
  unfold Go.Distinct C.Distinct Java.Distinct Rust.Distinct
  decide +kernel

/-- A member named like the base type. -/
theorem base_collides : let ds := C71.thing "item" :: type (.ext (a [("base", "item")]) (el "item") .nil)
    Usual ds ∧ ¬ Go.Distinct (C71.file c!"Go" ds) ∧ ¬ Rust.Distinct (C71.file c!"Rust" ds) := by
  unfold Go.Distinct Rust.Distinct
  decide +kernel

/-- Rust: an attribute `value` of a simple content; an element and an attribute of the same name; a keyword. -/
theorem rust_collides :
    let text := type (.ext (a [("base", "xs:string")]) (at' "value") .nil)
    let both := type (el "id" (at' "id"))
    let keyword := type (el "type" (el "typeAttr"))
    (Usual text ∧ ¬ Rust.Distinct (C71.file c!"Rust" text) ∧ Go.Distinct (C71.file c!"Go" text)) ∧
    (Usual both ∧ ¬ Rust.Distinct (C71.file c!"Rust" both) ∧ Go.Distinct (C71.file c!"Go" both)) ∧
    (Usual keyword ∧ ¬ Rust.Distinct (C71.file c!"Rust" keyword) ∧ Go.Distinct (C71.file c!"Go" keyword)) := by
  unfold Rust.Distinct Go.Distinct
  decide +kernel

end Xgen.C74
