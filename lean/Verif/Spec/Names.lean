import Verif.Lemmas.Char
import Verif.Lemmas.Str
import Verif.Spec.Local
import Verif.Props.C04
import Verif.Props.C07
import Verif.Model.GenGo
import Verif.Model.GenC
import Verif.Model.GenJava
import Verif.Model.GenRust
import Verif.Model.GenTS

/-! # Target names and target types, written independently of the generators

A target name is read off the schema name in one pass from left to right. -/

namespace Xgen.Names
variable [Uni]

/-- One pass over a name: separators go away, the rune after a separator (and the first one, if `start`) is capitalised,
deleted runes go away (but count as the first rune of their word). -/
def camel (sep del : Char → Bool) : Bool → Str → Str
  | _, [] => []
  | start, c :: s =>
    if sep c then camel sep del true s
    else if del c then camel sep del false s
    else (if start then Uni.upper c else c) :: camel sep del false s

/-- The separators of names. -/
def colonDot (c : Char) : Bool := c = ':' || c = '.'
/-- The separator of types. -/
def dot (c : Char) : Bool := c = '.'
/-- Deleted runes. -/
def hyphen (c : Char) : Bool := c = '-'
/-- Deleted runes. -/
def hyphenUnderscore (c : Char) : Bool := c = '-' || c = '_'
/-- Capitalise the first rune. -/
def cap : Str → Str
  | [] => []
  | c :: s => Uni.upper c :: s

/-- Snake case in one pass: an underscore goes before an ASCII capital that follows a small letter or a digit, or that
follows a capital and precedes a small letter; hyphens become underscores; all is put in lower case. -/
def snake : Option Char → Str → Str
  | _, [] => []
  | prev, c :: s =>
    let isUp (x : Char) := 'A' ≤ x && x ≤ 'Z'
    let isLow (x : Char) := 'a' ≤ x && x ≤ 'z'
    let isDig (x : Char) := '0' ≤ x && x ≤ '9'
    let cut := isUp c && (prev.any (fun p => isLow p || isDig p) || (prev.any isUp && s.head?.any isLow))
    (if cut then ['_'] else []) ++ (if c = '-' then '_' else Uni.lower c) :: snake (some c) s

/-- Names of declarations and members in C, Java and TypeScript. -/
def plain (s : Str) : Str := camel colonDot hyphen true s
/-- Names of declarations and members in Go, of declarations in Rust. -/
def strict (s : Str) : Str := camel colonDot hyphenUnderscore true s
/-- Names of members in Rust. -/
def rustMember (keywords : List Str) (s : Str) : Str :=
  let w := snake none (plain s)
  if w ∈ keywords then w ++ c!"_attr" else w

/-- What a type name means in a schema: the type of the first declaration of the local part (C07), or the local part. -/
def meaning (tree : Tree) (s : Str) : Str :=
  match (tree.filterMap C07.declares).find? (fun d => d.1 = localPart s) with
  | some d => d.2
  | none => localPart s

/-- A user type in C and Java. -/
def plainType (neutral : Str) (builtin : List Str) (t : Str) : Str :=
  if t ∈ builtin then t
  else if cap (camel dot hyphen true t) = [] then neutral else cap (camel dot hyphen true t)

/-- A user type in Go: a pointer. -/
def goType (builtin : List Str) (t : Str) : Str :=
  if t ∈ builtin then t
  else match (cap (camel dot hyphen true t)).filter (· ≠ '_') with
    | [] => c!"interface{}"
    | w => '*' :: w

/-- A user type in Rust: the name of its declaration. -/
def rustType (builtin : List Str) (t : Str) : Str :=
  if t ∈ builtin then t else if strict t = [] then c!"char" else strict t

/-- A user type in TypeScript. -/
def tsType (builtin : List Str) (t : Str) (plural : Bool) : Str :=
  if t ∈ builtin then t
  else
    let w := cap (camel dot hyphen true t)
    let w := if w = [] ∨ w = c!"Any" then c!"any" else w
    if plural then c!"Array<" ++ w ++ c!">" else w

/-! ## The generators agree -/

theorem titleParts_camel (sep : Char) (s : Str) : titleParts sep s = camel (· = sep) (fun _ => false) true s := by
  have key : ∀ s : Str, ∃ p ps, splitOn sep s = p :: ps ∧
      camel (· = sep) (fun _ => false) false s = p ++ ps.flatMap makeFirstUpperCase ∧
      camel (· = sep) (fun _ => false) true s = makeFirstUpperCase p ++ ps.flatMap makeFirstUpperCase := by
    intro s
    induction s with
    | nil => exact ⟨[], [], rfl, rfl, rfl⟩
    | cons c s ih =>
      obtain ⟨p, ps, h, h1, h2⟩ := ih
      by_cases hc : c = sep
      · subst hc
        refine ⟨[], p :: ps, by rw [splitOn_cons_sep, h], ?_, ?_⟩ <;>
          simp [camel, h2, makeFirstUpperCase, toTitle]
      · refine ⟨c :: p, ps, by simp [splitOn, hc, h], ?_, ?_⟩ <;>
          simp [camel, hc, h1, makeFirstUpperCase, toTitle]
  obtain ⟨p, ps, h, _, h2⟩ := key s
  rw [titleParts, h, List.flatMap_cons, h2]

theorem cap_eq (s : Str) : makeFirstUpperCase s = cap s := by cases s <;> rfl

variable [UniLaws]

theorem camel_camel (b1 b2 : Bool) (s : Str) :
    camel (· = '.') (fun _ => false) b2 (camel (· = ':') (fun _ => false) b1 s) =
      camel colonDot (fun _ => false) (b1 || b2) s := by
  induction s generalizing b1 b2 with
  | nil => rfl
  | cons c s ih =>
    by_cases h1 : c = ':'
    · subst h1
      simp [camel, colonDot, ih]
    · by_cases h2 : c = '.'
      · subst h2
        have : Uni.upper '.' = '.' := (upper_eq_iff (by decide) (by decide) _).2 rfl
        cases b1 <;> simp [camel, colonDot, ih, this]
      · have hu : Uni.upper c ≠ '.' := fun e => h2 ((upper_eq_iff (by decide) (by decide) _).1 e)
        cases b1 <;> cases b2 <;> simp [camel, colonDot, ih, h1, h2, hu, UniLaws.upper_idem]

theorem baseName_camel (s : Str) : baseName s = camel colonDot (fun _ => false) true s := by
  rw [baseName, titleParts_camel, titleParts_camel, camel_camel]; rfl

omit [UniLaws] in
theorem filter_camel (sep del del' : Char → Bool) (hd : ∀ c, del (Uni.upper c) = del c) (b : Bool) (s : Str) :
    (camel sep del' b s).filter (fun c => !del c) = camel sep (fun c => del' c || del c) b s := by
  induction s generalizing b with
  | nil => rfl
  | cons c s ih =>
    by_cases h1 : sep c
    · simp [camel, h1, ih]
    · by_cases h2 : del' c
      · simp [camel, h1, h2, ih]
      · by_cases h3 : del c
        · cases b <;> simp [camel, h1, h2, h3, hd, ih]
        · cases b <;> simp [camel, h1, h2, h3, hd, ih]

theorem hyphen_upper (c : Char) : hyphen (Uni.upper c) = hyphen c := by
  simp only [hyphen, upper_eq_iff (x := '-') (by decide) (by decide)]

theorem hyphenUnderscore_upper (c : Char) : hyphenUnderscore (Uni.upper c) = hyphenUnderscore c := by
  simp only [hyphenUnderscore, upper_eq_iff (x := '-') (by decide) (by decide),
    upper_eq_iff (x := '_') (by decide) (by decide)]

theorem dropChar_camel (s : Str) : dropChar '-' (camel colonDot (fun _ => false) true s) = plain s := by
  have := filter_camel colonDot hyphen (fun _ => false) hyphen_upper true s
  simp only [Bool.false_or] at this
  rw [plain, ← this, dropChar]
  congr 1; funext c; simp [hyphen]

theorem dropChar_camel' (s : Str) : dropChar '-' (camel (· = '.') (fun _ => false) true s) = camel dot hyphen true s := by
  have := filter_camel dot hyphen (fun _ => false) hyphen_upper true s
  simp only [Bool.false_or] at this
  rw [← this, dropChar]
  congr 1; funext c; simp [hyphen]

/-- Names in C. -/
theorem c_name (s : Str) : cName s = plain s := by rw [cName, baseName_camel, dropChar_camel]
/-- Names in Java. -/
theorem java_name (s : Str) : javaName s = plain s := by rw [javaName, baseName_camel, dropChar_camel]
/-- Names in TypeScript. -/
theorem ts_name (s : Str) : tsName s = plain s := by rw [tsName, baseName_camel, dropChar_camel]

theorem filter_strict (s : Str) : (camel colonDot (fun _ => false) true s).filter (fun c => !hyphenUnderscore c) = strict s := by
  have := filter_camel colonDot hyphenUnderscore (fun _ => false) hyphenUnderscore_upper true s
  simp only [Bool.false_or] at this
  exact this

/-- Names in Go. -/
theorem go_name (s : Str) : goName s = strict s := by
  rw [goName, baseName_camel, ← filter_strict, dropChar, dropChar, List.filter_filter]
  congr 1; funext c; simp [hyphenUnderscore, Bool.and_comm]

/-- Names of declarations in Rust. -/
theorem rust_struct_name (s : Str) : rustStructName s = strict s := by
  rw [rustStructName, baseName_camel, ← filter_strict]
  congr 1; funext c; simp [hyphenUnderscore]

omit [Uni] [UniLaws] in
theorem isAsciiUpper_eq (c : Char) : isAsciiUpper c = ('A' ≤ c && c ≤ 'Z') := by
  rfl

omit [Uni] [UniLaws] in
theorem isAsciiLower_eq (c : Char) : isAsciiLower c = ('a' ≤ c && c ≤ 'z') := by
  rfl

omit [Uni] [UniLaws] in
theorem isAsciiDigit_eq (c : Char) : isAsciiDigit c = ('0' ≤ c && c ≤ '9') := by
  rfl

omit [Uni] [UniLaws] in
theorem upper_excl {c : Char} (h : isAsciiUpper c = true) : isAsciiLower c = false ∧ isAsciiDigit c = false := by
  simp [isAsciiUpper, isAsciiLower, isAsciiDigit] at *; omega

/-- Underscores put before the runes that satisfy `cut`, which sees the rune before, the rune and those after. -/
def ins (cut : Option Char → Char → Str → Bool) : Option Char → Str → Str
  | _, [] => []
  | p, c :: s => (if cut p c s then ['_'] else []) ++ c :: ins cut (some c) s

/-- A capital between a capital and a small letter. -/
def cut1 (p : Option Char) (c : Char) (s : Str) : Bool := isAsciiUpper c && p.any isAsciiUpper && s.head?.any isAsciiLower
/-- A capital after a small letter or digit. -/
def cut2 (p : Option Char) (c : Char) (_ : Str) : Bool := isAsciiUpper c && p.any (fun p => isAsciiLower p || isAsciiDigit p)
/-- Either. -/
def cut (p : Option Char) (c : Char) (s : Str) : Bool := cut2 p c s || cut1 p c s

omit [Uni] [UniLaws] in
theorem ins_head (k : Option Char → Char → Str → Bool) (p q : Option Char) (c : Char) (s : Str) (hp : k p c s = false)
    (hq : k q c s = false) : ins k p (c :: s) = ins k q (c :: s) := by simp [ins, hp, hq]

omit [Uni] [UniLaws] in
theorem snakeFirst_ins1 (s : Str) : snakeFirst s = ins cut1 none s := by
  have key : ∀ p : Option Char, p.any isAsciiUpper = false → ins cut1 p s = snakeFirst s := by
    fun_induction snakeFirst s with
    | case1 a b c rest h ih =>
      intro p hp
      simp only [Bool.and_eq_true] at h
      have hc : isAsciiUpper c = false := by
        cases e : isAsciiUpper c with
        | false => rfl
        | true => rw [(upper_excl e).1] at h; simp at h
      simp [ins, cut1, hp, h.1.1, h.1.2, h.2, hc, ih (some c) (by simpa using hc)]
    | case2 a b c rest h ih =>
      intro p hp
      have hb : cut1 (some a) b (c :: rest) = false := by
        simp only [Bool.and_eq_true, not_and, Bool.not_eq_true] at h
        cases e1 : isAsciiUpper a <;> cases e2 : isAsciiUpper b <;> simp_all [cut1]
      have ha : cut1 p a (b :: c :: rest) = false := by simp [cut1, hp]
      rw [ins, ha, ins_head _ _ none _ _ hb (by simp [cut1]), ih none rfl]
      rfl
    | case3 s h =>
      intro p hp
      match s, h with
      | [], _ => rfl
      | [a], _ => simp [ins, cut1, hp]
      | [a, b], _ => simp [ins, cut1, hp]
      | a :: b :: c :: r, h => exact absurd rfl (h a b c r)
  exact (key none rfl).symm

omit [Uni] [UniLaws] in
theorem snakeAll_ins2 (s : Str) : snakeAll s = ins cut2 none s := by
  have key : ∀ p : Option Char, p.any (fun p => isAsciiLower p || isAsciiDigit p) = false → ins cut2 p s = snakeAll s := by
    fun_induction snakeAll s with
    | case1 a b rest h ih =>
      intro p hp
      rw [Bool.and_eq_true] at h
      have hb : cut2 (some a) b rest = true := by
        simp only [cut2, h.2, Option.any_some, h.1, Bool.and_self]
      have ha : cut2 p a (b :: rest) = false := by rw [cut2, hp, Bool.and_false]
      rw [ins, ha, ins, hb, ih (some b) (by simp [upper_excl h.2])]
      rfl
    | case2 a b rest h ih =>
      intro p hp
      have hb : cut2 (some a) b rest = false := by
        cases e : cut2 (some a) b rest with
        | false => rfl
        | true => simp [cut2] at e; simp [e] at h
      have ha : cut2 p a (b :: rest) = false := by rw [cut2, hp, Bool.and_false]
      rw [ins, ha, ins_head _ _ none _ _ hb (by simp [cut2]), ih none rfl]
      rfl
    | case3 s h =>
      intro p hp
      match s, h with
      | [], _ => rfl
      | [a], _ => rw [ins, cut2, hp]; simp [ins]
      | a :: b :: r, h => exact absurd rfl (h a b r)
  exact (key none rfl).symm

omit [Uni] [UniLaws] in
theorem ins2_ins1 (p : Option Char) (s : Str) : ins cut2 p (ins cut1 p s) = ins cut p s := by
  induction s generalizing p with
  | nil => rfl
  | cons c s ih =>
    cases h1 : cut1 p c s with
    | false =>
      have : cut2 p c (ins cut1 (some c) s) = cut2 p c s := rfl
      simp [ins, h1, ih, cut, this]
    | true =>
      have h2 : cut2 p '_' (c :: ins cut1 (some c) s) = false := by simp [cut2, isAsciiUpper]
      have h3 : cut2 (some '_') c (ins cut1 (some c) s) = false := by simp [cut2, isAsciiLower, isAsciiDigit]
      simp [ins, h1, h2, h3, cut, ih]

theorem snake_ins (p : Option Char) (s : Str) :
    snake p s = (ins cut p s).map (Uni.lower ∘ fun c => if c = '-' then '_' else c) := by
  have hl : Uni.lower '_' = '_' := (lower_eq_iff (by decide) (by decide) _).2 rfl
  induction s generalizing p with
  | nil => rfl
  | cons c s ih =>
    have hc : (('A' ≤ c && c ≤ 'Z') && (p.any (fun p => ('a' ≤ p && p ≤ 'z') || ('0' ≤ p && p ≤ '9')) ||
        (p.any (fun x => 'A' ≤ x && x ≤ 'Z') && s.head?.any (fun x => 'a' ≤ x && x ≤ 'z')))) = cut p c s := by
      simp only [cut, cut1, cut2, ← isAsciiUpper_eq, ← isAsciiLower_eq, ← isAsciiDigit_eq]
      cases isAsciiUpper c <;> rfl
    simp only [snake, hc, ih, ins]
    by_cases h : c = '-'
    · subst h; cases cut p '-' s <;> simp [hl]
    · cases cut p c s <;> simp [hl, h]

/-- Snake case. -/
theorem snake_eq (s : Str) : toSnakeCase s = snake none s := by
  simp only [toSnakeCase, snakeAll_ins2, snakeFirst_ins1, ins2_ins1, List.map_map]
  exact (snake_ins none s).symm

example : @snake asciiUni none c!"XMLHttpRequest2-id" = c!"xml_http_request2_id" := by decide +kernel
example : @toSnakeCase asciiUni c!"XMLHttpRequest2-id" = c!"xml_http_request2_id" := by decide +kernel

/-- Names of members in Rust. -/
theorem rust_member_name (s : Str) : rustFieldName s = rustMember rustKeywords s := by
  rw [rustFieldName, rustMember, baseName_camel, dropChar_camel, snake_eq]
  simp

omit [Uni] [UniLaws] in
/-- The lookup of the generators. -/
theorem meaning_eq (tree : Tree) (s : Str) : resolveIn tree s = meaning tree s := by
  rw [resolveIn, C07.resolves_to_first, meaning, localPart_eq]
  cases (tree.filterMap C07.declares).find? _ <;> rfl

theorem typeWord (t : Str) : makeFirstUpperCase (dropChar '-' (titleParts '.' t)) = cap (camel dot hyphen true t) := by
  rw [titleParts_camel, dropChar_camel', cap_eq]

/-- Types in C. -/
theorem c_type (t : Str) : genCFieldType t = plainType c!"void" cBuildInType t := by
  simp only [genCFieldType, typeWord, plainType, List.contains_iff_mem, ne_eq, ite_not]

/-- Types in Java. -/
theorem java_type (t : Str) : genJavaFieldType t = plainType c!"void" javaBuildInType t := by
  simp only [genJavaFieldType, isBuiltInJavaType, typeWord, plainType, List.contains_iff_mem, ne_eq, ite_not]

/-- Types in Go. -/
theorem go_type (t : Str) : genGoFieldType t = goType goBuildinType t := by
  simp only [genGoFieldType, isGoBuiltInType, typeWord, goType, List.contains_iff_mem, ne_eq, ite_not]
  split
  · rfl
  · rw [dropChar]
    cases (cap (camel dot hyphen true t)).filter (fun c => c ≠ '_') <;> rfl

/-- Types in Rust. -/
theorem rust_type (t : Str) : genRustFieldType t = rustType rustBuildinType t := by
  simp only [genRustFieldType, isRustBuiltInType, rust_struct_name, rustType, List.contains_iff_mem, ne_eq, ite_not]

/-- Types in TypeScript. -/
theorem ts_type (t : Str) (b : Bool) : genTypeScriptFieldType t b = tsType typeScriptBuildInType t b := by
  simp only [genTypeScriptFieldType, isBuiltInTypeScriptType, typeWord, tsType, List.contains_iff_mem, Bool.or_eq_true,
    decide_eq_true_eq]

end Xgen.Names
