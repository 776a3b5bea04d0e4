import Verif.Lemmas.Syntax
import Verif.Props.C96

/-! # Names and references in generated files of C, Java, Rust and TypeScript -/

namespace Xgen.Syntax
open Core C40
open Comments (Lang)
open C13 (nameChar nameRune starts letterly cased)
open Alphabet (national capital)
open C74 (membersOf)
open C80 (Word)
open C58 (isUnion)

/-! ## Names -/

/-- Not a capital. -/
def small (c : Char) : Bool := !(isAsciiUpper c || capital c)

theorem letterly_letter {c : Char} (h : letterly c = true) : letter c = true := by
  simp only [letterly, isAsciiLetter, isAsciiUpper, isAsciiLower, Bool.or_eq_true, Bool.and_eq_true, decide_eq_true_eq] at h
  simp only [letter, Bool.or_eq_true, Bool.and_eq_true, decide_eq_true_eq]
  rcases h with (h | h) | h
  · exact .inl (.inl (.inl h))
  · exact .inl (.inl (.inr h))
  · exact .inr h

theorem letterly_word {c : Char} (h : letterly c = true) : wordChar c = true := by simp [wordChar, letterly_letter h]

section
variable [Uni]

/-- A name that starts with a capital. -/
def Capital (w : Str) : Prop :=
  (∃ c r, w = c :: r ∧ small c = false ∧ starts c = true) ∧ ∀ c ∈ w, wordChar c = true ∧ nameRune c = true

theorem Capital.ident {L : Lang} {w : Str} (h : Capital w) (hs : w ≠ c!"Self") : Ident L w := by
  obtain ⟨⟨c, r, rfl, hc, hc'⟩, h⟩ := h
  refine ⟨⟨c, r, rfl, letterly_letter (C13.starts_letterly hc')⟩, fun c hc => (h c hc).1, fun hk => ?_⟩
  have key : ∀ L, ∀ k ∈ keywords L, k = c!"Self" ∨ k.head?.all small = true := by intro L; cases L <;> decide
  rcases key L _ hk with h | h
  · exact hs h
  · simp [hc] at h

/-- Outside of Rust nothing is to be said about `Self`. -/
theorem Capital.ident' {L : Lang} {w : Str} (h : Capital w) (hL : L ≠ .rust) : Ident L w := by
  by_cases hs : w = c!"Self"
  · subst hs
    cases L
    · decide
    · decide
    · exact absurd rfl hL
    · decide
  · exact h.ident hs

theorem Capital.append {w e : Str} (h : Capital w) (he : ∀ c ∈ e, wordChar c = true ∧ nameChar c = true) : Capital (w ++ e) := by
  obtain ⟨⟨c, r, rfl, hc⟩, h⟩ := h
  refine ⟨⟨c, r ++ e, rfl, hc⟩, fun d hd => ?_⟩
  rcases List.mem_append.1 hd with hd | hd
  · exact h d hd
  · exact ⟨(he d hd).1, by simp [nameRune, (he d hd).2]⟩

end

theorem decimal_char (k : Nat) : ∀ d ∈ decimal k, digit d = true := fun d hd => by
  have := C14.decimal_digits _ d hd
  simp only [Char.isDigit, Bool.and_eq_true, decide_eq_true_eq] at this
  have h1 : 48 ≤ d.toNat := this.1
  have h2 : d.toNat ≤ 57 := this.2
  simp [digit, h1, h2]

theorem Capital.numbered [Uni] {w : Str} (h : Capital w) (k : Nat) : Capital (C14.numbered w k) := by
  unfold C14.numbered
  split
  · exact h
  · exact h.append fun d hd => by
      have hd := decimal_char k d hd
      have h' := hd
      simp only [digit, Bool.and_eq_true, decide_eq_true_eq] at h'
      exact ⟨by simp [wordChar, hd], by simp [nameChar, isAsciiDigit, h']⟩

/-- Numbers do not make `Self`. -/
theorem numbered_self {w : Str} (h : w ≠ c!"Self") (k : Nat) : C14.numbered w k ≠ c!"Self" := by
  unfold C14.numbered
  split
  · exact h
  · intro e
    have hne : decimal k ≠ [] := by
      intro e
      have := Nat.length_toDigits_pos (b := 10) (n := k)
      simp only [decimal] at e
      simp [e] at this
    obtain ⟨d, hd⟩ : ∃ d, (decimal k).getLast? = some d := by
      cases hh : (decimal k).getLast? with
      | none => exact absurd (List.getLast?_eq_none_iff.1 hh) hne
      | some d => exact ⟨d, rfl⟩
    have h1 : (w ++ decimal k).getLast? = some d := by rw [List.getLast?_append, hd]; rfl
    have h2 := decimal_char k d (List.mem_of_getLast? hd)
    rw [e] at h1
    have h3 : d = 'f' := by simpa using h1.symm
    subst h3
    revert h2; decide

section
variable [Uni] [UniLaws]

omit [UniLaws] in
theorem rune_word {c : Char} (h : nameRune c = true) (h1 : c ≠ ':') (h2 : c ≠ '.') (h3 : c ≠ '-') : wordChar c = true := by
  by_cases h4 : c = '_'
  · subst h4; decide
  · have := C13.nameRune_letter h h1 h2 h3 h4
    rcases Bool.or_eq_true_iff.1 this with h | h
    · exact letterly_word h
    · simp only [isAsciiDigit, Bool.and_eq_true, decide_eq_true_eq] at h
      simp [wordChar, digit, h]

theorem upper_word {c : Char} (h : nameRune c = true) : wordChar c = true → wordChar (Uni.upper c) = true := by
  intro hw
  rcases Bool.or_eq_true_iff.1 h with h | h
  · have hasc := C13.nameChar_ascii h
    rw [UniLaws.upper_ascii c hasc]
    have hn := asciiUpper_toNat c
    split at hn
    · rename_i hl
      simp only [isAsciiLower, Bool.and_eq_true, decide_eq_true_eq] at hl
      simp only [wordChar, letter, Bool.or_eq_true, Bool.and_eq_true, decide_eq_true_eq, hn]
      omega
    · rw [char_ext hn]; exact hw
  · simp only [cased, Bool.and_eq_true] at h
    exact letterly_word h.1.1.2

/-- What is left of a name. -/
theorem camel_chars {sep del : Char → Bool} : ∀ {s : Str} (b : Bool), (∀ c ∈ s, nameRune c = true ∧ (sep c = false → del c = false → wordChar c = true)) →
    ∀ c ∈ Names.camel sep del b s, wordChar c = true ∧ nameRune c = true := by
  intro s
  induction s with
  | nil => intro b _ c hc; cases hc
  | cons d s ih =>
    intro b h c hc
    have ih' := fun b => ih b fun c hc => h c (by simp [hc])
    rw [Names.camel] at hc
    split at hc
    · exact ih' _ c hc
    · split at hc
      · exact ih' _ c hc
      · rename_i h1 h2
        rcases List.mem_cons.1 hc with rfl | hc
        · have := h d (by simp)
          have hw := this.2 (by simpa using h1) (by simpa using h2)
          split
          · exact ⟨upper_word this.1 hw, C13.nameRune_upper this.1⟩
          · exact ⟨hw, this.1⟩
        · exact ih' _ c hc

theorem upper_starts {c : Char} (h : starts c = true) : starts (Uni.upper c) = true := by
  have hU := C13.starts_capital h
  rcases Bool.or_eq_true_iff.1 h with h | h
  · rw [UniLaws.upper_ascii c (C13.nameChar_ascii (by simp [nameChar, h])), starts, isAsciiLetter, C13.upper_letter h]; rfl
  · have h1 := C13.cased_upper (Bool.and_eq_true_iff.1 h).1
    rcases Bool.or_eq_true_iff.1 hU with hu | hu
    · simp [starts, isAsciiLetter, hu]
    · have hn := Alphabet.capital_national hu
      rcases Bool.or_eq_true_iff.1 h1 with h1 | h1
      · have h1 := C13.nameChar_ascii h1
        have h2 := (Alphabet.national_range hn).1
        omega
      · simp [starts, h1, UniLaws.upper_idem, hu]

theorem camel_capital {sep del : Char → Bool} {s : Str} (h : Word s) (hs : ∀ c, letterly c = true → sep c = false ∧ del c = false)
    (hw : ∀ c ∈ s, sep c = false → del c = false → wordChar c = true) : Capital (Names.camel sep del true s) := by
  refine ⟨?_, camel_chars true fun c hc => ⟨h.2 c hc, hw c hc⟩⟩
  obtain ⟨⟨c, r, rfl, hc⟩, -⟩ := h
  refine ⟨Uni.upper c, Names.camel sep del false r, ?_, by rw [small, C13.starts_capital hc]; rfl, upper_starts hc⟩
  have hl := C13.starts_letterly hc
  rw [Names.camel, if_neg (by simp [(hs c hl).1]), if_neg (by simp [(hs c hl).2])]
  rfl

theorem plain_capital {s : Str} (h : Word s) : Capital (Names.plain s) := by
  refine camel_capital h (fun c hc => ?_) fun c hc h1 h2 => ?_
  · simp [Names.colonDot, Names.hyphen, C13.letterly_not hc]
  · simp only [Names.colonDot, Names.hyphen, Bool.or_eq_false_iff, decide_eq_false_iff_not] at h1 h2
    exact rune_word (h.2 c hc) h1.1 h1.2 h2

theorem strict_capital {s : Str} (h : Word s) : Capital (Names.strict s) := by
  refine camel_capital h (fun c hc => ?_) fun c hc h1 h2 => ?_
  · simp [Names.colonDot, Names.hyphenUnderscore, C13.letterly_not hc]
  · simp only [Names.colonDot, Names.hyphenUnderscore, Bool.or_eq_false_iff, decide_eq_false_iff_not] at h1 h2
    exact rune_word (h.2 c hc) h1.1 h1.2 h2.1

omit [UniLaws] in
theorem word_nc {s : Str} (h : Word s) (hc : ':' ∉ s) : C53.NCName s := by
  obtain ⟨c, r, e, hl⟩ := h.1
  have hl := C13.letterly_not (C13.starts_letterly hl)
  exact ⟨⟨c, r, e, hl.2.2.1, hl.2.1⟩, hc⟩

/-- The name of a declared type. -/
theorem type_capital {s : Str} (h : Word s) (hc : ':' ∉ s) : Capital (Names.cap (Names.camel Names.dot Names.hyphen true s)) := by
  rw [C53.word_eq (word_nc h hc)]
  exact plain_capital h

omit [UniLaws] in
theorem Capital.word {w : Str} (h : Capital w) : Word w := by
  obtain ⟨⟨c, r, e, -, hc⟩, h⟩ := h
  exact ⟨⟨c, r, e, hc⟩, fun d hd => (h d hd).2⟩

theorem lower_letter {c : Char} (h : isAsciiLetter c = true) : isAsciiLetter (Uni.lower c) = true := by
  rw [UniLaws.lower_ascii c (C13.nameChar_ascii (by simp [nameChar, h]))]
  have hn := asciiLower_toNat c
  simp only [isAsciiLetter, isAsciiUpper, isAsciiLower, Bool.or_eq_true, Bool.and_eq_true, decide_eq_true_eq] at h ⊢
  split at hn
  · rename_i hl
    simp only [isAsciiUpper, Bool.and_eq_true, decide_eq_true_eq] at hl
    omega
  · omega

theorem lower_word {c : Char} (h : wordChar c = true ∧ nameRune c = true) : wordChar (Uni.lower c) = true := by
  rcases Bool.or_eq_true_iff.1 h.2 with h' | h'
  · by_cases hl : isAsciiLetter c = true
    · exact letterly_word (by simp [letterly, lower_letter hl])
    · rw [UniLaws.lower_ascii c (C13.nameChar_ascii h')]
      have hn := asciiLower_toNat c
      rw [if_neg (by simp only [isAsciiLetter, Bool.or_eq_true] at hl; exact fun hu => hl (.inl hu))] at hn
      rw [char_ext hn]; exact h.1
  · simp only [cased, Bool.and_eq_true] at h'
    exact letterly_word h'.1.2

theorem snake_chars : ∀ {s : Str} (p : Option Char), (∀ c ∈ s, wordChar c = true ∧ nameRune c = true) → ∀ c ∈ Names.snake p s, wordChar c = true := by
  intro s
  induction s with
  | nil => intro p _ c hc; cases hc
  | cons d s ih =>
    intro p h c hc
    rw [Names.snake] at hc
    dsimp only at hc
    rcases List.mem_append.1 hc with hc | hc
    · split at hc
      · rw [List.mem_singleton.1 hc]; decide
      · cases hc
    · rcases List.mem_cons.1 hc with rfl | hc
      · split
        · decide
        · exact lower_word (h d (by simp))
      · exact ih _ (fun c hc => h c (by simp [hc])) c hc

/-- The names of members in Rust are no keywords. -/
theorem member_ident {s : Str} (h : Word s) : Ident .rust (Names.rustMember rustKeywords s) := by
  unfold Names.rustMember
  dsimp only
  split
  · rename_i hk
    exact (by decide : ∀ w ∈ rustKeywords, Ident .rust (w ++ c!"_attr")) _ hk
  · rename_i hk
    obtain ⟨⟨c, r, e, -, hc⟩, h⟩ := plain_capital h
    have hlow : letterly (Uni.lower c) = true := by
      rcases Bool.or_eq_true_iff.1 hc with hc | hc
      · simp [letterly, lower_letter hc]
      · simp only [cased, Bool.and_eq_true] at hc
        exact hc.1.1.2
    have hcm := (C13.letterly_not (C13.starts_letterly hc)).2.2.1
    have hs : Names.snake none (Names.plain s) = Uni.lower c :: Names.snake (some c) r := by
      rw [e, Names.snake]
      dsimp only
      rw [if_neg (by simp), if_neg hcm]
      rfl
    refine ⟨⟨_, _, hs, letterly_letter hlow⟩, snake_chars none h, fun hk' => ?_⟩
    · rcases (by decide : ∀ w ∈ keywords .rust, w = c!"_" ∨ w ∈ rustKeywords) _ hk' with h | h
      · rw [hs] at h
        injection h with h
        rw [h] at hlow
        revert hlow; decide
      · exact hk h

end

/-- Names of ASCII. -/
theorem ascii_word [Uni] {s : Str} (h : (s.head?.any isAsciiLetter && s.all nameChar) = true) : Word s := by
  cases s with
  | nil => cases h
  | cons c r =>
    simp only [List.head?_cons, Option.any_some, Bool.and_eq_true, List.all_eq_true] at h
    exact ⟨⟨c, r, rfl, by simp [starts, h.1]⟩, fun d hd => by simp [nameRune, h.2 d hd]⟩

/-- Names are harmless in strings. -/
theorem word_inside [Uni] {q : Char} (hq : q = '"' ∨ q = '\'') {s : Str} (h : Word s) : Inside q s := fun c hc => by
  rcases Bool.or_eq_true_iff.1 (h.2 c hc) with this | this
  · refine ⟨?_, fun hm => ?_⟩
    · rintro rfl
      rcases hq with rfl | rfl <;> revert this <;> decide
    · have : ∀ c ∈ ['\\', '\n', '\r', '\u2028', '\u2029'], nameChar c = false := by decide
      rw [this c hm] at *
      contradiction
  · simp only [cased, Bool.and_eq_true] at this
    have hr := Alphabet.national_range this.1.1.1
    refine ⟨?_, fun hm => ?_⟩
    · rintro rfl
      rcases hq with rfl | rfl <;> exact absurd hr.1 (by decide)
    · have : ∀ c ∈ ['\\', '\n', '\r', '\u2028', '\u2029'], c.toNat < 0xC0 ∨ c.toNat = 0x2028 ∨ c.toNat = 0x2029 := by decide
      have := this c hm
      omega

/-! ## References -/

section
variable [Uni]

/-- What the references in a component stand for, extended types among them. -/
def references (t : Tree) : Node Element → List Str
  | .complex v => C96.references t (.complex { v with base := [] }) ++ if v.base = [] then [] else [Names.meaning t v.base]
  | n => C96.references t n

/-- Names that start with a letter that has a capital and go on with letters, ASCII digits, `:`, `.`, `-` and `_`; documentation of a kind. -/
structure Worded (D : Str → Prop) (t : Tree) : Prop where
  names : ∀ n ∈ Decl.nodes t, Word (Decl.nodeName n)
  members : ∀ n ∈ Decl.nodes t, ∀ m ∈ membersOf n, Word m.1
  docs : ∀ n ∈ Decl.nodes t, D (C96.docOf n)

theorem references_ok {lang : Str} {t : Tree} (hl : C71.Linked lang t) : ∀ n ∈ Decl.nodes t, ∀ s ∈ references t n,
    C71.Ok lang (C71.typeNames t) s := by
  intro n h s hs
  have hM := C71.means hl
  have h0 := hl n h
  cases n with
  | simple v =>
    simp only [references, C96.references] at hs
    split at hs
    · obtain ⟨m, h1, rfl⟩ := List.mem_map.1 hs
      exact C71.member_ok (h0.2.2 m h1)
    · rw [List.mem_singleton.1 hs]
      exact (hM _ (.inl h0.2.1)).1
  | attr v => rw [List.mem_singleton.1 hs]; exact (hM _ (.inl h0.2)).1
  | elem v => rw [List.mem_singleton.1 hs]; exact (hM _ (.inl h0.2)).1
  | complex v =>
    simp only [references, C96.references, List.mem_append, List.mem_map, if_true, List.not_mem_nil, or_false] at hs
    rcases hs with (((⟨x, h1, rfl⟩ | ⟨x, h1, rfl⟩) | ⟨x, h1, rfl⟩) | ⟨x, h1, rfl⟩) | hs
    · exact (hM _ (.inl (h0.2.2.2.2 x h1))).1
    · exact (hM _ (h0.2.2.1 x h1)).1
    · exact (hM _ (.inl (h0.2.2.2.1 x h1))).1
    · exact (hM _ (h0.2.1 x h1)).1
    · split at hs
      · cases hs
      · rw [List.mem_singleton.1 hs]; exact (hM _ (.inl h0.1)).1
  | group v =>
    simp only [references, C96.references, List.mem_append, List.mem_map] at hs
    rcases hs with ⟨x, h1, rfl⟩ | ⟨x, h1, rfl⟩
    · exact (hM _ (h0.1 x h1)).1
    · exact (hM _ (.inl (h0.2 x h1))).1
  | attrGroup v =>
    obtain ⟨x, h1, rfl⟩ := List.mem_map.1 hs
    exact (hM _ (h0 x h1)).1

variable [UniLaws]

/-- Schemas without dangling references the names in which start with a letter that has a capital and go on with letters, ASCII
digits, `.`, `-` and `_`. -/
structure Plain (lang : Str) (ds : List Core.Decl) : Prop where
  bound : C71.Bound lang ds
  names : ∀ d ∈ ds, ∀ s ∈ C73.namesOf d, Word s
  members : ∀ d ∈ ds, ∀ x ∈ C74.parts d, ∀ m ∈ x.2, Word m.1

/-- The tree of a document. -/
theorem document_tree {W : World} {cfg : Cfg} {sh : Shared} {ds : List Core.Decl} {toks : List Token} (h : C59.Document W cfg sh ds toks)
    {lang : Str} (hl : cfg.lang = lang) (hs : Plain lang ds) {D : Str → Prop} (h0 : D [])
    (hd : ∀ x, Token.text x ∈ toks → D (trimSpace x)) :
    ∃ t sh', sh'.outputs = sh.outputs ∧ C57.bare t = C57.bare (treeOf (typeRef lang false) [] ds) ∧ Worded D t ∧ C71.Linked lang t ∧
    Parse W cfg sh = Xgen.finish W cfg t sh' := by
  obtain ⟨t, sh', h0', h1, h2, h3⟩ := C96.document_tree h
  have hlink := C71.Document.linked h hl hs.bound h1
  rw [hl] at h1
  refine ⟨t, sh', h0', h1, ⟨fun n hn => ?_, fun n hn m hm => ?_, fun n hn => C96.doc_of (h2 D h0 hd) hn⟩, hlink, h3⟩
  · obtain ⟨d, hd, h1⟩ := C73.names_alike h1 n hn
    exact hs.names d hd _ h1
  · obtain ⟨n', hn', e, -⟩ := C74.alike h1 hn
    rw [e] at hm
    rcases C74.tree_said _ ds [] n' hn' with h' | h'
    · cases h'
    · obtain ⟨d, hd, x, hx, hm'⟩ := h' m hm
      obtain ⟨u, hu, e⟩ := List.mem_map.1 hm'
      rw [← e]; exact hs.members d hd x hx u hu

end

/-- Documentation does not matter for references. -/
theorem references_bare [Uni] (t : Tree) (n : Node Element) : references t (C57.noDocNode C31.noDocE n) = references t n := by
  cases n <;> simp [references, C96.references, C57.noDocNode, C31.noDocE, C31.noDocS, C31.noDocA, C31.noDocC, C31.noDocG, C31.noDocAG, Function.comp_def,
    isUnion]

/-- A component of a documented tree, and one of the tree without documentation, with the same references. -/
theorem references_alike [Uni] {t t' : Tree} (h : C57.bare t = C57.bare t') {n : Node Element} (hn : n ∈ Decl.nodes t) :
    ∃ m ∈ Decl.nodes t', references t n = references t' m ∧ C57.noDocNode C31.noDocE n = C57.noDocNode C31.noDocE m := by
  have h1 : C57.noDocNode C31.noDocE n ∈ Decl.nodes (C57.bare t) := by rw [C59.nodes_bare]; exact List.mem_map_of_mem hn
  rw [h, C59.nodes_bare] at h1
  obtain ⟨m, hm, e⟩ := List.mem_map.1 h1
  have em : Names.meaning t = Names.meaning t' := by rw [← C59.meaning_bare t, h, C59.meaning_bare]
  have key : ∀ n, references t n = references t' n := by
    intro n
    have eu : C55.memberMeaning t = C55.memberMeaning t' := by rw [← C59.memberMeaning_bare t, h, C59.memberMeaning_bare]
    cases n <;> simp only [references, C96.references, em, eu]
  exact ⟨m, hm, by rw [← references_bare t n, ← e, references_bare, key], e.symm⟩

/-- The numbered names. -/
theorem finals_all {P : Str → Prop} {base : Node Element → Str} {numbered : Node Element → Bool} : ∀ {ns : List (Node Element)} (used : List Str),
    (∀ n ∈ ns, P (base n) ∧ (numbered n = true → ∀ k, P (C14.numbered (base n) k))) → ∀ w ∈ C56.finals base numbered used ns, P w := by
  intro ns
  induction ns with
  | nil => intro used _ w hw; cases hw
  | cons n ns ih =>
    intro used h w hw
    have hb := h n (by simp)
    rw [C56.finals] at hw
    split at hw
    · rename_i hn
      rcases List.mem_cons.1 hw with rfl | hw
      · exact hb.2 hn _
      · exact ih _ (fun m hm => h m (by simp [hm])) w hw
    · rcases List.mem_cons.1 hw with rfl | hw
      · exact hb.1
      · exact ih _ (fun m hm => h m (by simp [hm])) w hw

end Xgen.Syntax
