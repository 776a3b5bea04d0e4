import Verif.Lemmas.Bytes
import Verif.Props.C82
import Verif.Model.Cli

/-! # C91: the encoding of a file

A schema is stored as bytes.  The same text, stored in UTF-8 or, behind a declaration that says so, in another encoding that
`charset.NewReaderLabel` knows, gives the same tokens, and so the same generated files.  Any bytes at all give tokens that nest.
Files in UTF-16, and files with a label that is not known, are read as if they were empty, and reported as success. -/

namespace Xgen.C91

open Xgen.Xml Xgen.Text Xgen.Bytes

/-! ## Specification -/

/-- The bytes of a text in UTF-8, as Lean has them. -/
def InUtf8 (bs : List Byte) (s : Str) : Prop := bs.map (·.val) = (s.flatMap String.utf8EncodeChar).map (·.toNat)

/-- The bytes of a text in ISO-8859-1: the code points. -/
def InLatin1 (bs : List Byte) (s : Str) : Prop := bs.map (·.val) = s.map Char.toNat

/-- An XML declaration that names an encoding. -/
structure Decl where
  quote : Char := '"'
  space : Str := c!" "
  quote' : Char := '"'
  label : Str
  rest : Str := []

/-- The text of a declaration. -/
def Decl.written (d : Decl) : Str :=
  c!"<?xml version=" ++ d.quote :: c!"1.0" ++ d.quote :: d.space ++ c!"encoding=" ++ d.quote' :: d.label ++ d.quote' :: d.rest ++ c!"?>"

/-- Quotes and spaces are as they should be. -/
structure Decl.Ok (d : Decl) : Prop where
  quote : d.quote = '"' ∨ d.quote = '\''
  quote' : d.quote' = '"' ∨ d.quote' = '\''
  space : Blank d.space
  label : d.label ≠ [] ∧ d.quote' ∉ d.label ∧ '?' ∉ d.label ∧ '<' ∉ d.label
  rest : '?' ∉ d.rest ∧ '<' ∉ d.rest

/-- No XML declaration occurs. -/
def Bare (s : Str) : Prop := ¬ c!"<?xml" <:+: s

/-- The label of UTF-8, in capital or small letters. -/
def Utf8Label (l : Str) : Prop :=
  ∃ u t f, l = [u, t, f, '-', '8'] ∧ (u = 'u' ∨ u = 'U') ∧ (t = 't' ∨ t = 'T') ∧ (f = 'f' ∨ f = 'F')

/-- Labels of ISO-8859-1 and US-ASCII. -/
def latinLabels : List Str :=
  [c!"ISO-8859-1", c!"iso-8859-1", c!"ISO_8859-1", c!"latin1", c!"Latin1", c!"US-ASCII", c!"us-ascii", c!"ASCII", c!"windows-1252", c!"Windows-1252"]

/-- A text without the control characters that windows-1252 replaces. -/
def Latin1 (s : Str) : Prop := ∀ c ∈ s, c.toNat < 0x80 ∨ 0xA0 ≤ c.toNat ∧ c.toNat < 0x100

/-! ## UTF-8 -/

theorem utf8_eq (c : Char) : (utf8 c).map (·.val) = (String.utf8EncodeChar c).map (·.toNat) := by
  have hv := char_lt c
  unfold utf8 String.utf8EncodeChar
  have hc : c.val.toNat = c.toNat := rfl
  simp only [hc]
  generalize c.toNat = n at hv
  by_cases h1 : n < 0x80
  · rw [if_pos h1, if_pos (show n ≤ 127 by omega)]
    simp [byte_val (show n < 256 by omega)]
    omega
  · rw [if_neg h1, if_neg (show ¬ n ≤ 127 by omega)]
    by_cases h2 : n < 0x800
    · rw [if_pos h2, if_pos (show n ≤ 2047 by omega)]
      simp [byte, Fin.ofNat]
      omega
    · rw [if_neg h2, if_neg (show ¬ n ≤ 2047 by omega)]
      by_cases h3 : n < 0x10000
      · rw [if_pos h3, if_pos (show n ≤ 65535 by omega)]
        simp [byte, Fin.ofNat]
        omega
      · rw [if_neg h3, if_neg (show ¬ n ≤ 65535 by omega)]
        simp [byte, Fin.ofNat]
        omega

theorem encode_val (s : Str) : (encode s).map (·.val) = (s.flatMap String.utf8EncodeChar).map (·.toNat) := by
  unfold encode
  induction s with
  | nil => rfl
  | cons c s ih => rw [List.flatMap_cons, List.flatMap_cons, List.map_append, List.map_append, ih, utf8_eq]

theorem inUtf8 {bs : List Byte} {s : Str} (h : InUtf8 bs s) : bs = encode s := by
  rw [InUtf8, ← encode_val] at h
  exact List.map_inj_right (fun a b h => Fin.ext h) |>.1 h

/-- C91: bytes are taken for characters exactly when they are the UTF-8 of these: every text is read from its own encoding, and
bytes that are read without an invalid one among them are the encoding of what is read, and of no other text. -/
theorem utf8_exact (bs : List Byte) (s : Str) : InUtf8 bs s ∧ bad ∉ s ↔ Bytes.chars bs = s ∧ bad ∉ Bytes.chars bs := by
  constructor
  · rintro ⟨h, hb⟩
    rw [inUtf8 h, chars_utf8]
    exact ⟨rfl, hb⟩
  · rintro ⟨rfl, hb⟩
    refine ⟨?_, hb⟩
    have := encode_val (Bytes.chars bs)
    rwa [encode_chars bs hb] at this

/-- An overlong slash, half of a surrogate pair, and a character beyond the last are invalid bytes. -/
example : Bytes.chars [byte 0xC0, byte 0xAF] = [bad, bad] ∧ Bytes.chars [byte 0xED, byte 0xA0, byte 0x80] = [bad, bad, bad] ∧
    Bytes.chars [byte 0xF4, byte 0x90, byte 0x80, byte 0x80] = [bad, bad, bad, bad] ∧
    Bytes.chars [byte 0xE2, byte 0x82, byte 0xAC] = c!"€" := by decide

/-! ## Steps -/

section
variable [NameChars] [Charsets]

theorem token_utf8 (s : Str) (d : Dec) (h : declared s = none) :
    Bytes.token ⟨encode s, d⟩ = (Xml.token { d with rest := s }).map fun x => (x.1, ⟨encode x.2.rest, x.2⟩) := by
  unfold Bytes.token
  simp only [chars_utf8]
  cases ht : Xml.token { d with rest := s } with
  | none => rfl
  | some x =>
    obtain ⟨t, e⟩ := x
    simp only [h, ite_self, Option.map_some]
    obtain ⟨p, hp⟩ := token_suffix ht
    have hp : p ++ e.rest = s := hp
    have h1 : s.length - e.rest.length = p.length := by rw [← hp]; simp
    have h2 : behind (s.length - e.rest.length) (encode s) = encode e.rest := by
      rw [h1, ← hp, encode_append, behind_encode]
    rw [h2]

theorem tokens_utf8 (n : Nat) : ∀ (s : Str) (d : Dec), (∀ u, u <:+ s → declared u = none) →
    Bytes.tokens n ⟨encode s, d⟩ = Xml.tokens n { d with rest := s } := by
  induction n with
  | zero => intros; rfl
  | succ n ih =>
    intro s d h
    unfold Bytes.tokens Xml.tokens
    rw [token_utf8 s d (h s (List.suffix_refl s))]
    cases ht : Xml.token { d with rest := s } with
    | none => rfl
    | some x =>
      obtain ⟨t, e⟩ := x
      simp only [Option.map_some]
      rw [ih e.rest e fun u hu => h u (hu.trans (token_suffix ht))]

omit [Charsets] in
/-- A declaration begins with its name. -/
theorem declared_prefix {s : Str} (h : declared s ≠ none) : c!"<?xml" <+: s := by
  unfold declared at h
  split at h
  · next r =>
    split at h
    · exact absurd rfl h
    · next t r' e =>
      split at h
      · next ht =>
        subst ht
        unfold name at e
        split at e
        · cases e
        · next n r2 e2 =>
          split at e
          · cases e
            have := (readName_inv e2).1
            exact ⟨r', by rw [this]; rfl⟩
          · cases e
      · exact absurd rfl h
  · exact absurd rfl h

omit [Charsets] in
theorem bare_declared {s : Str} (h : Bare s) : ∀ u, u <:+ s → declared u = none := by
  intro u hu
  cases hd : declared u with
  | none => rfl
  | some l => exact absurd ((declared_prefix (by rw [hd]; simp)).isInfix.trans hu.isInfix) h

/-- C91: a file in UTF-8 without an XML declaration is read as its text. -/
theorem utf8_bare {bs : List Byte} {s : Str} (h : InUtf8 bs s) (hb : Bare s) : Delivers bs (decode s) := by
  rw [inUtf8 h]
  refine ⟨2 * s.length + 1, fun m hm => ?_⟩
  rw [tokens_utf8 m s _ (bare_declared hb)]
  exact C81.decode_enough s (by omega)

/-! ## Declarations -/

omit [Charsets]

/-- What stands between the name of a declaration and its end. -/
def Decl.data (d : Decl) : Str := c!"version=" ++ d.quote :: c!"1.0" ++ d.quote :: d.space ++ c!"encoding=" ++ d.quote' :: d.label ++ d.quote' :: d.rest

omit [NameChars] in
theorem written_data (d : Decl) (r : Str) : d.written ++ r = '<' :: '?' :: (c!"xml" ++ (' ' :: (d.data ++ '?' :: '>' :: r))) := by
  simp [Decl.written, Decl.data]

omit [NameChars] in
theorem param_skip {p s r : Str} (hp : ∀ c ∈ p.head?, c ∉ s) (hne : p ≠ []) : param p (s ++ r) = param p r := by
  induction s with
  | nil => rfl
  | cons c s ih =>
    cases p with
    | nil => exact absurd rfl hne
    | cons x p =>
      have h1 : x ∉ c :: s := hp x rfl
      simp only [List.mem_cons, not_or] at h1
      conv => lhs; rw [List.cons_append]; unfold param
      have h2 : hasPrefix (c :: (s ++ r)) (x :: p ++ c!"=") = false := by
        simp only [List.cons_append, hasPrefix, Bool.and_eq_false_iff, beq_eq_false_iff_ne]
        exact .inl (decide_eq_false fun e => h1.1 e.symm)
      rw [h2]
      exact ih fun c hc => by cases hc; exact h1.2

omit [NameChars] in
theorem label_read {d : Decl} (h : d.Ok) : param c!"encoding" d.data = d.label := by
  have e : d.data = c!"v" ++ (c!"ersion=" ++ (d.quote :: c!"1.0" ++ d.quote :: d.space ++ (c!"encoding=" ++ d.quote' :: d.label ++ d.quote' :: d.rest))) := by
    simp [Decl.data]
  rw [e, param_skip (by decide) (by decide)]
  have e2 : ∀ r, param c!"encoding" (c!"ersion=" ++ r) = param c!"encoding" r := by
    intro r
    rw [show c!"ersion=" ++ r = 'e' :: (c!"rsion=" ++ r) from rfl]
    conv => lhs; unfold param
    rw [show hasPrefix ('e' :: (c!"rsion=" ++ r)) (c!"encoding" ++ c!"=") = false from rfl]
    exact param_skip (by decide) (by decide)
  rw [e2]
  rw [param_skip ?_ (by decide)]
  · conv => lhs; rw [show c!"encoding=" ++ d.quote' :: d.label ++ d.quote' :: d.rest = 'e' :: (c!"ncoding=" ++ (d.quote' :: (d.label ++ d.quote' :: d.rest))) by simp]; unfold param
    have hh : hasPrefix ('e' :: (c!"ncoding=" ++ (d.quote' :: (d.label ++ d.quote' :: d.rest)))) (c!"encoding" ++ c!"=") = true := rfl
    rw [hh]
    simp only [if_true]
    have hd : ('e' :: (c!"ncoding=" ++ (d.quote' :: (d.label ++ d.quote' :: d.rest)))).drop (c!"encoding".length + 1) = d.quote' :: (d.label ++ d.quote' :: d.rest) := rfl
    rw [hd]
    simp only
    rw [if_pos (h.quote'.symm), if_pos (by simp)]
    exact (takeWhile_append_stop (fun x hx => by have : x ≠ d.quote' := fun e => h.label.2.1 (e ▸ hx); simpa using this) (by simp)).1
  · intro c hc
    cases hc
    simp only [List.mem_append, List.mem_cons, not_or]
    have hb : 'e' ∉ d.space := fun hm => by simpa using h.space _ hm
    rcases h.quote with hq | hq <;> rw [hq] <;> exact ⟨⟨by decide, by decide⟩, by decide, hb⟩

omit [NameChars] in
theorem data_marks {d : Decl} (h : d.Ok) : '?' ∉ d.data := by
  unfold Decl.data
  simp only [List.mem_append, List.mem_cons, not_or]
  have hb : '?' ∉ d.space := fun hm => by simpa using h.space _ hm
  have hl := h.label.2.2.1
  have hr := h.rest.1
  rcases h.quote with hq | hq <;> rcases h.quote' with hq' | hq' <;> rw [hq, hq'] <;>
    exact ⟨⟨⟨⟨⟨by decide, by decide, by decide⟩, by decide, hb⟩, by decide⟩, by decide, hl⟩, by decide, hr⟩

/-- A declaration is one token. -/
theorem head_token {d : Decl} (h : d.Ok) (r : Str) : Xml.token { rest := d.written ++ r } = some (.other, { rest := r }) := by
  have hm := data_marks h
  have ho : (Nodes.declaration d.quote (d.space ++ c!"encoding=" ++ d.quote' :: d.label ++ d.quote' :: d.rest) .nil).Ok := by
    refine ⟨h.quote, fun hx => hm ?_, trivial⟩
    unfold Decl.data
    simp only [List.mem_append, List.mem_cons] at hx ⊢
    rcases hx with ((hx | hx) | hx) | hx
    · exact .inl (.inl (.inl (.inr (.inr hx))))
    · exact .inl (.inl (.inr hx))
    · exact .inl (.inr hx)
    · exact .inr hx
  have hr := C81.reads _ ho [] [] [] (.inl rfl) C81.same_nil
  have hw : (Nodes.declaration d.quote (d.space ++ c!"encoding=" ++ d.quote' :: d.label ++ d.quote' :: d.rest) .nil).written ++ [] = d.written := by
    simp [Nodes.written, Decl.written]
  rw [hw] at hr
  obtain ⟨e, h1, h2⟩ := hr
  cases h2
  exact (token_inv h1).2 (.inl (by simp)) r

theorem head_declared {d : Decl} (h : d.Ok) (r : Str) :
    declared (d.written ++ r) = if (d.label.map fun c => if 'A' ≤ c ∧ c ≤ 'Z' then Char.ofNat (c.toNat + 32) else c) = c!"utf-8" then none else some d.label := by
  rw [written_data]
  have hn : NCName c!"xml" := by
    refine ⟨'x', ['m', 'l'], by decide, .inl (by decide), ?_⟩
    intro c hc
    simp at hc
    rcases hc with rfl | rfl <;> exact .inl (.inl (by decide))
  have h1 := name_of (r := ' ' :: (d.data ++ '?' :: '>' :: r)) hn ⟨' ', _, rfl, by decide⟩
  have h2 : skip (' ' :: (d.data ++ '?' :: '>' :: r)) = d.data ++ '?' :: '>' :: r := by
    unfold Decl.data
    exact skip_blank (sp := [' ']) (fun c hc => by simp at hc; subst hc; decide) (c := 'v') (by decide)
  have h3 := instruction_of r d.data nul (data_marks h) (by decide)
  have h4 : (d.data ++ c!"?>").dropLast.dropLast = d.data := by
    rw [show d.data ++ c!"?>" = (d.data ++ ['?']) ++ ['>'] by simp, List.dropLast_concat, List.dropLast_concat]
  unfold declared
  simp only [h1, if_true, h2, h3, h4, label_read h]
  by_cases hu : (d.label.map fun c => if 'A' ≤ c ∧ c ≤ 'Z' then Char.ofNat (c.toNat + 32) else c) = c!"utf-8"
  · rw [if_pos (.inr hu), if_pos hu]
  · rw [if_neg (not_or.2 ⟨h.label.1, hu⟩), if_neg hu]

/-! ## Files with a declaration -/

/-- The letters of a label in small letters. -/
theorem utf8_lower {l : Str} :
    (l.map fun c => if 'A' ≤ c ∧ c ≤ 'Z' then Char.ofNat (c.toNat + 32) else c) = c!"utf-8" ↔ Utf8Label l := by
  have key : ∀ c x : Char, (if 'A' ≤ c ∧ c ≤ 'Z' then Char.ofNat (c.toNat + 32) else c) = x →
      c = x ∨ ('A' ≤ c ∧ c ≤ 'Z' ∧ Char.ofNat (c.toNat + 32) = x) := by
    intro c x h
    split at h
    · next hc => exact .inr ⟨hc.1, hc.2, h⟩
    · exact .inl h
  have up : ∀ c x : Char, 'A' ≤ c → c ≤ 'Z' → Char.ofNat (c.toNat + 32) = x → c = Char.ofNat (x.toNat - 32) := by
    intro c x h1 h2 h
    have a : 65 ≤ c.toNat := h1
    have b : c.toNat ≤ 90 := h2
    have hv : (c.toNat + 32).isValidChar := .inl (by omega)
    have e : x.toNat = c.toNat + 32 := by
      rw [← h, Char.ofNat, dif_pos hv]
      rfl
    rw [e, Nat.add_sub_cancel, Char.ofNat_toNat]
  constructor
  · intro h
    match l, h with
    | [a, b, c, d, e], h =>
      simp only [List.map_cons, List.map_nil, List.cons.injEq, and_true] at h
      obtain ⟨h1, h2, h3, h4, h5⟩ := h
      have hd : d = '-' := by
        rcases key d _ h4 with h | ⟨x, y, z⟩
        · exact h
        · have := up d _ x y z; subst this; revert x; decide
      have he : e = '8' := by
        rcases key e _ h5 with h | ⟨x, y, z⟩
        · exact h
        · have := up e _ x y z; subst this; revert x; decide
      subst hd he
      refine ⟨a, b, c, rfl, ?_, ?_, ?_⟩
      · exact (key a _ h1).imp id fun ⟨x, y, z⟩ => up a _ x y z
      · exact (key b _ h2).imp id fun ⟨x, y, z⟩ => up b _ x y z
      · exact (key c _ h3).imp id fun ⟨x, y, z⟩ => up c _ x y z
    | [], h => simp at h
    | [_], h => simp at h
    | [_, _], h => simp at h
    | [_, _, _], h => simp at h
    | [_, _, _, _], h => simp at h
    | _ :: _ :: _ :: _ :: _ :: _ :: _, h => simp at h
  · rintro ⟨u, t, f, rfl, rfl | rfl, rfl | rfl, rfl | rfl⟩ <;> decide

omit [NameChars] in
theorem latin_known : ∀ l ∈ latinLabels, canonical l ∈ latin ∧ l.map (fun c => if 'A' ≤ c ∧ c ≤ 'Z' then Char.ofNat (c.toNat + 32) else c) ≠ c!"utf-8" := by
  decide +kernel

omit [NameChars] in
theorem latin_bytes {bs : List Byte} {s : Str} (h : InLatin1 bs s) (hs : Latin1 s) : bs.map windows1252 = s := by
  unfold InLatin1 at h
  induction s generalizing bs with
  | nil => cases bs with
    | nil => rfl
    | cons => cases h
  | cons c s ih =>
    cases bs with
    | nil => cases h
    | cons b bs =>
      simp only [List.map_cons, List.cons.injEq] at h ⊢
      refine ⟨?_, ih h.2 fun c hc => hs c (.tail _ hc)⟩
      unfold windows1252
      have hw : within 0x80 0x9F b = false := by
        have := hs c (.head _)
        rw [← h.1] at this
        unfold within
        simp only [Bool.and_eq_false_iff, decide_eq_false_iff_not]
        omega
      rw [hw]
      simp only [Bool.false_eq_true, if_false]
      rw [h.1, rune_char]

section
variable [Charsets]

/-- Bytes that hold a text in the encoding that a declaration names. -/
inductive Stored (d : Decl) (bs : List Byte) (s : Str) : Prop where
  | utf8 (label : Utf8Label d.label) (bytes : InUtf8 bs s)
  | latin (label : d.label ∈ latinLabels) (text : Latin1 s) (bytes : InLatin1 bs s)
  | other (f : List Byte → List Byte) (label : ¬ Utf8Label d.label) (known : newReaderLabel d.label = some f) (bytes : InUtf8 (f bs) s)

theorem suffix_split {u a s : Str} (h : u <:+ a ++ s) : u <:+ s ∨ ∃ v, v ≠ [] ∧ v <:+ a ∧ u = v ++ s := by
  induction a with
  | nil => exact .inl h
  | cons c a ih =>
    rw [List.cons_append, List.suffix_cons_iff] at h
    rcases h with rfl | h
    · exact .inr ⟨c :: a, by simp, List.suffix_refl _, rfl⟩
    · rcases ih h with h | ⟨v, h0, h1, h2⟩
      · exact .inl h
      · exact .inr ⟨v, h0, h1.trans (List.suffix_cons _ _), h2⟩

omit [NameChars] [Charsets] in
theorem written_angle {d : Decl} (h : d.Ok) : ∃ t, d.written = '<' :: t ∧ '<' ∉ t := by
  refine ⟨_, by rw [← List.append_nil d.written, written_data], ?_⟩
  unfold Decl.data
  simp only [List.mem_append, List.mem_cons, not_or]
  have hb : '<' ∉ d.space := fun hm => by simpa using h.space _ hm
  have hl := h.label.2.2.2
  have hr := h.rest.2
  rcases h.quote with hq | hq <;> rcases h.quote' with hq' | hq' <;> rw [hq, hq'] <;>
    exact ⟨by decide, by decide, by decide, ⟨⟨⟨⟨⟨by decide, by decide, by decide⟩, by decide, hb⟩, by decide⟩, by decide, hl⟩, by decide, hr⟩,
      by decide, by decide, by decide⟩

theorem utf8_declared {d : Decl} (h : d.Ok) (hl : Utf8Label d.label) {pre s : Str} (hp : '<' ∉ pre) (hs : Bare s) :
    ∀ u, u <:+ pre ++ (d.written ++ s) → declared u = none := by
  intro u hu
  cases hd : declared u with
  | none => rfl
  | some l =>
    exfalso
    have hx : c!"<?xml" <+: u := declared_prefix (by rw [hd]; simp)
    obtain ⟨x, hx'⟩ := hx
    rw [← List.append_assoc] at hu
    rcases suffix_split hu with hu | ⟨v, h0, h1, h2⟩
    · rw [bare_declared hs u hu] at hd; cases hd
    · obtain ⟨t, ht, hn⟩ := written_angle h
      rw [ht] at h1
      rcases suffix_split h1 with h1 | ⟨w, h3, h4, h5⟩
      · rw [List.suffix_cons_iff] at h1
        rcases h1 with h1 | h1
        · rw [h2, h1, ← ht, head_declared h, if_pos (utf8_lower.2 hl)] at hd
          cases hd
        · cases v with
          | nil => exact h0 rfl
          | cons c v =>
            have : c = '<' := by rw [h2] at hx'; exact (List.cons.inj hx').1.symm
            exact hn (h1.subset (this ▸ .head _))
      · cases w with
        | nil => exact h3 rfl
        | cons c w =>
          have : c = '<' := by rw [h2, h5] at hx'; exact (List.cons.inj hx').1.symm
          exact hp (h4.subset (this ▸ .head _))

/-- C91: a text behind a declaration that names the encoding of the text is read as this text. -/
theorem stored_read {d : Decl} {hd bs : List Byte} {s : Str} (ok : d.Ok) (bare : Bare s) (head : InUtf8 hd d.written)
    (body : Stored d bs s) : Delivers (hd ++ bs) (.other :: decode s) := by
  rw [inUtf8 head]
  have key : ∀ f : List Byte → List Byte, ¬ Utf8Label d.label → newReaderLabel d.label = some f → f bs = encode s →
      Delivers (encode d.written ++ bs) (.other :: decode s) := by
    intro f h1 h2 h3
    refine ⟨2 * s.length + 2, fun m hm => ?_⟩
    cases m with
    | zero => omega
    | succ m =>
      have ht : Bytes.token ⟨encode d.written ++ bs, { rest := [] }⟩ = some (.other, ⟨encode s, { rest := chars bs }⟩) := by
        unfold Bytes.token
        simp only [chars_encode, head_token ok, head_declared ok, if_neg (mt utf8_lower.1 h1), if_true, h2, Option.map_some]
        rw [show (d.written ++ chars bs).length - (chars bs).length = d.written.length by simp, behind_encode, h3]
      unfold Bytes.tokens
      rw [ht]
      simp only
      rw [tokens_utf8 m s _ (bare_declared bare)]
      exact congrArg _ (C81.decode_enough s (by omega))
  cases body with
  | utf8 label bytes =>
    rw [inUtf8 bytes, ← encode_append]
    refine ⟨2 * (d.written ++ s).length + 2, fun m hm => ?_⟩
    rw [tokens_utf8 m (d.written ++ s) _ (utf8_declared ok label (pre := []) (by simp) bare)]
    cases m with
    | zero => omega
    | succ m =>
      unfold Xml.tokens
      rw [head_token ok s]
      exact congrArg _ (C81.decode_enough s (by simp at hm; omega))
  | latin label text bytes =>
    have hk := latin_known _ label
    refine key (fun bs => encode (bs.map windows1252)) (fun h => hk.2 (utf8_lower.2 h)) ?_ (by rw [latin_bytes bytes text])
    unfold newReaderLabel
    simp only [if_pos hk.1]
  | other f label known bytes => exact key f label known (inUtf8 bytes)

/-- C91: two files with the same text, each in the encoding that its declaration names, give the same tokens. -/
theorem same {d d' : Decl} {hd bs hd' bs' : List Byte} {s : Str} (ok : d.Ok) (ok' : d'.Ok) (bare : Bare s)
    (head : InUtf8 hd d.written) (head' : InUtf8 hd' d'.written) (body : Stored d bs s) (body' : Stored d' bs' s) (ts : List Token) :
    Delivers (hd ++ bs) ts ↔ Delivers (hd' ++ bs') ts := by
  have uniq : ∀ {bs ts ts'}, Delivers bs ts → Delivers bs ts' → ts = ts' := by
    rintro bs ts ts' ⟨n, h⟩ ⟨m, h'⟩
    rw [← h (max n m) (Nat.le_max_left ..), ← h' (max n m) (Nat.le_max_right ..)]
  have a := stored_read ok bare head body
  have b := stored_read ok' bare head' body'
  exact ⟨fun h => uniq a h ▸ b, fun h => uniq b h ▸ a⟩

/-- C91: the mark that some programs write at the beginning of a file in UTF-8 is character data in front of the document. -/
theorem marked {d : Decl} {bs : List Byte} {s : Str} (ok : d.Ok) (bare : Bare s) (label : Utf8Label d.label)
    (bytes : InUtf8 bs ('\uFEFF' :: (d.written ++ s))) : Delivers bs (.text c!"\uFEFF" :: .other :: decode s) := by
  rw [inUtf8 bytes]
  refine ⟨2 * (d.written ++ s).length + 4, fun m hm => ?_⟩
  rw [tokens_utf8 m ('\uFEFF' :: (d.written ++ s)) _ (utf8_declared ok label (pre := ['\uFEFF']) (by decide) bare)]
  match m, hm with
  | m + 2, hm =>
    obtain ⟨t, ht, _⟩ := written_angle ok
    have h1 : Xml.token { rest := '\uFEFF' :: (d.written ++ s) } = some (.text c!"\uFEFF", { rest := d.written ++ s }) := by
      rw [ht]
      rfl
    unfold Xml.tokens
    rw [show ({ ({ rest := [] } : Dec) with rest := '\uFEFF' :: (d.written ++ s) } : Dec) = { rest := '\uFEFF' :: (d.written ++ s) } from rfl, h1]
    simp only
    unfold Xml.tokens
    rw [head_token ok s]
    exact congrArg (fun x => _ :: _ :: x) (C81.decode_enough s (by simp at hm; omega))

/-! ## Any bytes -/

theorem token_xml {r r' : Reader} {t : Token} (h : Bytes.token r = some (t, r')) :
    ∃ e, Xml.token { r.dec with rest := chars r.bytes } = some (t, e) ∧ e = r'.dec := by
  unfold Bytes.token at h
  simp only at h
  split at h
  · cases h
  · next t' e he =>
    split at h
    · cases h; exact ⟨_, he, rfl⟩
    · obtain ⟨f, hf, e'⟩ := Option.map_eq_some_iff.1 h
      cases e'
      exact ⟨_, he, rfl⟩

theorem tokens_any (n : Nat) (r : Reader) : C82.Nested (C82.names r.dec) (Bytes.tokens n r) ∧ ∀ t ∈ Bytes.tokens n r, C82.Named t := by
  induction n generalizing r with
  | zero => exact ⟨trivial, fun t h => by cases h⟩
  | succ n ih =>
    unfold Bytes.tokens
    cases ht : Bytes.token r with
    | none => exact ⟨trivial, fun t h => by cases h⟩
    | some x =>
      obtain ⟨t, e⟩ := x
      obtain ⟨e', he, rfl⟩ := token_xml ht
      obtain ⟨h1, h2⟩ := C82.token_moves he
      have h1 : C82.Moves (C82.names r.dec) t (C82.names e.dec) := h1
      obtain ⟨h3, h4⟩ := ih e
      constructor
      · show C82.Nested (C82.names r.dec) (t :: Bytes.tokens n e)
        cases t with
        | start m as => simp only [C82.Moves] at h1; simp only [C82.Nested]; rw [← h1]; exact h3
        | stop m => exact ⟨_, h1, h3⟩
        | text x => simp only [C82.Moves] at h1; simp only [C82.Nested]; rw [← h1]; exact h3
        | other => simp only [C82.Moves] at h1; simp only [C82.Nested]; rw [← h1]; exact h3
      · intro u hu
        rcases List.mem_cons.mp hu with rfl | hu
        · exact h2
        · exact h4 u hu

/-- C91: whatever the bytes of a file are, and whatever encodings are known, its tokens nest, its elements have names, and text and
values consist of characters that XML allows. -/
theorem any {bs : List Byte} {ts : List Token} (h : Delivers bs ts) : C82.Nested [] ts ∧ C32.NamesOk ts ∧
    (∀ x, .text x ∈ ts → ∀ c ∈ x, Allowed c) ∧ ∀ n as, .start n as ∈ ts → ∀ a ∈ as, ∀ c ∈ a.value, Allowed c := by
  obtain ⟨n, h⟩ := h
  have := h n (Nat.le_refl n)
  subst this
  obtain ⟨h1, h2⟩ := tokens_any n ⟨bs, { rest := [] }⟩
  exact ⟨h1, fun n as hm => (h2 _ hm).1, fun x hm => h2 _ hm, fun n as hm => (h2 _ hm).2⟩

/-! ## What is not read -/

/-- C91: nothing is read of a file that begins with the mark of UTF-16. -/
theorem utf16 (bs : List Byte) : Delivers (byte 0xFF :: byte 0xFE :: bs) [] ∧ Delivers (byte 0xFE :: byte 0xFF :: bs) [] := by
  have key : ∀ s : Str, Xml.token { rest := bad :: s } = none := by
    intro s
    show (text none (bad :: s)).map _ = none
    rw [Option.map_eq_none_iff]
    unfold text
    conv => lhs; unfold Xml.chars
    rw [if_neg (by decide), if_neg (by decide), if_neg (by decide), if_neg (by decide)]
    cases Xml.chars none false 0 nul bad s with
    | none => rfl
    | some x =>
      simp only [Option.map_some]
      rw [if_neg (show ¬ bad = '\r' by decide), if_neg (show ¬ (nul = '\r' ∧ bad = '\n') by decide)]
      rw [show (bad :: x.1).all inRange = (inRange bad && x.1.all inRange) from rfl, show inRange bad = false by decide]
      rfl
  constructor
  · refine ⟨0, fun m _ => ?_⟩
    cases m with
    | zero => rfl
    | succ m =>
      unfold Bytes.tokens Bytes.token
      have : Bytes.chars (byte 0xFF :: byte 0xFE :: bs) = bad :: Bytes.chars (byte 0xFE :: bs) := by
        simp [Bytes.chars, split, decodeRune, within, byte_val]
      simp only [this, key]
  · refine ⟨0, fun m _ => ?_⟩
    cases m with
    | zero => rfl
    | succ m =>
      unfold Bytes.tokens Bytes.token
      have : Bytes.chars (byte 0xFE :: byte 0xFF :: bs) = bad :: Bytes.chars (byte 0xFF :: bs) := by
        simp [Bytes.chars, split, decodeRune, within, byte_val]
      simp only [this, key]

/-- C91: nothing is read of a file whose declaration names an encoding that is not known. -/
theorem unknown {d : Decl} {hd : List Byte} (ok : d.Ok) (head : InUtf8 hd d.written) (utf8 : ¬ Utf8Label d.label)
    (label : newReaderLabel d.label = none) (bs : List Byte) : Delivers (hd ++ bs) [] := by
  rw [inUtf8 head]
  refine ⟨0, fun m _ => ?_⟩
  cases m with
  | zero => rfl
  | succ m =>
    unfold Bytes.tokens Bytes.token
    simp only [chars_encode, head_token ok, head_declared ok, if_neg (mt utf8_lower.1 utf8), if_true, label, Option.map_none]

/-! ## Projects given as bytes -/

/-- A file system whose files are bytes. -/
inductive Stock where
  | dir
  | file (bytes : List Byte)
  | noOpen

/-- What a parse sees of an entry. -/
def Sees : Stock → Entry → Prop
  | .dir, e => e = .dir
  | .noOpen, e => e = .noOpen
  | .file bs, e => ∃ ts, Delivers bs ts ∧ e = .file ts

/-- What a parse sees of a file system. -/
inductive Shown : List (Str × Stock) → GoMap Entry → Prop
  | nil : Shown [] []
  | cons {k : Str} {e : Stock} {x : Entry} {fs : List (Str × Stock)} {m : GoMap Entry} :
      Sees e x → Shown fs m → Shown ((k, e) :: fs) ((k, x) :: m)

/-- Files with the same text, each behind a declaration of its encoding. -/
def SameText (bs bs' : List Byte) : Prop :=
  ∃ (d d' : Decl) (hd tl hd' tl' : List Byte) (s : Str), d.Ok ∧ d'.Ok ∧ Bare s ∧ InUtf8 hd d.written ∧ InUtf8 hd' d'.written ∧
    Stored d tl s ∧ Stored d' tl' s ∧ bs = hd ++ tl ∧ bs' = hd' ++ tl'

/-- Entries of the same kind; files with the same bytes, or with the same text. -/
def SameEntry : Stock → Stock → Prop
  | .dir, .dir => True
  | .noOpen, .noOpen => True
  | .file bs, .file bs' => bs = bs' ∨ SameText bs bs'
  | _, _ => False

theorem sees_same {e e' : Stock} {x x' : Entry} (h : SameEntry e e') (hx : Sees e x) (hx' : Sees e' x') : x = x' := by
  cases e with
  | dir => cases e' with
    | dir => exact hx.trans hx'.symm
    | file => cases h
    | noOpen => cases h
  | noOpen => cases e' with
    | noOpen => exact hx.trans hx'.symm
    | file => cases h
    | dir => cases h
  | file bs => cases e' with
    | dir => cases h
    | noOpen => cases h
    | file bs' =>
      obtain ⟨ts, ⟨n, h1⟩, rfl⟩ := hx
      have h1' : Delivers bs ts := ⟨n, h1⟩
      obtain ⟨ts', ⟨m, h2⟩, rfl⟩ := hx'
      have h3 : Delivers bs' ts := by
        rcases h with rfl | ⟨d, d', hd, tl, hd', tl', s, a, b, c, e, f, g, i, rfl, rfl⟩
        · exact h1'
        · exact (same a b c e f g i ts).1 h1'
      obtain ⟨k, h3⟩ := h3
      rw [← h3 (max k m) (Nat.le_max_left ..), ← h2 (max k m) (Nat.le_max_right ..)]

/-- C91: two projects whose files hold the same texts in different encodings are the same to every parse and to the command. -/
theorem project {fs fs' : List (Str × Stock)} {m m' : GoMap Entry} (h : C64.Each (fun e e' => e.1 = e'.1 ∧ SameEntry e.2 e'.2) fs fs')
    (hm : Shown fs m) (hm' : Shown fs' m') : m = m' := by
  induction h generalizing m m' with
  | nil => cases hm; cases hm'; rfl
  | cons h1 h2 ih =>
    cases hm with
    | cons a1 a2 =>
      cases hm' with
      | cons b1 b2 =>
        obtain ⟨h1, h3⟩ := h1
        simp only at h1 h3
        rw [ih a2 b2, h1, sees_same h3 a1 b1]

/-- C91: the result of a parse does not depend on the encodings of the files. -/
theorem parse_same [Uni] (W : World) (cfg : Cfg) (sh : Shared) {fs fs' : List (Str × Stock)} {m m' : GoMap Entry}
    (h : C64.Each (fun e e' => e.1 = e'.1 ∧ SameEntry e.2 e'.2) fs fs') (hm : Shown fs m) (hm' : Shown fs' m') :
    Parse { W with fs := m } cfg sh = Parse { W with fs := m' } cfg sh := by rw [project h hm hm']

/-- C91: neither does what the command does. -/
theorem command_same [Uni] (W : World) (walk : Str → List Str) (f : Flags) {fs fs' : List (Str × Stock)} {m m' : GoMap Entry}
    (h : C64.Each (fun e e' => e.1 = e'.1 ∧ SameEntry e.2 e'.2) fs fs') (hm : Shown fs m) (hm' : Shown fs' m') :
    main' { W with fs := m } walk f = main' { W with fs := m' } walk f := by rw [project h hm hm']

end

end

/-! ## Examples -/

section
attribute [local instance] C81.asciiNames

/-- No further encodings. -/
@[local instance] def noOther : Charsets := ⟨fun _ => none⟩

/-- Numbers as bytes. -/
def bytes (l : List Nat) : List Byte := l.map byte

/-- A document with a letter outside of ASCII. -/
def word : Str := c!"<a>é</a>"

/-- Its bytes in ISO-8859-1. -/
def wordLatin : List Byte := bytes [60, 97, 62, 0xE9, 60, 47, 97, 62]

/-- Its bytes in UTF-8. -/
def wordUtf8 : List Byte := bytes [60, 97, 62, 0xC3, 0xA9, 60, 47, 97, 62]

/-- A declaration of ISO-8859-1. -/
def declLatin : Decl := { label := c!"ISO-8859-1", rest := c!" standalone='yes'" }
/-- A declaration of UTF-8, in another spelling. -/
def declUtf8 : Decl := { quote := '\'', label := c!"Utf-8" }

theorem declLatin_ok : declLatin.Ok :=
  ⟨by decide, by decide, fun c hc => by simp [declLatin] at hc; subst hc; decide, by decide, by decide⟩

theorem declUtf8_ok : declUtf8.Ok :=
  ⟨by decide, by decide, fun c hc => by simp [declUtf8] at hc; subst hc; decide, by decide, by decide⟩

theorem word_bare : Bare word := by
  rintro ⟨a, b, h⟩
  have : '?' ∈ word := by rw [← h]; simp
  revert this
  decide

theorem word_latin : Stored declLatin wordLatin word := .latin (by decide) (by unfold Latin1; decide) (by unfold InLatin1; decide)
theorem word_utf8 : Stored declUtf8 wordUtf8 word := .utf8 ⟨'U', 't', 'f', rfl, by decide⟩ (by unfold InUtf8; decide)

/-- The document in both encodings. -/
example : SameText (encode declLatin.written ++ wordLatin) (encode declUtf8.written ++ wordUtf8) :=
  ⟨_, _, _, _, _, _, _, declLatin_ok, declUtf8_ok, word_bare, by unfold InUtf8; decide, by unfold InUtf8; decide, word_latin, word_utf8, rfl, rfl⟩

example : Bytes.tokens 9 ⟨encode declLatin.written ++ wordLatin, { rest := [] }⟩ = [.other, .start c!"a" [], .text c!"é", .stop c!"a"] := by
  decide +kernel

/-- Without a declaration, the reading ends at the first byte that is no UTF-8: the element stays open, and no error is reported. -/
theorem undeclared : Bytes.tokens 9 ⟨wordLatin, { rest := [] }⟩ = [.start c!"a" []] := by decide +kernel

/-- In a comment, such a byte does not matter. -/
theorem commented : Bytes.tokens 9 ⟨encode c!"<!--" ++ bytes [0xE9] ++ encode c!"--><a/>", { rest := [] }⟩ =
    [.other, .start c!"a" [], .stop c!"a"] := by decide +kernel

/-- A control character of ISO-8859-1 is read as the character of windows-1252 in its place: the condition of `Latin1` is needed. -/
theorem control_changed : InLatin1 (bytes [60, 97, 62, 0x85, 60, 47, 97, 62]) c!"<a>\u0085</a>" ∧
    Bytes.tokens 9 ⟨encode declLatin.written ++ bytes [60, 97, 62, 0x85, 60, 47, 97, 62], { rest := [] }⟩ =
      [.other, .start c!"a" [], .text c!"…", .stop c!"a"] := by
  unfold InLatin1
  decide +kernel

/-- A second declaration changes the encoding again: the condition `Bare` is needed. -/
theorem changed_again : Bytes.tokens 9 ⟨encode (declLatin.written ++ declLatin.written) ++ wordLatin, { rest := [] }⟩ =
    [.other, .other, .start c!"a" [], .text c!"Ã©", .stop c!"a"] := by decide +kernel

/-- An unknown label. -/
example : ¬ Utf8Label c!"utf-7" ∧ newReaderLabel c!"utf-7" = none :=
  ⟨fun ⟨_, _, _, h, _⟩ => by simp at h, by rfl⟩

/-- A schema in UTF-16 gives a file without declarations, and success. -/
theorem utf16_written : Delivers (bytes [0xFF, 0xFE, 60, 0, 97, 0, 47, 0, 62, 0]) [] ∧
    (match @Parse asciiUni { Ex.world [] with fs := [(c!".", .dir), (c!"xsd", .dir), (c!"xsd/a.xsd", .file [])] }
        { filePath := c!"xsd/a.xsd", inputDir := c!"xsd", outputDir := c!"out", lang := c!"C" } {} with
      | .ok _ sh => some sh.outputs
      | _ => none) = some [(c!"out/a.xsd.h", c!"// Code generated by xgen. DO NOT EDIT.\n")] :=
  ⟨(utf16 _).1, by decide +kernel⟩

end

end Xgen.C91
