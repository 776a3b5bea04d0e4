import Verif.Model.Bytes
import Verif.Lemmas.XmlMono

/-! # Reading back what is written in UTF-8; what is left behind a token -/

namespace Xgen.Bytes

open Xgen.Xml

/-! ## UTF-8 -/

theorem byte_val {n : Nat} (h : n < 256) : (byte n).val = n := by simp [byte, Fin.ofNat, Nat.mod_eq_of_lt h]

theorem char_lt (c : Char) : c.toNat < 0xD800 ∨ 0xDFFF < c.toNat ∧ c.toNat < 0x110000 := c.valid

theorem rune_char (c : Char) : rune c.toNat = c := by
  unfold rune
  have h : c.toNat.isValidChar := c.valid
  rw [if_pos h]
  exact Char.ofNat_toNat c

theorem decodeRune_utf8 (c : Char) (r : List Byte) : decodeRune (utf8 c ++ r) = some (c.toNat, (utf8 c).length) := by
  have hv := char_lt c
  unfold utf8
  generalize c.toNat = n at hv
  simp only
  by_cases h1 : n < 0x80
  · rw [if_pos h1]
    simp only [List.cons_append, decodeRune, byte_val (show n < 256 by omega), if_pos h1, List.length_cons, List.length_nil]
  · rw [if_neg h1]
    by_cases h2 : n < 0x800
    · rw [if_pos h2]
      have a : (byte (0xC0 + n / 64)).val = 0xC0 + n / 64 := byte_val (by omega)
      have b : (byte (0x80 + n % 64)).val = 0x80 + n % 64 := byte_val (by omega)
      simp only [List.cons_append, decodeRune, within, a, b, List.length_cons, List.length_nil]
      rw [if_neg (by omega), if_pos (by simp only [Bool.and_eq_true, decide_eq_true_eq]; omega),
        if_pos (by simp only [Bool.and_eq_true, decide_eq_true_eq]; omega)]
      exact congrArg some (Prod.ext (by simp only; omega) rfl)
    · rw [if_neg h2]
      by_cases h3 : n < 0x10000
      · rw [if_pos h3]
        have a : (byte (0xE0 + n / 4096)).val = 0xE0 + n / 4096 := byte_val (by omega)
        have b : (byte (0x80 + n / 64 % 64)).val = 0x80 + n / 64 % 64 := byte_val (by omega)
        have c : (byte (0x80 + n % 64)).val = 0x80 + n % 64 := byte_val (by omega)
        simp only [List.cons_append, decodeRune, within, a, b, c, List.length_cons, List.length_nil]
        rw [if_neg (by omega), if_neg (by simp only [Bool.and_eq_true, decide_eq_true_eq]; omega),
          if_pos (by simp only [Bool.and_eq_true, decide_eq_true_eq]; omega),
          if_pos (by simp only [Bool.and_eq_true, decide_eq_true_eq]; split <;> split <;> omega)]
        exact congrArg some (Prod.ext (by simp only; omega) rfl)
      · rw [if_neg h3]
        have a : (byte (0xF0 + n / 262144)).val = 0xF0 + n / 262144 := byte_val (by omega)
        have b : (byte (0x80 + n / 4096 % 64)).val = 0x80 + n / 4096 % 64 := byte_val (by omega)
        have c : (byte (0x80 + n / 64 % 64)).val = 0x80 + n / 64 % 64 := byte_val (by omega)
        have d : (byte (0x80 + n % 64)).val = 0x80 + n % 64 := byte_val (by omega)
        simp only [List.cons_append, decodeRune, within, a, b, c, d, List.length_cons, List.length_nil]
        rw [if_neg (by omega), if_neg (by simp only [Bool.and_eq_true, decide_eq_true_eq]; omega),
          if_neg (by simp only [Bool.and_eq_true, decide_eq_true_eq]; omega),
          if_pos (by simp only [Bool.and_eq_true, decide_eq_true_eq]; omega),
          if_pos (by simp only [Bool.and_eq_true, decide_eq_true_eq]; split <;> split <;> omega)]
        exact congrArg some (Prod.ext (by simp only; omega) rfl)

theorem split_skip (k : Nat) (a r : List Byte) (h : a.length = k) : split k (a ++ r) = split 0 r := by
  induction k generalizing a with
  | zero => cases a with
    | nil => rfl
    | cons => cases h
  | succ k ih => cases a with
    | nil => cases h
    | cons x a => exact ih a (by simpa using h)

theorem utf8_ne (c : Char) : utf8 c ≠ [] := by
  unfold utf8
  simp only
  split
  · simp
  · split
    · simp
    · split <;> simp

theorem split_utf8 (c : Char) (r : List Byte) : split 0 (utf8 c ++ r) = (c, (utf8 c).length) :: split 0 r := by
  have h := decodeRune_utf8 c r
  cases hu : utf8 c with
  | nil => exact absurd hu (utf8_ne c)
  | cons b bs =>
    rw [hu] at h
    simp only [List.cons_append] at h ⊢
    conv => lhs; unfold split
    rw [h]
    simp only [rune_char]
    rw [split_skip _ _ _ (by simp)]

theorem split_encode (s : Str) (r : List Byte) : split 0 (encode s ++ r) = s.map (fun c => (c, (utf8 c).length)) ++ split 0 r := by
  induction s with
  | nil => rfl
  | cons c s ih =>
    show split 0 ((utf8 c ++ encode s) ++ r) = _
    rw [List.append_assoc, split_utf8, ih]
    rfl

theorem chars_encode (s : Str) (r : List Byte) : chars (encode s ++ r) = s ++ chars r := by
  unfold chars
  rw [split_encode, List.map_append, List.map_map]
  congr 1
  exact List.map_id' s

theorem chars_utf8 (s : Str) : chars (encode s) = s := by simpa [chars, split] using chars_encode s []

theorem encode_append (s t : Str) : encode (s ++ t) = encode s ++ encode t := List.flatMap_append

theorem encode_length (s : Str) : (encode s).length = ((s.map fun c => (c, (utf8 c).length)).map (·.2)).sum := by
  induction s with
  | nil => rfl
  | cons c s ih =>
    show (utf8 c ++ encode s).length = _
    rw [List.length_append, ih]
    rfl

theorem behind_encode (s : Str) (r : List Byte) : behind s.length (encode s ++ r) = r := by
  unfold behind
  rw [split_encode, List.take_append_of_le_length (by simp), List.take_of_length_le (by simp), ← encode_length]
  exact List.drop_left

theorem behind_zero (r : List Byte) : behind 0 r = r := behind_encode [] r

/-! ## Nothing but UTF-8 is taken for a character -/

theorem utf8_ofNat {n : Nat} (h : n < 0xD800 ∨ 0xDFFF < n ∧ n < 0x110000) : (Char.ofNat n).toNat = n := by
  have : n.isValidChar := h
  simp [Char.ofNat, this, Char.toNat, Char.ofNatAux]

theorem byte_eq {b : Byte} {n : Nat} (h : n = b.val) : byte n = b := by
  subst h
  exact Fin.ext (byte_val b.isLt)

theorem within_iff {lo hi : Nat} {b : Byte} : within lo hi b = true ↔ lo ≤ b.val ∧ b.val ≤ hi := by simp [within]

/-- What `decodeRune` accepts is the encoding of a character. -/
theorem decodeRune_sound {bs : List Byte} {n k : Nat} (h : decodeRune bs = some (n, k)) :
    ∃ c r, n = c.toNat ∧ bs = utf8 c ++ r ∧ k = (utf8 c).length := by
  cases bs with
  | nil => cases h
  | cons b0 bs =>
    rw [decodeRune.eq_def] at h
    dsimp only at h
    split at h
    · rename_i h0
      cases h
      have hc := utf8_ofNat (n := b0.val) (by omega)
      refine ⟨Char.ofNat b0.val, bs, hc.symm, ?_, ?_⟩ <;> unfold utf8 <;> rw [hc] <;> simp only [if_pos h0]
      · rw [byte_eq rfl]; rfl
      · rfl
    rename_i h0
    split at h
    · rename_i h1
      rw [within_iff] at h1
      cases bs with
      | nil => cases h
      | cons b1 bs =>
        dsimp only at h
        split at h
        · rename_i h2
          rw [within_iff] at h2
          simp only [Option.some.injEq, Prod.mk.injEq] at h
          obtain ⟨hn, rfl⟩ := h
          have hc := utf8_ofNat (n := n) (by omega)
          have e1 : ¬ n < 0x80 := by omega
          have e2 : n < 0x800 := by omega
          refine ⟨Char.ofNat n, bs, hc.symm, ?_, ?_⟩ <;> unfold utf8 <;> rw [hc] <;> simp only [if_neg e1, if_pos e2]
          · rw [byte_eq (b := b0) (by omega), byte_eq (b := b1) (by omega)]; rfl
          · rfl
        · cases h
    rename_i h1
    rw [within_iff] at h1
    split at h
    · rename_i h2
      rw [within_iff] at h2
      match bs, h with
      | [], h => cases h
      | [_], h => cases h
      | b1 :: b2 :: bs, h =>
        dsimp only at h
        by_cases h3 : (within (if b0.val = 0xE0 then 0xA0 else 0x80) (if b0.val = 0xED then 0x9F else 0xBF) b1 &&
            within 0x80 0xBF b2) = true
        · rw [if_pos h3] at h
          rw [Bool.and_eq_true, within_iff, within_iff] at h3
          simp only [Option.some.injEq, Prod.mk.injEq] at h
          obtain ⟨hn, rfl⟩ := h
          have h4 : 0x80 ≤ b1.val ∧ b1.val ≤ 0xBF ∧ (b0.val = 0xE0 → 0xA0 ≤ b1.val) ∧ (b0.val = 0xED → b1.val ≤ 0x9F) := by
            obtain ⟨⟨h3, h4⟩, -⟩ := h3
            split at h3 <;> split at h4 <;> omega
          have hv : n < 0xD800 ∨ 0xDFFF < n ∧ n < 0x110000 := by omega
          have hc := utf8_ofNat hv
          have e1 : ¬ n < 0x80 := by omega
          have e2 : ¬ n < 0x800 := by omega
          have e3 : n < 0x10000 := by omega
          refine ⟨Char.ofNat n, bs, hc.symm, ?_, ?_⟩ <;> unfold utf8 <;> rw [hc] <;> simp only [if_neg e1, if_neg e2, if_pos e3]
          · rw [byte_eq (b := b0) (by omega), byte_eq (b := b1) (by omega), byte_eq (b := b2) (by omega)]; rfl
          · rfl
        · rw [if_neg h3] at h; cases h
    rename_i h2
    rw [within_iff] at h2
    split at h
    · rename_i h3
      rw [within_iff] at h3
      match bs, h with
      | [], h => cases h
      | [_], h => cases h
      | [_, _], h => cases h
      | b1 :: b2 :: b3 :: bs, h =>
        dsimp only at h
        by_cases h4 : (within (if b0.val = 0xF0 then 0x90 else 0x80) (if b0.val = 0xF4 then 0x8F else 0xBF) b1 &&
            within 0x80 0xBF b2 && within 0x80 0xBF b3) = true
        · rw [if_pos h4] at h
          rw [Bool.and_eq_true, Bool.and_eq_true, within_iff, within_iff, within_iff] at h4
          simp only [Option.some.injEq, Prod.mk.injEq] at h
          obtain ⟨hn, rfl⟩ := h
          have h5 : 0x80 ≤ b1.val ∧ b1.val ≤ 0xBF ∧ (b0.val = 0xF0 → 0x90 ≤ b1.val) ∧ (b0.val = 0xF4 → b1.val ≤ 0x8F) := by
            obtain ⟨⟨⟨h3, h4⟩, -⟩, -⟩ := h4
            split at h3 <;> split at h4 <;> omega
          have hv : n < 0xD800 ∨ 0xDFFF < n ∧ n < 0x110000 := by omega
          have hc := utf8_ofNat hv
          have e1 : ¬ n < 0x80 := by omega
          have e2 : ¬ n < 0x800 := by omega
          have e3 : ¬ n < 0x10000 := by omega
          refine ⟨Char.ofNat n, bs, hc.symm, ?_, ?_⟩ <;> unfold utf8 <;> rw [hc] <;> simp only [if_neg e1, if_neg e2, if_neg e3]
          · rw [byte_eq (b := b0) (by omega), byte_eq (b := b1) (by omega), byte_eq (b := b2) (by omega),
              byte_eq (b := b3) (by omega)]; rfl
          · rfl
        · rw [if_neg h4] at h; cases h
    · cases h

/-- Bytes among which none is taken for invalid are the encoding of their characters. -/
theorem encode_chars (bs : List Byte) (h : bad ∉ chars bs) : encode (chars bs) = bs := by
  induction hl : bs.length using Nat.strongRecOn generalizing bs with
  | ind l ih =>
    cases bs with
    | nil => rfl
    | cons b bs =>
      cases e : decodeRune (b :: bs) with
      | none =>
        refine absurd ?_ h
        unfold chars
        rw [split, e]
        exact List.mem_cons_self
      | some x =>
        obtain ⟨n, k⟩ := x
        obtain ⟨c, r, -, hr, -⟩ := decodeRune_sound e
        rw [hr] at h ⊢
        have hsplit : chars (utf8 c ++ r) = c :: chars r := by
          unfold chars
          rw [split_utf8]
          rfl
        rw [hsplit] at h ⊢
        have hlen : r.length < l := by
          have h1 := congrArg List.length hr
          rw [List.length_append] at h1
          have := List.length_pos_iff.2 (utf8_ne c)
          omega
        have := ih r.length hlen r (fun hm => h (List.mem_cons_of_mem _ hm)) rfl
        show utf8 c ++ encode (chars r) = _
        rw [this]

/-! ## What is left behind a token stands in the text -/

theorem skip_suffix (s : Str) : skip s <:+ s := List.dropWhile_suffix _

section
variable [NameChars]

theorem readName_suffix {s n r : Str} (h : readName s = some (n, r)) : r <:+ s := by
  unfold readName at h
  split at h
  · cases h
  · cases h
  · cases h
    exact List.dropWhile_suffix _

theorem name_suffix {s n r : Str} (h : name s = some (n, r)) : r <:+ s := by
  unfold name at h
  split at h
  · cases h
  · next e =>
    split at h
    · cases h; exact readName_suffix e
    · cases h

theorem nsname_suffix {s r : Str} {n : Name} (h : nsname s = some (n, r)) : r <:+ s := by
  unfold nsname at h
  split at h
  · cases h
  · next e =>
    simp only at h
    split at h
    · cases h
    · split at h
      · cases h; exact name_suffix e
      · cases h; exact name_suffix e

theorem chars_suffix {q : Option Char} {cd : Bool} {s : Str} : ∀ {k : Nat} {b0 b1 : Char} {x : Str × Str},
    Xml.chars q cd k b0 b1 s = some x → x.2 <:+ s := by
  induction s with
  | nil =>
    intro k b0 b1 x h
    unfold Xml.chars at h
    split at h
    · cases h
    · cases h; exact List.suffix_refl _
  | cons c cs ih =>
    intro k b0 b1 x h
    cases k with
    | succ k =>
      unfold Xml.chars at h
      exact (ih h).trans (List.suffix_cons _ _)
    | zero =>
      unfold Xml.chars at h
      split at h
      · split at h
        · cases h; exact List.suffix_cons _ _
        · cases h
      · split at h
        · split at h
          · cases h; exact List.suffix_refl _
          · cases h
        · split at h
          · cases h; exact List.suffix_cons _ _
          · split at h
            · split at h
              · cases h
              · obtain ⟨y, hy, rfl⟩ := Option.map_eq_some_iff.1 h
                exact (ih hy).trans (List.suffix_cons _ _)
            · obtain ⟨y, hy, rfl⟩ := Option.map_eq_some_iff.1 h
              exact (ih hy).trans (List.suffix_cons _ _)

theorem text_suffix {q : Option Char} {s : Str} {x : Str × Str} (h : text q s = some x) : x.2 <:+ s := by
  unfold text at h
  split at h
  · cases h
  · next e =>
    split at h
    · cases h; exact chars_suffix e
    · cases h

theorem cdata_suffix {s : Str} {x : Str × Str} (h : cdata s = some x) : x.2 <:+ s := by
  unfold cdata at h
  split at h
  · cases h
  · next e =>
    split at h
    · cases h; exact (chars_suffix e :)
    · cases h

theorem attrval_suffix {s : Str} {x : Str × Str} (h : attrval s = some x) : x.2 <:+ s := by
  unfold attrval at h
  split at h
  · cases h
  · split at h
    · exact (text_suffix h).trans (List.suffix_cons _ _)
    · cases h

theorem attrs_suffix {n : Nat} : ∀ {s : Str} {x : List (Name × Str) × Bool × Str}, attrs n s = some x → x.2.2 <:+ s := by
  induction n with
  | zero => intro s x h; cases h
  | succ n ih =>
    intro s x h
    unfold attrs at h
    split at h
    · cases h
    · next b r e =>
      have hs : b :: r <:+ s := e ▸ skip_suffix s
      have hr : r <:+ s := (List.suffix_cons _ _).trans hs
      split at h
      · split at h
        · cases h
        · split at h
          · cases h; exact (List.suffix_cons _ _).trans hr
          · cases h
      · split at h
        · cases h; exact hr
        · split at h
          · cases h
          · next e2 =>
            have h2 := (nsname_suffix e2).trans hs
            split at h
            · cases h
            · next e3 =>
              have h3 := (List.suffix_cons _ _).trans ((e3 ▸ skip_suffix _).trans h2)
              split at h
              · cases h
              · split at h
                · cases h
                · next e4 =>
                  obtain ⟨y, hy, rfl⟩ := Option.map_eq_some_iff.1 h
                  exact (ih hy).trans ((attrval_suffix e4).trans ((skip_suffix _).trans h3))

omit [NameChars] in
theorem comment_suffix {s r : Str} : ∀ {b0 b1 : Char}, comment b0 b1 s = some r → r <:+ s := by
  induction s with
  | nil => intro b0 b1 h; cases h
  | cons c cs ih =>
    intro b0 b1 h
    unfold comment at h
    split at h
    · split at h
      · cases h; exact List.suffix_cons _ _
      · cases h
    · exact (ih h).trans (List.suffix_cons _ _)

omit [NameChars] in
theorem instruction_suffix {s : Str} : ∀ {b0 : Char} {x : Str × Str}, instruction b0 s = some x → x.2 <:+ s := by
  induction s with
  | nil => intro b0 x h; cases h
  | cons c cs ih =>
    intro b0 x h
    unfold instruction at h
    split at h
    · cases h; exact List.suffix_cons _ _
    · obtain ⟨y, hy, rfl⟩ := Option.map_eq_some_iff.1 h
      exact (ih hy).trans (List.suffix_cons _ _)

omit [NameChars] in
theorem directive_suffix {s r : Str} : ∀ {i : In} {depth : Nat}, directive i depth s = some r → r <:+ s := by
  induction s with
  | nil => intro i depth h; cases i <;> cases h
  | cons c cs ih =>
    intro i depth h
    cases i with
    | plain =>
      unfold directive at h
      split at h
      · cases h; exact List.suffix_cons _ _
      · exact (ih h).trans (List.suffix_cons _ _)
    | quote q => unfold directive at h; exact (ih h).trans (List.suffix_cons _ _)
    | angle k =>
      unfold directive at h
      split at h
      · exact (ih h).trans (List.suffix_cons _ _)
      · exact (ih h).trans (List.suffix_cons _ _)
    | comment b0 b1 => unfold directive at h; exact (ih h).trans (List.suffix_cons _ _)

theorem markup_suffix {d d' : Dec} {s : Str} {t : Token} (h : markup d s = some (t, d')) : d'.rest <:+ s := by
  unfold markup at h
  split at h
  · cases h
  · next b r =>
    have hr : r <:+ b :: r := List.suffix_cons _ _
    split at h
    · split at h
      · cases h
      · next e =>
        split at h
        · cases h
        · next e2 =>
          split at h
          · rw [(pop_inv h).1]
            exact (List.suffix_cons _ _).trans ((e2 ▸ skip_suffix _).trans ((nsname_suffix e).trans hr))
          · cases h
    · split at h
      · split at h
        · cases h
        · next e =>
          split at h
          · cases h
          · next e2 =>
            split at h
            · cases h
            · cases h
              exact (instruction_suffix e2).trans ((skip_suffix _).trans ((name_suffix e).trans hr))
      · split at h
        · split at h
          · cases h
          · next c r' =>
            have hr' : r' <:+ b :: c :: r' := (List.suffix_cons _ _).trans hr
            split at h
            · split at h
              · cases h
              · split at h
                · obtain ⟨y, hy, e⟩ := Option.map_eq_some_iff.1 h
                  cases e
                  exact (comment_suffix hy).trans ((List.suffix_cons _ _).trans hr')
                · cases h
            · split at h
              · split at h
                · obtain ⟨y, hy, e⟩ := Option.map_eq_some_iff.1 h
                  cases e
                  exact (cdata_suffix hy).trans ((List.drop_suffix _ _).trans hr')
                · cases h
              · obtain ⟨y, hy, e⟩ := Option.map_eq_some_iff.1 h
                cases e
                exact (directive_suffix hy).trans hr'
        · split at h
          · cases h
          · next e =>
            split at h
            · cases h
            · next e2 =>
              cases h
              exact (attrs_suffix e2).trans (nsname_suffix e)

/-- What remains behind a token stands in the text. -/
theorem token_suffix {d d' : Dec} {t : Token} (h : Xml.token d = some (t, d')) : d'.rest <:+ d.rest := by
  unfold Xml.token at h
  split at h
  · rw [(pop_inv h).1]
    exact List.suffix_refl _
  · split at h
    · cases h
    · next e =>
      rw [e]
      split at h
      · exact (markup_suffix h).trans (List.suffix_cons _ _)
      · obtain ⟨y, hy, e'⟩ := Option.map_eq_some_iff.1 h
        cases e'
        exact text_suffix hy

end

end Xgen.Bytes
