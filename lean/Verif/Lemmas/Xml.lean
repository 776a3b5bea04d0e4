import Verif.Spec.XmlText

/-! # The decoder reads what `XmlText` writes -/

namespace Xgen.Xml
open Text

/-! ## Characters -/

theorem takeWhile_append_stop {p : α → Bool} {l r : List α} {c : α} (h : ∀ x ∈ l, p x = true) (hc : p c = false) :
    (l ++ c :: r).takeWhile p = l ∧ (l ++ c :: r).dropWhile p = c :: r := by
  induction l with
  | nil => simp [hc]
  | cons x l ih =>
    have := ih (fun y hy => h y (by simp [hy]))
    simp [h x (by simp), this.1, this.2]

theorem isBlank_iff {c : Char} : isBlank c = true ↔ c ∈ c!" \t\r\n" := by
  have : (c!" \t\r\n") = [' ', '\t', '\r', '\n'] := by decide
  rw [this]
  simp [isBlank]
  constructor
  · rintro (((h | h) | h) | h) <;> simp [h]
  · rintro (h | h | h | h) <;> simp [h]

theorem skip_blank {sp r : Str} {c : Char} (h : Blank sp) (hc : isBlank c = false) : skip (sp ++ c :: r) = c :: r :=
  (takeWhile_append_stop (fun x hx => isBlank_iff.mpr (h x hx)) hc).2

theorem inRange_of {c : Char} (h : Allowed c) : inRange c = true := by
  unfold Allowed at h
  unfold inRange
  simp
  rcases h with h | h | h | ⟨h1, h2, h3⟩
  · simp [h]
  · simp [h]
  · simp [h]
  · omega

section
variable [NameChars]

theorem isFirst_of {c : Char} (h : NameStart c) : isFirst c = true := by
  unfold isFirst
  rcases h with ⟨h1, h2⟩ | ⟨h1, h2⟩ | h | ⟨h1, h2⟩
  · have h1' : 97 ≤ c.toNat := h1
    have h2' : c.toNat ≤ 122 := h2
    rw [if_pos (by omega)]; simp [isAsciiLetter, isAsciiLower, h1', h2']
  · have h1' : 65 ≤ c.toNat := h1
    have h2' : c.toNat ≤ 90 := h2
    rw [if_pos (by omega)]; simp [isAsciiLetter, isAsciiUpper, h1', h2']
  · subst h; rfl
  · rw [if_neg (by omega)]; exact h2

theorem isPart_of {c : Char} (h : NamePart c) : (isFirst c || isSecond c) = true := by
  rcases h with h | ⟨h1, h2⟩ | h | h | ⟨h1, h2⟩
  · simp [isFirst_of h]
  · have h1' : 48 ≤ c.toNat := h1
    have h2' : c.toNat ≤ 57 := h2
    unfold isSecond
    rw [if_pos (by omega)]; simp [isAsciiDigit, h1', h2']
  · subst h; simp [isSecond]
  · subst h; simp [isSecond]
  · unfold isSecond; rw [if_neg (by omega)]; simp [h2]

theorem inName_of {c : Char} (h : NamePart c) : inName c = true := by
  unfold inName
  rcases h with (⟨h1, h2⟩ | ⟨h1, h2⟩ | h | ⟨h1, h2⟩) | ⟨h1, h2⟩ | h | h | ⟨h1, h2⟩
  · have h1' : 97 ≤ c.toNat := h1
    have h2' : c.toNat ≤ 122 := h2
    simp [isAsciiLetter, isAsciiLower, h1', h2']
  · have h1' : 65 ≤ c.toNat := h1
    have h2' : c.toNat ≤ 90 := h2
    simp [isAsciiLetter, isAsciiUpper, h1', h2']
  · subst h; decide
  · simp [h1]
  · have h1' : 48 ≤ c.toNat := h1
    have h2' : c.toNat ≤ 57 := h2
    simp [isAsciiDigit, h1', h2']
  · subst h; decide
  · subst h; decide
  · simp [h1]

theorem part_ne_colon {c : Char} (h : NamePart c) : c ≠ ':' := by
  rintro rfl
  revert h
  unfold NamePart NameStart
  simp

theorem start_ne {c : Char} (h : NameStart c) : c ≠ '/' ∧ c ≠ '>' ∧ c ≠ '?' ∧ c ≠ '!' ∧ c ≠ '=' ∧ isBlank c = false := by
  refine ⟨?_, ?_, ?_, ?_, ?_, ?_⟩
  rotate_right
  · cases hb : isBlank c with
    | false => rfl
    | true =>
      exfalso
      simp [isBlank] at hb
      rcases hb with ((hb | hb) | hb) | hb <;> (subst hb; revert h; unfold NameStart; simp)
  all_goals (rintro rfl; revert h; unfold NameStart; simp)

/-! ## Names -/

/-- The end of a name. -/
def Stops (r : Str) : Prop := ∃ c r', r = c :: r' ∧ inName c = false

theorem name_part {s : Str} (h : NCName s) : ∀ c ∈ s, NamePart c := by
  obtain ⟨c, cs, rfl, h1, h2⟩ := h
  intro d hd
  rcases List.mem_cons.mp hd with rfl | hd
  · exact .inl h1
  · exact h2 d hd

theorem isName_of {s : Str} (h : NCName s) : isName s = true := by
  obtain ⟨c, cs, rfl, h1, h2⟩ := h
  simp only [isName, isFirst_of h1, Bool.true_and, List.all_eq_true]
  exact fun d hd => isPart_of (h2 d hd)

theorem written_ne {q : QName} (h : q.Ok) : ∃ c cs, q.written = c :: cs ∧ NameStart c := by
  obtain ⟨h1, c, cs, h2, h3, _⟩ := h
  unfold QName.written
  cases hp : q.pre with
  | nil => exact ⟨c, cs, by simp [h2], h3⟩
  | cons d ds =>
    rw [hp] at h1
    rcases h1 with h1 | ⟨e, es, h1, h4, _⟩
    · cases h1
    · simp only [List.cons.injEq] at h1
      exact ⟨d, ds ++ ':' :: q.loc, by simp, h1.1 ▸ h4⟩

theorem written_inName {q : QName} (h : q.Ok) : ∀ c ∈ q.written, inName c = true := by
  intro c hc
  unfold QName.written at hc
  split at hc
  · exact inName_of (name_part h.2 c hc)
  · next hp =>
    rcases List.mem_append.mp hc with hc | hc
    · exact inName_of (name_part (h.1.resolve_left hp) c hc)
    · rcases List.mem_cons.mp hc with rfl | hc
      · decide
      · exact inName_of (name_part h.2 c hc)

theorem written_isName {q : QName} (h : q.Ok) : isName q.written = true := by
  unfold QName.written
  split
  · exact isName_of h.2
  · next hp =>
    obtain ⟨c, cs, h1, h2, h3⟩ := h.1.resolve_left hp
    rw [h1]
    simp only [List.cons_append, isName, isFirst_of h2, Bool.true_and, List.all_eq_true]
    intro d hd
    rcases List.mem_append.mp hd with hd | hd
    · exact isPart_of (h3 d hd)
    · rcases List.mem_cons.mp hd with rfl | hd
      · simp [isFirst]
      · exact isPart_of (name_part h.2 d hd)

omit [NameChars] in
theorem readName_of {n r : Str} (hn : n ≠ []) (h : ∀ c ∈ n, inName c = true) (hr : Stops r) :
    readName (n ++ r) = some (n, r) := by
  obtain ⟨c, r', rfl, hc⟩ := hr
  have := takeWhile_append_stop (r := r') h hc
  unfold readName
  rw [this.1, this.2]
  cases n with
  | nil => exact absurd rfl hn
  | cons => rfl

theorem name_of {n r : Str} (h : NCName n) (hr : Stops r) : name (n ++ r) = some (n, r) := by
  unfold name
  rw [readName_of (by obtain ⟨c, cs, rfl, _⟩ := h; simp) (fun c hc => inName_of (name_part h c hc)) hr]
  simp [isName_of h]

theorem nsname_of {q : QName} {r : Str} (h : q.Ok) (hr : Stops r) :
    nsname (q.written ++ r) = some (⟨q.pre, q.loc⟩, r) := by
  unfold nsname name
  rw [readName_of (by obtain ⟨c, cs, h, _⟩ := written_ne h; simp [h]) (written_inName h) hr]
  simp only [written_isName h, if_true]
  have hl : ':' ∉ q.loc := fun hm => part_ne_colon (name_part h.2 _ hm) rfl
  unfold QName.written
  by_cases hp : q.pre = []
  · rw [if_pos hp]
    simp [List.count_eq_zero_of_not_mem hl, hl, hp]
  · have hm : ':' ∉ q.pre := fun hm => part_ne_colon (name_part (h.1.resolve_left hp) _ hm) rfl
    rw [if_neg hp]
    have hw := takeWhile_append_stop (p := fun x : Char => decide (x ≠ ':')) (l := q.pre) (r := q.loc) (c := ':')
      (fun x hx => by simp; rintro rfl; exact hm hx) (by simp)
    have hq : q.loc ≠ [] := by obtain ⟨c, cs, h, _⟩ := h.2; simp [h]
    rw [hw.1, hw.2]
    simp [List.count_append, List.count_eq_zero_of_not_mem hl, List.count_eq_zero_of_not_mem hm, hp, hq]

/-! ## Character data -/

theorem entity_of {e : Str × Char} (h : e ∈ predefined) (r : Str) :
    reference (e.1 ++ ';' :: r) = some (e.2, (e.1 ++ [';']).length) := by
  simp only [predefined, List.mem_cons, List.not_mem_nil, or_false] at h
  rcases h with rfl | rfl | rfl | rfl | rfl <;> rfl

end

theorem digit_ok : ∀ up, ∀ n < 16, isHex (digit up n) = true ∧ unhex (digit up n) = n := by decide
theorem digit_dec : ∀ up, ∀ n < 10, isAsciiDigit (digit up n) = true ∧ digit up n ≠ 'x' := by decide

theorem value_fold (base : Nat) (up : Bool) (ds : List Nat) (h : ∀ d ∈ ds, d < 16) (v : Nat) :
    (ds.map (digit up)).foldl (fun v d => v * base + unhex d) v = v * base ^ ds.length + value base ds := by
  induction ds generalizing v with
  | nil => simp [value]
  | cons d ds ih =>
    simp only [List.map_cons, List.foldl_cons, List.length_cons, value]
    rw [ih (fun x hx => h x (by simp [hx])), (digit_ok up d (h d (by simp))).2, Nat.add_mul, Nat.pow_succ,
      Nat.mul_assoc, Nat.mul_comm base, Nat.add_assoc]

theorem number_of {base : Nat} {ok : Char → Bool} {k : Nat} {up : Bool} {ds : List Nat} (r : Str) (hne : ds ≠ [])
    (h : ∀ d ∈ ds, d < 16) (hok : ∀ d ∈ ds, ok (digit up d) = true) (hs : ok ';' = false)
    (hv : (value base ds).isValidChar) :
    number base ok k (ds.map (digit up) ++ ';' :: r) = some (Char.ofNat (value base ds), k + ds.length + 1) := by
  have hw := takeWhile_append_stop (p := ok) (l := ds.map (digit up)) (r := r) (c := ';')
    (by intro x hx; obtain ⟨d, hd, rfl⟩ := List.mem_map.mp hx; exact hok d hd) hs
  unfold number
  simp only [hw.1, hw.2]
  have hf := value_fold base up ds h 0
  cases ds with
  | nil => exact absurd rfl hne
  | cons d ds =>
    simp only [List.map_cons] at hf ⊢
    rw [hf]
    have : value base (d :: ds) ≤ 0x10FFFF := by
      rcases hv with hv | hv <;> omega
    simp only [Nat.zero_mul, Nat.zero_add, this, and_true, if_true, true_and]
    simp [rune, hv]

section
variable [NameChars]

theorem number_ref {hex up : Bool} {ds : List Nat} (r : Str) (h : (Piece.number hex up ds).Ok q) :
    reference (((Piece.number hex up ds).written ++ r).drop 1) =
      some ((Piece.number hex up ds).means, ((Piece.number hex up ds).written.drop 1).length) := by
  obtain ⟨h1, h2, h3, _⟩ := h
  cases hex with
  | true =>
    have h2' : ∀ d ∈ ds, d < 16 := by simpa using h2
    show reference ('#' :: 'x' :: ((ds.map (digit up) ++ [';']) ++ r)) = _
    simp only [reference, if_true]
    rw [List.append_assoc]
    simp only [List.cons_append, List.nil_append]
    rw [number_of r h1 h2' (fun d hd => (digit_ok up d (h2' d hd)).1) (by decide) (by simpa using h3)]
    simp [Piece.means, Piece.written]; omega
  | false =>
    have h2' : ∀ d ∈ ds, d < 10 := by simpa using h2
    show reference ('#' :: ((ds.map (digit up) ++ [';']) ++ r)) = _
    rw [List.append_assoc]
    simp only [List.cons_append, List.nil_append]
    have := number_of (base := 10) (ok := isAsciiDigit) (k := 1) (up := up) r h1 (fun d hd => by have := h2' d hd; omega)
      (fun d hd => (digit_dec up d (h2' d hd)).1) (by decide) (by simpa using h3)
    cases ds with
    | nil => exact absurd rfl h1
    | cons d ds =>
      simp only [List.map_cons, List.cons_append] at this ⊢
      simp only [reference, if_true, if_neg (digit_dec up d (h2' d (by simp))).2]
      rw [this]
      simp [Piece.means, Piece.written]; omega

theorem chars_skip {q : Option Char} {cd : Bool} (s : Str) (b0 b1 : Char) (r : Str) :
    chars q cd s.length b0 b1 (s ++ r) = chars q cd 0 b0 b1 r := by
  induction s with
  | nil => rfl
  | cons c s ih => simpa [chars] using ih

theorem chars_plain {q : Option Char} {b0 b1 c : Char} (cs : Str) (h1 : ¬ (q = none ∧ b0 = ']' ∧ b1 = ']' ∧ c = '>'))
    (h2 : c ≠ '<') (h3 : q ≠ some c) (h4 : c ≠ '&') :
    chars q false 0 b0 b1 (c :: cs) = (chars q false 0 b1 c cs).map fun x =>
        (if c = '\r' then '\n' :: x.1 else if b1 = '\r' ∧ c = '\n' then x.1 else c :: x.1, x.2) := by
  rw [chars, if_neg h1, if_neg (by simp [h2]), if_neg h3, if_neg (by simp [h4])]

theorem chars_ref {q : Option Char} {b0 b1 : Char} {x : Char} (s r : Str) (h : reference (s ++ r) = some (x, s.length))
    (hq : q ≠ some '&') :
    chars q false 0 b0 b1 ('&' :: s ++ r) = (chars q false 0 nul nul r).map fun y => (x :: y.1, y.2) := by
  rw [List.cons_append, chars, if_neg (by simp), if_neg (by decide), if_neg hq, if_pos (by simp), h]
  simp only [chars_skip]

theorem not_bracket_nul (ps : List Piece) (h : ¬ bracket <:+: ps) : ¬ bracket <:+: .char nul :: .char nul :: ps := by
  simp only [bracket, List.infix_cons_iff, List.cons_prefix_cons] at h ⊢
  simp [h, nul]

theorem bracket_cons (p : Piece) {ps : List Piece} (h : ¬ bracket <:+: p :: ps) : ¬ bracket <:+: ps :=
  fun hh => h (hh.trans (List.suffix_cons p ps).isInfix)

/-- How character data or an attribute value ends. -/
def Ends (q : Option Char) (r rest : Str) : Prop :=
  (q = none ∧ r = rest ∧ (r = [] ∨ ∃ r', r = '<' :: r')) ∨
    ((q = some '"' ∨ q = some '\'') ∧ ∃ c, q = some c ∧ r = c :: rest)

theorem chars_of {q : Option Char} {r rest : Str} (he : Ends q r rest) (ps : List Piece) (hp : ∀ p ∈ ps, p.Ok q) (b0 b1 : Char)
    (hb : b1 ≠ '\r') (hq : q = none → ¬ bracket <:+: .char b0 :: .char b1 :: ps) :
    chars q false 0 b0 b1 (pieces ps ++ r) = some (ps.map Piece.means, rest) := by
  have hamp : q ≠ some '&' := by
    rcases he with ⟨h, _⟩ | ⟨h | h, _⟩ <;> rw [h] <;> decide
  induction ps generalizing b0 b1 with
  | nil =>
    rcases he with ⟨h1, rfl, h2⟩ | ⟨h1, c, rfl, rfl⟩
    · subst h1
      rcases h2 with rfl | ⟨r', rfl⟩
      · simp [pieces, chars]
      · simp [pieces, chars]
    · simp only [Option.some.injEq] at h1
      rcases h1 with rfl | rfl <;> simp [pieces, chars]
  | cons p ps ih =>
    have ih := ih (fun p hp' => hp p (by simp [hp']))
    have hh : pieces (p :: ps) ++ r = p.written ++ (pieces ps ++ r) := by simp [pieces]
    rw [hh]
    have hok := hp p (by simp)
    cases p with
    | char c =>
      obtain ⟨_, h1, h2, h3, h4⟩ := hok
      show chars q false 0 b0 b1 (c :: (pieces ps ++ r)) = _
      rw [chars_plain _ _ h1 (fun h => h4 h.symm) h2, ih b1 c h3 (fun hn => bracket_cons _ (hq hn))]
      · have hb' : ¬ (b1 = '\r' ∧ c = '\n') := fun h => hb h.1
        simp [h3, hb', Piece.means]
      · rintro ⟨hn, rfl, rfl, rfl⟩
        exact hq hn ⟨[], ps, rfl⟩
    | crlf =>
      show chars q false 0 b0 b1 ('\r' :: '\n' :: (pieces ps ++ r)) = _
      have h1 : q ≠ some '\r' := by rcases he with ⟨h, _⟩ | ⟨h | h, _⟩ <;> rw [h] <;> decide
      have h2 : q ≠ some '\n' := by rcases he with ⟨h, _⟩ | ⟨h | h, _⟩ <;> rw [h] <;> decide
      rw [chars_plain _ (by simp) (by decide) h1 (by decide), chars_plain _ (by simp) (by decide) h2 (by decide),
        ih '\r' '\n' (by decide)]
      · simp [Piece.means]
      · intro hn
        have := hq hn
        have h3 := bracket_cons _ (bracket_cons _ (bracket_cons _ this))
        simp only [bracket, List.infix_cons_iff, List.cons_prefix_cons] at h3 ⊢
        simp [h3]
    | named e =>
      have h1 : (Piece.named e).written ++ (pieces ps ++ r) = '&' :: (e.1 ++ [';']) ++ (pieces ps ++ r) := by
        simp [Piece.written]
      rw [h1, chars_ref (x := e.2) _ _ _ hamp, ih nul nul (by decide)]
      · simp [Piece.means]
      · intro hn
        exact not_bracket_nul _ (bracket_cons _ (bracket_cons _ (bracket_cons _ (hq hn))))
      · rw [List.append_assoc]
        exact entity_of hok _
    | number hex up ds =>
      have h0 : (Piece.number hex up ds).written = '&' :: (Piece.number hex up ds).written.drop 1 := by
        cases hex <;> simp [Piece.written]
      have h2 := number_ref (pieces ps ++ r) hok
      rw [h0] at h2 ⊢
      rw [List.drop_one, List.cons_append, List.tail_cons] at h2
      rw [chars_ref (x := (Piece.number hex up ds).means) _ _ (by simpa using h2) hamp, ih nul nul (by decide)]
      · simp
      · intro hn
        exact not_bracket_nul _ (bracket_cons _ (bracket_cons _ (bracket_cons _ (hq hn))))

theorem means_allowed {q : Option Char} {p : Piece} (h : p.Ok q) : inRange p.means = true := by
  cases p with
  | char c => exact inRange_of h.1
  | crlf => decide
  | named e =>
    have h : e ∈ predefined := h
    simp only [predefined, List.mem_cons, List.not_mem_nil, or_false] at h
    rcases h with rfl | rfl | rfl | rfl | rfl <;> decide
  | number hex up ds => exact inRange_of h.2.2.2

theorem text_of {q : Option Char} {r rest : Str} (he : Ends q r rest) (ps : List Piece) (hp : ∀ p ∈ ps, p.Ok q)
    (hq : q = none → ¬ bracket <:+: ps) : text q (pieces ps ++ r) = some (ps.map Piece.means, rest) := by
  unfold text
  rw [chars_of he ps hp nul nul (by decide) (fun hn => not_bracket_nul _ (hq hn))]
  simp only
  rw [if_pos]
  simp only [List.all_eq_true, List.mem_map]
  rintro c ⟨p, h1, rfl⟩
  exact means_allowed (hp p h1)

/-! ## Start tags -/

theorem attr_cons_stop {s : Str} {c : Char} {r : Str} (h : Blank s) (hc : inName c = false) : Stops (s ++ c :: r) := by
  cases s with
  | nil => exact ⟨c, r, rfl, hc⟩
  | cons d s =>
    refine ⟨d, s ++ c :: r, rfl, ?_⟩
    have := h d (by simp)
    have hl : (c!" \t\r\n") = [' ', '\t', '\r', '\n'] := by decide
    rw [hl] at this
    simp only [List.mem_cons, List.not_mem_nil, or_false] at this
    rcases this with rfl | rfl | rfl | rfl <;> decide

/-- The end of a start tag as written. -/
def tagEnd (empty : Bool) (r : Str) : Str := if empty then '/' :: '>' :: r else '>' :: r

theorem attrs_of (empty : Bool) (sp r : Str) (hs : Blank sp) (as : List AttrText) (h : ∀ a ∈ as, a.Ok) (n : Nat) (hn : as.length < n) :
    attrs n (as.flatMap AttrText.written ++ sp ++ tagEnd empty r) =
      some (as.map fun a => (⟨a.name.pre, a.name.loc⟩, a.value.map Piece.means), empty, r) := by
  induction as generalizing n with
  | nil =>
    cases n with
    | zero => cases hn
    | succ n =>
      cases empty with
      | true =>
        simp only [List.flatMap_nil, List.nil_append, tagEnd, if_true]
        rw [attrs, skip_blank hs (by decide)]
        simp
      | false =>
        simp only [List.flatMap_nil, List.nil_append, tagEnd, Bool.false_eq_true, if_false]
        rw [attrs, skip_blank hs (by decide)]
        simp
  | cons a as ih =>
    cases n with
    | zero => cases hn
    | succ n =>
      have ih := ih (fun x hx => h x (by simp [hx])) n (by simpa using hn)
      obtain ⟨h1, h2, h3, h4, h5, h6, h7⟩ := h a (by simp)
      have hw : (a :: as).flatMap AttrText.written ++ sp ++ tagEnd empty r =
          a.sep ++ (a.name.written ++ (a.before ++ '=' :: (a.after ++ a.quote :: (pieces a.value ++ a.quote ::
            (as.flatMap AttrText.written ++ sp ++ tagEnd empty r))))) := by
        simp [AttrText.written]
      rw [hw]
      obtain ⟨c, cs, hc, hcs⟩ := written_ne h3
      have hns := nsname_of (r := a.before ++ '=' :: (a.after ++ a.quote :: (pieces a.value ++ a.quote ::
            (as.flatMap AttrText.written ++ sp ++ tagEnd empty r)))) h3 (attr_cons_stop h4 (by decide))
      rw [hc, List.cons_append] at hns ⊢
      have hst := start_ne hcs
      rw [attrs, skip_blank h2 hst.2.2.2.2.2]
      simp only [if_neg hst.1, if_neg hst.2.1, hns]
      rw [skip_blank h4 (by decide)]
      simp only [ne_eq, not_true_eq_false, if_false]
      have hquote : isBlank a.quote = false := by rcases h6 with h6 | h6 <;> rw [h6] <;> decide
      rw [skip_blank h5 hquote]
      simp only [attrval, if_pos h6]
      rw [text_of (q := some a.quote) (rest := as.flatMap AttrText.written ++ sp ++ tagEnd empty r)
        (.inr ⟨by simpa using h6, a.quote, rfl, rfl⟩) a.value h7 (by simp)]
      simp only [ih]
      simp

/-! ## Comments, instructions, sections, directives -/

omit [NameChars] in
theorem comment_of (r : Str) (s : Str) (b0 b1 : Char) (h1 : ¬ c!"--" <:+: b0 :: b1 :: s) (h2 : (b1 :: s).getLast? ≠ some '-') :
    comment b0 b1 (s ++ '-' :: '-' :: '>' :: r) = some r := by
  have hd : (c!"--") = ['-', '-'] := by decide
  rw [hd] at h1
  induction s generalizing b0 b1 with
  | nil =>
    have hb : b1 ≠ '-' := by simpa using h2
    simp [comment, hb]
  | cons c s ih =>
    have hb : ¬ (b0 = '-' ∧ b1 = '-') := by
      rintro ⟨rfl, rfl⟩
      exact h1 ⟨[], c :: s, rfl⟩
    rw [List.cons_append, comment, if_neg hb]
    refine ih b1 c ?_ ?_
    · exact fun hh => h1 (hh.trans (List.suffix_cons b0 _).isInfix)
    · simpa using h2

omit [NameChars] in
theorem comment_ok {s r : Str} (h : CommentOk s) : comment nul nul (s ++ '-' :: '-' :: '>' :: r) = some r := by
  refine comment_of r s nul nul ?_ ?_
  · have hd : (c!"--") = ['-', '-'] := by decide
    have h1 := h.1
    rw [hd] at h1 ⊢
    simp only [List.infix_cons_iff, List.cons_prefix_cons]
    simp only [not_or]
    exact ⟨by simp [nul], by simp [nul], h1⟩
  · cases s with
    | nil => decide
    | cons c s => simpa using h.2

omit [NameChars] in
theorem instruction_of (r : Str) (s : Str) (b0 : Char) (h : '?' ∉ s) (hb : b0 ≠ '?') :
    instruction b0 (s ++ '?' :: '>' :: r) = some (s ++ c!"?>", r) := by
  induction s generalizing b0 with
  | nil => simp [instruction]
  | cons c s ih =>
    simp only [List.mem_cons, not_or] at h
    rw [List.cons_append, instruction, if_neg (by simp [hb]), ih c h.2 (fun e => h.1 e.symm)]
    simp

theorem cdata_chars (r : Str) (ps : List Piece) (hp : ∀ p ∈ ps, p = .crlf ∨ ∃ c, p = .char c ∧ Allowed c ∧ c ≠ '\r')
    (b0 b1 : Char) (hb : b1 ≠ '\r') (hq : ¬ bracket <:+: .char b0 :: .char b1 :: ps) :
    chars none true 0 b0 b1 (pieces ps ++ ']' :: ']' :: '>' :: r) = some (ps.map Piece.means ++ c!"]]", r) := by
  induction ps generalizing b0 b1 with
  | nil => simp [pieces, chars, hb]
  | cons p ps ih =>
    have ih := ih (fun p hp' => hp p (by simp [hp']))
    have hh : pieces (p :: ps) ++ ']' :: ']' :: '>' :: r = p.written ++ (pieces ps ++ ']' :: ']' :: '>' :: r) := by
      simp [pieces]
    rw [hh]
    rcases hp p (by simp) with rfl | ⟨c, rfl, _, h3⟩
    · show chars none true 0 b0 b1 ('\r' :: '\n' :: (pieces ps ++ ']' :: ']' :: '>' :: r)) = _
      rw [chars, if_neg (by simp), if_neg (by decide), if_neg (by simp), if_neg (by simp),
        chars, if_neg (by simp), if_neg (by decide), if_neg (by simp), if_neg (by simp), ih '\r' '\n' (by decide)]
      · simp [Piece.means]
      · have h3 := bracket_cons _ (bracket_cons _ (bracket_cons _ hq))
        simp only [bracket, List.infix_cons_iff, List.cons_prefix_cons] at h3 ⊢
        simp [h3]
    · show chars none true 0 b0 b1 (c :: (pieces ps ++ ']' :: ']' :: '>' :: r)) = _
      rw [chars, if_neg, if_neg (by simp), if_neg (by simp), if_neg (by simp), ih b1 c h3 (bracket_cons _ hq)]
      · have hb' : ¬ (b1 = '\r' ∧ c = '\n') := fun h => hb h.1
        simp [h3, hb', Piece.means]
      · rintro ⟨_, rfl, rfl, rfl⟩
        exact hq ⟨[], ps, rfl⟩

theorem cdata_of (r : Str) (ps : List Piece) (hp : ∀ p ∈ ps, p = .crlf ∨ ∃ c, p = .char c ∧ Allowed c ∧ c ≠ '\r')
    (hq : ¬ bracket <:+: ps) : cdata (pieces ps ++ ']' :: ']' :: '>' :: r) = some (ps.map Piece.means, r) := by
  unfold cdata
  rw [cdata_chars r ps hp nul nul (by decide) (not_bracket_nul _ hq)]
  have hd : (ps.map Piece.means ++ c!"]]").dropLast.dropLast = ps.map Piece.means := by
    have : (c!"]]") = [']'] ++ [']'] := by decide
    rw [this, ← List.append_assoc, List.dropLast_concat, List.dropLast_concat]
  simp only [hd]
  rw [if_pos]
  simp only [List.all_eq_true, List.mem_map]
  rintro c ⟨p, h1, rfl⟩
  rcases hp p h1 with rfl | ⟨c, rfl, h, _⟩
  · decide
  · exact inRange_of h

omit [NameChars] in
theorem directive_quote {q : Char} {s : Str} (h : q ∉ s) (depth : Nat) (r : Str) :
    directive (.quote q) depth (s ++ q :: r) = directive .plain depth r := by
  induction s with
  | nil => simp [directive]
  | cons c s ih =>
    simp only [List.mem_cons, not_or] at h
    rw [List.cons_append, directive, if_neg (fun e => h.1 e.symm), ih h.2]

omit [NameChars] in
theorem directive_comment (r : Str) (depth : Nat) (s : Str) (b0 b1 : Char) (h1 : ¬ c!"--" <:+: b0 :: b1 :: s)
    (h2 : (b1 :: s).getLast? ≠ some '-') :
    directive (.comment b0 b1) depth (s ++ '-' :: '-' :: '>' :: r) = directive .plain depth r := by
  have hd : (c!"--") = ['-', '-'] := by decide
  rw [hd] at h1
  induction s generalizing b0 b1 with
  | nil => simp [directive]
  | cons c s ih =>
    have hb : ¬ (b0 = '-' ∧ b1 = '-' ∧ c = '>') := by
      rintro ⟨rfl, rfl, _⟩
      exact h1 ⟨[], c :: s, rfl⟩
    rw [List.cons_append, directive, if_neg hb]
    refine ih b1 c ?_ ?_
    · exact fun hh => h1 (hh.trans (List.suffix_cons b0 _).isInfix)
    · simpa using h2

omit [NameChars] in
theorem directive_of (i : Inner) (h : i.Ok) (depth : Nat) (r : Str) :
    directive .plain depth (i.written ++ r) = directive .plain depth r := by
  induction i generalizing depth r with
  | nil => rfl
  | char c n ih =>
    obtain ⟨⟨h1, h2, h3, h4⟩, h⟩ := h
    rw [Inner.written, List.cons_append, directive, if_neg (by simp [h2])]
    simp only [directiveChar, h1, h2, h3, h4, or_self, if_false]
    exact ih h depth r
  | quoted q s n ih =>
    obtain ⟨h1, h2, h⟩ := h
    rw [Inner.written, List.cons_append, List.cons_append, directive,
      if_neg (by rcases h1 with rfl | rfl <;> simp)]
    have : directiveChar depth q = (.quote q, depth) := by rcases h1 with rfl | rfl <;> rfl
    simp only [this]
    rw [List.append_assoc, List.cons_append, directive_quote h2, ih h]
  | comment s n ih =>
    obtain ⟨h1, h⟩ := h
    have hw : (Inner.comment s n).written ++ r = '<' :: '!' :: '-' :: '-' :: (s ++ '-' :: '-' :: '>' :: (n.written ++ r)) := by
      have h3 : (c!"<!--") = ['<', '!', '-', '-'] := by decide
      have h4 : (c!"-->") = ['-', '-', '>'] := by decide
      rw [Inner.written, h3, h4]; simp
    rw [hw]
    have h3 : directive .plain depth ('<' :: '!' :: '-' :: '-' :: (s ++ '-' :: '-' :: '>' :: (n.written ++ r))) =
        directive (.comment nul nul) depth (s ++ '-' :: '-' :: '>' :: (n.written ++ r)) := rfl
    rw [h3, directive_comment, ih h]
    · have hd : (c!"--") = ['-', '-'] := by decide
      have h1 := h1.1
      rw [hd] at h1 ⊢
      simp only [List.infix_cons_iff, List.cons_prefix_cons]
      simp only [not_or]
      exact ⟨by simp [nul], by simp [nul], h1⟩
    · cases s with
      | nil => decide
      | cons c s => simpa using h1.2
  | nested c b n ih1 ih2 =>
    obtain ⟨⟨h1, h2, h3, h4⟩, h5, h6, h7⟩ := h
    have hw : (Inner.nested c b n).written ++ r = '<' :: '!' :: c :: (b.written ++ '>' :: (n.written ++ r)) := by
      simp [Inner.written]
    have hc : directiveChar (depth + 1) c = (.plain, depth + 1) := by
      simp [directiveChar, h1, h2, h3, h4]
    have h8 : directive .plain depth ('<' :: '!' :: c :: (b.written ++ '>' :: (n.written ++ r))) =
        directive (.angle 1) depth (c :: (b.written ++ '>' :: (n.written ++ r))) := rfl
    rw [hw, h8, directive, if_neg (show ¬ some c = (c!"!--")[1]? from by
      have : (c!"!--")[1]? = some '-' := by decide
      rw [this]; simpa using h5)]
    simp only [hc]
    rw [ih1 h6, directive, if_neg (by simp)]
    have : directiveChar (depth + 1) '>' = (.plain, depth) := rfl
    simp only [this]
    exact ih2 h7 depth r

end

end Xgen.Xml
