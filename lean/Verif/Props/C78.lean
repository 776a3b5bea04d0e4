import Verif.Spec.Values
import Verif.Props.C27
import Verif.Props.C51

/-! # C78: types are wide enough for their values

Whether the field that is generated for a built-in type of XML Schema can hold every value of that type.  For each language
the names are listed for which it cannot (`unfit`), with a legal value that is lost; for all others it can. -/

namespace Xgen.C78
open Values

/-- A sufficient check. -/
def fits : Space → Target → Bool
  | _, .literal => true
  | .text, .strings => true
  | .texts, .strings => true
  | .whole (some a) (some b), .whole lo hi => lo ≤ a && b ≤ hi
  | .whole (some a) (some b), .char => 0 ≤ a && b ≤ 127
  | .whole (some a) (some b), .floating p lo hi => -(2 ^ p) < a && b < 2 ^ p && lo ≤ 0 && 0 ≤ hi
  | .floating p lo hi, .floating p' lo' hi' => p ≤ p' && lo' ≤ lo && hi ≤ hi'
  | .truth, .truth => true
  | .bytes, .bytes => true
  | .name, .name => true
  | _, _ => false

theorem Floating.mono {p p' : Nat} {lo lo' hi hi' n : Int} {d : Nat} (h : Floating p lo hi n d) (hp : p ≤ p') (hl : lo' ≤ lo)
    (hh : hi ≤ hi') : Floating p' lo' hi' n d := by
  obtain ⟨m, e, h1, h2, h3, h4⟩ := h
  exact ⟨m, e, Nat.lt_of_lt_of_le h1 (Nat.pow_le_pow_right (by decide) hp), by omega, by omega, h4⟩

theorem fits_sound {s : Space} {t : Target} (h : fits s t = true) {v : Value} (hv : s.In v) : t.Holds v := by
  cases t with
  | literal => trivial
  | char =>
    cases s <;> simp only [fits, Bool.false_eq_true] at h
    rename_i lo hi
    cases lo <;> cases hi <;> simp only [fits, Bool.false_eq_true] at h
    obtain ⟨n, rfl, h1, h2⟩ := hv
    have h1 := h1 _ rfl
    have h2 := h2 _ rfl
    simp only [Bool.and_eq_true, decide_eq_true_eq] at h
    simp only [Target.Holds]; omega
  | strings =>
    cases s <;> simp only [fits, Bool.false_eq_true] at h
    · obtain ⟨x, rfl⟩ := hv; trivial
    · obtain ⟨x, rfl⟩ := hv; trivial
  | whole lo' hi' =>
    cases s <;> simp only [fits, Bool.false_eq_true] at h
    rename_i lo hi
    cases lo <;> cases hi <;> simp only [fits, Bool.false_eq_true] at h
    obtain ⟨n, rfl, h1, h2⟩ := hv
    have h1 := h1 _ rfl
    have h2 := h2 _ rfl
    simp only [Bool.and_eq_true, decide_eq_true_eq] at h
    simp only [Target.Holds]; omega
  | floating p' lo' hi' =>
    cases s <;> simp only [fits, Bool.false_eq_true] at h
    · rename_i lo hi
      cases lo <;> cases hi <;> simp only [fits, Bool.false_eq_true] at h
      obtain ⟨n, rfl, h1, h2⟩ := hv
      have h1 := h1 _ rfl
      have h2 := h2 _ rfl
      simp only [Bool.and_eq_true, decide_eq_true_eq] at h
      refine ⟨n, 0, ?_, by omega, by omega, by simp⟩
      have : ((n.natAbs : Nat) : Int) < ((2 ^ p' : Nat) : Int) := by
        rw [Int.natCast_pow]
        change (n.natAbs : Int) < (2 : Int) ^ p'
        omega
      omega
    · rename_i p lo hi
      simp only [Bool.and_eq_true, decide_eq_true_eq] at h
      rcases hv with ⟨x, rfl⟩ | ⟨n, d, rfl, _, hf⟩
      · trivial
      · exact Floating.mono hf (by omega) h.1.2 h.2
  | truth => cases s <;> simp only [fits, Bool.false_eq_true] at h; obtain ⟨x, rfl⟩ := hv; trivial
  | bytes => cases s <;> simp only [fits, Bool.false_eq_true] at h; obtain ⟨x, rfl⟩ := hv; trivial
  | name => cases s <;> simp only [fits, Bool.false_eq_true] at h; obtain ⟨x, y, rfl⟩ := hv; trivial
  | instant => cases s <;> simp [fits] at h

/-! ## Values that are not held -/

/-- A value outside of a floating point format: an odd number with too many digits, or a fraction whose denominator has a
factor five. -/
def outside : Nat → Value → Bool
  | p, .int n => n % 2 = 1 && (2 ^ p ≤ n || n ≤ -(2 ^ p))
  | p, .real n d => (d = 1 && n % 2 = 1 && 2 ^ p ≤ n) || (n = 1 && d = 10)
  | _, _ => false

theorem odd_large {p : Nat} {lo hi n : Int} (h1 : n % 2 = 1) (h2 : (2 : Int) ^ p ≤ n ∨ n ≤ -(2 : Int) ^ p) : ¬ Floating p lo hi n 1 := by
  intro ⟨m, e, h3, h4, h5, h6⟩
  have hpos : (0 : Int) < 2 ^ p := Int.pow_pos (by decide)
  have hm : (m.natAbs : Int) < 2 ^ p := by
    have : ((m.natAbs : Nat) : Int) < ((2 ^ p : Nat) : Int) := by omega
    rw [Int.natCast_pow] at this
    simpa using this
  simp only [Int.natCast_one, Int.mul_one] at h6
  by_cases he : 0 < e
  · have : (-e).toNat = 0 := by omega
    rw [this] at h6
    obtain ⟨k, hk⟩ : ∃ k, e.toNat = k + 1 := ⟨e.toNat - 1, by omega⟩
    rw [hk, Int.pow_succ] at h6
    have : n = 2 * (m * 2 ^ k) := by
      rw [Int.pow_zero, Int.mul_one] at h6
      rw [h6, ← Int.mul_assoc, Int.mul_comm]
    omega
  · have : e.toNat = 0 := by omega
    rw [this, Int.pow_zero, Int.mul_one] at h6
    have h7 : (1 : Int) ≤ 2 ^ (-e).toNat := Int.pow_pos (by decide)
    rcases h2 with h2 | h2
    · have : n * 1 ≤ n * 2 ^ (-e).toNat := Int.mul_le_mul_of_nonneg_left h7 (by omega)
      omega
    · have : (-n) * 1 ≤ (-n) * 2 ^ (-e).toNat := Int.mul_le_mul_of_nonneg_left h7 (by omega)
      rw [Int.mul_one, Int.neg_mul] at this
      omega

theorem pow_two_mod_five (k : Nat) : (2 : Int) ^ k % 5 ≠ 0 := by
  induction k with
  | zero => decide
  | succ k ih => rw [Int.pow_succ]; omega

theorem tenth {p : Nat} {lo hi : Int} : ¬ Floating p lo hi 1 10 := by
  intro ⟨m, e, _, _, _, h⟩
  have := pow_two_mod_five (-e).toNat
  rw [Int.one_mul] at h
  omega

/-- A check that a value is not held. -/
def lost : Target → Value → Bool
  | .char, .text s => 1 < s.length
  | .char, .int n => n < 0 || 127 < n
  | .char, _ => true
  | .whole lo hi, .int n => n < lo || hi < n
  | .whole _ _, _ => true
  | .floating p _ _, .int n => outside p (.int n)
  | .floating p _ _, .real n d => outside p (.real n d)
  | .name, .text _ => true
  | .instant, .text s => s[10]? ≠ some 'T'
  | _, _ => false

theorem lost_sound {t : Target} {v : Value} (h : lost t v = true) : ¬ t.Holds v := by
  cases t <;> cases v <;>
    simp only [lost, outside, Bool.false_eq_true, Bool.or_eq_true, Bool.and_eq_true, decide_eq_true_eq] at h <;>
    simp only [Target.Holds, not_false_eq_true]
  all_goals first
    | omega
    | exact h
    | exact odd_large h.1 h.2
    | (rcases h with h | h
       · obtain ⟨⟨rfl, h1⟩, h2⟩ := h; exact odd_large h1 (.inl h2)
       · obtain ⟨rfl, rfl⟩ := h; exact tenth)

/-! ## The types -/

/-- The built-in types whose generated type is too narrow. -/
def unfit (lang : Str) : List Str :=
  let unbounded := [c!"integer", c!"negativeInteger", c!"nonNegativeInteger", c!"nonPositiveInteger", c!"positiveInteger",
    c!"decimal"]
  if lang = c!"Go" then unbounded ++ [c!"time"]
  else if lang = c!"TypeScript" then unbounded ++ [c!"long", c!"unsignedLong"]
  else if lang = c!"Java" then
    unbounded ++ [c!"double", c!"unsignedByte", c!"unsignedShort", c!"unsignedInt", c!"unsignedLong", c!"anyURI"]
  else if lang = c!"Rust" then unbounded ++ [c!"byte", c!"date", c!"dateTime"]
  else unbounded ++ [c!"double", c!"long", c!"unsignedLong", c!"unsignedByte", c!"anyType", c!"ENTITY", c!"ID", c!"IDREF",
    c!"NCName", c!"NMTOKEN", c!"Name", c!"QName", c!"anyURI", c!"date", c!"dateTime", c!"duration", c!"gDay", c!"gMonth",
    c!"gMonthDay", c!"gYear", c!"gYearMonth", c!"language", c!"normalizedString", c!"string", c!"time", c!"token",
    c!"xml:lang", c!"xml:space", c!"xml:base", c!"xml:id"]

/-- A type of a language holds all values of a built-in type of XML Schema. -/
def Adequate (lang t n : Str) : Prop :=
  ∃ s g, spaceOf n = some s ∧ targetOf lang t = some g ∧ ∀ v, s.In v → g.Holds v

/-- A type of a language does not hold a certain legal value. -/
def Narrow (lang t n : Str) : Prop :=
  ∃ s g, spaceOf n = some s ∧ targetOf lang t = some g ∧ s.In (sample n) ∧ ¬ g.Holds (sample n)

/-- What `decide` can evaluate. -/
def check (lang n : Str) : Bool :=
  match getBuildInTypeByLang n lang with
  | none => false
  | some t =>
    match spaceOf n, targetOf lang t with
    | some s, some g => if (unfit lang).contains n then lost g (sample n) else fits s g
    | _, _ => false

theorem checked : ∀ lang ∈ C41.langs, ∀ n ∈ C05.xsdNames, check lang n = true := by decide +kernel

/-- A check that a value is in a space. -/
def inB : Space → Value → Bool
  | .text, .text _ => true
  | .texts, .texts _ => true
  | .whole lo hi, .int n => lo.all (· ≤ n) && hi.all (n ≤ ·)
  | .decimal, .real _ 10 => true
  | .floating p lo hi, .real n 1 => n.natAbs < 2 ^ p && lo ≤ 0 && 0 ≤ hi
  | .floating p lo hi, .real n 2 => n.natAbs < 2 ^ p && lo ≤ -1 && -1 ≤ hi
  | .truth, .truth _ => true
  | .bytes, .bytes _ => true
  | .name, .name _ _ => true
  | _, _ => false

theorem inB_sound {s : Space} {v : Value} (h : inB s v = true) : s.In v := by
  unfold inB at h
  split at h
  · exact ⟨_, rfl⟩
  · exact ⟨_, rfl⟩
  · rename_i lo hi n
    simp only [Bool.and_eq_true, Option.all_eq_true, decide_eq_true_eq] at h
    exact ⟨n, rfl, fun l e => h.1 l (by simp [e]), fun l e => h.2 l (by simp [e])⟩
  · exact ⟨_, 1, rfl⟩
  · simp only [Bool.and_eq_true, decide_eq_true_eq] at h
    exact .inr ⟨_, _, rfl, by decide, _, 0, h.1.1, h.1.2, h.2, by simp⟩
  · simp only [Bool.and_eq_true, decide_eq_true_eq] at h
    exact .inr ⟨_, _, rfl, by decide, _, -1, h.1.1, h.1.2, h.2, by simp⟩
  · exact ⟨_, rfl⟩
  · exact ⟨_, rfl⟩
  · exact ⟨_, _, rfl⟩
  · cases h

theorem sample_in : ∀ n ∈ C05.xsdNames, (spaceOf n).any (fun s => inB s (sample n)) = true := by decide +kernel

/-- Every sample is a value of its type. -/
theorem sample_legal {n : Str} (hn : n ∈ C05.xsdNames) : ∃ s, spaceOf n = some s ∧ s.In (sample n) := by
  have := sample_in n hn
  cases h : spaceOf n with
  | none => simp [h] at this
  | some s => exact ⟨s, rfl, inB_sound (by simpa [h] using this)⟩

variable [Uni] [UniLaws]

/-- The type that is written for a reference to a built-in type: `GetValueType` finds it, and the generator writes it out. -/
theorem written (W : World) (rec : Cfg → Go Shared Tree) (cfg : Cfg) (value : Str) (tree final : Tree) (sh : Shared)
    (hl : cfg.lang ∈ C41.langs) (hn : trimNSPrefix value ∈ C05.xsdNames)
    (hd : ∀ t, getBuildInTypeByLang (trimNSPrefix value) cfg.lang = some t → ∀ n ∈ final, ∀ u, C07.declares n ≠ some (t, u)) :
    ∃ t, getBuildInTypeByLang (trimNSPrefix value) cfg.lang = some t ∧
      getValueType W rec cfg value tree sh = .ok (t, none) sh ∧ C51.declared cfg.lang final t = t := by
  obtain ⟨t, h1, h2⟩ := C27.builtin_local W rec cfg value tree sh hn
  exact ⟨t, h1, h2, C51.kept_partial final hl h1 (hd t h1)⟩

/-- C78: a reference to a built-in type that is not listed gets a type that holds all its values, ... -/
theorem adequate_partial (W : World) (rec : Cfg → Go Shared Tree) (cfg : Cfg) (value : Str) (tree final : Tree) (sh : Shared)
    (hl : cfg.lang ∈ C41.langs) (hn : trimNSPrefix value ∈ C05.xsdNames) (hu : trimNSPrefix value ∉ unfit cfg.lang)
    (hd : ∀ t, getBuildInTypeByLang (trimNSPrefix value) cfg.lang = some t → ∀ n ∈ final, ∀ u, C07.declares n ≠ some (t, u)) :
    ∃ t, getValueType W rec cfg value tree sh = .ok (t, none) sh ∧
      Adequate cfg.lang (C51.declared cfg.lang final t) (trimNSPrefix value) := by
  obtain ⟨t, h1, h2, h3⟩ := written W rec cfg value tree final sh hl hn hd
  refine ⟨t, h2, ?_⟩
  have hc := checked cfg.lang hl _ hn
  unfold check at hc
  rw [h1] at hc
  rw [h3]
  cases hs : spaceOf (trimNSPrefix value) <;> cases hg : targetOf cfg.lang t <;> simp only [hs, hg, Bool.false_eq_true] at hc
  · rw [if_neg (by simpa using hu)] at hc
    exact ⟨_, _, hs, hg, fun v hv => fits_sound hc hv⟩

/-- ... and a reference to a listed one gets a type that does not hold a certain legal value. -/
theorem narrow (W : World) (rec : Cfg → Go Shared Tree) (cfg : Cfg) (value : Str) (tree final : Tree) (sh : Shared)
    (hl : cfg.lang ∈ C41.langs) (hn : trimNSPrefix value ∈ C05.xsdNames) (hu : trimNSPrefix value ∈ unfit cfg.lang)
    (hd : ∀ t, getBuildInTypeByLang (trimNSPrefix value) cfg.lang = some t → ∀ n ∈ final, ∀ u, C07.declares n ≠ some (t, u)) :
    ∃ t, getValueType W rec cfg value tree sh = .ok (t, none) sh ∧
      Narrow cfg.lang (C51.declared cfg.lang final t) (trimNSPrefix value) := by
  obtain ⟨t, h1, h2, h3⟩ := written W rec cfg value tree final sh hl hn hd
  refine ⟨t, h2, ?_⟩
  have hc := checked cfg.lang hl _ hn
  obtain ⟨s, hs, hin⟩ := sample_legal hn
  unfold check at hc
  rw [h1] at hc
  rw [h3]
  cases hg : targetOf cfg.lang t <;> simp only [hs, hg, Bool.false_eq_true] at hc
  · rw [if_pos (by simpa using hu)] at hc
    exact ⟨s, _, hs, hg, hin, lost_sound hc⟩

omit [Uni] [UniLaws] in
/-- No type is both. -/
theorem Narrow.not_adequate {lang t n : Str} (h : Narrow lang t n) : ¬ Adequate lang t n := by
  obtain ⟨s, g, h1, h2, h3, h4⟩ := h
  intro ⟨s', g', h1', h2', h⟩
  rw [h1] at h1'; rw [h2] at h2'
  cases h1'; cases h2'
  exact h4 (h _ h3)

/-! ## Examples -/

/-- Rust: a number below zero in an unsigned type; a date in a byte. -/
example : Narrow c!"Rust" c!"u8" c!"byte" ∧ Narrow c!"Rust" c!"u8" c!"date" :=
  ⟨⟨_, _, rfl, rfl, inB_sound (by decide), lost_sound (by decide)⟩, ⟨_, _, rfl, rfl, inB_sound (by decide), lost_sound (by decide)⟩⟩

/-- Go: a byte. -/
example : Adequate c!"Go" c!"int8" c!"byte" := ⟨_, _, rfl, rfl, fun _ hv => fits_sound (by decide) hv⟩

/-- The hypotheses are met, with a type of its own in the tree. -/
example : ∃ t, getValueType (Ex.world []) (fun _ => Go.panic) { filePath := c!"a.xsd", lang := c!"Java" } c!"xs:unsignedByte" [] {} =
      .ok (t, none) {} ∧
    Narrow c!"Java" (@C51.declared asciiUni c!"Java" [some (.simple { name := c!"a", base := c!"String" })] t) c!"unsignedByte" :=
  @narrow asciiUni asciiUniLaws _ _ { filePath := c!"a.xsd", lang := c!"Java" } c!"xs:unsignedByte" []
    [some (.simple { name := c!"a", base := c!"String" })] {} (by decide) (by decide) (by decide)
    (by intro t _ n hn u; simp only [List.mem_singleton] at hn; subst hn
        intro h
        have h' : (c!"a", c!"String") = (t, u) := by simpa [C07.declares] using h
        cases h'
        revert ‹getBuildInTypeByLang _ _ = _›
        decide)

open Ex in
/-- A schema with an element of type xs:byte. -/
def doc : List Token :=
  [on "schema", on "complexType" [("name", "T")]] ++ leaf "element" [("name", "e"), ("type", "xs:byte")] ++
  [off "complexType", off "schema"]

/-- The text of the Rust file. -/
def rustText : Out Shared Tree → Str
  | .ok t _ => (@rustGen asciiUni t).field
  | _ => []

open Ex in
/-- In the generated Rust code it is an unsigned number. -/
theorem byte_unsigned : c!"\tpub e: u8," ∈ splitOn '\n' (rustText (Ex.parse (world [("s.xsd", doc)]) "s.xsd" "Rust")) := by
  decide +kernel

end Xgen.C78
