import Verif.Model.Flag
import Verif.Spec.Example
import Verif.Lemmas.Inv

/-! # C60: reading the command line

Every argument list is a sequence of well-formed flags followed by something that ends the reading: nothing, "--", an argument
that is not a flag, or a mistake.  The last value given to a flag counts, and positional arguments are ignored. -/

namespace Xgen.C60

/-! ## Specification -/

/-- The words for truth values. -/
def words : List (Str × Bool) :=
  [(c!"1", true), (c!"t", true), (c!"T", true), (c!"true", true), (c!"TRUE", true), (c!"True", true),
   (c!"0", false), (c!"f", false), (c!"F", false), (c!"false", false), (c!"FALSE", false), (c!"False", false)]

/-- Flags that take a text. -/
def texts : List Str := [c!"i", c!"o", c!"p", c!"l"]

/-- Flags that are on or off. -/
def switches : List Str := [c!"v", c!"h"]

/-- One or two dashes. -/
def dashes (two : Bool) (s : Str) : Str := if two then '-' :: '-' :: s else '-' :: s

/-- A flag as written: `-n v`, `-n=v`, `-n` and `-n=word`, with one or two dashes. -/
inductive Item where
  | text (two : Bool) (n v : Str)
  | textEq (two : Bool) (n v : Str)
  | switch (two : Bool) (n : Str)
  | switchEq (two : Bool) (n w : Str) (b : Bool)
deriving DecidableEq, Repr

/-- The flags of this program. -/
def Item.Valid : Item → Prop
  | .text _ n _ => n ∈ texts
  | .textEq _ n _ => n ∈ texts
  | .switch _ n => n ∈ switches
  | .switchEq _ n w b => n ∈ switches ∧ (w, b) ∈ words

/-- The arguments a flag consists of. -/
def Item.args : Item → List Str
  | .text two n v => [dashes two n, v]
  | .textEq two n v => [dashes two (n ++ '=' :: v)]
  | .switch two n => [dashes two n]
  | .switchEq two n w _ => [dashes two (n ++ '=' :: w)]

/-- The text given to `n`. -/
def Item.textFor (n : Str) : Item → Option Str
  | .text _ m v => if m = n then some v else none
  | .textEq _ m v => if m = n then some v else none
  | _ => none

/-- The truth value given to `n`. -/
def Item.switchFor (n : Str) : Item → Option Bool
  | .switch _ m => if m = n then some true else none
  | .switchEq _ m _ b => if m = n then some b else none
  | _ => none

/-- The last text given to `n`, or the default. -/
def lastText (n : Str) (items : List Item) (default : Str) : Str := (items.filterMap (Item.textFor n)).getLast?.getD default

/-- The last truth value given to `n`, or off. -/
def lastSwitch (n : Str) (items : List Item) : Bool := (items.filterMap (Item.switchFor n)).getLast?.getD false

/-- What the flags say together. -/
def meaning (items : List Item) : Flags where
  i := lastText c!"i" items []
  o := lastText c!"o" items c!"xgen_out"
  p := lastText c!"p" items []
  l := lastText c!"l" items []
  v := lastSwitch c!"v" items
  h := lastSwitch c!"h" items

/-- Where the flags end: at the end, at "--", or at an argument that is not a flag. -/
inductive Stops : List Str → Prop
  | nil : Stops []
  | terminator (rest : List Str) : Stops (c!"--" :: rest)
  | dash (rest : List Str) : Stops (c!"-" :: rest)
  | positional (a : Str) (rest : List Str) : a.head? ≠ some '-' → Stops (a :: rest)

/-- Names a flag could have. -/
def Name (n : Str) : Prop := n ≠ [] ∧ n.head? ≠ some '-' ∧ '=' ∉ n

/-- Mistakes at the head of the arguments, with the exit code. -/
inductive Wrong : List Str → Nat → Prop
  | threeDashes (s : Str) (rest : List Str) : Wrong (('-' :: '-' :: '-' :: s) :: rest) 2
  | noName (two : Bool) (s : Str) (rest : List Str) : Wrong (dashes two ('=' :: s) :: rest) 2
  | undefined (two : Bool) (n s : Str) (rest : List Str) : Name n → n ∉ texts → n ∉ switches → n ≠ c!"help" →
      (s = [] ∨ s.head? = some '=') → Wrong (dashes two (n ++ s) :: rest) 2
  | help (two : Bool) (s : Str) (rest : List Str) : (s = [] ∨ s.head? = some '=') →
      Wrong (dashes two (c!"help" ++ s) :: rest) 0
  | missing (two : Bool) (n : Str) : n ∈ texts → Wrong [dashes two n] 2
  | notTruth (two : Bool) (n w : Str) (rest : List Str) : n ∈ switches → (∀ b, (w, b) ∉ words) →
      Wrong (dashes two (n ++ '=' :: w) :: rest) 2

/-! ## Proof -/

theorem cutEq_none {n : Str} (h : Name n) : cutEq n = (n, none) := by
  obtain ⟨h1, -, h3⟩ := h
  cases n with
  | nil => exact absurd rfl h1
  | cons c r =>
    have hr : ∀ x ∈ r, decide (x ≠ '=') = true := by
      intro x hx
      have : x ≠ '=' := by rintro rfl; exact h3 (List.mem_cons_of_mem _ hx)
      simpa using this
    have : r.dropWhile (· ≠ '=') = [] := by
      have := List.dropWhile_append_of_pos (l₂ := []) hr
      simpa using this
    unfold cutEq
    dsimp only
    rw [this]

theorem cutEq_some {n : Str} (h : Name n) (v : Str) : cutEq (n ++ '=' :: v) = (n, some v) := by
  obtain ⟨h1, -, h3⟩ := h
  cases n with
  | nil => exact absurd rfl h1
  | cons c r =>
    have hr : ∀ x ∈ r, decide (x ≠ '=') = true := by
      intro x hx
      have : x ≠ '=' := by rintro rfl; exact h3 (List.mem_cons_of_mem _ hx)
      simpa using this
    have e1 : (r ++ '=' :: v).dropWhile (· ≠ '=') = '=' :: v := by
      rw [List.dropWhile_append_of_pos hr]; simp
    have e2 : (r ++ '=' :: v).takeWhile (· ≠ '=') = r := by
      rw [List.takeWhile_append_of_pos hr]; simp
    rw [List.cons_append]
    unfold cutEq
    dsimp only
    rw [e1, e2]

/-- One step for an argument that is a flag. -/
theorem parse_flag (two : Bool) (name : Str) (hn : name ≠ []) (h1 : name.head? ≠ some '-') (h2 : name.head? ≠ some '=')
    (rest : List Str) (f : Flags) : flagParse (dashes two name :: rest) f =
      (if stringFlags.contains (cutEq name).1 then
          match (cutEq name).2 with
          | some v => flagParse rest (setString (cutEq name).1 v f)
          | none =>
            match rest with
            | [] => .exit 2
            | v :: rest => flagParse rest (setString (cutEq name).1 v f)
        else if boolFlags.contains (cutEq name).1 then
          match (cutEq name).2 with
          | none => flagParse rest (setBool (cutEq name).1 true f)
          | some v =>
            match parseBool v with
            | some b => flagParse rest (setBool (cutEq name).1 b f)
            | none => .exit 2
        else if (cutEq name).1 = c!"help" then .exit 0
        else .exit 2) := by
  cases two with
  | true =>
    have hd : dashes true name = '-' :: '-' :: name := rfl
    rw [hd, flagParse, if_neg (by simp [hn])]
    simp only [if_true]
    rw [if_neg (by simp [h1, h2])]
    cases (cutEq name).2 <;> cases rest <;> rfl
  | false =>
    cases name with
    | nil => exact absurd rfl hn
    | cons c t =>
      have hc : c ≠ '-' := by rintro rfl; exact h1 rfl
      have hd : dashes false (c :: t) = '-' :: c :: t := rfl
      rw [hd, flagParse, if_neg (by simp [hc])]
      simp only [hc, if_false]
      rw [if_neg (by simp only [Bool.or_eq_true, decide_eq_true_eq]; rintro (h | h) <;> contradiction)]
      cases (cutEq (c :: t)).2 <;> cases rest <;> rfl

/-- Setting a flag as an item says. -/
def Item.set (f : Flags) : Item → Flags
  | .text _ n v => setString n v f
  | .textEq _ n v => setString n v f
  | .switch _ n => setBool n true f
  | .switchEq _ n _ b => setBool n b f

theorem text_flag {n : Str} (h : n ∈ texts) : stringFlags.contains n = true := List.contains_iff_mem.2 h

theorem switch_flag {n : Str} (h : n ∈ switches) : boolFlags.contains n = true := List.contains_iff_mem.2 h

theorem name_of_text {n : Str} (h : n ∈ texts) : Name n := by
  have : ∀ n ∈ texts, n ≠ [] ∧ n.head? ≠ some '-' ∧ '=' ∉ n := by decide
  exact this n h

theorem name_of_switch {n : Str} (h : n ∈ switches) : Name n := by
  have : ∀ n ∈ switches, n ≠ [] ∧ n.head? ≠ some '-' ∧ '=' ∉ n := by decide
  exact this n h

theorem Name.eq {n : Str} (h : Name n) : n.head? ≠ some '=' := by
  intro e
  cases n with
  | nil => cases e
  | cons c r => simp at e; exact h.2.2 (by simp [e])

theorem head_append {n : Str} (h : n ≠ []) (s : Str) : (n ++ s).head? = n.head? := by
  cases n with
  | nil => exact absurd rfl h
  | cons c r => rfl

theorem parseBool_words {w : Str} {b : Bool} (h : (w, b) ∈ words) : parseBool w = some b := by
  have : ∀ x ∈ words, parseBool x.1 = some x.2 := by decide
  exact this (w, b) h

theorem parseBool_other {w : Str} (h : ∀ b, (w, b) ∉ words) : parseBool w = none := by
  have h1 : ∀ x ∈ [c!"1", c!"t", c!"T", c!"true", c!"TRUE", c!"True"], (x, true) ∈ words := by decide
  have h2 : ∀ x ∈ [c!"0", c!"f", c!"F", c!"false", c!"FALSE", c!"False"], (x, false) ∈ words := by decide
  unfold parseBool
  rw [if_neg (fun e => h true (h1 w (by simpa using e))), if_neg (fun e => h false (h2 w (by simpa using e)))]

theorem parse_item (it : Item) (hv : it.Valid) (rest : List Str) (f : Flags) :
    flagParse (it.args ++ rest) f = flagParse rest (it.set f) := by
  cases it with
  | text two n v =>
    have hn := name_of_text hv
    show flagParse (dashes two n :: v :: rest) f = _
    rw [parse_flag two n hn.1 hn.2.1 hn.eq, cutEq_none hn, if_pos (text_flag hv)]
    rfl
  | textEq two n v =>
    have hn := name_of_text hv
    show flagParse (dashes two (n ++ '=' :: v) :: rest) f = _
    rw [parse_flag two _ (by simp) (by rw [head_append hn.1]; exact hn.2.1) (by rw [head_append hn.1]; exact hn.eq), cutEq_some hn,
      if_pos (text_flag hv)]
    rfl
  | switch two n =>
    have hn := name_of_switch hv
    show flagParse (dashes two n :: rest) f = _
    have h1 : ∀ n ∈ switches, stringFlags.contains n = false := by decide
    rw [parse_flag two n hn.1 hn.2.1 hn.eq, cutEq_none hn, if_neg (by rw [h1 n hv]; decide),
      if_pos (switch_flag hv)]
    rfl
  | switchEq two n w b =>
    obtain ⟨hv, hw⟩ := hv
    have hn := name_of_switch hv
    show flagParse (dashes two (n ++ '=' :: w) :: rest) f = _
    have h1 : ∀ n ∈ switches, stringFlags.contains n = false := by decide
    rw [parse_flag two _ (by simp) (by rw [head_append hn.1]; exact hn.2.1) (by rw [head_append hn.1]; exact hn.eq), cutEq_some hn,
      if_neg (by rw [h1 n hv]; decide), if_pos (switch_flag hv)]
    dsimp only
    rw [parseBool_words hw]
    rfl

theorem parse_items (items : List Item) (hv : ∀ it ∈ items, it.Valid) (rest : List Str) (f : Flags) :
    flagParse (items.flatMap Item.args ++ rest) f = flagParse rest (items.foldl Item.set f) := by
  induction items generalizing f with
  | nil => rfl
  | cons it items ih =>
    rw [List.flatMap_cons, List.append_assoc, parse_item it (hv it List.mem_cons_self), ih fun x hx => hv x (List.mem_cons_of_mem _ hx)]
    rfl

theorem parse_stops {rest : List Str} (h : Stops rest) (f : Flags) : flagParse rest f = .flags f := by
  cases h with
  | nil => rfl
  | terminator rest => simp [flagParse]
  | dash rest => rfl
  | positional a rest ha =>
    rcases a with _ | ⟨c, _ | ⟨d, t⟩⟩
    · rfl
    · simp [flagParse]
    · have hc : c ≠ '-' := by rintro rfl; exact ha rfl
      rw [flagParse]
      intro _ _ e
      simp at e
      exact absurd e.1 hc

theorem parse_wrong {rest : List Str} {code : Nat} (h : Wrong rest code) (f : Flags) : flagParse rest f = .exit code := by
  cases h with
  | threeDashes s rest => simp [flagParse]
  | noName two s rest => cases two <;> simp [dashes, flagParse]
  | undefined two n s rest hn h1 h2 h3 hs =>
    have hc : (cutEq (n ++ s)).1 = n := by
      rcases hs with rfl | hs
      · rw [List.append_nil, cutEq_none hn]
      · cases s with
        | nil => cases hs
        | cons c v => simp at hs; subst hs; rw [cutEq_some hn]
    rw [parse_flag two _ (by simp [hn.1]) (by rw [head_append hn.1]; exact hn.2.1) (by rw [head_append hn.1]; exact hn.eq), hc,
      if_neg (by simpa [stringFlags, texts] using h1), if_neg (by simpa [boolFlags, switches] using h2), if_neg h3]
  | help two s rest hs =>
    have hn : Name c!"help" := ⟨by decide, by decide, by decide⟩
    have hc : (cutEq (c!"help" ++ s)).1 = c!"help" := by
      rcases hs with rfl | hs
      · rfl
      · cases s with
        | nil => cases hs
        | cons c v => simp at hs; subst hs; rw [cutEq_some hn]
    rw [parse_flag two _ (by simp) (by rw [head_append hn.1]; exact hn.2.1) (by rw [head_append hn.1]; exact hn.eq), hc]
    rfl
  | missing two n hv =>
    have hn := name_of_text hv
    rw [parse_flag two n hn.1 hn.2.1 hn.eq, cutEq_none hn, if_pos (text_flag hv)]
  | notTruth two n w rest hv hw =>
    have hn := name_of_switch hv
    have h1 : ∀ n ∈ switches, stringFlags.contains n = false := by decide
    rw [parse_flag two _ (by simp) (by rw [head_append hn.1]; exact hn.2.1) (by rw [head_append hn.1]; exact hn.eq), cutEq_some hn,
      if_neg (by rw [h1 n hv]; decide), if_pos (switch_flag hv)]
    dsimp only
    rw [parseBool_other hw]

/-- Every name, with an optional "=" and value. -/
theorem split_name (s : Str) (h1 : s ≠ []) (h2 : s.head? ≠ some '-') (h3 : s.head? ≠ some '=') :
    Name s ∨ ∃ n v, Name n ∧ s = n ++ '=' :: v := by
  cases s with
  | nil => exact absurd rfl h1
  | cons c r =>
    by_cases h : '=' ∈ r
    · obtain ⟨a, b, rfl, ha⟩ := List.eq_append_cons_of_mem h
      refine .inr ⟨c :: a, b, ⟨by simp, by simpa using h2, ?_⟩, rfl⟩
      simp only [List.mem_cons, not_or]
      exact ⟨fun e => h3 (by rw [← e]; rfl), ha⟩
    · refine .inl ⟨by simp, h2, ?_⟩
      simp only [List.mem_cons, not_or]
      exact ⟨fun e => h3 (by rw [← e]; rfl), h⟩

/-- Every argument list stops, begins with a mistake or begins with a flag. -/
theorem classify (args : List Str) : Stops args ∨ (∃ code, Wrong args code) ∨
    ∃ it rest, Item.Valid it ∧ args = it.args ++ rest := by
  rcases args with _ | ⟨a, rest⟩
  · exact .inl .nil
  by_cases ha : a.head? ≠ some '-'
  · exact .inl (.positional a rest ha)
  rcases a with _ | ⟨c, t⟩
  · exact absurd (by simp) ha
  simp at ha
  subst ha
  by_cases ht : t = []
  · subst ht; exact .inl (.dash rest)
  by_cases ht2 : t = ['-']
  · subst ht2; exact .inl (.terminator rest)
  obtain ⟨two, s, e, hs⟩ : ∃ two s, '-' :: t = dashes two s ∧ (s.head? ≠ some '-' ∨ two = true) ∧ s ≠ [] := by
    rcases t with _ | ⟨d, t⟩
    · exact absurd rfl ht
    · by_cases hd : d = '-'
      · subst hd
        exact ⟨true, t, rfl, .inr rfl, by rintro rfl; exact ht2 rfl⟩
      · exact ⟨false, d :: t, rfl, .inl (by simpa using hd), by simp⟩
  rw [e]
  by_cases h1 : s.head? = some '-'
  · have h2 : two = true := hs.1.resolve_left fun h => h h1
    subst h2
    cases s with
    | nil => cases h1
    | cons c s => simp at h1; subst h1; exact .inr (.inl ⟨2, .threeDashes s rest⟩)
  by_cases h2 : s.head? = some '='
  · cases s with
    | nil => cases h2
    | cons c s => simp at h2; subst h2; exact .inr (.inl ⟨2, .noName two s rest⟩)
  rcases split_name s hs.2 h1 h2 with hn | ⟨n, v, hn, rfl⟩
  · by_cases h3 : s ∈ texts
    · cases rest with
      | nil => exact .inr (.inl ⟨2, .missing two s h3⟩)
      | cons v rest => exact .inr (.inr ⟨.text two s v, rest, h3, rfl⟩)
    by_cases h4 : s ∈ switches
    · exact .inr (.inr ⟨.switch two s, rest, h4, rfl⟩)
    by_cases h5 : s = c!"help"
    · subst h5; exact .inr (.inl ⟨0, .help two [] rest (.inl rfl)⟩)
    · refine .inr (.inl ⟨2, ?_⟩)
      have := Wrong.undefined two s [] rest hn h3 h4 h5 (.inl rfl)
      rwa [List.append_nil] at this
  · by_cases h3 : n ∈ texts
    · exact .inr (.inr ⟨.textEq two n v, rest, h3, rfl⟩)
    by_cases h4 : n ∈ switches
    · by_cases hw : ∃ b, (v, b) ∈ words
      · obtain ⟨b, hb⟩ := hw
        exact .inr (.inr ⟨.switchEq two n v b, rest, ⟨h4, hb⟩, rfl⟩)
      · exact .inr (.inl ⟨2, .notTruth two n v rest h4 fun b hb => hw ⟨b, hb⟩⟩)
    by_cases h5 : n = c!"help"
    · subst h5; exact .inr (.inl ⟨0, .help two ('=' :: v) rest (.inr rfl)⟩)
    · exact .inr (.inl ⟨2, .undefined two n ('=' :: v) rest hn h3 h4 h5 (.inr rfl)⟩)

/-- Every argument list is a sequence of flags and then an end or a mistake. -/
theorem every_line (args : List Str) : ∃ (items : List Item) (rest : List Str), (∀ it ∈ items, Item.Valid it) ∧ args = items.flatMap Item.args ++ rest ∧
    (Stops rest ∨ ∃ code, Wrong rest code) := by
  generalize hn : args.length = n
  induction n using Nat.strongRecOn generalizing args with
  | ind n ih =>
    rcases classify args with h | h | ⟨it, rest, hv, rfl⟩
    · exact ⟨[], args, by simp, rfl, .inl h⟩
    · exact ⟨[], args, by simp, rfl, .inr h⟩
    · have hl : 0 < it.args.length := by cases it <;> simp [Item.args]
      obtain ⟨items, rest', h1, rfl, h3⟩ := ih rest.length (by simp at hn; omega) rest rfl
      refine ⟨it :: items, rest', fun x hx => ?_, by simp, h3⟩
      rcases List.mem_cons.1 hx with rfl | hx
      · exact hv
      · exact h1 x hx

theorem set_text {it : Item} (hv : it.Valid) (f : Flags) :
    (it.set f).i = (it.textFor c!"i").getD f.i ∧ (it.set f).o = (it.textFor c!"o").getD f.o ∧
    (it.set f).p = (it.textFor c!"p").getD f.p ∧ (it.set f).l = (it.textFor c!"l").getD f.l ∧
    (it.set f).v = (it.switchFor c!"v").getD f.v ∧ (it.set f).h = (it.switchFor c!"h").getD f.h := by
  cases it with
  | text two n v =>
    have : n = c!"i" ∨ n = c!"o" ∨ n = c!"p" ∨ n = c!"l" := by simpa [Item.Valid, texts] using hv
    rcases this with rfl | rfl | rfl | rfl <;> exact ⟨rfl, rfl, rfl, rfl, rfl, rfl⟩
  | textEq two n v =>
    have : n = c!"i" ∨ n = c!"o" ∨ n = c!"p" ∨ n = c!"l" := by simpa [Item.Valid, texts] using hv
    rcases this with rfl | rfl | rfl | rfl <;> exact ⟨rfl, rfl, rfl, rfl, rfl, rfl⟩
  | switch two n =>
    have : n = c!"v" ∨ n = c!"h" := by simpa [Item.Valid, switches] using hv
    rcases this with rfl | rfl <;> exact ⟨rfl, rfl, rfl, rfl, rfl, rfl⟩
  | switchEq two n w b =>
    have : n = c!"v" ∨ n = c!"h" := by simpa [switches] using hv.1
    rcases this with rfl | rfl <;> exact ⟨rfl, rfl, rfl, rfl, rfl, rfl⟩

theorem last_step {α β : Type} (g : α → Option β) (x : α) (xs : List α) (d : β) :
    (List.filterMap g (x :: xs)).getLast?.getD d = (xs.filterMap g).getLast?.getD ((g x).getD d) := by
  cases e : g x with
  | none => rw [List.filterMap_cons_none e]; rfl
  | some b =>
    rw [List.filterMap_cons_some e, List.getLast?_cons]
    rfl

theorem foldl_set (items : List Item) (hv : ∀ it ∈ items, it.Valid) (f : Flags) : items.foldl Item.set f =
    { i := lastText c!"i" items f.i, o := lastText c!"o" items f.o, p := lastText c!"p" items f.p, l := lastText c!"l" items f.l,
      v := (items.filterMap (Item.switchFor c!"v")).getLast?.getD f.v,
      h := (items.filterMap (Item.switchFor c!"h")).getLast?.getD f.h } := by
  induction items generalizing f with
  | nil => rfl
  | cons it items ih =>
    obtain ⟨h1, h2, h3, h4, h5, h6⟩ := set_text (hv it List.mem_cons_self) f
    rw [List.foldl_cons, ih (fun x hx => hv x (List.mem_cons_of_mem _ hx)), h1, h2, h3, h4, h5, h6]
    unfold lastText
    rw [last_step, last_step, last_step, last_step, last_step, last_step]

/-- C60: a well-formed command line means what its flags say, each flag by its last occurrence. What follows the flags is ignored. -/
theorem reads (items : List Item) (hv : ∀ it ∈ items, it.Valid) {rest : List Str} (hr : Stops rest) :
    flagParse (items.flatMap Item.args ++ rest) {} = .flags (meaning items) := by
  rw [parse_items items hv, parse_stops hr, foldl_set items hv]
  rfl

/-- C60: a mistake behind any flags ends the process with its code, whatever the flags were. -/
theorem rejects (items : List Item) (hv : ∀ it ∈ items, it.Valid) {rest : List Str} {code : Nat} (hr : Wrong rest code) :
    flagParse (items.flatMap Item.args ++ rest) {} = .exit code := by
  rw [parse_items items hv, parse_wrong hr]

/-- C60 for every command line: it consists of flags followed by an end or a mistake, with the result of `reads` or `rejects`. -/
theorem line (args : List Str) : ∃ (items : List Item) (rest : List Str), (∀ it ∈ items, Item.Valid it) ∧ args = items.flatMap Item.args ++ rest ∧
    ((Stops rest ∧ flagParse args {} = .flags (meaning items)) ∨ ∃ code, Wrong rest code ∧ flagParse args {} = .exit code) := by
  obtain ⟨items, rest, h1, h2, h3⟩ := every_line args
  refine ⟨items, rest, h1, h2, ?_⟩
  rcases h3 with h | ⟨code, h⟩
  · exact .inl ⟨h, by rw [h2, reads items h1 h]⟩
  · exact .inr ⟨code, h, by rw [h2, rejects items h1 h]⟩

/-- The whole command: mistakes end it before anything else happens; otherwise positional arguments make no difference. -/
theorem run [Uni] (W : World) (lstat : Str → Option Forest) (items : List Item) (hv : ∀ it ∈ items, it.Valid) {rest : List Str} :
    (Stops rest → xgen W lstat (items.flatMap Item.args ++ rest) = main' W (walkFrom lstat) (meaning items)) ∧
    (∀ code, Wrong rest code → xgen W lstat (items.flatMap Item.args ++ rest) = (.code code, {})) := by
  constructor
  · intro h; unfold xgen; rw [reads items hv h]
  · intro code h; unfold xgen; rw [rejects items hv h]

/-- The usage text (xgen.go:71) announces `xgen [<flag> ...] <XSD file or directory> ...`, but an input given that way is not
seen: the command ends with code 1 although the file exists. -/
theorem positional_input_ignored :
    (@xgen asciiUni (Ex.world [("a.xsd", Ex.leaf "element" [("name", "a"), ("type", "int")])]) (fun _ => none)
      [c!"-l", c!"Go", c!"a.xsd"]) = (.code 1, {}) ∧
    (@xgen asciiUni (Ex.world [("a.xsd", Ex.leaf "element" [("name", "a"), ("type", "int")])]) (fun _ => none)
      [c!"-l", c!"Go", c!"-i", c!"a.xsd"]).1 = .done := by decide +kernel

example : ([.text false c!"i" c!"a.xsd", .textEq true c!"l" c!"Go", .switchEq false c!"v" c!"F" false, .text false c!"i" c!"-b"] :
      List Item).flatMap Item.args = [c!"-i", c!"a.xsd", c!"--l=Go", c!"-v=F", c!"-i", c!"-b"] ∧
    flagParse [c!"-i", c!"a.xsd", c!"--l=Go", c!"-v=F", c!"-i", c!"-b", c!"x", c!"-q"] {} = .flags { i := c!"-b", l := c!"Go" } := by
  decide +kernel

example : flagParse [c!"-i", c!"a.xsd", c!"-q"] {} = .exit 2 ∧ Wrong [c!"-q"] 2 :=
  ⟨by decide +kernel, .undefined false c!"q" [] [] ⟨by decide, by decide, by decide⟩ (by decide) (by decide) (by decide) (.inl rfl)⟩

end Xgen.C60
