import Verif.Props.C11
import Verif.Props.C10

/-! # C12: different input schemas are written to different files -/

namespace Xgen.C12
open C11
variable [Uni]

/-- An ordinary relative path as a directory walk delivers it: a list of ordinary components. -/
def Ordinary (l : List Str) : Prop := l ≠ [] ∧ ∀ c ∈ l, Below c

omit [Uni] in
theorem joinSlash_inj {l m : List Str} (hl : Ordinary l) (hm : Ordinary m) (h : joinSlash l = joinSlash m) : l = m := by
  rw [← splitOn_joinSlash hl.1 (fun c hc => (hl.2 c hc).2.2.2), h,
    splitOn_joinSlash hm.1 (fun c hc => (hm.2 c hc).2.2.2)]

omit [Uni] in
theorem filter_real {l : List Str} (h : ∀ c ∈ l, Below c) : l.filter realComp = l := by
  rw [List.filter_eq_self]
  intro c hc
  have := h c hc
  simp [realComp, this.1, this.2.1]

omit [Uni] in
/-- Walking down to different places from one directory gives different paths. -/
theorem descend_eq (d : Str) (l : List Str) (hl : Ordinary l) :
    descend d l = (if d = c!"." then [] else if d = c!"/" then c!"/" else d ++ c!"/") ++ joinSlash l := by
  obtain ⟨hne, hb⟩ := hl
  have go : ∀ (l : List Str) (d : Str), l ≠ [] → (∀ c ∈ l, Below c) → d ≠ c!"." → d ≠ c!"/" →
      descend d l = d ++ '/' :: joinSlash l := by
    intro l
    induction l with
    | nil => intro d h; exact absurd rfl h
    | cons c cs ih =>
      intro d _ hb h1 h2
      simp only [descend, h1, h2, if_false]
      cases cs with
      | nil => simp [descend, joinSlash]
      | cons b cs =>
        have hlen : 0 < c.length := List.length_pos_iff.2 (hb c (by simp)).1
        rw [ih (d ++ '/' :: c) (by simp) (fun x hx => hb x (by simp [hx]))]
        · simp [joinSlash]
        · intro e; have := congrArg List.length e; simp at this; omega
        · intro e; have := congrArg List.length e; simp at this; omega
  cases l with
  | nil => exact absurd rfl hne
  | cons c cs =>
    have hc := hb c (by simp)
    have hlen : 0 < c.length := List.length_pos_iff.2 hc.1
    by_cases h1 : d = c!"."
    · subst h1
      cases cs with
      | nil => simp [descend, joinSlash]
      | cons b cs =>
        simp only [descend, if_true, List.nil_append]
        exact go (b :: cs) c (by simp) (fun x hx => hb x (by simp [hx])) hc.2.1
          (fun e => hc.2.2.2 (by simp [e]))
    · by_cases h2 : d = c!"/"
      · subst h2
        cases cs with
        | nil => simp [descend, joinSlash]
        | cons b cs =>
          simp only [descend, h1, if_false, if_true]
          have := go (b :: cs) ('/' :: c) (by simp) (fun x hx => hb x (by simp [hx])) (by simp)
            (by simpa using hc.1)
          simp only [descend] at this
          simpa [joinSlash] using this
      · rw [go _ d (by simp) hb h1 h2]; simp [h1, h2]

/-- The file written for the input that lies at `l` below the input directory. -/
def target (inDir out ext : Str) (l : List Str) : Str :=
  fileWithExtension (outputPath { filePath := inDir ++ '/' :: joinSlash l, inputDir := inDir, outputDir := out }) ext

omit [Uni] in
theorem trimPrefix_append (p s : Str) : trimPrefix (p ++ s) p = s := by
  have : hasPrefix (p ++ s) p = true := (hasPrefix_iff _ _).2 ⟨s, rfl⟩
  simp [trimPrefix, this]

theorem outputPath_eq (inDir out : Str) (l : List Str) (hd : out ≠ []) (hl : Ordinary l) :
    outputPath { filePath := inDir ++ '/' :: joinSlash l, inputDir := inDir, outputDir := out } =
      descend (clean out) l := by
  show pathJoin out (trimPrefix (inDir ++ '/' :: joinSlash l) inDir) = _
  rw [trimPrefix_append]
  have hs : splitOn '/' ('/' :: joinSlash l) = [] :: l := by
    rw [splitOn_cons_sep, splitOn_joinSlash hl.1 (fun c hc => (hl.2 c hc).2.2.2)]
  rw [join_below _ _ hd]
  · rw [hs]
    have : ([] :: l).filter realComp = l.filter realComp := by simp [realComp]
    rw [this, filter_real hl.2]
  · rw [hs]
    simp only [List.mem_cons, reduceCtorEq, false_or]
    exact fun h => (hl.2 _ h).2.2.1 rfl

/-- C12, true part: two inputs at different places below the input directory are written to different files when neither
(or both) of the input names already ends in the extension of the target language.
Missing: inputs `x` and `x.go` side by side, for which the claim is false (`collision`). -/
theorem different_files_partial (inDir out ext : Str) (l m : List Str) (hd : out ≠ []) (hl : Ordinary l)
    (hm : Ordinary m) (hne : l ≠ m)
    (hext : C10.dotted ext <:+ descend (clean out) l ↔ C10.dotted ext <:+ descend (clean out) m) :
    target inDir out ext l ≠ target inDir out ext m := by
  unfold target
  rw [outputPath_eq inDir out l hd hl, outputPath_eq inDir out m hd hm, C10.eq_spec, C10.eq_spec]
  have hdiff : descend (clean out) l ≠ descend (clean out) m := by
    rw [descend_eq _ l hl, descend_eq _ m hm]
    intro e
    exact hne (joinSlash_inj hl hm (List.append_cancel_left e))
  by_cases h : C10.dotted ext <:+ descend (clean out) l
  · rw [if_pos h, if_pos (hext.1 h)]; exact hdiff
  · rw [if_neg h, if_neg (fun h' => h (hext.2 h'))]
    exact fun e => hdiff (List.append_cancel_right e)

/-- C12 for places instead of path texts: from every working directory the two written paths lead to different files, so
that no two spellings of one file can arise either. Missing: the same case as in `different_files_partial`. -/
theorem different_places_partial (cwd : List Str) (inDir out ext : Str) (l m : List Str) (hd : out ≠ [])
    (he : 2 ≤ ext.length) (hs : '/' ∉ ext) (hl : Ordinary l) (hm : Ordinary m) (hne : l ≠ m)
    (hext : C10.dotted ext <:+ descend (clean out) l ↔ C10.dotted ext <:+ descend (clean out) m) :
    leadsTo cwd (target inDir out ext l) ≠ leadsTo cwd (target inDir out ext m) := by
  have key : ∀ l, Ordinary l → ∃ comps, (∀ c ∈ comps, Below c) ∧ target inDir out ext l = descend (clean out) comps := by
    intro l hl
    have hsp : splitOn '/' (trimPrefix (inDir ++ '/' :: joinSlash l) inDir) = [] :: l := by
      rw [trimPrefix_append, splitOn_cons_sep, splitOn_joinSlash hl.1 (fun c hc => (hl.2 c hc).2.2.2)]
    obtain ⟨comps, -, h2, h3⟩ := written_inside_partial { filePath := inDir ++ '/' :: joinSlash l, inputDir := inDir, outputDir := out }
      ext (.inl hd) he hs
      (by
        rw [hsp]
        simp only [List.mem_cons, reduceCtorEq, false_or]
        exact fun h => (hl.2 _ h).2.2.1 rfl)
      (by
        rw [hsp]
        obtain ⟨c, hc⟩ := List.exists_mem_of_ne_nil l hl.1
        exact ⟨c, by simp [hc], by have := hl.2 c hc; simp [realComp, this.1, this.2.1]⟩)
    exact ⟨comps, h2, h3⟩
  obtain ⟨c1, h1, e1⟩ := key l hl
  obtain ⟨c2, h2, e2⟩ := key m hm
  intro e
  apply different_files_partial inDir out ext l m hd hl hm hne hext
  rw [e1, e2, leadsTo_descend _ _ (clean_ne_nil _) _ h1, leadsTo_descend _ _ (clean_ne_nil _) _ h2] at e
  rw [e1, e2, List.append_cancel_left e]

/-- C12 is false without that condition: `dir/a` and `dir/a.go` are both written to `out/a.go`. -/
theorem collision : target c!"dir" c!"out" c!".go" [c!"a"] = target c!"dir" c!"out" c!".go" [c!"a.go"] := by decide

example : target c!"dir" c!"out" c!".go" [c!"s", c!"a.xsd"] = c!"out/s/a.xsd.go" := by decide
example : Ordinary [c!"s", c!"a.xsd"] := ⟨by decide, by
  intro c hc
  simp only [List.mem_cons, List.not_mem_nil, or_false] at hc
  rcases hc with rfl | rfl <;> exact ⟨by decide, by decide, by decide, by decide⟩⟩

end Xgen.C12
