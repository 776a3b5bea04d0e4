import Verif.Lemmas.Str
import Verif.Model.Parser

/-! # C11: generated files stay inside the output directory -/

namespace Xgen

/-- Components that `filepath.Clean` keeps. -/
def realComp (c : Str) : Bool := c ≠ [] && c ≠ c!"."

theorem cleanComps_append (r : Bool) (a b acc : List Str) :
    cleanComps r (a ++ b) acc = cleanComps r b (cleanComps r a acc) := by
  induction a generalizing acc with
  | nil => rfl
  | cons c cs ih =>
    simp only [List.cons_append, cleanComps]
    split
    · exact ih _
    · split
      · split
        · split <;> exact ih _
        · split <;> exact ih _
      · exact ih _

/-- Without ".." the components are just filtered. -/
theorem cleanComps_plain (r : Bool) (l acc : List Str) (h : c!".." ∉ l) :
    cleanComps r l acc = (l.filter realComp).reverse ++ acc := by
  induction l generalizing acc with
  | nil => rfl
  | cons c cs ih =>
    have hc : ¬ c = c!".." := fun e => h (by simp [e])
    have hcs := ih (acc := acc) (fun m => h (by simp [m]))
    have hcs' := ih (acc := c :: acc) (fun m => h (by simp [m]))
    simp only [cleanComps]
    by_cases h1 : c = []
    · simp only [h1] at *; simpa [realComp] using hcs
    · by_cases h2 : c = c!"."
      · simp only [h2] at *; simpa [realComp] using hcs
      · simp only [h1, h2, hc, decide_false, Bool.or_self, if_false]
        simpa [realComp, h1, h2] using hcs'

theorem splitOn_append {sep : Char} (a b : Str) :
    splitOn sep (a ++ sep :: b) = splitOn sep a ++ splitOn sep b := by
  induction a with
  | nil => simp [splitOn]
  | cons c cs ih =>
    by_cases hc : c = sep
    · subst hc; simp [splitOn_cons_sep, ih]
    · obtain ⟨p, ps, h1, h2⟩ := splitOn_cons_ne hc cs
      obtain ⟨q, qs, h3, h4⟩ := splitOn_cons_ne hc (cs ++ sep :: b)
      rw [ih, h1] at h3
      cases h3
      rw [List.cons_append, h4, h2]; rfl

namespace C11

/-- Specification: the path reached from directory `d` by walking down the components `l`. -/
def descend (d : Str) : List Str → Str
  | [] => d
  | c :: cs => descend (if d = c!"." then c else if d = c!"/" then '/' :: c else d ++ '/' :: c) cs

/-- A component that stays below: not empty, no dot directory, no separator. -/
def Below (c : Str) : Prop := c ≠ [] ∧ c ≠ c!"." ∧ c ≠ c!".." ∧ '/' ∉ c

/-- Printing of a cleaned component list. -/
def render (rooted : Bool) (l : List Str) : Str :=
  if rooted then '/' :: joinSlash l else if l = [] then c!"." else joinSlash l

theorem clean_eq (p : Str) (hp : p ≠ []) :
    clean p = render (p.head? = some '/') (cleanComps (p.head? = some '/') (splitOn '/' p) []).reverse := by
  cases p with
  | nil => exact absurd rfl hp
  | cons c cs =>
    simp only [clean]
    by_cases hc : c = '/'
    · subst hc; simp [render]
    · simp only [hc, if_false, List.head?_cons, Option.some.injEq, decide_false, render, Bool.false_eq_true]
      split
      · rename_i h; rw [if_pos h]
      · rename_i h h'; rw [if_neg]; exact h'

theorem joinSlash_snoc (l : List Str) (c : Str) (hl : l ≠ []) : joinSlash (l ++ [c]) = joinSlash l ++ '/' :: c := by
  induction l with
  | nil => exact absurd rfl hl
  | cons a l ih =>
    cases l with
    | nil => rfl
    | cons b l => simp only [List.cons_append, joinSlash] at ih ⊢; rw [ih (by simp)]; simp

theorem joinSlash_ne_nil {l : List Str} (hl : l ≠ []) (h : ∀ x ∈ l, x ≠ []) : joinSlash l ≠ [] := by
  cases l with
  | nil => exact absurd rfl hl
  | cons a l =>
    cases l with
    | nil => simpa [joinSlash] using h a (by simp)
    | cons b l => simp [joinSlash]

theorem joinSlash_ne {l : List Str} (hl : l ≠ []) (h : ∀ x ∈ l, x ≠ [] ∧ x ≠ c!"." ∧ '/' ∉ x) :
    joinSlash l ≠ c!"." ∧ joinSlash l ≠ c!"/" := by
  cases l with
  | nil => exact absurd rfl hl
  | cons a l =>
    have ha := h a (by simp)
    cases l with
    | nil =>
      simp only [joinSlash]
      exact ⟨ha.2.1, fun e => ha.2.2 (by simp [e])⟩
    | cons b l =>
      have hb := joinSlash_ne_nil (l := b :: l) (by simp) (fun x hx => (h x (by simp [hx])).1)
      simp only [joinSlash]
      constructor
      · intro e; have := congrArg List.length e
        have h1 : 0 < a.length := List.length_pos_iff.2 ha.1
        simp at this; omega
      · intro e; have := congrArg List.length e
        have h1 : 0 < a.length := List.length_pos_iff.2 ha.1
        simp at this; omega

theorem render_snoc (r : Bool) (l : List Str) (c : Str) (hl : ∀ x ∈ l, x ≠ [] ∧ x ≠ c!"." ∧ '/' ∉ x) :
    render r (l ++ [c]) = if render r l = c!"." then c else if render r l = c!"/" then '/' :: c
      else render r l ++ '/' :: c := by
  by_cases h : l = []
  · subst h; cases r <;> simp [render, joinSlash]
  · have := joinSlash_ne h hl
    have hn := joinSlash_ne_nil h (fun x hx => (hl x hx).1)
    cases r
    · simp [render, h, joinSlash_snoc l c h, this]
    · simp only [render, if_true, joinSlash_snoc l c h]
      have h1 : ¬ ('/' :: joinSlash l = c!".") := by simp
      have h2 : ¬ ('/' :: joinSlash l = c!"/") := by simpa using hn
      rw [if_neg h1, if_neg h2]; simp

theorem render_append (r : Bool) (l m : List Str) (hl : ∀ x ∈ l, x ≠ [] ∧ x ≠ c!"." ∧ '/' ∉ x)
    (hm : ∀ x ∈ m, x ≠ [] ∧ x ≠ c!"." ∧ '/' ∉ x) : render r (l ++ m) = descend (render r l) m := by
  induction m generalizing l with
  | nil => simp [descend]
  | cons c cs ih =>
    have : l ++ c :: cs = (l ++ [c]) ++ cs := by simp
    rw [this, ih (l ++ [c])]
    · rw [render_snoc r l c hl]; rfl
    · intro x hx
      rcases List.mem_append.1 hx with h | h
      · exact hl x h
      · simp at h; subst h; exact hm x (by simp)
    · intro x hx; exact hm x (by simp [hx])

/-- Cleaned components are real and contain no separator. -/
theorem cleanComps_ok (r : Bool) (l acc : List Str) (hl : ∀ x ∈ l, '/' ∉ x)
    (ha : ∀ x ∈ acc, x ≠ [] ∧ x ≠ c!"." ∧ '/' ∉ x) :
    ∀ x ∈ cleanComps r l acc, x ≠ [] ∧ x ≠ c!"." ∧ '/' ∉ x := by
  induction l generalizing acc with
  | nil => exact ha
  | cons c cs ih =>
    have hcs : ∀ x ∈ cs, '/' ∉ x := fun x hx => hl x (by simp [hx])
    simp only [cleanComps]
    split
    · exact ih _ hcs ha
    · rename_i hc
      split
      · split
        · split
          · exact ih _ hcs (by simp)
          · exact ih _ hcs (by simp)
        · split
          · refine ih _ hcs ?_
            intro x hx
            rcases List.mem_cons.1 hx with rfl | hx
            · simp
            · exact ha x hx
          · exact ih _ hcs (fun x hx => ha x (by simp [hx]))
      · refine ih _ hcs ?_
        intro x hx
        rcases List.mem_cons.1 hx with rfl | hx
        · simp at hc; exact ⟨hc.1, hc.2, hl x (by simp)⟩
        · exact ha x hx

/-- C11 on paths: joining a path without ".." component onto a non-empty directory leads below the cleaned directory -/
theorem join_below (dir rel : Str) (hd : dir ≠ []) (h : c!".." ∉ splitOn '/' rel) :
    pathJoin dir rel = descend (clean dir) ((splitOn '/' rel).filter realComp) := by
  have hne : dir ++ '/' :: rel ≠ [] := by simp
  have hhead : (dir ++ '/' :: rel).head? = dir.head? := by cases dir <;> simp_all
  rw [pathJoin, if_pos hd, clean_eq _ hne, clean_eq _ hd, hhead, splitOn_append, cleanComps_append,
    cleanComps_plain _ _ _ h, List.reverse_append, List.reverse_reverse]
  apply render_append
  · intro x hx
    refine cleanComps_ok _ _ _ (fun y hy => not_mem_of_mem_splitOn hy) (by simp) x (List.mem_reverse.1 hx)
  · intro x hx
    obtain ⟨h1, h2⟩ := List.mem_filter.1 hx
    simp [realComp] at h2
    exact ⟨h2.1, h2.2, not_mem_of_mem_splitOn h1⟩

/-- A relative path joined onto the empty directory: the same as joined onto ".". -/
theorem join_empty (rel : Str) (hr : rel ≠ []) (hh : rel.head? ≠ some '/') : pathJoin [] rel = pathJoin c!"." rel := by
  have hdot : c!"." ++ '/' :: rel ≠ [] := by simp
  rw [pathJoin, if_neg (by simp), if_pos hr, pathJoin, if_pos (by simp), clean_eq _ hr, clean_eq _ hdot, splitOn_append,
    cleanComps_append]
  have e1 : decide (rel.head? = some '/') = false := by simp [hh]
  rw [e1]
  rfl

/-- An output directory that is given, or a relative rest of the input path. -/
def Placed (cfg : Cfg) : Prop :=
  cfg.outputDir ≠ [] ∨
    (trimPrefix cfg.filePath cfg.inputDir ≠ [] ∧ (trimPrefix cfg.filePath cfg.inputDir).head? ≠ some '/')

theorem output_below (cfg : Cfg) (hd : Placed cfg) (h : c!".." ∉ splitOn '/' (trimPrefix cfg.filePath cfg.inputDir)) :
    outputPath cfg =
      descend (clean cfg.outputDir) ((splitOn '/' (trimPrefix cfg.filePath cfg.inputDir)).filter realComp) := by
  by_cases he : cfg.outputDir = []
  · rcases hd with hd | ⟨h1, h2⟩
    · exact absurd he hd
    · unfold outputPath
      rw [he, join_empty _ h1 h2, join_below _ _ (by simp) h]
      rfl
  · exact join_below _ _ he h

/-- C11: for every configuration with an output directory (or, without one, a relative rest of the input path), if what
remains of the input path after removing the input directory has no ".." component, the path handed to the generator is
reached from the cleaned output directory by walking down ordinary components.  Missing: an empty output directory with
a rest that begins with "/", where it is false (`escapes_without_outputDir`). -/
theorem output_inside_partial (cfg : Cfg) (hd : Placed cfg)
    (h : c!".." ∉ splitOn '/' (trimPrefix cfg.filePath cfg.inputDir)) :
    ∃ comps, (∀ c ∈ comps, Below c) ∧ outputPath cfg = descend (clean cfg.outputDir) comps := by
  refine ⟨_, ?_, output_below _ hd h⟩
  intro c hc
  obtain ⟨h1, h2⟩ := List.mem_filter.1 hc
  simp [realComp] at h2
  exact ⟨h2.1, h2.2, fun e => h (e ▸ h1), not_mem_of_mem_splitOn h1⟩

theorem descend_snoc (d : Str) (l : List Str) (c e : Str) :
    descend d (l ++ [c]) ++ e = descend d (l ++ [c ++ e]) := by
  induction l generalizing d with
  | nil =>
    simp only [List.nil_append, descend]
    split
    · rfl
    · split <;> simp
  | cons a l ih => simp only [List.cons_append, descend]; exact ih _

/-- C11 on the file that is written: the extension changes only the last component.  `rest` is the input path without
the input directory; it must name something (see `single_file_is_beside`).  Missing
besides: as in `output_inside_partial`. -/
theorem written_inside_partial (cfg : Cfg) (ext : Str) (hd : Placed cfg) (he : 2 ≤ ext.length) (hs : '/' ∉ ext)
    (h : c!".." ∉ splitOn '/' (trimPrefix cfg.filePath cfg.inputDir))
    (hr : ∃ c ∈ splitOn '/' (trimPrefix cfg.filePath cfg.inputDir), realComp c = true) :
    ∃ comps, comps ≠ [] ∧ (∀ c ∈ comps, Below c) ∧
      fileWithExtension (outputPath cfg) ext = descend (clean cfg.outputDir) comps := by
  have hj := output_below cfg hd h
  have hb : ∀ c ∈ (splitOn '/' (trimPrefix cfg.filePath cfg.inputDir)).filter realComp, Below c := by
    intro c hc
    obtain ⟨h1, h2⟩ := List.mem_filter.1 hc
    simp [realComp] at h2
    exact ⟨h2.1, h2.2, fun e => h (e ▸ h1), not_mem_of_mem_splitOn h1⟩
  have hn : (splitOn '/' (trimPrefix cfg.filePath cfg.inputDir)).filter realComp ≠ [] := by
    obtain ⟨c, h1, h2⟩ := hr
    exact List.ne_nil_of_mem (List.mem_filter.2 ⟨h1, h2⟩)
  generalize (splitOn '/' (trimPrefix cfg.filePath cfg.inputDir)).filter realComp = comps at *
  have hout : outputPath cfg = descend (clean cfg.outputDir) comps := hj
  rcases List.eq_nil_or_concat comps with rfl | ⟨l, c, rfl⟩
  · exact absurd rfl hn
  simp only [List.concat_eq_append] at *
  unfold fileWithExtension
  simp only
  generalize hx : (if hasPrefix ext c!"." then ext else '.' :: ext) = ext'
  have he' : 2 ≤ ext'.length ∧ '/' ∉ ext' := by
    subst hx; split
    · exact ⟨he, hs⟩
    · exact ⟨by simp; omega, by simp [hs]⟩
  split
  · exact ⟨_, hn, hb, hout⟩
  · refine ⟨l ++ [c ++ ext'], by simp, ?_, by rw [hout, descend_snoc]⟩
    intro x hx
    rcases List.mem_append.1 hx with h | h
    · exact hb x (by simp [h])
    · simp only [List.mem_singleton] at h; subst h
      have hc := hb c (by simp)
      have hlen : 0 < c.length := List.length_pos_iff.2 hc.1
      refine ⟨by simp [hc.1], ?_, ?_, by simp [hc.2.2.2, he'.2]⟩ <;>
      · intro e; have := congrArg List.length e; simp at this; omega

/-! ## Where a path leads

Independent of `filepath.Clean`: the directory reached by walking along the components from a working directory. -/

/-- One component of a walk; a position is the list of directory names from the root. -/
def step (pos : List Str) (c : Str) : List Str :=
  if c = [] ∨ c = c!"." then pos else if c = c!".." then pos.dropLast else pos ++ [c]

/-- Where a path leads from the working directory `cwd` (without symbolic links). -/
def leadsTo (cwd : List Str) (p : Str) : List Str :=
  (splitOn '/' p).foldl step (if p.head? = some '/' then [] else cwd)

theorem walk_cleanComps (r : Bool) (base : List Str) (hr : r = true → base = []) (l acc : List Str)
    (ha : ∀ x ∈ acc, x ≠ [] ∧ x ≠ c!".") :
    (cleanComps r l acc).reverse.foldl step base = l.foldl step (acc.reverse.foldl step base) := by
  induction l generalizing acc with
  | nil => rfl
  | cons c cs ih =>
    rw [List.foldl_cons, cleanComps.eq_def]
    simp only
    by_cases h1 : c = [] ∨ c = c!"."
    · rw [if_pos (by simpa using h1), ih acc ha]
      simp only [step, if_pos h1]
    · rw [if_neg (by simpa using h1)]
      by_cases h2 : c = c!".."
      · rw [if_pos h2]
        cases acc with
        | nil =>
          simp only
          split
          · rename_i h
            have hb := hr h
            subst hb
            rw [ih [] (by simp)]
            simp [step, h2]
          · rw [ih [c!".."] (by simp)]
            simp [step, h2]
        | cons top rest =>
          simp only
          split
          · rename_i h
            rw [ih _ (fun x hx => (List.mem_cons.1 hx).elim (fun e => by subst e; decide) (ha x))]
            subst h h2
            simp
          · rename_i h
            rw [ih _ (fun x hx => ha x (by simp [hx]))]
            obtain ⟨h3, h4⟩ := ha top (by simp)
            rw [List.reverse_cons, List.foldl_append, List.foldl_cons, List.foldl_nil]
            congr 1
            simp [step, h2, h3, h4, h]
      · rw [if_neg h2, ih (c :: acc) (fun x hx => by
          rcases List.mem_cons.1 hx with rfl | hx
          · exact ⟨fun e => h1 (.inl e), fun e => h1 (.inr e)⟩
          · exact ha x hx)]
        simp

theorem splitOn_joinSlash {l : List Str} (hl : l ≠ []) (h : ∀ x ∈ l, '/' ∉ x) : splitOn '/' (joinSlash l) = l := by
  induction l with
  | nil => exact absurd rfl hl
  | cons a l ih =>
    cases l with
    | nil => exact splitOn_of_not_mem (h a (by simp))
    | cons b l =>
      rw [joinSlash, splitOn_append_sep (h a (by simp)), ih (by simp) (fun x hx => h x (by simp [hx]))]

/-- Cleaning a path does not change where it leads. -/
theorem clean_leadsTo (cwd : List Str) (p : Str) : leadsTo cwd (clean p) = leadsTo cwd p := by
  by_cases hp : p = []
  · subst hp; rfl
  have hok : ∀ r, ∀ x ∈ (cleanComps r (splitOn '/' p) []).reverse, x ≠ [] ∧ x ≠ c!"." ∧ '/' ∉ x := fun r x hx =>
    cleanComps_ok r _ _ (fun y hy => not_mem_of_mem_splitOn hy) (by simp) x (List.mem_reverse.1 hx)
  rw [clean_eq p hp]
  by_cases h : p.head? = some '/'
  · have hw := walk_cleanComps true [] (fun _ => rfl) (splitOn '/' p) [] (by simp)
    have hok := hok true
    unfold leadsTo
    simp only [h, decide_true, if_true]
    rw [List.reverse_nil, List.foldl_nil] at hw
    rw [← hw]
    generalize (cleanComps true (splitOn '/' p) []).reverse = l at hok ⊢
    simp only [render, if_true, List.head?_cons, splitOn_cons_sep, List.foldl_cons]
    by_cases hl : l = []
    · subst hl; rfl
    · rw [splitOn_joinSlash hl (fun x hx => (hok x hx).2.2)]
      rfl
  · have hw := walk_cleanComps false cwd (fun h => by cases h) (splitOn '/' p) [] (by simp)
    have hok := hok false
    unfold leadsTo
    simp only [h, decide_false, if_false]
    rw [List.reverse_nil, List.foldl_nil] at hw
    rw [← hw]
    generalize (cleanComps false (splitOn '/' p) []).reverse = l at hok ⊢
    simp only [render, Bool.false_eq_true, if_false]
    by_cases hl : l = []
    · subst hl; rfl
    · rw [if_neg hl, splitOn_joinSlash hl (fun x hx => (hok x hx).2.2), if_neg]
      cases l with
      | nil => exact absurd rfl hl
      | cons a l =>
        obtain ⟨h1, -, h3⟩ := hok a (by simp)
        cases a with
        | nil => exact absurd rfl h1
        | cons d a =>
          intro e
          apply h3
          cases l with
          | nil => rw [joinSlash] at e; cases e; simp
          | cons b l => rw [joinSlash] at e; cases e; simp

theorem clean_ne_nil (p : Str) : clean p ≠ [] := by
  by_cases hp : p = []
  · subst hp; decide
  · rw [clean_eq p hp, render]
    split
    · simp
    · split
      · decide
      · rename_i h
        exact joinSlash_ne_nil h (fun x hx => (cleanComps_ok _ _ _ (fun y hy => not_mem_of_mem_splitOn hy) (by simp) x
          (List.mem_reverse.1 hx)).1)

theorem leadsTo_descend (cwd : List Str) (d : Str) (hd : d ≠ []) (l : List Str) (hl : ∀ c ∈ l, Below c) :
    leadsTo cwd (descend d l) = leadsTo cwd d ++ l := by
  induction l generalizing d with
  | nil => simp [descend]
  | cons c cs ih =>
    obtain ⟨h1, h2, h3, h4⟩ := hl c (by simp)
    have hs : ∀ pos, step pos c = pos ++ [c] := fun pos => by simp [step, h1, h2, h3]
    rw [descend, ih _ ?_ (fun x hx => hl x (by simp [hx]))]
    · have : leadsTo cwd (if d = c!"." then c else if d = c!"/" then '/' :: c else d ++ '/' :: c) = leadsTo cwd d ++ [c] := by
        split
        · rename_i e
          subst e
          have hh : c.head? ≠ some '/' := fun e => h4 (List.mem_of_mem_head? e)
          rw [leadsTo, if_neg hh, splitOn_of_not_mem h4, List.foldl_cons, List.foldl_nil, hs]
          simp [leadsTo, splitOn, step]
        · split
          · rename_i e
            subst e
            rw [leadsTo, splitOn_cons_sep, splitOn_of_not_mem h4, List.foldl_cons, List.foldl_cons, List.foldl_nil, hs]
            simp [leadsTo, splitOn, step]
          · have hh : (d ++ '/' :: c).head? = d.head? := by cases d <;> simp_all
            rw [leadsTo, splitOn_append, List.foldl_append, hh, splitOn_of_not_mem h4, List.foldl_cons, List.foldl_nil, hs]
            rfl
      rw [this]; simp
    · split
      · exact h1
      · split <;> simp

/-- The directory of a file: the walk along all components of its path but the last. -/
theorem dir_leadsTo (cwd : List Str) (f : Str) :
    leadsTo cwd (pathDir f) = (splitOn '/' f).dropLast.foldl step (if f.head? = some '/' then [] else cwd) := by
  unfold pathDir
  rw [clean_leadsTo]
  have hf : f = (f.reverse.dropWhile (fun c => c ≠ '/')).reverse ++ (f.reverse.takeWhile (fun c => c ≠ '/')).reverse := by
    rw [← List.reverse_append, List.takeWhile_append_dropWhile, List.reverse_reverse]
  have hn : '/' ∉ (f.reverse.takeWhile (fun c => c ≠ '/')).reverse := by
    intro h
    have := List.all_eq_true.1 (List.all_takeWhile (p := fun c : Char => decide (c ≠ '/')) (l := f.reverse)) _ (List.mem_reverse.1 h)
    simp at this
  have hd : f.reverse.dropWhile (fun c => c ≠ '/') = [] ∨ (f.reverse.dropWhile (fun c => c ≠ '/')).head? = some '/' := by
    cases e : f.reverse.dropWhile (fun c => c ≠ '/') with
    | nil => exact .inl rfl
    | cons c r =>
      have := List.head?_dropWhile_not (fun c : Char => decide (c ≠ '/')) f.reverse
      rw [e] at this
      refine .inr ?_
      simpa using this
  generalize f.reverse.dropWhile (fun c => c ≠ '/') = d at hf hd
  generalize (f.reverse.takeWhile (fun c => c ≠ '/')).reverse = n at hf hn
  subst hf
  rcases hd with rfl | hd
  · have hh : n.head? ≠ some '/' := fun e => hn (List.mem_of_mem_head? e)
    rw [List.reverse_nil, List.nil_append, splitOn_of_not_mem hn, if_neg hh]
    simp [leadsTo, splitOn, step]
  · cases d with
    | nil => cases hd
    | cons c d =>
      rw [List.head?_cons, Option.some.injEq] at hd
      subst hd
      rw [List.reverse_cons, List.append_assoc, List.singleton_append, splitOn_append, splitOn_of_not_mem hn, List.dropLast_concat]
      have hh : (d.reverse ++ '/' :: n).head? = (d.reverse ++ ['/']).head? := by cases d.reverse <;> rfl
      rw [hh, leadsTo, splitOn_append, List.foldl_append]
      simp [splitOn, step]

/-- A path joined to a directory: the walk goes on from there. -/
theorem join_leadsTo (cwd : List Str) (a b : Str) (ha : a ≠ []) :
    leadsTo cwd (pathJoin a b) = (splitOn '/' b).foldl step (leadsTo cwd a) := by
  unfold pathJoin
  rw [if_pos ha, clean_leadsTo, leadsTo, splitOn_append, List.foldl_append]
  have hh : (a ++ '/' :: b).head? = a.head? := by cases a <;> simp_all
  rw [hh]
  rfl

/-- A location in a file leads where it leads from the directory of the file. -/
theorem beside_leadsTo (cwd : List Str) (f loc : Str) (hl : loc.head? ≠ some '/') :
    leadsTo cwd (pathJoin (pathDir f) loc) =
      leadsTo ((splitOn '/' f).dropLast.foldl step (if f.head? = some '/' then [] else cwd)) loc := by
  rw [join_leadsTo _ _ _ (show pathDir f ≠ [] from clean_ne_nil _), dir_leadsTo, leadsTo, if_neg hl]

example : leadsTo [c!"home", c!"me"] (pathJoin (pathDir c!"schemas/a/b.xsd") c!"../c.xsd") =
    [c!"home", c!"me", c!"schemas", c!"c.xsd"] := by decide

/-- C11: from every working directory the file that is written lies below the place the output directory leads to.
Missing: as in `written_inside_partial`. -/
theorem written_below_partial (cwd : List Str) (cfg : Cfg) (ext : Str) (hd : Placed cfg) (he : 2 ≤ ext.length) (hs : '/' ∉ ext)
    (h : c!".." ∉ splitOn '/' (trimPrefix cfg.filePath cfg.inputDir))
    (hr : ∃ c ∈ splitOn '/' (trimPrefix cfg.filePath cfg.inputDir), realComp c = true) :
    ∃ comps, comps ≠ [] ∧ (∀ c ∈ comps, Below c) ∧
      leadsTo cwd (fileWithExtension (outputPath cfg) ext) = leadsTo cwd cfg.outputDir ++ comps := by
  obtain ⟨comps, h1, h2, h3⟩ := written_inside_partial cfg ext hd he hs h hr
  exact ⟨comps, h1, h2, by rw [h3, leadsTo_descend _ _ (clean_ne_nil _) _ h2, clean_leadsTo]⟩

example : leadsTo [c!"home", c!"me"] c!"../you/./a//b" = [c!"home", c!"you", c!"a", c!"b"] := by decide
example : leadsTo [c!"home"] (fileWithExtension
    (outputPath { filePath := c!"in/a.xsd", inputDir := c!"in", outputDir := c!"./gen/../../out" }) c!".go") =
    [c!"out", c!"a.xsd.go"] := by decide

example : fileWithExtension
    (outputPath { filePath := c!"in/a.xsd", inputDir := c!"in", outputDir := c!"out" }) c!".go" = c!"out/a.xsd.go" := by
  decide

/-- With a single input file (`-i a.xsd -o out`) nothing remains of the input path and the file is written beside the
output directory, not in it. -/
theorem single_file_is_beside :
    fileWithExtension (outputPath { filePath := c!"a.xsd", inputDir := c!"a.xsd", outputDir := c!"out" }) c!".go" =
      c!"out.go" := by decide

example : outputPath { filePath := c!"in/sub/a.xsd", inputDir := c!"in", outputDir := c!"./gen/../out" } =
    c!"out/sub/a.xsd" := by decide

/-- The condition is needed: an imported schema location may climb out of the output directory. -/
theorem escapes_with_dotdot :
    outputPath { filePath := c!"../x.xsd", inputDir := [], outputDir := c!"out" } = c!"x.xsd" := by decide

/-- Without an output directory the files of a directory of schemas are written to the root of the file system. -/
theorem escapes_without_outputDir :
    fileWithExtension (outputPath { filePath := c!"in/a.xsd", inputDir := c!"in", outputDir := [] }) c!".go" =
      c!"/a.xsd.go" := by decide

/-- C11 is false as it stands: there are configurations whose rest has no ".." component, with and without an output
directory, for which no walk down from the output directory leads to the written file. -/
theorem written_outside (cwd : List Str) (hc : 1 < cwd.length) : ∀ cfg ∈
    [({ filePath := c!"a.xsd", inputDir := c!"a.xsd", outputDir := c!"out" } : Cfg),
     { filePath := c!"in/a.xsd", inputDir := c!"in", outputDir := [] }],
    c!".." ∉ splitOn '/' (trimPrefix cfg.filePath cfg.inputDir) ∧
    ∀ comps, leadsTo cwd (fileWithExtension (outputPath cfg) c!".go") ≠ leadsTo cwd cfg.outputDir ++ comps := by
  intro cfg hcfg
  simp only [List.mem_cons, List.not_mem_nil, or_false] at hcfg
  rcases hcfg with rfl | rfl
  · refine ⟨by decide, fun comps => ?_⟩
    rw [single_file_is_beside]
    have h1 : leadsTo cwd c!"out.go" = cwd ++ [c!"out.go"] := by simp [leadsTo, splitOn, step]
    have h2 : leadsTo cwd c!"out" = cwd ++ [c!"out"] := by simp [leadsTo, splitOn, step]
    rw [h1, h2, List.append_assoc]
    intro e
    have := List.append_cancel_left e
    simp at this
  · refine ⟨by decide, fun comps => ?_⟩
    rw [escapes_without_outputDir]
    have h1 : leadsTo cwd c!"/a.xsd.go" = [c!"a.xsd.go"] := by simp [leadsTo, splitOn, step]
    have h2 : leadsTo cwd [] = cwd := by simp [leadsTo, splitOn, step]
    rw [h1]
    show _ ≠ leadsTo cwd [] ++ comps
    rw [h2]
    intro e
    have := congrArg List.length e
    simp at this
    omega

/-- An empty output directory puts the code beside an absolute input path, not below ".". -/
theorem escapes_beside_input :
    outputPath { filePath := c!"/etc/a.xsd", inputDir := [], outputDir := [] } = c!"/etc/a.xsd" := by decide

example : outputPath { filePath := c!"sub/./a.xsd", inputDir := [], outputDir := [] } = c!"sub/a.xsd" := by decide

end C11
end Xgen
