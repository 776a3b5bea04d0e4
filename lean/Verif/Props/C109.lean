import Verif.Lemmas.Move
import Verif.Props.C61
import Verif.Spec.Example

/-! # C109: a folder of schemas gives the same code wherever it lies -/

namespace Xgen.C109
open Move
open C11 (Below descend)
open C12 (Ordinary)
open C61 (Named Leads Plainly places)

/-! ## Specification -/

/-- Where a relative path leads from a place (last component first); `none` if it leads out of the folder. -/
def follow : List Str → List Str → Option (List Str)
  | pos, [] => some pos
  | pos, c :: cs =>
    if c = [] ∨ c = c!"." then follow pos cs
    else if c = c!".." then
      match pos with
      | [] => none
      | _ :: up => follow up cs
    else follow (c :: pos) cs

/-- The place a location leads to from beside the file at place `l`. -/
def reach (l : List Str) (loc : Str) : Option (List Str) :=
  (follow l.dropLast.reverse (splitOn '/' loc)).map List.reverse

/-- A location that a file of the folder names. -/
def Located (W : World) (dir loc : Str) : Prop :=
  ∃ l toks name attrs a, (∀ x ∈ l, Below x) ∧ W.fs.get? (descend (clean dir) l) = some (.file toks) ∧ Token.start name attrs ∈ toks ∧
    a ∈ attrs ∧ a.local = c!"schemaLocation" ∧ a.value = loc

/-- Paths of files written, without extension: the same, or both below the output directory at the path of a file of the folder. -/
def Beside (o d e q q' : Str) : Prop :=
  q' = q ∨ ∃ l, (∀ x ∈ l, Below x) ∧ q = pathJoin o (descend (clean d) l) ∧ q' = pathJoin o (descend (clean e) l)

/-- Two runs with the same options but for the folder, in which the same lies; no location leads out of the folder. -/
structure Moved (W W' : World) (lstat lstat' : Str → Option Forest) (c c' : Config) (f : Forest) : Prop where
  output : c.o ≠ []
  o : c'.o = c.o
  lang : c'.lang = c.lang
  pkg : c'.pkg = c.pkg
  input : c.i ≠ []
  input' : c'.i ≠ []
  plain : Plainly c.i
  plain' : Plainly c'.i
  named : Named f
  hidden : c.i = c!"." ∨ c'.i = c!"." → ∀ l, Leads f l → ∀ n, l.head? = some n → n.head? ≠ some '.'
  tree : lstat c.i = some f
  tree' : lstat' c'.i = some f
  dir : W.fs.get? c.i = some .dir
  dir' : W'.fs.get? c'.i = some .dir
  top : W.fs.get? (clean c.i) = some .dir
  same : ∀ l, (∀ x ∈ l, Below x) → W'.fs.get? (descend (clean c'.i) l) = W.fs.get? (descend (clean c.i) l)
  stays : ∀ l toks loc, (∀ x ∈ l, Below x) → W.fs.get? (descend (clean c.i) l) = some (.file toks) → Located W c.i loc →
    (reach l loc).isSome = true
  isURL : W'.isURL = W.isURL
  gofmt : W'.gofmt = W.gofmt
  pick : W'.pick = W.pick
  mkdir : ∀ q q', Beside c.o c.i c'.i q q' → W'.mkdirOk (pathDir q') = W.mkdirOk (pathDir q)
  create : ∀ q q' e, Beside c.o c.i c'.i q q' → W'.createOk (fileWithExtension q' e) = W.createOk (fileWithExtension q e)

/-! ## Paths -/

theorem descend_append (d : Str) (l m : List Str) : descend d (l ++ m) = descend (descend d l) m := by
  induction l generalizing d with
  | nil => rfl
  | cons c cs ih => exact ih _

theorem comps_join {m : List Str} (hm : ∀ x ∈ m, Below x) :
    (splitOn '/' (joinSlash m)).filter realComp = m ∧ c!".." ∉ splitOn '/' (joinSlash m) := by
  by_cases h : m = []
  · subst h; decide
  · rw [splitOn_joinSlash m h fun c hc => (hm c hc).2.2.2]
    exact ⟨C12.filter_real hm, fun h => (hm _ h).2.2.1 rfl⟩

theorem descend_clean {d : Str} (hd : d ≠ []) {m : List Str} (hm : ∀ x ∈ m, Below x) :
    descend (clean d) m = clean (d ++ '/' :: joinSlash m) := by
  have h := comps_join hm
  have := C11.join_below d (joinSlash m) hd h.2
  rw [h.1, pathJoin, if_pos hd] at this
  exact this.symm

theorem clean_descend {d : Str} (hd : d ≠ []) {m : List Str} (hm : ∀ x ∈ m, Below x) :
    clean (descend (clean d) m) = descend (clean d) m := by
  rw [descend_clean hd hm, clean_idem]

theorem render_head {r : Bool} {acc : List Str} (h : Norm r acc) : ((C11.render r acc.reverse).head? = some '/') ↔ r = true := by
  have hs := h.no_slash
  cases r with
  | true => simp [C11.render]
  | false =>
    simp only [C11.render, Bool.false_eq_true, if_false, iff_false]
    split
    · decide
    · intro e
      cases hl : acc.reverse with
      | nil => rw [hl] at e; cases e
      | cons a l =>
        obtain ⟨h1, -, h2⟩ := hs a (by rw [← List.mem_reverse, hl]; simp)
        obtain ⟨c, cs, rfl⟩ := List.exists_cons_of_ne_nil h1
        have : c ≠ '/' := by rintro rfl; simp at h2
        rw [hl] at e
        cases l <;> simp [joinSlash, this] at e

theorem render_comps {r : Bool} {acc : List Str} (h : Norm r acc) : cleanComps r (splitOn '/' (C11.render r acc.reverse)) [] = acc := by
  have hs := h.no_slash
  by_cases ha : acc = []
  · subst ha; cases r <;> decide
  have hr : acc.reverse ≠ [] := by simpa using ha
  have hsl : splitOn '/' (joinSlash acc.reverse) = acc.reverse :=
    splitOn_joinSlash _ hr (fun x hx => (hs x (by simpa using hx)).2.2)
  cases r with
  | true =>
    have e : C11.render true acc.reverse = '/' :: joinSlash acc.reverse := by simp [C11.render]
    rw [e, splitOn_cons_sep, hsl, cleanComps]
    simpa using cleanComps_norm h
  | false =>
    have e : C11.render false acc.reverse = joinSlash acc.reverse := by simp [C11.render, ha]
    rw [e, hsl, cleanComps_norm h]

theorem join_clean {a : Str} (ha : a ≠ []) (b : Str) : pathJoin (clean a) b = clean (a ++ '/' :: b) := by
  have hn := norm_cleanComps (a.head? = some '/') (splitOn '/' a) [] (fun x hx => not_mem_of_mem_splitOn hx) .nil
  have hne : clean a ≠ [] := clean_ne_nil a
  have e1 : (clean a ++ '/' :: b).head? = (clean a).head? := by cases h : clean a <;> simp_all
  have e2 : (a ++ '/' :: b).head? = a.head? := by cases a <;> simp_all
  have h1 := render_head hn
  have h2 := render_comps hn
  rw [← C11.clean_eq a ha] at h1 h2
  have e3 : decide ((clean a).head? = some '/') = decide (a.head? = some '/') := by simp only [h1, decide_eq_true_eq]
  rw [pathJoin, if_pos hne, C11.clean_eq (clean a ++ '/' :: b) (by simp), C11.clean_eq (a ++ '/' :: b) (by simp), e1, e2, e3, splitOn_append, splitOn_append,
    cleanComps_append, cleanComps_append, h2]

theorem follow_clean (r : Bool) (base : List Str) {cs pos pos' : List Str} (hc : ∀ x ∈ cs, '/' ∉ x) (hp : ∀ x ∈ pos, Below x)
    (h : follow pos cs = some pos') : cleanComps r cs (pos ++ base) = pos' ++ base ∧ ∀ x ∈ pos', Below x := by
  induction cs generalizing pos with
  | nil => cases h; exact ⟨rfl, hp⟩
  | cons c cs ih =>
    have ih := fun {pos} => @ih pos (fun x hx => hc x (by simp [hx]))
    unfold follow at h
    unfold cleanComps
    by_cases h1 : c = [] ∨ c = c!"."
    · rw [if_pos h1] at h
      rw [if_pos (by simpa using h1)]
      exact ih hp h
    · rw [if_neg h1] at h
      rw [if_neg (by simpa using h1)]
      by_cases h2 : c = c!".."
      · rw [if_pos h2] at h
        rw [if_pos h2]
        cases pos with
        | nil => cases h
        | cons a up =>
          dsimp only [List.cons_append] at h ⊢
          rw [if_neg (hp a (by simp)).2.2.1]
          exact ih (fun x hx => hp x (by simp [hx])) h
      · rw [if_neg h2] at h
        rw [if_neg h2]
        refine ih (pos := c :: pos) ?_ h
        intro x hx
        rcases List.mem_cons.1 hx with rfl | hx
        · exact ⟨fun e => h1 (Or.inl e), fun e => h1 (Or.inr e), h2, hc x (by simp)⟩
        · exact hp x hx

/-- A location looked up beside a file of the folder. -/
theorem join_reach {d : Str} (hd : d ≠ []) {m : List Str} (hm : ∀ x ∈ m, Below x) {loc : Str} {m' : List Str}
    (h : follow m.reverse (splitOn '/' loc) = some m'.reverse) :
    pathJoin (descend (clean d) m) loc = descend (clean d) m' ∧ ∀ x ∈ m', Below x := by
  have hj := comps_join hm
  have e2 : ((d ++ '/' :: joinSlash m) ++ '/' :: loc).head? = d.head? := by cases d <;> simp_all
  have hf := follow_clean (decide (d.head? = some '/')) (cleanComps (d.head? = some '/') (splitOn '/' d) [])
    (fun x hx => not_mem_of_mem_splitOn hx) (by simpa using hm) h
  have hb : ∀ x ∈ m', Below x := by simpa using hf.2
  refine ⟨?_, hb⟩
  rw [descend_clean hd hm, join_clean (by simp), C11.clean_eq _ (by simp), e2, splitOn_append, splitOn_append, cleanComps_append, cleanComps_append,
    cleanComps_plain _ _ _ hj.2, hj.1, hf.1, List.reverse_append, List.reverse_reverse, C11.clean_eq d hd]
  apply C11.render_append
  · intro x hx
    exact C11.cleanComps_ok _ _ _ (fun y hy => not_mem_of_mem_splitOn hy) (by simp) x (List.mem_reverse.1 hx)
  · exact fun x hx => ⟨(hb x hx).1, (hb x hx).2.1, (hb x hx).2.2.2⟩

theorem dir_descend {d : Str} (hd : d ≠ []) {m : List Str} (hm : ∀ x ∈ m, Below x) {x : Str} (hx : Below x) :
    pathDir (descend (clean d) (m ++ [x])) = descend (clean d) m := by
  rw [descend_append]
  have hc := clean_descend hd hm
  have hne : descend (clean d) m ≠ [] := by rw [← hc]; exact clean_ne_nil _
  generalize descend (clean d) m = E at hc hne
  have drop : ∀ pre : Str, (pre = [] ∨ ∃ q, pre = q ++ ['/']) →
      ((pre ++ x).reverse.dropWhile (fun c => c ≠ '/')).reverse = pre := by
    intro pre hpre
    rw [List.reverse_append, List.dropWhile_append_of_pos (by
      intro c hc
      have hm : c ∈ x := List.mem_reverse.1 hc
      have : c ≠ '/' := by rintro rfl; exact hx.2.2.2 hm
      simpa using this)]
    rcases hpre with rfl | ⟨q, rfl⟩
    · rfl
    · simp
  show pathDir (if E = c!"." then x else if E = c!"/" then '/' :: x else E ++ '/' :: x) = E
  unfold pathDir
  split
  · rename_i e
    have := drop [] (Or.inl rfl)
    rw [List.nil_append] at this
    rw [this, e]; rfl
  split
  · rename_i e
    have := drop ['/'] (Or.inr ⟨[], rfl⟩)
    rw [List.singleton_append] at this
    rw [this, e]; decide
  · have := drop (E ++ ['/']) (Or.inr ⟨E, rfl⟩)
    rw [List.append_assoc, List.singleton_append] at this
    rw [this, clean_slash E hne, hc]

/-- From beside a file at place `l`. -/
theorem beside {d : Str} (hd : d ≠ []) {l : List Str} (hl : Ordinary l) {loc : Str} {l' : List Str} (h : reach l loc = some l') :
    pathJoin (pathDir (descend (clean d) l)) loc = descend (clean d) l' ∧ ∀ x ∈ l', Below x := by
  obtain ⟨m, x, rfl⟩ : ∃ m x, l = m ++ [x] := ⟨_, _, (List.dropLast_concat_getLast hl.1).symm⟩
  have hm : ∀ y ∈ m, Below y := fun y hy => hl.2 y (by simp [hy])
  rw [dir_descend hd hm (hl.2 x (by simp))]
  unfold reach at h
  rw [List.dropLast_concat] at h
  obtain ⟨r, h1, rfl⟩ := Option.map_eq_some_iff.1 h
  exact join_reach hd hm (by rw [h1, List.reverse_reverse])

theorem descend_inj {d : Str} (hd : d ≠ []) {l m : List Str} (hl : ∀ x ∈ l, Below x) (hm : ∀ x ∈ m, Below x)
    (h : descend d l = descend d m) : l = m := by
  have := congrArg (C11.leadsTo []) h
  rw [C11.leadsTo_descend _ _ hd _ hl, C11.leadsTo_descend _ _ hd _ hm] at this
  exact List.append_cancel_left this

/-! ## The move -/

open Classical in
/-- The path of the same place in the other folder. -/
noncomputable def shift (d e p : Str) : Str :=
  if h : ∃ l, (∀ x ∈ l, Below x) ∧ p = descend d l then descend e h.choose else p

theorem shift_descend {d : Str} (hd : d ≠ []) (e : Str) {l : List Str} (hl : ∀ x ∈ l, Below x) :
    shift d e (descend d l) = descend e l := by
  have h : ∃ l', (∀ x ∈ l', Below x) ∧ descend d l = descend d l' := ⟨l, hl, rfl⟩
  unfold shift
  rw [dif_pos h]
  exact congrArg (descend e) (descend_inj hd hl h.choose_spec.1 h.choose_spec.2).symm

section
variable [Uni] [UniLaws]

omit [Uni] [UniLaws] in
theorem place_file {W : World} {d : Str} (ht : W.fs.get? (clean d) = some .dir) {l : List Str} (hl : ∀ x ∈ l, Below x) {toks : List Token}
    (hf : W.fs.get? (descend (clean d) l) = some (.file toks)) : Ordinary l := by
  refine ⟨?_, hl⟩
  rintro rfl
  rw [descend, ht] at hf
  cases hf

omit [Uni] [UniLaws] in
theorem paths {W W' : World} {lstat lstat' : Str → Option Forest} {c c' : Config} {f : Forest} (h : Moved W W' lstat lstat' c c' f)
    (hs : W.size ≤ W'.size) :
    Paths (shift (clean c.i) (clean c'.i)) W W' c.o c'.o (fun p => ∃ l, (∀ x ∈ l, Below x) ∧ p = descend (clean c.i) l)
      (Located W c.i) (Beside c.o c.i c'.i) where
  inj := by
    rintro p q ⟨l, hl, rfl⟩ ⟨m, hm, rfl⟩ e
    rw [shift_descend (clean_ne_nil _) _ hl, shift_descend (clean_ne_nil _) _ hm] at e
    rw [descend_inj (clean_ne_nil _) hl hm e]
  locs := by
    rintro p toks name attrs a ⟨l, hl, rfl⟩ hf ht ha hn
    exact ⟨l, toks, name, attrs, a, hl, hf, ht, ha, hn, rfl⟩
  next := by
    rintro p toks loc ⟨l, hl, rfl⟩ hf hL
    have ho := place_file h.top hl hf
    obtain ⟨l', hr⟩ : ∃ l', reach l loc = some l' := by
      rcases hL with rfl | hL
      · exact ⟨_, rfl⟩
      · exact Option.isSome_iff_exists.1 (h.stays l toks loc hl hf hL)
    obtain ⟨h1, h2⟩ := beside h.input ho hr
    obtain ⟨h3, -⟩ := beside h.input' ho hr
    rw [shift_descend (clean_ne_nil _) _ hl, h1, h3, shift_descend (clean_ne_nil _) _ h2]
    exact ⟨⟨l', h2, rfl⟩, rfl⟩
  puts := by
    rintro p toks ⟨l, hl, rfl⟩ -
    rw [shift_descend (clean_ne_nil _) _ hl, h.o]
    exact Or.inr ⟨l, hl, rfl, rfl⟩
  fs := by
    rintro p ⟨l, hl, rfl⟩
    rw [shift_descend (clean_ne_nil _) _ hl]
    exact h.same l hl
  isURL := h.isURL
  gofmt := h.gofmt
  pick := h.pick
  size := hs
  mkdir := h.mkdir
  create := h.create

omit [Uni] [UniLaws] in
theorem listed {W : World} {lstat : Str → Option Forest} {d : Str} {f : Forest} (hd : W.fs.get? d = some .dir) (ht : lstat d = some f)
    (hn : Named f) (h : d ≠ []) : getFileList W (walkFrom lstat) d = some (d :: ((places f).map (descend (clean d)) ++ [d])) := by
  unfold getFileList walkFrom
  rw [hd, ht]
  dsimp only
  rw [C61.walk_places f hn d h]
  rfl

/-- The folder itself as an input does nothing. -/
theorem loop_dir {W : World} {c : Config} {d : Str} (hd : W.fs.get? d = some .dir) (fs : List Str) (sh : Shared) :
    mainLoop W c (d :: fs) sh = mainLoop W c fs { outputs := sh.outputs, tick := sh.tick, log := sh.log } := by
  rw [mainLoop, C22.Parse_eq, parseWith]
  rw [show W.fs.get? (mainCfg c d).filePath = some .dir from hd]

theorem loop_last {W : World} {c : Config} {d : Str} (hd : W.fs.get? d = some .dir) (fs : List Str) (sh : Shared) :
    (mainLoop W c (fs ++ [d]) sh).1 = (mainLoop W c fs sh).1 ∧
      (mainLoop W c (fs ++ [d]) sh).2.outputs = (mainLoop W c fs sh).2.outputs := by
  induction fs generalizing sh with
  | nil => rw [List.nil_append, loop_dir hd]; exact ⟨rfl, rfl⟩
  | cons f fs ih =>
    rw [List.cons_append, mainLoop, mainLoop]
    cases Parse W (mainCfg c f) { outputs := sh.outputs, tick := sh.tick, log := sh.log } with
    | ok t s => exact ih s
    | err e s => exact ⟨rfl, rfl⟩
    | halt g s => cases g <;> exact ⟨rfl, rfl⟩

theorem loop_places {W : World} {c : Config} {d : Str} (hd : W.fs.get? d = some .dir) (fs : List Str) :
    (mainLoop W c (d :: (fs ++ [d])) {}).1 = (mainLoop W c fs {}).1 ∧
      (mainLoop W c (d :: (fs ++ [d])) {}).2.outputs = (mainLoop W c fs {}).2.outputs := by
  rw [loop_dir hd]
  exact loop_last hd fs {}

theorem forth {W W' : World} {lstat lstat' : Str → Option Forest} {c c' : Config} {f : Forest} (h : Moved W W' lstat lstat' c c' f)
    (hs : W.size ≤ W'.size) :
    (mainLoop W' c' ((places f).map (descend (clean c'.i))) {}).1 = (mainLoop W c ((places f).map (descend (clean c.i))) {}).1 ∧
      C75.Each (Wrote (Beside c.o c.i c'.i)) (mainLoop W c ((places f).map (descend (clean c.i))) {}).2.outputs
        (mainLoop W' c' ((places f).map (descend (clean c'.i))) {}).2.outputs := by
  have ho : ∀ l ∈ places f, Leads f l ∧ Ordinary l := fun l hl =>
    have := (C61.mem_places f l).1 hl
    ⟨this, this.ordinary h.named⟩
  have key := mainLoop_moved (paths h hs) h.lang h.pkg ((places f).map (descend (clean c.i))) (by
    intro p hp
    obtain ⟨l, hl, rfl⟩ := List.mem_map.1 hp
    obtain ⟨h1, h2⟩ := ho l hl
    refine ⟨⟨l, h2.2, rfl⟩, fun _ _ => Or.inl ?_⟩
    rw [shift_descend (clean_ne_nil _) _ h2.2]
    show pathJoin c'.o (trimPrefix (descend (clean c'.i) l) c'.i) = pathJoin c.o (trimPrefix (descend (clean c.i) l) c.i)
    rw [C61.below_of_trim h.output h2 (C61.trimmed h.plain h2 fun e => h.hidden (Or.inl e) l h1),
      C61.below_of_trim (by rw [h.o]; exact h.output) h2 (C61.trimmed h.plain' h2 fun e => h.hidden (Or.inr e) l h1), h.o])
    (a := {}) (b := {}) rfl .nil
  have hm : ((places f).map (descend (clean c.i))).map (shift (clean c.i) (clean c'.i)) = (places f).map (descend (clean c'.i)) := by
    rw [List.map_map]
    refine List.map_congr_left fun l hl => ?_
    exact shift_descend (clean_ne_nil _) _ (ho l hl).2.2
  rw [hm] at key
  exact key

omit [Uni] [UniLaws] in
theorem Beside.symm {o d e q q' : Str} (h : Beside o d e q q') : Beside o e d q' q := by
  rcases h with rfl | ⟨l, hl, rfl, rfl⟩
  · exact Or.inl rfl
  · exact Or.inr ⟨l, hl, rfl, rfl⟩

omit [Uni] [UniLaws] in
theorem Moved.symm {W W' : World} {lstat lstat' : Str → Option Forest} {c c' : Config} {f : Forest} (h : Moved W W' lstat lstat' c c' f) :
    Moved W' W lstat' lstat c' c f where
  output := by rw [h.o]; exact h.output
  o := h.o.symm
  lang := h.lang.symm
  pkg := h.pkg.symm
  input := h.input'
  input' := h.input
  plain := h.plain'
  plain' := h.plain
  named := h.named
  hidden e := h.hidden e.symm
  tree := h.tree'
  tree' := h.tree
  dir := h.dir'
  dir' := h.dir
  top := (h.same [] (by simp)).trans h.top
  same l hl := (h.same l hl).symm
  stays := by
    rintro l toks loc hl hf ⟨m, toks', name, attrs, a, hm, hf', h1⟩
    rw [h.same l hl] at hf
    rw [h.same m hm] at hf'
    exact h.stays l toks loc hl hf ⟨m, toks', name, attrs, a, hm, hf', h1⟩
  isURL := h.isURL.symm
  gofmt := h.gofmt.symm
  pick := h.pick.symm
  mkdir q q' hq := by rw [h.o] at hq; exact (h.mkdir _ _ hq.symm).symm
  create q q' e hq := by rw [h.o] at hq; exact (h.create _ _ e hq.symm).symm

omit [Uni] [UniLaws] in
theorem each_symm {o d e : Str} {l m : List (Str × Str)} (h : C75.Each (Wrote (Beside o d e)) l m) : C75.Each (Wrote (Beside o e d)) m l := by
  induction h with
  | nil => exact .nil
  | cons hab _ ih =>
    obtain ⟨h1, q, q', x, h2, h3, h4⟩ := hab
    exact .cons ⟨h1.symm, q', q, x, h2.symm, h4, h3⟩ ih

/-- C109: the folder given as input is moved, or copied, with all that is in it, and no schema in it names a location outside of it.  Then the command, with
the same options otherwise, ends in the same way and writes the same number of files with the same texts in the same order; each file has the same path as before, or
it was and is the file of a schema of the folder below the output directory. -/
theorem same_code {W W' : World} {lstat lstat' : Str → Option Forest} {c c' : Config} {f : Forest} (h : Moved W W' lstat lstat' c c' f)
    {fl fl' : Flags} (hc : parseFlags fl = .go c) (hc' : parseFlags fl' = .go c') :
    (main' W' (walkFrom lstat') fl').1 = (main' W (walkFrom lstat) fl).1 ∧
      C75.Each (Wrote (Beside c.o c.i c'.i)) (main' W (walkFrom lstat) fl).2.outputs (main' W' (walkFrom lstat') fl').2.outputs := by
  unfold main'
  rw [hc, hc']
  dsimp only
  rw [listed h.dir h.tree h.named h.input, listed h.dir' h.tree' h.named h.input']
  dsimp only
  have l1 := loop_places (c := c) h.dir ((places f).map (descend (clean c.i)))
  have l2 := loop_places (c := c') h.dir' ((places f).map (descend (clean c'.i)))
  rw [l1.1, l1.2, l2.1, l2.2]
  rcases Nat.le_total W.size W'.size with hs | hs
  · exact forth h hs
  · have := forth h.symm hs
    rw [h.o] at this
    exact ⟨this.1.symm, each_symm this.2⟩

end

/-! ## Folders given by what lies at their places -/

/-- The paths below a directory. -/
def onDisk (d : Str) (ps : List (List Str × Entry)) : GoMap Entry := ps.map fun x => (descend d x.1, x.2)

/-- What lies at a place. -/
def lies : List (List Str × Entry) → List Str → Option Entry
  | [], _ => none
  | (k, e) :: ps, l => if k = l then some e else lies ps l

theorem get_onDisk {d : Str} (hd : d ≠ []) {ps : List (List Str × Entry)} (hp : ∀ x ∈ ps, ∀ y ∈ x.1, Below y) {l : List Str} (hl : ∀ x ∈ l, Below x) :
    (onDisk d ps).get? (descend d l) = lies ps l := by
  induction ps with
  | nil => rfl
  | cons x ps ih =>
    obtain ⟨k, e⟩ := x
    have ih := ih fun x hx => hp x (by simp [hx])
    unfold onDisk at ih ⊢
    rw [List.map_cons, GoMap.get?, lies, ih]
    by_cases h : k = l
    · rw [if_pos h, if_pos (by rw [h])]
    · rw [if_neg h, if_neg fun e => h (descend_inj hd (hp _ List.mem_cons_self) hl e)]

theorem lies_mem {ps : List (List Str × Entry)} {l : List Str} {e : Entry} (h : lies ps l = some e) : (l, e) ∈ ps := by
  induction ps with
  | nil => cases h
  | cons x ps ih =>
    obtain ⟨k, e'⟩ := x
    rw [lies] at h
    split at h
    · rename_i e1; cases h; rw [e1]; simp
    · simp [ih h]

/-- The locations a file names. -/
def named : Entry → List Str
  | .file toks => toks.flatMap fun
    | .start _ attrs => (attrs.filter fun a => a.local = c!"schemaLocation").map (·.value)
    | _ => []
  | _ => []

/-- No location leads out of the folder. -/
def Inside (ps : List (List Str × Entry)) : Prop :=
  ∀ x ∈ ps, (∃ toks, x.2 = .file toks) → ∀ y ∈ ps, ∀ loc ∈ named y.2, (reach x.1 loc).isSome = true

theorem stays_onDisk {W : World} {dir : Str} {ps : List (List Str × Entry)} (hW : W.fs = onDisk (clean dir) ps)
    (hp : ∀ x ∈ ps, ∀ y ∈ x.1, Below y) (hi : Inside ps) (l : List Str) (toks : List Token) (loc : Str) (hl : ∀ x ∈ l, Below x)
    (hf : W.fs.get? (descend (clean dir) l) = some (.file toks)) (h : Located W dir loc) : (reach l loc).isSome = true := by
  obtain ⟨m, toks', name, attrs, a, hm, hf', ht, ha, hn, rfl⟩ := h
  rw [hW, get_onDisk (clean_ne_nil _) hp hl] at hf
  rw [hW, get_onDisk (clean_ne_nil _) hp hm] at hf'
  refine hi _ (lies_mem hf) ⟨toks, rfl⟩ _ (lies_mem hf') a.value ?_
  exact List.mem_flatMap.2 ⟨_, ht, List.mem_map.2 ⟨a, List.mem_filter.2 ⟨ha, by simpa using hn⟩, rfl⟩⟩

/-! ## Example: a folder with a schema that imports one from a folder below, moved -/

open Ex

/-- What is in the folder. -/
def content : List (List Str × Entry) :=
  [([], .dir),
   ([c!"a.xsd"], .file ([on "schema" [("xmlns:b", "urn:b")]] ++ leaf "import" [("namespace", "urn:b"), ("schemaLocation", "sub/b.xsd")] ++
      leaf "element" [("name", "root"), ("type", "b:Code")] ++ [off "schema"])),
   ([c!"sub"], .dir),
   ([c!"sub", c!"b.xsd"], .file ([on "schema", on "simpleType" [("name", "Code")]] ++ leaf "restriction" [("base", "xs:string")] ++
      [off "simpleType", off "schema"]))]

/-- The same as a listing. -/
def listing : Forest := .leaf c!"a.xsd" (.dir c!"sub" (.leaf c!"b.xsd" .nil) .nil)

/-- The disk with the folder at a path. -/
def diskAt (d : Str) (ps : List (List Str × Entry)) : World := { Ex.world [] with fs := onDisk (clean d) ps }

/-- The options. -/
def configAt (d : Str) : Config := { i := d, o := c!"out", lang := c!"Go" }

/-- The flags. -/
def flagsAt (d : Str) : Flags := { i := d, o := c!"out", l := c!"Go" }

instance (n : Str) : Decidable (Below n) := by unfold Below; infer_instance

theorem named_listing : Named listing := ⟨by decide, ⟨by decide, ⟨by decide, trivial⟩, trivial⟩⟩

theorem content_below : ∀ x ∈ content, ∀ y ∈ x.1, Below y := by decide

theorem content_inside : Inside content := by
  have : ∀ x ∈ content, ∀ y ∈ content, ∀ loc ∈ named y.2, (reach x.1 loc).isSome = true := by decide +kernel
  exact fun x hx _ => this x hx

theorem moved : Moved (diskAt c!"in" content) (diskAt c!"/home/me/schemas" content) (fun _ => some listing) (fun _ => some listing)
    (configAt c!"in") (configAt c!"/home/me/schemas") listing where
  output := by decide
  o := rfl
  lang := rfl
  pkg := rfl
  input := by decide
  input' := by decide
  plain := Or.inl (by decide +kernel)
  plain' := Or.inl (by decide +kernel)
  named := named_listing
  hidden := by rintro (h | h) <;> exact absurd h (by decide)
  tree := rfl
  tree' := rfl
  dir := by decide +kernel
  dir' := by decide +kernel
  top := by decide +kernel
  same l hl := (get_onDisk (clean_ne_nil c!"/home/me/schemas") content_below hl).trans (get_onDisk (clean_ne_nil c!"in") content_below hl).symm
  stays := stays_onDisk rfl content_below content_inside
  isURL := rfl
  gofmt := rfl
  pick := rfl
  mkdir _ _ _ := rfl
  create _ _ _ _ := rfl

example : (@main' asciiUni (diskAt c!"/home/me/schemas" content) (walkFrom fun _ => some listing) (flagsAt c!"/home/me/schemas")).1 =
    (@main' asciiUni (diskAt c!"in" content) (walkFrom fun _ => some listing) (flagsAt c!"in")).1 :=
  (@same_code asciiUni asciiUniLaws _ _ _ _ _ _ _ moved _ _ rfl rfl).1

/-- The files: those of the inputs have the same paths, that of the imported schema has the path of the folder in it. -/
example : (@main' asciiUni (diskAt c!"in" content) (walkFrom fun _ => some listing) (flagsAt c!"in")).1 = .done ∧
    (@main' asciiUni (diskAt c!"in" content) (walkFrom fun _ => some listing) (flagsAt c!"in")).2.outputs.map (·.1) =
      [c!"out/in/sub/b.xsd.go", c!"out/a.xsd.go", c!"out/sub/b.xsd.go"] ∧
    (@main' asciiUni (diskAt c!"/home/me/schemas" content) (walkFrom fun _ => some listing) (flagsAt c!"/home/me/schemas")).2.outputs.map (·.1) =
      [c!"out/home/me/schemas/sub/b.xsd.go", c!"out/a.xsd.go", c!"out/sub/b.xsd.go"] := by
  decide +kernel

/-- The same folder, but the schema names a location outside of it. -/
def leaving : List (List Str × Entry) :=
  [([], .dir),
   ([c!"a.xsd"], .file ([on "schema" [("xmlns:b", "urn:b")]] ++ leaf "import" [("namespace", "urn:b"), ("schemaLocation", "../in")] ++
      leaf "element" [("name", "root"), ("type", "b:Code")] ++ [off "schema"]))]

/-- C109, without the condition on the locations: the run that was good fails in the other place. -/
theorem leaves : (@main' asciiUni (diskAt c!"in" leaving) (walkFrom fun _ => some (.leaf c!"a.xsd" .nil)) (flagsAt c!"in")).1 = .done ∧
    (@main' asciiUni (diskAt c!"new" leaving) (walkFrom fun _ => some (.leaf c!"a.xsd" .nil)) (flagsAt c!"new")).1 = .code 1 ∧ ¬ Inside leaving := by
  refine ⟨by decide +kernel, by decide +kernel, fun h => ?_⟩
  exact absurd (h _ (List.mem_cons_of_mem _ List.mem_cons_self) ⟨_, rfl⟩ _ (List.mem_cons_of_mem _ List.mem_cons_self) c!"../in" (by decide +kernel))
    (by decide +kernel)

end Xgen.C109
