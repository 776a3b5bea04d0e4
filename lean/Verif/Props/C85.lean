import Verif.Props.C84
import Verif.Model.Flag

/-! # C85: running the command again -/

namespace Xgen.C85
open Disk C84
variable [Uni] [Xml.NameChars]

/-- `W'` is `W` with other files. -/
structure OtherFiles (W W' : World) : Prop where
  isURL : W'.isURL = W.isURL
  gofmt : W'.gofmt = W.gofmt
  mkdirOk : W'.mkdirOk = W.mkdirOk
  createOk : W'.createOk = W.createOk
  pick : W'.pick = W.pick

/-- `W` with the files of `W'` first. -/
def both (W W' : World) : World := { W with fs := W'.fs ++ W.fs }

omit [Uni] [Xml.NameChars] in
theorem get_append (m m' : GoMap Entry) (k : Str) :
    GoMap.get? (m' ++ m) k = match m'.get? k with | some e => some e | none => m.get? k := by
  induction m' with
  | nil => rfl
  | cons a m' ih =>
    obtain ⟨k', v⟩ := a
    show (if k' = k then some v else GoMap.get? (m' ++ m) k) = _
    simp only [GoMap.get?]
    split
    · rfl
    · exact ih

section
variable {W W' : World} {cwd : List Str} {c : Config} {ext : Str} {files : List Str} {S : Str → Prop}

omit [Uni] [Xml.NameChars] in
theorem both_size : W.size ≤ (both W W').size ∧ W'.size ≤ (both W W').size := by
  simp only [both, World.size, List.map_append, List.sum_append]
  omega

omit [Uni] [Xml.NameChars] in
theorem alike_both (I : Shared → Prop) (h : ∀ q, S q → W'.fs.get? q = W.fs.get? q) :
    Alike W S I (fun _ _ => both W W') where
  fs _ p _ hp := by
    show GoMap.get? (W'.fs ++ W.fs) p = _
    rw [get_append, h p hp]
    cases W.fs.get? p <;> rfl
  size _ _ := both_size.1
  isURL _ _ := rfl
  gofmt _ _ := rfl
  mkdirOk _ _ := rfl
  createOk _ _ := rfl
  pick _ _ := rfl

omit [Uni] [Xml.NameChars] in
theorem alike_both' (I : Shared → Prop) (ho : OtherFiles W W') (h : ∀ q, S q → W'.fs.get? q = W.fs.get? q) :
    Alike W' S I (fun _ _ => both W W') where
  fs _ p _ hp := by
    show GoMap.get? (W'.fs ++ W.fs) p = _
    rw [get_append, h p hp]
    cases W.fs.get? p <;> rfl
  size _ _ := both_size.2
  isURL _ _ := ho.isURL.symm
  gofmt _ _ := ho.gofmt.symm
  mkdirOk _ _ := ho.mkdirOk.symm
  createOk _ _ := ho.createOk.symm
  pick _ _ := ho.pick.symm

omit [Xml.NameChars] in
theorem parse_same [UniLaws] (he : (c.lang, ext) ∈ C24.extensions) (ho : OtherFiles W W')
    (h : ∀ q, S q → W'.fs.get? q = W.fs.get? q) (hA : Apart W cwd c ext files S) {f : Str} (hf : f ∈ files) (sh : Shared)
    (hi : Within (Located W S) (Target W c ext files S) sh) :
    Parse W' (mainCfg c f) sh = Parse W (mainCfg c f) sh ∧
      Within (Located W S) (Target W c ext files S) (Parse W (mainCfg c f) sh).state := by
  obtain ⟨h1, h2⟩ := parse_see he hA.closure (alike_both _ h) (W.fs.length + W'.fs.length + 2) (by omega) (mainCfg c f)
    (hA.allowed hf) sh hi
  have hC' : Closure W' c.o ext S (Located W S) (Target W c ext files S) :=
    ⟨fun hp hf' => hA.closure.locs hp (by rw [← h _ hp]; exact hf'),
      fun hp hf' => hA.closure.next hp (by rw [← h _ hp]; exact hf'),
      fun hp hf' => hA.closure.puts hp (by rw [← h _ hp]; exact hf')⟩
  have hB' : Allowed W' c.o c.lang ext S (Target W c ext files S) (mainCfg c f) :=
    ⟨hA.inputs f hf, rfl, rfl, fun _ _ _ => Or.inl ⟨f, hf, rfl⟩⟩
  obtain ⟨h3, -⟩ := parse_see he hC' (alike_both' _ ho h) (W.fs.length + W'.fs.length + 2) (by omega) (mainCfg c f)
    hB' sh hi
  exact ⟨h3.symm.trans h1, h2⟩

omit [Xml.NameChars] in
theorem loop_same [UniLaws] (he : (c.lang, ext) ∈ C24.extensions) (ho : OtherFiles W W')
    (h : ∀ q, S q → W'.fs.get? q = W.fs.get? q) (hA : Apart W cwd c ext files S) (fs : List Str) (hf : ∀ f ∈ fs, f ∈ files)
    (sh : Shared) (hi : ∀ o ∈ sh.outputs, Target W c ext files S o.1) : mainLoop W' c fs sh = mainLoop W c fs sh := by
  induction fs generalizing sh with
  | nil => rfl
  | cons f fs ih =>
    unfold mainLoop
    have hw : Within (Located W S) (Target W c ext files S) { outputs := sh.outputs, tick := sh.tick, log := sh.log } :=
      ⟨(fun k v (e : none = some v) => nomatch e), (fun k hk => absurd hk List.not_mem_nil), hi⟩
    obtain ⟨h1, h2⟩ := parse_same he ho h hA (hf f (by simp)) _ hw
    rw [h1]
    cases e : Parse W (mainCfg c f) { outputs := sh.outputs, tick := sh.tick, log := sh.log } with
    | ok t s1 => rw [e] at h2; exact ih (fun f hf' => hf f (by simp [hf'])) s1 h2.out
    | err er s1 => rfl
    | halt hh s1 => cases hh <;> rfl

omit [Xml.NameChars] in
/-- A run depends on nothing but what it looks at. -/
theorem depends_on_reads [UniLaws] (walk walk' : Str → List Str) (f : Flags) (hc : parseFlags f = .go c)
    (hl : getFileList W walk c.i = some files) (hl' : getFileList W' walk' c.i = some files)
    (he : (c.lang, ext) ∈ C24.extensions) (hA : Apart W cwd c ext files S) (ho : OtherFiles W W')
    (h : ∀ q, S q → W'.fs.get? q = W.fs.get? q) : main' W' walk' f = main' W walk f := by
  unfold main'
  rw [hc]
  dsimp only
  rw [hl, hl']
  exact loop_same he ho h hA files (fun _ h => h) {} (fun o ho => by cases ho)

/-- Where a run finds everything as another does, reads and writes are apart for both. -/
theorem apart_same (hA : Apart W cwd c ext files S) (h : ∀ q, S q → W'.fs.get? q = W.fs.get? q) :
    Apart W' cwd c ext files S := by
  have ht : ∀ o, Target W' c ext files S o → Target W c ext files S o := fun o => Or.imp id
    fun ⟨p, toks, hp, hf, e⟩ => ⟨p, toks, hp, by rw [← h p hp]; exact hf, e⟩
  refine ⟨hA.inputs, fun p toks l hp hf hl => hA.next p toks l hp (by rw [← h p hp]; exact hf) ?_, fun q o hq h' => ?_⟩
  · exact hl.imp id fun ⟨p, toks, name, attrs, a, hp, hf, r⟩ =>
      ⟨p, toks, name, attrs, a, hp, by rw [← h p hp]; exact hf, r⟩
  · have := hA.apart q o hq (ht o h')
    rw [GoMap.has, h q hq]
    exact this

/-- Two runs on live disks that are alike at the paths looked at are the same. -/
theorem now_same [UniLaws] (walk walk' : Str → List Str) (f : Flags) (hc : parseFlags f = .go c)
    (hl : getFileList W walk c.i = some files) (hl' : getFileList W' walk' c.i = some files)
    (he : (c.lang, ext) ∈ C24.extensions) (hA : Apart W cwd c ext files S) (ho : OtherFiles W W') {n n' : Nat}
    (hn : W.fs.length + 2 ≤ n) (hn' : W'.fs.length + 2 ≤ n') (h : ∀ q, S q → W'.fs.get? q = W.fs.get? q) :
    mainNow W' cwd n' walk' f = mainNow W cwd n walk f := by
  rw [as_at_the_start walk f hc hl he hA hn, as_at_the_start walk' f hc hl' he (apart_same hA h) hn']
  exact depends_on_reads walk walk' f hc hl hl' he hA ho h

/-- C85: run again on the disk the first run left behind, with the same list of inputs, the command does exactly the same:
the same exit, the same files with the same contents.  The two runs are on the live disk; `W'` is what the first one left
at the paths the run looks at. -/
theorem again_partial [UniLaws] (walk walk' : Str → List Str) (f : Flags) (hc : parseFlags f = .go c)
    (hl : getFileList W walk c.i = some files) (hl' : getFileList W' walk' c.i = some files)
    (he : (c.lang, ext) ∈ C24.extensions) (hA : Apart W cwd c ext files S) (ho : OtherFiles W W') {n n' : Nat}
    (hn : W.fs.length + 2 ≤ n) (hn' : W'.fs.length + 2 ≤ n')
    (h : ∀ q, S q → W'.fs.get? q = look W cwd (mainNow W cwd n walk f).2.outputs q) :
    mainNow W' cwd n' walk' f = mainNow W cwd n walk f := by
  refine now_same walk walk' f hc hl hl' he hA ho hn hn' fun q hq => ?_
  rw [h q hq, as_at_the_start walk f hc hl he hA hn]
  exact reads_kept walk f hc hl he hA hq

end

omit [Uni] in
/-- And where a path is found after the first run as `W'` says, it is so after the second. -/
theorem look_again (W W' : World) (cwd : List Str) (outs : List (Str × Str)) (q : Str)
    (h : W'.fs.get? q = look W cwd outs q) : look W' cwd outs q = look W cwd outs q := by
  unfold look at h ⊢
  cases e : outs.reverse.find? (fun o => place cwd o.1 = place cwd q) with
  | some o => rfl
  | none =>
    rw [e] at h
    dsimp only at h ⊢
    rw [h]
    cases e' : W.fs.get? q with
    | some en => rfl
    | none =>
      dsimp only
      cases outs.any (fun o => (place cwd q).isPrefixOf (place cwd o.1)) <;> rfl

/-! ## The list of the inputs -/

/-- What a directory has under a name: nothing, something that is no directory, or a directory. -/
def child (n : Str) : Forest → Option (Option Forest)
  | .nil => none
  | .leaf m k => if m = n then some none else child n k
  | .dir m s k => if m = n then some (some s) else child n k

/-- The directory at a place, as `os.Lstat` and `readDirNames` find it. -/
def inside : List Str → Forest → Option Forest
  | [], f => some f
  | n :: l, f => match child n f with | some (some s) => inside l s | _ => none

/-- An entry before others. -/
def entry (n : Str) (e : Option Forest) (k : Forest) : Forest := match e with | none => .leaf n k | some s => .dir n s k

/-- A new entry, in its place in the order of the names. -/
def enter (n : Str) (e : Option Forest) : Forest → Forest
  | .nil => entry n e .nil
  | .leaf m k => if n < m then entry n e (.leaf m k) else .leaf m (enter n e k)
  | .dir m d k => if n < m then entry n e (.dir m d k) else .dir m d (enter n e k)

/-- Other contents for a directory. -/
def refill (n : Str) (s : Forest) : Forest → Forest
  | .nil => .nil
  | .leaf m k => .leaf m (refill n s k)
  | .dir m d k => if m = n then .dir m s k else .dir m d (refill n s k)

/-- The disk after a file was written at a place (`PrepareOutputDir` and `os.Create`, utils.go:63-74, genGo.go:89): the directories on the way are made,
and what is there already stays. -/
def put : List Str → Forest → Forest
  | [], f => f
  | n :: l, f => match child n f with
    | none => enter n (if l = [] then none else some (put l .nil)) f
    | some none => f
    | some (some s) => refill n (put l s) f

omit [Uni] [Xml.NameChars] in
theorem child_entry (n m : Str) (e : Option Forest) (f : Forest) : child m (entry n e f) = if m = n then some e else child m f := by
  by_cases hm : m = n
  · subst hm; cases e <;> simp [entry, child]
  · have : ¬ n = m := fun h => hm h.symm
    cases e <;> simp [entry, child, hm, this]

omit [Uni] [Xml.NameChars] in
theorem child_enter (n m : Str) (e : Option Forest) (f : Forest) (h : child n f = none) :
    child m (enter n e f) = if m = n then some e else child m f := by
  induction f with
  | nil =>
    exact child_entry ..
  | leaf k f ih =>
    have hk : k ≠ n := fun hk => by rw [child, if_pos hk] at h; cases h
    rw [child, if_neg hk] at h
    rw [enter]
    split
    · exact child_entry ..
    · rw [child, ih h, child]
      by_cases hm : k = m
      · rw [if_pos hm, if_pos hm, if_neg (fun e => hk (hm.trans e))]
      · rw [if_neg hm, if_neg hm]
  | dir k s f ih1 ih =>
    have hk : k ≠ n := fun hk => by rw [child, if_pos hk] at h; cases h
    rw [child, if_neg hk] at h
    rw [enter]
    split
    · exact child_entry ..
    · rw [child, ih h, child]
      by_cases hm : k = m
      · rw [if_pos hm, if_pos hm, if_neg (fun e => hk (hm.trans e))]
      · rw [if_neg hm, if_neg hm]

omit [Uni] [Xml.NameChars] in
theorem child_refill (n m : Str) (s : Forest) (f : Forest) {d : Forest} (h : child n f = some (some d)) :
    child m (refill n s f) = if m = n then some (some s) else child m f := by
  induction f with
  | nil => cases h
  | leaf k f ih =>
    have hk : k ≠ n := fun hk => by rw [child, if_pos hk] at h; cases h
    rw [child, if_neg hk] at h
    rw [refill, child, ih h, child]
    by_cases hm : k = m
    · rw [if_pos hm, if_pos hm, if_neg (fun e => hk (hm.trans e))]
    · rw [if_neg hm, if_neg hm]
  | dir k s' f ih1 ih =>
    rw [refill]
    by_cases hk : k = n
    · subst hk
      rw [if_pos rfl]
      by_cases hm : m = k
      · subst hm; simp [child]
      · have : ¬ k = m := fun h => hm h.symm
        simp [child, hm, this]
    · rw [child, if_neg hk] at h
      rw [if_neg hk, child, ih h, child]
      by_cases hm : k = m
      · rw [if_pos hm, if_pos hm, if_neg (fun e => hk (hm.trans e))]
      · rw [if_neg hm, if_neg hm]

omit [Uni] [Xml.NameChars] in
/-- What is written elsewhere does not show in a directory. -/
theorem inside_put (p : List Str) : ∀ (q : List Str) (f : Forest), ¬ p <+: q → inside p (put q f) = inside p f := by
  induction p with
  | nil => intro q f h; exact absurd (List.nil_prefix) h
  | cons m p ih =>
    intro q f h
    cases q with
    | nil => rfl
    | cons n q =>
      have h' : m = n → ¬ p <+: q := fun e hp => h (e ▸ (List.prefix_cons_inj m).2 hp)
      rw [inside, put, inside]
      cases e : child n f with
      | none =>
        dsimp only
        rw [child_enter n m _ f e]
        by_cases hm : m = n
        · subst hm
          rw [if_pos rfl, e]
          by_cases hq : q = []
          · rw [if_pos hq]
          · rw [if_neg hq]
            dsimp only
            rw [ih q .nil (h' rfl)]
            cases p with
            | nil => exact absurd List.nil_prefix (h' rfl)
            | cons a p => rfl
        · rw [if_neg hm]
      | some d =>
        cases d with
        | none => rfl
        | some s =>
          dsimp only
          rw [child_refill n m _ f e]
          by_cases hm : m = n
          · subst hm
            rw [if_pos rfl, e]
            exact ih q s (h' rfl)
          · rw [if_neg hm]

/-- What `os.Lstat` finds at a path, on a disk with the directories and files `F`. -/
def lstatOf (cwd : List Str) (F : Forest) (path : Str) : Option Forest := inside (place cwd path) F

/-- The disk after files were written. -/
def putAll (cwd : List Str) (outs : List (Str × Str)) (F : Forest) : Forest := outs.foldl (fun F o => put (place cwd o.1) F) F

omit [Uni] [Xml.NameChars] in
theorem walk_put (cwd : List Str) (path : Str) (outs : List (Str × Str)) (h : ∀ o ∈ outs, ¬ place cwd path <+: place cwd o.1) (F : Forest) :
    walkFrom (lstatOf cwd (putAll cwd outs F)) path = walkFrom (lstatOf cwd F) path := by
  have : lstatOf cwd (putAll cwd outs F) path = lstatOf cwd F path := by
    unfold putAll
    induction outs generalizing F with
    | nil => rfl
    | cons o outs ih =>
      rw [List.foldl_cons, ih (fun o ho => h o (List.mem_cons_of_mem _ ho))]
      exact inside_put _ _ _ (h o List.mem_cons_self)
  rw [walkFrom, walkFrom, this]

/-- C85, with the list of inputs read from the disk both times: if no file is generated below the input directory, the second run does exactly what the
first did.  `F` is the tree of directories at the start. -/
theorem again_listed_partial [UniLaws] {W W' : World} {cwd : List Str} {c : Config} {ext : Str} {files : List Str} {S : Str → Prop} (F : Forest)
    (f : Flags) (hc : parseFlags f = .go c) (hl : getFileList W (walkFrom (lstatOf cwd F)) c.i = some files) (hi : S c.i)
    (he : (c.lang, ext) ∈ C24.extensions) (hA : Apart W cwd c ext files S) (ho : OtherFiles W W') {n n' : Nat}
    (hn : W.fs.length + 2 ≤ n) (hn' : W'.fs.length + 2 ≤ n') (hb : ∀ o, Target W c ext files S o → ¬ place cwd c.i <+: place cwd o)
    (h : ∀ q, S q → W'.fs.get? q = look W cwd (mainNow W cwd n (walkFrom (lstatOf cwd F)) f).2.outputs q) :
    mainNow W' cwd n' (walkFrom (lstatOf cwd (putAll cwd (mainNow W cwd n (walkFrom (lstatOf cwd F)) f).2.outputs F))) f =
      mainNow W cwd n (walkFrom (lstatOf cwd F)) f := by
  have h1 := as_at_the_start (walkFrom (lstatOf cwd F)) f hc hl he hA hn
  refine again_partial _ _ f hc hl ?_ he hA ho hn hn' h
  have h2 : W'.fs.get? c.i = W.fs.get? c.i := by rw [h _ hi, h1]; exact reads_kept _ f hc hl he hA hi
  rw [← hl]
  unfold getFileList
  rw [h2, walk_put cwd c.i _ (fun o ho => hb o.1 ?_) F]
  rw [h1] at ho
  exact writes_targets _ f hc hl he hA o ho

/-! ## Example -/

/-- The disk after the run of `C84.W1`. -/
def W1' : World := { W1 with fs := W1.fs ++ [(c!"out", .dir), (c!"out/a.xsd.go", .file []), (c!"out/b.xsd.go", .file []),
  (c!"out/in", .dir), (c!"out/in/b.xsd.go", .file [])] }

example : @mainNow asciiUni C81.asciiNames W1' [c!"home", c!"me"] 10 walk1 flags1 =
    @mainNow asciiUni C81.asciiNames W1 [c!"home", c!"me"] 5 walk1 flags1 :=
  have hr : ∀ q ∈ [c!"in", c!"in/a.xsd", c!"in/b.xsd"], W1'.fs.get? q =
      @look C81.asciiNames W1 [c!"home", c!"me"] (@mainNow asciiUni C81.asciiNames W1 [c!"home", c!"me"] 5 walk1 flags1).2.outputs q := by
    intro q hq
    simp only [List.mem_cons, List.not_mem_nil, or_false] at hq
    rcases hq with rfl | rfl | rfl <;> decide +kernel
  @again_partial asciiUni C81.asciiNames W1 W1' [c!"home", c!"me"] config1 c!".go" (walk1 c!"in" ++ [c!"in"])
    (· ∈ [c!"in", c!"in/a.xsd", c!"in/b.xsd"]) asciiUniLaws walk1 walk1 flags1 rfl rfl rfl (by decide) apart1
    ⟨rfl, rfl, rfl, rfl, rfl⟩ 5 10 (by decide) (by decide) hr

/-- The same with the tree of directories.  The second tree has the generated files. -/
def home : Forest := .dir c!"home" (.dir c!"me" (.dir c!"in" (.leaf c!"a.xsd" (.leaf c!"b.xsd" .nil)) .nil) .nil) .nil

example : putAll [c!"home", c!"me"] (@mainNow asciiUni C81.asciiNames W1 [c!"home", c!"me"] 5 (walkFrom (lstatOf [c!"home", c!"me"] home)) flags1).2.outputs home =
    .dir c!"home" (.dir c!"me" (.dir c!"in" (.leaf c!"a.xsd" (.leaf c!"b.xsd" .nil)) (.dir c!"out" (.leaf c!"a.xsd.go" (.leaf c!"b.xsd.go"
      (.dir c!"in" (.leaf c!"b.xsd.go" .nil) .nil))) .nil)) .nil) .nil := by decide +kernel

example : @mainNow asciiUni C81.asciiNames W1' [c!"home", c!"me"] 10 (walkFrom (lstatOf [c!"home", c!"me"]
      (putAll [c!"home", c!"me"] (@mainNow asciiUni C81.asciiNames W1 [c!"home", c!"me"] 5 (walkFrom (lstatOf [c!"home", c!"me"] home)) flags1).2.outputs home))) flags1 =
    @mainNow asciiUni C81.asciiNames W1 [c!"home", c!"me"] 5 (walkFrom (lstatOf [c!"home", c!"me"] home)) flags1 :=
  have hr : ∀ q ∈ [c!"in", c!"in/a.xsd", c!"in/b.xsd"], W1'.fs.get? q =
      @look C81.asciiNames W1 [c!"home", c!"me"] (@mainNow asciiUni C81.asciiNames W1 [c!"home", c!"me"] 5 (walkFrom (lstatOf [c!"home", c!"me"] home)) flags1).2.outputs q := by
    intro q hq
    simp only [List.mem_cons, List.not_mem_nil, or_false] at hq
    rcases hq with rfl | rfl | rfl <;> decide +kernel
  have hb : ∀ o ∈ targets W1 config1 c!".go" (walk1 c!"in" ++ [c!"in"]) [c!"in", c!"in/a.xsd", c!"in/b.xsd"],
      ¬ place [c!"home", c!"me"] config1.i <+: place [c!"home", c!"me"] o := by decide +kernel
  @again_listed_partial asciiUni C81.asciiNames asciiUniLaws W1 W1' [c!"home", c!"me"] config1 c!".go" (walk1 c!"in" ++ [c!"in"])
    (· ∈ [c!"in", c!"in/a.xsd", c!"in/b.xsd"]) home flags1 rfl (by decide +kernel) (by decide) (by decide) apart1
    ⟨rfl, rfl, rfl, rfl, rfl⟩ 5 10 (by decide) (by decide) (fun o ho => hb o (target_listed ho)) hr

/-- Files generated below the input directory are inputs of the second run. -/
example : walkFrom (lstatOf [c!"home"] (putAll [c!"home"] [(c!"in/a.xsd.go", [])] (.dir c!"home" (.dir c!"in" (.leaf c!"a.xsd" .nil) .nil) .nil))) c!"in" =
    [c!"in", c!"in/a.xsd", c!"in/a.xsd.go"] := by decide +kernel

/-! ## Generating into the directory of the schemas -/

/-- One schema in a directory. -/
def W3 : World := Ex.world [("in/a.xsd", [Ex.on "schema", Ex.on "complexType" [("name", "Point")], Ex.on "sequence"] ++
  Ex.leaf "element" [("name", "x"), ("type", "xs:int")] ++ [Ex.off "sequence", Ex.off "complexType", Ex.off "schema"])] ["in"]

/-- The flags `-i in -o in -l Go`. -/
def flags3 : Flags := { i := c!"in", o := c!"in", l := c!"Go" }

/-- The first run. -/
def first : Exit × Shared := @mainNow asciiUni C81.asciiNames W3 [c!"home"] 5
  (fun _ => [c!"in", c!"in/a.xsd"]) flags3

/-- The disk it leaves. -/
def W3' : World := { W3 with fs := first.2.outputs.map (fun o => (o.1, .file (@Xml.decode C81.asciiNames o.2))) ++ W3.fs }

/-- The second run: the generated file is listed with the schema. -/
def second : Exit × Shared := @mainNow asciiUni C81.asciiNames W3' [c!"home"] 6
  (fun _ => [c!"in", c!"in/a.xsd", c!"in/a.xsd.go"]) flags3

/-- The last text written at a path. -/
def final (outs : List (Str × Str)) (p : Str) : Option Str := (outs.reverse.find? (fun o => o.1 = p)).map (·.2)

/-- C85 is false when the output directory is the input directory: the generated file is taken for a schema by the second
run, and a file without any declaration is written over it.  Both runs say "done". -/
theorem in_place_destroys : first.1 = .done ∧ second.1 = .done ∧
    final first.2.outputs c!"in/a.xsd.go" = some (c!"// Code generated by xgen. DO NOT EDIT.\n\npackage schema\n\r\n" ++
      c!"// Point ...\r\ntype Point struct {\n\tX\tint\t`xml:\"x\"`\n}\n") ∧
    final second.2.outputs c!"in/a.xsd.go" = some c!"// Code generated by xgen. DO NOT EDIT.\n\npackage schema\n" := by
  decide +kernel

end Xgen.C85
