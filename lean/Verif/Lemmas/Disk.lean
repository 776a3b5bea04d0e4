import Verif.Model.Disk
import Verif.Props.C24

/-! # What a parse reads: two file systems alike there give the same run -/

namespace Xgen.Disk
variable [Uni]

/-- A set `S` of paths, `L` of locations and `O` of files written, closed under what a run does. -/
structure Closure (W : World) (out ext : Str) (S L O : Str → Prop) : Prop where
  /-- the locations in the files -/
  locs : ∀ {p toks name attrs a}, S p → W.fs.get? p = some (.file toks) → Token.start name attrs ∈ toks → a ∈ attrs →
    a.local = c!"schemaLocation" → L a.value
  /-- every location may be looked up beside every file -/
  next : ∀ {p toks l}, S p → W.fs.get? p = some (.file toks) → l = [] ∨ L l → S (pathJoin (pathDir p) l)
  /-- every file may be generated from a nested parser -/
  puts : ∀ {p toks}, S p → W.fs.get? p = some (.file toks) → O (fileWithExtension (pathJoin out p) ext)

/-- What the closure means for the state. -/
structure Within (L O : Str → Prop) (sh : Shared) : Prop where
  ns : ∀ k v, sh.nsLoc.get? k = some v → L v
  inc : ∀ k ∈ sh.includeMap.keys, L k
  out : ∀ o ∈ sh.outputs, O o.1

/-- What the closure means for a parser. -/
structure Allowed (W : World) (out lang ext : Str) (S O : Str → Prop) (cfg : Cfg) : Prop where
  file : S cfg.filePath
  outDir : cfg.outputDir = out
  lang : cfg.lang = lang
  puts : cfg.extract = false → ∀ toks, W.fs.get? cfg.filePath = some (.file toks) → O (C24.documentedPath cfg ext)

/-- `see` finds on `S` what `W` has. -/
structure Alike (W : World) (S : Str → Prop) (I : Shared → Prop) (see : Shared → Str → World) : Prop where
  fs : ∀ sh p, I sh → S p → (see sh p).fs.get? p = W.fs.get? p
  size : ∀ sh p, W.size ≤ (see sh p).size
  isURL : ∀ sh p, (see sh p).isURL = W.isURL
  gofmt : ∀ sh p, (see sh p).gofmt = W.gofmt
  mkdirOk : ∀ sh p, (see sh p).mkdirOk = W.mkdirOk
  createOk : ∀ sh p, (see sh p).createOk = W.createOk
  pick : ∀ sh p, (see sh p).pick = W.pick

/-- From `sh`, if `m` does not run out of budget, `m'` does the same, and `I` holds afterwards. -/
def LeAt (I : Shared → Prop) {α : Type} (m m' : Go Shared α) (sh : Shared) : Prop :=
  (∀ s', m sh ≠ .halt .fuel s') → m' sh = m sh ∧ I (m sh).state

/-- The same for computations on the whole state. -/
def LeOn (I : Shared → Prop) {α : Type} (m m' : Go St α) : Prop :=
  ∀ s, I s.sh → (∀ s', m s ≠ .halt .fuel s') → m' s = m s ∧ I (m s).state.sh

section
variable {I : Shared → Prop}

omit [Uni] in
theorem LeOn.closed {g g' : Gvt} (h : ∀ v, LeOn I (g v) (g' v)) : Closed (LeOn I) g g' := Closed.ofGvt {
  pure _ _ hi _ := ⟨rfl, hi⟩
  bind := by
    intro α β m m' f f' hm hf s hi hs
    simp only [Go.bind_apply] at hs ⊢
    have h1 := hm s hi
    cases e : m s with
    | ok a s1 =>
      rw [e] at hs h1
      obtain ⟨h1, h2⟩ := h1 (by intro s' h'; cases h')
      rw [h1]
      exact hf a s1 h2 hs
    | err er s1 =>
      rw [e] at h1
      obtain ⟨h1, h2⟩ := h1 (by intro s' h'; cases h')
      rw [h1]
      exact ⟨rfl, h2⟩
    | halt hh s1 =>
      rw [e] at hs h1
      obtain ⟨h1, h2⟩ := h1 (by intro s' h'; cases h'; exact hs _ rfl)
      rw [h1]
      exact ⟨rfl, h2⟩
  throw _ _ hi _ := ⟨rfl, hi⟩
  read := by
    intro α m m' hk s hi hs
    obtain ⟨k, k', hl, he⟩ := hk (view s.p)
    obtain ⟨e1, e2⟩ := he s rfl
    rw [e1] at hs ⊢
    rw [e2]
    exact hl s hi hs
  gvt := h }

theorem LeOn.run (W W' : World) (hu : W'.isURL = W.isURL) {g g' : Gvt} (h : ∀ v, LeOn I (g v) (g' v)) (toks : List Token)
    (ht : ∀ name attrs, Token.start name attrs ∈ toks → ∀ sh, I sh →
      I (onImport W.isURL attrs sh) ∧ I (onInclude attrs sh) ∧ I (onSchema attrs sh)) :
    LeOn I (Xgen.run W g toks) (Xgen.run W' g' toks) := by
  have hw : ∀ toks, Xgen.run W' g' toks = Xgen.run W g' toks := by
    intro toks
    induction toks with
    | nil => rfl
    | cons t ts ih =>
      simp only [Xgen.run, ih]
      congr 1
      cases t with
      | start name attrs =>
        simp only [step]
        congr 1
        funext _
        cases onKind name with
        | none => rfl
        | some k => cases k <;> simp only [callOn, hu]
      | stop name => rfl
      | text s => rfl
      | other => rfl
  rw [hw]
  have B := LeOn.closed h
  have hp : ∀ f, LeOn I (onP f) (onP f) := fun f s hi _ => ⟨rfl, hi⟩
  refine run_rel B toks fun t htm => {
    toClosed := B
    setIn := fun _ _ _ => hp _
    on := ?_
    stop := fun _ _ _ _ => { toClosed := B, prim := fun _ _ => hp _ }
    text := fun _ _ => hp _ }
  rintro name attrs k rfl _
  exact {
    toClosed := B
    panic := fun _ s hi _ => ⟨rfl, hi⟩
    prim := fun _ _ => hp _
    prim? := fun f _ s hi _ => ⟨rfl, by
      unfold onP?
      cases f s.p <;> exact hi⟩
    import' := fun _ s hi _ => ⟨rfl, (ht _ _ htm s.sh hi).1⟩
    include' := fun _ s hi _ => ⟨rfl, (ht _ _ htm s.sh hi).2.1⟩
    schema' := fun _ s hi _ => ⟨rfl, (ht _ _ htm s.sh hi).2.2⟩ }

end

section
variable {L O : Str → Prop}

omit [Uni] in
theorem Within.import {isURL : Str → Bool} {attrs : List Attr} (h : ∀ a ∈ attrs, a.local = c!"schemaLocation" → L a.value)
    {sh : Shared} (hi : Within L O sh) : Within L O (onImport isURL attrs sh) := by
  obtain ⟨-, -, h3, -, h5, -⟩ := onImport_frame isURL attrs sh
  refine ⟨?_, by rw [h3]; exact hi.inc, by rw [h5]; exact hi.out⟩
  have h1 := hi.ns
  clear hi h3 h5
  unfold onImport
  generalize ([] : Str) = acc
  induction attrs generalizing sh acc with
  | nil => exact h1
  | cons a as ih =>
    have ih := fun sh acc h1 => ih (sh := sh) (fun a ha => h a (by simp [ha])) h1 acc
    rw [List.foldl_cons]
    unfold onImportAttr
    split
    · exact ih _ _ h1
    split
    · rename_i hl
      split
      · exact ih _ _ h1
      split
      · exact ih _ _ h1
      · refine ih _ _ fun k v => ?_
        dsimp only
        rw [GoMap.get?_set]
        split
        · intro e; cases e; exact h a (by simp) hl
        · exact h1 k v
    · exact ih _ _ h1

omit [Uni] in
theorem Within.include {attrs : List Attr} (h : ∀ a ∈ attrs, a.local = c!"schemaLocation" → L a.value)
    {sh : Shared} (hi : Within L O sh) : Within L O (onInclude attrs sh) := by
  obtain ⟨-, -, h3, -, h5, -⟩ := onInclude_frame attrs sh
  refine ⟨by rw [h3]; exact hi.ns, ?_, by rw [h5]; exact hi.out⟩
  have h1 := hi.inc
  clear hi h3 h5
  unfold onInclude
  induction attrs generalizing sh with
  | nil => exact h1
  | cons a as ih =>
    have ih := fun sh h1 => ih (sh := sh) (fun a ha => h a (by simp [ha])) h1
    rw [List.foldl_cons]
    split
    · rename_i hl
      split
      · exact ih _ h1
      · refine ih _ fun k hk => ?_
        rcases (GoMap.mem_keys_set _ _ _ _).1 hk with rfl | hk
        · exact h a (by simp) hl
        · exact h1 k hk
    · exact ih _ h1

omit [Uni] in
theorem Within.schema {attrs : List Attr} {sh : Shared} (hi : Within L O sh) : Within L O (onSchema attrs sh) := by
  obtain ⟨-, -, h3, h4, h5, -⟩ := onSchema_frame attrs sh
  exact ⟨by rw [h3]; exact hi.ns, by rw [h4]; exact hi.inc, by rw [h5]; exact hi.out⟩

omit [Uni] in
theorem Within.begin {cfg : Cfg} {sh : Shared} (hi : Within L O sh) : Within L O (beginParse cfg sh) := by
  unfold beginParse
  dsimp only
  split
  · exact ⟨hi.ns, hi.inc, hi.out⟩
  · exact ⟨hi.ns, hi.inc, hi.out⟩

omit [Uni] in
theorem Within.getStr {sh : Shared} (hi : Within L O sh) (k : Str) : sh.nsLoc.getStr k = [] ∨ L (sh.nsLoc.getStr k) := by
  unfold GoMap.getStr
  cases e : sh.nsLoc.get? k with
  | none => exact Or.inl rfl
  | some v => exact Or.inr (hi.ns k v e)

/-! ## Writing -/

omit [Uni] in
theorem writeFile_within {W : World} {path text : Str} (hp : O path) {sh : Shared} (hi : Within L O sh) :
    Within L O (writeFile W path text sh).state := by
  unfold writeFile
  split
  · refine ⟨hi.ns, hi.inc, fun o ho => ?_⟩
    rcases List.mem_append.1 ho with h | h
    · exact hi.out o h
    · rw [List.mem_singleton.1 h]; exact hp
  · exact hi

theorem generate_within [UniLaws] {W : World} {lang ext pkg file : Str} (he : (lang, ext) ∈ C24.extensions)
    (hp : O (fileWithExtension file ext)) (tree : Tree) {sh : Shared} (hi : Within L O sh) :
    Within L O (generate W lang pkg file tree sh).state := by
  unfold generate
  rw [C24.title_lang (List.mem_map.2 ⟨_, he, rfl⟩)]
  simp only [C24.extensions, List.mem_cons, List.not_mem_nil, or_false, Prod.mk.injEq] at he
  rcases he with ⟨rfl, rfl⟩ | ⟨rfl, rfl⟩ | ⟨rfl, rfl⟩ | ⟨rfl, rfl⟩ | ⟨rfl, rfl⟩
  · rw [if_pos rfl]
    unfold writeGo
    split
    · exact writeFile_within hp hi
    · have := writeFile_within (W := W) (text := goRawSource pkg tree) hp hi
      cases e : writeFile W (fileWithExtension file c!".go") (goRawSource pkg tree) sh with
      | ok t s1 => rw [e] at this; exact this
      | err er s1 => rw [e] at this; exact this
      | halt h s1 => rw [e] at this; exact this
  · exact writeFile_within hp hi
  · exact writeFile_within hp hi
  · exact writeFile_within hp hi
  · exact writeFile_within hp hi

theorem finish_within [UniLaws] {W : World} {cfg : Cfg} {ext : Str} (he : (cfg.lang, ext) ∈ C24.extensions)
    (hp : cfg.extract = false → O (C24.documentedPath cfg ext)) (tree : Tree) {sh : Shared} (hi : Within L O sh) :
    Within L O (finish W cfg tree sh).state := by
  unfold finish
  split
  · exact hi
  rename_i hx
  have hr : Within L O (register cfg.filePath tree sh) := ⟨hi.ns, hi.inc, hi.out⟩
  dsimp only
  split
  · have := generate_within (W := W) (pkg := cfg.package) he (hp (by simpa using hx)) tree hr
    change Within L O (generate W cfg.lang cfg.package (outputPath cfg) tree (register cfg.filePath tree sh)).state at this
    cases e : generate W cfg.lang cfg.package (outputPath cfg) tree (register cfg.filePath tree sh) with
    | ok t s1 => rw [e] at this; exact this
    | err er s1 => rw [e] at this; exact this
    | halt h s1 => rw [e] at this; exact this
  · exact hr

omit [Uni] in
theorem writeFile_alike {W W' : World} (h : W'.createOk = W.createOk) (path text : Str) :
    writeFile W' path text = writeFile W path text := by
  unfold writeFile; rw [h]

theorem finish_alike {W W' : World} (h1 : W'.createOk = W.createOk) (h2 : W'.mkdirOk = W.mkdirOk) (h3 : W'.gofmt = W.gofmt)
    (cfg : Cfg) (tree : Tree) : finish W' cfg tree = finish W cfg tree := by
  obtain ⟨fs, u, g, mk, cr, pk⟩ := W
  obtain ⟨fs', u', g', mk', cr', pk'⟩ := W'
  dsimp only at h1 h2 h3
  subst h1 h2 h3
  rfl

end

/-! ## Reading -/

section
variable {W : World} {out lang ext : Str} {S L O : Str → Prop} {see : Shared → Str → World}

omit [Uni] in
theorem includeLoop_leAt {W' : World} (hpick : W'.pick = W.pick) {r r' : Cfg → Go Shared Tree} {cfg : Cfg}
    (hs : ∀ l, L l → ∀ sh, Within L O sh → LeAt (Within L O) (r (nestedCfg cfg (pathJoin cfg.fileDir l) true))
      (r' (nestedCfg cfg (pathJoin cfg.fileDir l) true)) sh)
    (name : Str) (init : List Str) (k k' : Nat) (hk : k ≤ k') (visited : List Str) (vt : Str) (sh : Shared)
    (hi : Within L O sh) :
    LeAt (Within L O) (includeLoop W r cfg name init k visited vt) (includeLoop W' r' cfg name init k' visited vt) sh := by
  induction k generalizing visited vt k' sh with
  | zero => intro h; exact absurd rfl (h sh)
  | succ k ih =>
    obtain ⟨k', rfl⟩ : ∃ j, k' = j + 1 := ⟨k' - 1, by omega⟩
    intro hf
    unfold includeLoop at hf ⊢
    have hn : nextKey W' init visited sh = nextKey W init visited sh := by unfold nextKey; rw [hpick]
    rw [hn]
    dsimp only at hf ⊢
    have ht : Within L O { sh with tick := sh.tick + 1 } := ⟨hi.ns, hi.inc, hi.out⟩
    cases hnk : nextKey W init visited sh with
    | none => exact ⟨rfl, ht⟩
    | some inc =>
      rw [hnk] at hf
      dsimp only at hf ⊢
      have hr := hs inc (hi.inc _ (C22.nextKey_mem hnk).1) _ ht
      unfold LeAt at hr
      cases e : r (nestedCfg cfg (pathJoin cfg.fileDir inc) true) { sh with tick := sh.tick + 1 } with
      | ok t s1 =>
        rw [e] at hf hr
        obtain ⟨h1, h2⟩ := hr (by intro s' h'; cases h')
        rw [h1]
        exact ih _ (by omega) _ _ s1 h2 hf
      | err er s1 =>
        rw [e] at hr
        obtain ⟨h1, h2⟩ := hr (by intro s' h'; cases h')
        rw [h1]
        exact ⟨rfl, h2⟩
      | halt hh s1 =>
        rw [e] at hf hr
        obtain ⟨h1, h2⟩ := hr (by intro s' h'; cases h'; exact hf _ rfl)
        rw [h1]
        exact ⟨rfl, h2⟩

omit [Uni] in
theorem resolveInDep_leAt {I : Shared → Prop} {r r' : Cfg → Go Shared Tree} {cfg : Cfg} {xsd : Str}
    (h : ∀ sh, I sh → LeAt I (r (nestedCfg cfg xsd true)) (r' (nestedCfg cfg xsd true)) sh)
    (name : Str) (dep : Tree) (sh : Shared) (hi : I sh) :
    LeAt I (resolveInDep r cfg name xsd dep) (resolveInDep r' cfg name xsd dep) sh := by
  intro hs
  unfold resolveInDep at hs ⊢
  dsimp only at hs ⊢
  split
  · exact ⟨rfl, hi⟩
  · rename_i hc
    rw [if_neg hc] at hs
    have hr := h sh hi
    unfold LeAt at hr
    cases e : r (nestedCfg cfg xsd true) sh with
    | ok t s1 =>
      rw [e] at hr
      obtain ⟨h1, h2⟩ := hr (by intro s' h'; cases h')
      rw [h1]
      exact ⟨rfl, h2⟩
    | err er s1 =>
      rw [e] at hr
      obtain ⟨h1, h2⟩ := hr (by intro s' h'; cases h')
      rw [h1]
      exact ⟨rfl, h2⟩
    | halt hh s1 =>
      rw [e] at hs hr
      obtain ⟨h1, h2⟩ := hr (by intro s' h'; cases h'; exact hs _ rfl)
      rw [h1]
      exact ⟨rfl, h2⟩

omit [Uni] in
theorem resolveInFile_leAt {I : Shared → Prop} {r r' : Cfg → Go Shared Tree} {cfg : Cfg} {xsd : Str}
    (h : ∀ x sh, I sh → LeAt I (r (nestedCfg cfg xsd x)) (r' (nestedCfg cfg xsd x)) sh)
    (name vt : Str) (sh : Shared) (hi : I sh) :
    LeAt I (resolveInFile r cfg name vt xsd) (resolveInFile r' cfg name vt xsd) sh := by
  intro hs
  unfold resolveInFile at hs ⊢
  cases hd : sh.parseFileMap.get? xsd with
  | some dep => rw [hd] at hs; exact resolveInDep_leAt (h true) name dep sh hi hs
  | none =>
    rw [hd] at hs
    dsimp only at hs ⊢
    have hr := h false sh hi
    unfold LeAt at hr
    cases e : r (nestedCfg cfg xsd false) sh with
    | ok t s1 =>
      rw [e] at hr hs
      obtain ⟨h1, h2⟩ := hr (by intro s' h'; cases h')
      rw [h1]
      exact resolveInDep_leAt (h true) name t s1 h2 hs
    | err er s1 =>
      rw [e] at hr
      obtain ⟨h1, h2⟩ := hr (by intro s' h'; cases h')
      rw [h1]
      exact ⟨rfl, h2⟩
    | halt hh s1 =>
      rw [e] at hs hr
      obtain ⟨h1, h2⟩ := hr (by intro s' h'; cases h'; exact hs _ rfl)
      rw [h1]
      exact ⟨rfl, h2⟩

theorem getValueType_leAt {W' : World} (hpick : W'.pick = W.pick) (hurl : W'.isURL = W.isURL) (hsize : W.size ≤ W'.size)
    {r r' : Cfg → Go Shared Tree} {cfg : Cfg} (value : Str) (tree : Tree) (sh : Shared) (hi : Within L O sh)
    (hfs : W'.fs.get? (asked cfg value sh) = W.fs.get? (asked cfg value sh))
    (h : ∀ l x, l = [] ∨ L l → ∀ sh, Within L O sh → LeAt (Within L O) (r (nestedCfg cfg (pathJoin cfg.fileDir l) x))
      (r' (nestedCfg cfg (pathJoin cfg.fileDir l) x)) sh) :
    LeAt (Within L O) (getValueType W r cfg value tree) (getValueType W' r' cfg value tree) sh := by
  intro hs
  unfold getValueType at hs ⊢
  dsimp only at hs ⊢
  cases hb : getBuildInTypeByLang (trimNSPrefix value) cfg.lang with
  | some t => exact ⟨rfl, hi⟩
  | none =>
    rw [hb] at hs
    dsimp only at hs ⊢
    split
    · exact ⟨rfl, hi⟩
    rename_i hc
    rw [if_neg hc] at hs
    split
    · exact ⟨rfl, hi⟩
    rename_i hc
    rw [if_neg hc] at hs
    unfold resolveOutside at hs ⊢
    dsimp only at hs ⊢
    rw [hurl]
    split
    · exact ⟨rfl, hi⟩
    rename_i hc
    rw [if_neg hc] at hs
    have hl := hi.getStr (sh.localNS.getStr (getNSPrefix value))
    unfold asked at hfs
    rw [hfs]
    revert hs hl
    generalize (sh.nsLoc.getStr (sh.localNS.getStr (getNSPrefix value))) = l
    intro hs hl
    cases hf : W.fs.get? (pathJoin cfg.fileDir l) with
    | none => exact ⟨rfl, hi⟩
    | some en =>
      rw [hf] at hs
      cases en with
      | dir =>
        dsimp only at hs ⊢
        have hr := includeLoop_leAt (W := W) hpick (fun l hl => h l true (Or.inr hl)) (trimNSPrefix value) sh.includeMap.keys
          (sh.includeMap.length + W.size + 1) (sh.includeMap.length + W'.size + 1) (by omega) [] [] sh hi
        unfold LeAt at hr
        cases e : includeLoop W r cfg (trimNSPrefix value) sh.includeMap.keys (sh.includeMap.length + W.size + 1)
            [] [] sh with
        | ok t s1 =>
          rw [e] at hr
          obtain ⟨h1, h2⟩ := hr (by intro s' h'; cases h')
          rw [h1]
          exact ⟨rfl, h2⟩
        | err er s1 =>
          rw [e] at hr
          obtain ⟨h1, h2⟩ := hr (by intro s' h'; cases h')
          rw [h1]
          exact ⟨rfl, h2⟩
        | halt hh s1 =>
          rw [e] at hs hr
          obtain ⟨h1, h2⟩ := hr (by intro s' h'; cases h'; exact hs _ rfl)
          rw [h1]
          exact ⟨rfl, h2⟩
      | file toks => exact resolveInFile_leAt (fun x => h l x hl) _ _ sh hi hs
      | noOpen => exact resolveInFile_leAt (fun x => h l x hl) _ _ sh hi hs

theorem parseWith_leAt [UniLaws] (hE : (lang, ext) ∈ C24.extensions) (hC : Closure W out ext S L O)
    (hA : Alike W S (Within L O) see) {r r' : Cfg → Go Shared Tree}
    (h : ∀ cfg, Allowed W out lang ext S O cfg → ∀ sh, Within L O sh → LeAt (Within L O) (r cfg) (r' cfg) sh)
    (cfg : Cfg) (hc : Allowed W out lang ext S O cfg) (sh : Shared) (hi : Within L O sh) :
    LeAt (Within L O) (parseWith W r cfg) (parseWithSee see r' cfg) sh := by
  intro hs
  unfold parseWith at hs ⊢
  unfold parseWithSee
  rw [hA.fs sh _ hi hc.file]
  cases hf : W.fs.get? cfg.filePath with
  | none => exact ⟨rfl, hi⟩
  | some en =>
    rw [hf] at hs
    cases en with
    | dir => exact ⟨rfl, hi⟩
    | noOpen => exact ⟨rfl, hi⟩
    | file toks =>
      dsimp only at hs ⊢
      have hl : cfg.fileDir = pathDir cfg.filePath := rfl
      have hg : ∀ v, LeOn (Within L O) (gvtOf W r cfg v) (gvtSee see r' cfg v) := by
        intro v s hi hs
        unfold gvtSee gvtOf
        unfold gvtOf at hs
        have ha : S (asked cfg v s.sh) := hC.next hc.file hf (hi.getStr _)
        have hr := getValueType_leAt (W := W) (W' := see s.sh (asked cfg v s.sh)) (hA.pick _ _) (hA.isURL _ _) (hA.size _ _)
          (r := r) (r' := r') (cfg := cfg) v s.p.freeze s.sh hi (hA.fs _ _ hi ha) fun l x hx sh hi => by
            refine h (nestedCfg cfg (pathJoin cfg.fileDir l) x) ⟨hC.next hc.file hf hx, hc.outDir, hc.lang, ?_⟩ sh hi
            intro _ toks' hf'
            have := hC.puts (hC.next hc.file hf hx) hf'
            simpa [C24.documentedPath, nestedCfg, hc.outDir, hl, trimPrefix, hasPrefix] using this
        unfold LeAt at hr
        cases e : getValueType W r cfg v s.p.freeze s.sh with
        | ok t s1 =>
          rw [e] at hr
          obtain ⟨h1, h2⟩ := hr (by intro s' h'; cases h')
          rw [h1]
          exact ⟨rfl, h2⟩
        | err er s1 =>
          rw [e] at hr
          obtain ⟨h1, h2⟩ := hr (by intro s' h'; cases h')
          rw [h1]
          exact ⟨rfl, h2⟩
        | halt hh s1 =>
          rw [e] at hs hr
          obtain ⟨h1, h2⟩ := hr (by intro s' h'; cases h'; exact hs _ rfl)
          rw [h1]
          exact ⟨rfl, h2⟩
      unfold parseOpen at hs ⊢
      unfold parseOpenSee
      have hr := LeOn.run W (see sh cfg.filePath) (hA.isURL _ _) hg toks (fun name attrs hm sh hi =>
        have hl := fun a ha => hC.locs (a := a) hc.file hf hm ha
        ⟨hi.import hl, hi.include hl, hi.schema⟩) { sh := beginParse cfg sh, p := {} } hi.begin
      cases e : Xgen.run W (gvtOf W r cfg) toks { sh := beginParse cfg sh, p := {} } with
      | ok t s1 =>
        rw [e] at hr
        obtain ⟨h1, h2⟩ := hr (by intro s' h'; cases h')
        rw [h1]
        dsimp only
        rw [finish_alike (hA.createOk _ _) (hA.mkdirOk _ _) (hA.gofmt _ _)]
        exact ⟨rfl, finish_within (by rw [hc.lang]; exact hE) (fun hx => hc.puts hx toks hf) _ h2⟩
      | err er s1 =>
        rw [e] at hr
        obtain ⟨h1, h2⟩ := hr (by intro s' h'; cases h')
        rw [h1]
        exact ⟨rfl, h2⟩
      | halt hh s1 =>
        rw [e] at hs hr
        obtain ⟨h1, h2⟩ := hr (by intro s' h'; cases h'; exact hs _ rfl)
        rw [h1]
        exact ⟨rfl, h2⟩

theorem parse_leAt [UniLaws] (hE : (lang, ext) ∈ C24.extensions) (hC : Closure W out ext S L O)
    (hA : Alike W S (Within L O) see) (n m : Nat) (hm : n ≤ m)
    (cfg : Cfg) (hc : Allowed W out lang ext S O cfg) (sh : Shared) (hi : Within L O sh) :
    LeAt (Within L O) (parse W n cfg) (parseSee see m cfg) sh := by
  induction n generalizing m cfg sh with
  | zero => intro hs; exact absurd rfl (hs sh)
  | succ n ih =>
    obtain ⟨m, rfl⟩ : ∃ j, m = j + 1 := ⟨m - 1, by omega⟩
    exact parseWith_leAt hE hC hA (fun cfg hc sh hi => ih m (by omega) cfg hc sh hi) cfg hc sh hi

/-- Looking at files elsewhere alike, the parse is the same. -/
theorem parse_see [UniLaws] (hE : (lang, ext) ∈ C24.extensions) (hC : Closure W out ext S L O)
    (hA : Alike W S (Within L O) see) (m : Nat) (hm : W.fs.length + 2 ≤ m)
    (cfg : Cfg) (hc : Allowed W out lang ext S O cfg) (sh : Shared) (hi : Within L O sh) :
    parseSee see m cfg sh = Parse W cfg sh ∧ Within L O (Parse W cfg sh).state :=
  parse_leAt hE hC hA _ m hm cfg hc sh hi fun s' => C22.terminates W _ (Nat.le_refl _) cfg sh s'

end
end Xgen.Disk
