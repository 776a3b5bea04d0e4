import Verif.Lemmas.Rel
import Verif.Lemmas.Map

/-!
# Relations on the shared state through `GetValueType` and `Parse`
-/

namespace Xgen
variable [Uni]

/-- From `sh`, the computation moves along `R` and its abnormal ends satisfy `H`. -/
def KeepsAt (R : Shared → Shared → Prop) (H : Halt → Prop) {α : Type} (m : Go Shared α) (sh : Shared) : Prop :=
  R sh (m sh).state ∧ ∀ h s', m sh = .halt h s' → H h

section
variable {W : World} {Q : Shared → Prop} {R : Shared → Shared → Prop} {H : Halt → Prop}
  {rec : Cfg → Go Shared Tree} {cfg : Cfg}

omit [Uni] in
theorem keepsAt_ok (h : ∀ a, R a a) {α : Type} {m : Go Shared α} {sh : Shared} {a : α} (e : m sh = .ok a sh) :
    KeepsAt R H m sh := by
  refine ⟨by rw [e]; exact h _, fun h s' e' => ?_⟩
  rw [e] at e'; cases e'

omit [Uni] in
theorem resolveInDep_keeps (S : Stable Q R) (hex : ∀ path sh, Q sh → KeepsAt R H (rec (nestedCfg cfg path true)) sh)
    (name xsd : Str) (dep : Tree) (sh : Shared) (hq : Q sh) : KeepsAt R H (resolveInDep rec cfg name xsd dep) sh := by
  unfold KeepsAt resolveInDep
  dsimp only
  split
  · exact ⟨S.refl _, by intro h s' e; cases e⟩
  · obtain ⟨h1, h2⟩ := hex xsd sh hq
    cases e : rec (nestedCfg cfg xsd true) sh with
    | ok t s1 => rw [e] at h1; exact ⟨h1, by intro h s' e'; cases e'⟩
    | err er s1 => rw [e] at h1; exact ⟨h1, by intro h s' e'; cases e'⟩
    | halt h s1 => rw [e] at h1; exact ⟨h1, by intro h' s' e'; cases e'; exact h2 _ _ e⟩

omit [Uni] in
theorem resolveInFile_keeps (S : Stable Q R) (hex : ∀ path sh, Q sh → KeepsAt R H (rec (nestedCfg cfg path true)) sh)
    (name vt xsd : Str) (sh : Shared) (hq : Q sh)
    (hgen : xsd ∉ sh.parseFileMap.keys → KeepsAt R H (rec (nestedCfg cfg xsd false)) sh) :
    KeepsAt R H (resolveInFile rec cfg name vt xsd) sh := by
  unfold KeepsAt resolveInFile
  cases hd : sh.parseFileMap.get? xsd with
  | some dep => exact resolveInDep_keeps S hex name xsd dep sh hq
  | none =>
    obtain ⟨h1, h2⟩ := hgen (GoMap.get?_eq_none.mp hd)
    dsimp only
    cases e : rec (nestedCfg cfg xsd false) sh with
    | ok t s1 =>
      rw [e] at h1
      obtain ⟨h3, h4⟩ := resolveInDep_keeps S hex name xsd t s1 (S.keep h1 hq)
      exact ⟨S.trans h1 h3, h4⟩
    | err er s1 => rw [e] at h1; exact ⟨h1, by intro h s' e'; cases e'⟩
    | halt h s1 => rw [e] at h1; exact ⟨h1, by intro h' s' e'; cases e'; exact h2 _ _ e⟩

theorem getValueType_keeps (S : Stable Q R)
    (hex : cfg.extract = false → ∀ path sh, Q sh → KeepsAt R H (rec (nestedCfg cfg path true)) sh)
    (hgen : cfg.extract = false → ∀ path sh, Q sh → path ∉ sh.parseFileMap.keys → path ∈ W.fs.keys →
      KeepsAt R H (rec (nestedCfg cfg path false)) sh)
    (hloop : cfg.extract = false → ∀ name sh, Q sh →
      KeepsAt R H (includeLoop W rec cfg name sh.includeMap.keys (sh.includeMap.length + W.size + 1) [] []) sh)
    (value : Str) (tree : Tree) (sh : Shared) (hq : Q sh) : KeepsAt R H (getValueType W rec cfg value tree) sh := by
  unfold KeepsAt getValueType
  dsimp only
  cases getBuildInTypeByLang (trimNSPrefix value) cfg.lang with
  | some t => exact ⟨S.refl _, by intro h s' e; cases e⟩
  | none =>
    dsimp only
    split
    · exact ⟨S.refl _, by intro h s' e; cases e⟩
    split
    · exact ⟨S.refl _, by intro h s' e; cases e⟩
    rename_i hx
    have hx : cfg.extract = false := by simpa using hx
    unfold resolveOutside
    dsimp only
    split
    · exact ⟨S.refl _, by intro h s' e; cases e⟩
    generalize pathJoin cfg.fileDir (sh.nsLoc.getStr (sh.localNS.getStr (getNSPrefix value))) = xsd
    cases hf : W.fs.get? xsd with
    | none => exact ⟨S.refl _, by intro h s' e; cases e⟩
    | some en =>
      have hmem : xsd ∈ W.fs.keys := by
        rw [← GoMap.has_iff, GoMap.has, hf]; rfl
      cases en with
      | dir =>
        obtain ⟨h1, h2⟩ := hloop hx (trimNSPrefix value) sh hq
        dsimp only
        cases e : includeLoop W rec cfg (trimNSPrefix value) sh.includeMap.keys (sh.includeMap.length + W.size + 1)
            [] [] sh with
        | ok t s1 => rw [e] at h1; exact ⟨h1, by intro h s' e'; cases e'⟩
        | err er s1 => rw [e] at h1; exact ⟨h1, by intro h s' e'; cases e'⟩
        | halt h s1 => rw [e] at h1; exact ⟨h1, by intro h' s' e'; cases e'; exact h2 _ _ e⟩
      | file toks =>
        exact resolveInFile_keeps S (hex hx) _ _ _ sh hq fun h => hgen hx xsd sh hq h hmem
      | noOpen =>
        exact resolveInFile_keeps S (hex hx) _ _ _ sh hq fun h => hgen hx xsd sh hq h hmem

theorem gvtOf_keeps (h : ∀ value tree sh, Q sh → KeepsAt R H (getValueType W rec cfg value tree) sh) (v : Str) :
    Keeps Q R H (gvtOf W rec cfg v) (gvtOf W rec cfg v) := by
  refine ⟨rfl, fun s hq => ?_⟩
  obtain ⟨h1, h2⟩ := h v s.p.freeze s.sh hq
  unfold gvtOf
  cases e : getValueType W rec cfg v s.p.freeze s.sh with
  | ok t s1 => rw [e] at h1; exact ⟨h1, by intro h s' e'; cases e'⟩
  | err er s1 => rw [e] at h1; exact ⟨h1, by intro h s' e'; cases e'⟩
  | halt h s1 => rw [e] at h1; exact ⟨h1, by intro h' s' e'; cases e'; exact h2 _ _ e⟩

end

/-- A relation every single effect of a parse respects. -/
structure ShRel (W : World) (R : Shared → Shared → Prop) : Prop where
  refl : ∀ a, R a a
  trans : ∀ {a b c}, R a b → R b c → R a c
  tick : ∀ sh : Shared, R sh { sh with tick := sh.tick + 1 }
  tok : ∀ {path toks name attrs}, W.fs.get? path = some (.file toks) → Token.start name attrs ∈ toks →
    ∀ sh, R sh (onImport W.isURL attrs sh) ∧ R sh (onInclude attrs sh) ∧ R sh (onSchema attrs sh)
  begin : ∀ (cfg : Cfg) sh, (cfg.extract = true ∨ cfg.filePath ∉ sh.parseFileMap.keys) → R sh (beginParse cfg sh)
  fin : ∀ path tree (sh : Shared), path ∈ sh.parseFileMap.keys → R sh (register path tree sh)
  write : ∀ path content (sh : Shared), R sh { sh with outputs := sh.outputs ++ [(path, content)] }

/-- The registry of parsed files only grows. -/
def Grows (a b : Shared) : Prop := ∀ f ∈ a.parseFileMap.keys, f ∈ b.parseFileMap.keys

section
variable {W : World} {R : Shared → Shared → Prop}

omit [Uni] in
theorem writeFile_keeps (S : ShRel W R) (path content : Str) (sh : Shared) :
    KeepsAt R (fun _ => False) (writeFile W path content) sh := by
  unfold KeepsAt writeFile
  split
  · exact ⟨S.write _ _ _, by intro h s' e; cases e⟩
  · exact ⟨S.refl _, by intro h s' e; cases e⟩

theorem generate_keeps (S : ShRel W R) (lang pkg file : Str) (tree : Tree) (sh : Shared) :
    KeepsAt R (fun _ => False) (generate W lang pkg file tree) sh := by
  unfold generate
  dsimp only
  split
  · unfold KeepsAt writeGo
    split
    · exact writeFile_keeps S _ _ _
    · obtain ⟨h1, h2⟩ := writeFile_keeps S (fileWithExtension file c!".go") (goRawSource pkg tree) sh
      cases e : writeFile W (fileWithExtension file c!".go") (goRawSource pkg tree) sh with
      | ok t s1 => rw [e] at h1; exact ⟨h1, by intro h s' e'; cases e'⟩
      | err er s1 => rw [e] at h1; exact ⟨h1, by intro h s' e'; cases e'⟩
      | halt h s1 => rw [e] at h1; exact ⟨h1, by intro h' s' e'; cases e'; exact h2 _ _ e⟩
  split
  · exact writeFile_keeps S _ _ _
  split
  · exact writeFile_keeps S _ _ _
  split
  · exact writeFile_keeps S _ _ _
  split
  · exact writeFile_keeps S _ _ _
  · exact ⟨S.refl _, by intro h s' e; cases e⟩

theorem finish_keeps (S : ShRel W R) (cfg : Cfg) (tree : Tree) (sh : Shared)
    (hm : cfg.extract = true ∨ cfg.filePath ∈ sh.parseFileMap.keys) :
    KeepsAt R (fun h => h = .exit 1) (finish W cfg tree) sh := by
  unfold KeepsAt finish
  dsimp only
  split
  · exact ⟨S.refl _, by intro h s' e; cases e⟩
  rename_i hx
  have hm := hm.resolve_left hx
  have hr := S.fin cfg.filePath tree sh hm
  split
  · obtain ⟨h1, h2⟩ := generate_keeps S cfg.lang cfg.package (outputPath cfg) tree (register cfg.filePath tree sh)
    cases e : generate W cfg.lang cfg.package (outputPath cfg) tree (register cfg.filePath tree sh) with
    | ok t s1 => rw [e] at h1; exact ⟨S.trans hr h1, by intro h s' e'; cases e'⟩
    | err er s1 => rw [e] at h1; exact ⟨S.trans hr h1, by intro h s' e'; cases e'⟩
    | halt h s1 => rw [e] at h1; exact ⟨S.trans hr h1, by intro h' s' e'; cases e'; exact (h2 _ _ e).elim⟩
  · exact ⟨hr, by intro h s' e; cases e; rfl⟩

omit [Uni] in
theorem begin_mem {cfg : Cfg} {sh : Shared} (h : cfg.extract = false) :
    cfg.filePath ∈ (beginParse cfg sh).parseFileMap.keys := by
  unfold beginParse
  simp [h, register, GoMap.mem_keys_set]

/-- One level of `Parse`, given the behaviour of the resolver from the states the token loop passes through. -/
theorem parseWith_keeps (S : ShRel W R) {H : Halt → Prop} (hp : H .panic) (hH : H (.exit 1))
    {Q : Shared → Prop} (SQ : Stable Q (fun a b => R a b ∧ Grows a b))
    {rec : Cfg → Go Shared Tree} {cfg : Cfg} {sh : Shared} (hbeg : R sh (beginParse cfg sh))
    (htok : ∀ {path toks name attrs}, W.fs.get? path = some (.file toks) → Token.start name attrs ∈ toks →
      ∀ sh, Grows sh (onImport W.isURL attrs sh) ∧ Grows sh (onInclude attrs sh) ∧ Grows sh (onSchema attrs sh))
    (hq : W.fs.has cfg.filePath = true → Q (beginParse cfg sh))
    (hg : W.fs.has cfg.filePath = true →
      ∀ value tree sh, Q sh → KeepsAt (fun a b => R a b ∧ Grows a b) H (getValueType W rec cfg value tree) sh) :
    KeepsAt R H (parseWith W rec cfg) sh := by
  unfold KeepsAt parseWith
  cases hf : W.fs.get? cfg.filePath with
  | none => exact ⟨S.refl _, by intro h s' e; cases e⟩
  | some en =>
    have hhas : W.fs.has cfg.filePath = true := by rw [GoMap.has, hf]; rfl
    cases en with
    | dir => exact ⟨S.refl _, by intro h s' e; cases e⟩
    | noOpen => exact ⟨S.refl _, by intro h s' e; cases e⟩
    | file toks =>
      dsimp only
      unfold parseOpen
      have hrun := run_keeps (H := H) W SQ hp (gvtOf W rec cfg) (fun v => gvtOf_keeps (hg hhas) v) toks
        (fun name attrs hm sh _ => by
          obtain ⟨a, b, c⟩ := S.tok hf hm sh
          obtain ⟨a', b', c'⟩ := htok hf hm sh
          exact ⟨⟨a, a'⟩, ⟨b, b'⟩, ⟨c, c'⟩⟩)
      obtain ⟨⟨h1, hgr⟩, h2⟩ := hrun.2 { sh := beginParse cfg sh, p := {} } (hq hhas)
      cases e : run W (gvtOf W rec cfg) toks { sh := beginParse cfg sh, p := {} } with
      | err er s1 => rw [e] at h1; exact ⟨S.trans hbeg h1, by intro h s' e'; cases e'⟩
      | halt h s1 => rw [e] at h1; exact ⟨S.trans hbeg h1, by intro h' s' e'; cases e'; exact h2 _ _ e⟩
      | ok u s1 =>
        rw [e] at h1 hgr
        have hm : cfg.extract = true ∨ cfg.filePath ∈ s1.sh.parseFileMap.keys := by
          cases hx : cfg.extract with
          | true => exact Or.inl rfl
          | false => exact Or.inr (hgr _ (begin_mem hx))
        obtain ⟨h3, h4⟩ := finish_keeps S cfg s1.p.freeze s1.sh hm
        exact ⟨S.trans (S.trans hbeg h1) h3, fun h s' e' => by rw [h4 _ _ e']; exact hH⟩

/-! ## The three token-level updates leave the registry of files alone -/

omit [Uni] in
theorem onImport_frame (isURL : Str → Bool) (attrs : List Attr) (sh : Shared) :
    (onImport isURL attrs sh).parseFileMap = sh.parseFileMap ∧
    (onImport isURL attrs sh).parseFileList = sh.parseFileList ∧
    (onImport isURL attrs sh).includeMap = sh.includeMap ∧
    (onImport isURL attrs sh).localNS = sh.localNS ∧
    (onImport isURL attrs sh).outputs = sh.outputs ∧ (onImport isURL attrs sh).log = sh.log ∧
    (onImport isURL attrs sh).tick = sh.tick := by
  unfold onImport
  generalize ([] : Str) = acc
  induction attrs generalizing sh acc with
  | nil => simp
  | cons a as ih =>
    rw [List.foldl_cons]
    unfold onImportAttr
    split
    · exact ih sh _
    split
    · split
      · exact ih sh acc
      split
      · exact ih sh acc
      · exact ih _ _
    · exact ih sh acc

omit [Uni] in
theorem onInclude_frame (attrs : List Attr) (sh : Shared) :
    (onInclude attrs sh).parseFileMap = sh.parseFileMap ∧
    (onInclude attrs sh).parseFileList = sh.parseFileList ∧
    (onInclude attrs sh).nsLoc = sh.nsLoc ∧
    (onInclude attrs sh).localNS = sh.localNS ∧
    (onInclude attrs sh).outputs = sh.outputs ∧ (onInclude attrs sh).log = sh.log ∧
    (onInclude attrs sh).tick = sh.tick := by
  unfold onInclude
  induction attrs generalizing sh with
  | nil => simp
  | cons a as ih =>
    rw [List.foldl_cons]
    split
    · split
      · exact ih sh
      · exact ih _
    · exact ih sh

omit [Uni] in
theorem onSchema_frame (attrs : List Attr) (sh : Shared) :
    (onSchema attrs sh).parseFileMap = sh.parseFileMap ∧
    (onSchema attrs sh).parseFileList = sh.parseFileList ∧
    (onSchema attrs sh).nsLoc = sh.nsLoc ∧
    (onSchema attrs sh).includeMap = sh.includeMap ∧
    (onSchema attrs sh).outputs = sh.outputs ∧ (onSchema attrs sh).log = sh.log ∧
    (onSchema attrs sh).tick = sh.tick := by
  unfold onSchema
  induction attrs generalizing sh with
  | nil => simp
  | cons a as ih =>
    rw [List.foldl_cons]
    split
    · exact ih _
    · exact ih sh

omit [Uni] in
theorem tok_grows (isURL : Str → Bool) (attrs : List Attr) (sh : Shared) :
    Grows sh (onImport isURL attrs sh) ∧ Grows sh (onInclude attrs sh) ∧ Grows sh (onSchema attrs sh) := by
  refine ⟨fun f h => ?_, fun f h => ?_, fun f h => ?_⟩
  · rw [(onImport_frame isURL attrs sh).1]; exact h
  · rw [(onInclude_frame attrs sh).1]; exact h
  · rw [(onSchema_frame attrs sh).1]; exact h

omit [Uni] in
theorem register_grows (path : Str) (tree : Tree) (sh : Shared) : Grows sh (register path tree sh) := by
  intro f h
  simp only [register, GoMap.mem_keys_set]
  exact Or.inr h

omit [Uni] in
theorem begin_grows (cfg : Cfg) (sh : Shared) : Grows sh (beginParse cfg sh) := by
  unfold beginParse
  dsimp only
  split
  · exact fun f h => h
  · exact fun f h => register_grows _ _ _ f h

omit [Uni] in
theorem Grows.stable (S : ShRel W R) : ShRel W (fun a b => R a b ∧ Grows a b) where
  refl a := ⟨S.refl a, fun _ h => h⟩
  trans h g := ⟨S.trans h.1 g.1, fun f hf => g.2 f (h.2 f hf)⟩
  tick sh := ⟨S.tick sh, fun _ h => h⟩
  tok hf hm sh := by
    obtain ⟨a, b, c⟩ := S.tok hf hm sh
    obtain ⟨a', b', c'⟩ := tok_grows W.isURL _ sh
    exact ⟨⟨a, a'⟩, ⟨b, b'⟩, ⟨c, c'⟩⟩
  begin cfg sh h := ⟨S.begin cfg sh h, begin_grows cfg sh⟩
  fin path tree sh h := ⟨S.fin path tree sh h, register_grows path tree sh⟩
  write path content sh := ⟨S.write path content sh, fun _ h => h⟩

omit [Uni] in
theorem includeLoop_keeps (S : ShRel W R) {rec : Cfg → Go Shared Tree} {cfg : Cfg}
    (hex : ∀ path sh, R sh (rec (nestedCfg cfg path true) sh).state) (name : Str) (init : List Str) (k : Nat)
    (visited : List Str) (vt : Str) (sh : Shared) : R sh (includeLoop W rec cfg name init k visited vt sh).state := by
  induction k generalizing visited vt sh with
  | zero => exact S.refl _
  | succ k ih =>
    unfold includeLoop
    dsimp only
    cases nextKey W init visited sh with
    | none => exact S.tick sh
    | some inc =>
      dsimp only
      have h1 := hex (pathJoin cfg.fileDir inc) { sh with tick := sh.tick + 1 }
      cases e : rec (nestedCfg cfg (pathJoin cfg.fileDir inc) true) { sh with tick := sh.tick + 1 } with
      | halt h s1 => rw [e] at h1; exact S.trans (S.tick sh) h1
      | err er s1 => rw [e] at h1; exact S.trans (S.tick sh) h1
      | ok t s1 => rw [e] at h1; exact S.trans (S.trans (S.tick sh) h1) (ih _ _ _)

/-- Every parse moves the shared state along `R` if its first effect does. -/
theorem parse_keeps (S : ShRel W R) (n : Nat) (cfg : Cfg) (sh : Shared) (hb : R sh (beginParse cfg sh)) :
    R sh (parse W n cfg sh).state ∧ Grows sh (parse W n cfg sh).state := by
  have SG := Grows.stable S
  induction n generalizing cfg sh with
  | zero => exact SG.refl _
  | succ n ih =>
    have Q' : Stable (fun _ => True) (fun a b => (R a b ∧ Grows a b) ∧ Grows a b) :=
      ⟨fun a => ⟨SG.refl a, (SG.refl a).2⟩, fun h g => ⟨SG.trans h.1 g.1, (SG.trans h.1 g.1).2⟩, fun _ _ => trivial⟩
    refine (parseWith_keeps SG (H := fun _ => True) trivial trivial Q' ⟨hb, begin_grows cfg sh⟩
      (fun _ _ sh => tok_grows _ _ sh) (fun _ => trivial) fun _ => ?_).1
    refine getValueType_keeps Q' ?_ ?_ ?_
    · intro _ path sh _
      have := ih (nestedCfg cfg path true) sh (S.begin _ _ (Or.inl rfl))
      exact ⟨⟨this, this.2⟩, fun _ _ _ => trivial⟩
    · intro _ path sh _ hn _
      have := ih (nestedCfg cfg path false) sh (S.begin _ _ (Or.inr hn))
      exact ⟨⟨this, this.2⟩, fun _ _ _ => trivial⟩
    · intro _ name sh _
      have := includeLoop_keeps (cfg := cfg) SG (fun path sh => ih (nestedCfg cfg path true) sh (S.begin _ _ (Or.inl rfl))) name
        sh.includeMap.keys (sh.includeMap.length + W.size + 1) [] [] sh
      exact ⟨⟨this, this.2⟩, fun _ _ _ => trivial⟩

/-- The abnormal ends of a parse. -/
theorem parse_halt (W : World) (n : Nat) (cfg : Cfg) (sh : Shared) {h : Halt} {s' : Shared}
    (e : parse W n cfg sh = .halt h s') : h = .panic ∨ h = .exit 1 ∨ h = .fuel := by
  have S : ShRel W (fun _ _ => True) :=
    ⟨fun _ => trivial, fun _ _ => trivial, fun _ => trivial, fun _ _ _ => ⟨trivial, trivial, trivial⟩,
      fun _ _ _ => trivial, fun _ _ _ _ => trivial, fun _ _ _ => trivial⟩
  have SG := Grows.stable S
  let H : Halt → Prop := fun h => h = .panic ∨ h = .exit 1 ∨ h = .fuel
  have hloop : ∀ (rec : Cfg → Go Shared Tree), (∀ cfg sh h s', rec cfg sh = .halt h s' → H h) →
      ∀ cfg name init k visited vt sh h s', includeLoop W rec cfg name init k visited vt sh = .halt h s' → H h := by
    intro rec hrec cfg name init k
    induction k with
    | zero => intro _ _ _ h s' e; cases e; exact Or.inr (Or.inr rfl)
    | succ k ih =>
      intro visited vt sh h s' e
      unfold includeLoop at e
      dsimp only at e
      cases hn : nextKey W init visited sh with
      | none => rw [hn] at e; cases e
      | some inc =>
        rw [hn] at e
        dsimp only at e
        cases e1 : rec (nestedCfg cfg (pathJoin cfg.fileDir inc) true) { sh with tick := sh.tick + 1 } with
        | halt h1 s1 => rw [e1] at e; cases e; exact hrec _ _ _ _ e1
        | err er s1 => rw [e1] at e; cases e
        | ok t s1 => rw [e1] at e; exact ih _ _ _ _ _ e
  have main : ∀ n cfg sh h s', parse W n cfg sh = .halt h s' → H h := by
    intro n
    induction n with
    | zero => intro cfg sh h s' e; cases e; exact Or.inr (Or.inr rfl)
    | succ n ih =>
      intro cfg sh
      have Q' : Stable (fun _ => True) (fun a b => True ∧ Grows a b) :=
        ⟨fun a => SG.refl a, SG.trans, fun _ _ => trivial⟩
      refine (parseWith_keeps S (H := H) (Or.inl rfl) (Or.inr (Or.inl rfl)) Q' trivial
        (fun _ _ sh => tok_grows _ _ sh) (fun _ => trivial) fun _ => ?_).2
      refine getValueType_keeps Q' ?_ ?_ ?_
      · exact fun _ path sh _ => ⟨parse_keeps S n _ sh trivial, ih _ sh⟩
      · exact fun _ path sh _ _ _ => ⟨parse_keeps S n _ sh trivial, ih _ sh⟩
      · exact fun _ name sh _ => ⟨includeLoop_keeps SG (fun path sh => parse_keeps S n _ sh trivial) name _ _ _ _ sh,
          fun h s' => hloop _ ih cfg name _ _ _ _ _ h s'⟩
  exact main n cfg sh h s' e

end
end Xgen
