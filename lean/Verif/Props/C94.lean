import Verif.Lemmas.Cost
import Verif.Props.C22
import Verif.Props.C23
import Verif.Model.Cli

/-! # C94: how many files a run reads -/

namespace Xgen.C94

/-! ## Specification -/

/-- The values of the `schemaLocation` attributes of a token. -/
def tokenLocs : Token → List Str
  | .start _ attrs => (attrs.filter fun a => a.local = c!"schemaLocation").map (·.value)
  | _ => []

/-- The values of the `schemaLocation` attributes of a file. -/
def entryLocs : Entry → List Str
  | .file toks => toks.flatMap tokenLocs
  | _ => []

/-- The values of all `schemaLocation` attributes. -/
def locs (W : World) : List Str := W.fs.flatMap fun e => entryLocs e.2

/-- A bound on the number of names looked up for a file: the number of its end tags twice, the number of its start tags, and
for each of their attributes two and the number of spaces in it. -/
def lookups : Entry → Nat
  | .file toks => (toks.map asks).sum
  | _ => 0

/-- Every file once, and for each name looked up in it once more than there are `schemaLocation`s. -/
def bound (W : World) : Nat := (W.fs.map fun e => 1 + lookups e.2 * ((locs W).length + 1)).sum

/-! ## Proof -/

/-- The files not registered yet, weighted. -/
def pot (fs : GoMap Entry) (b : Nat) (sh : Shared) : Nat :=
  (fs.map fun e => if e.1 ∈ sh.parseFileMap.keys then 0 else 1 + lookups e.2 * b).sum

theorem pot_mono (fs : GoMap Entry) (b : Nat) {sh sh' : Shared} (h : ∀ k ∈ sh.parseFileMap.keys, k ∈ sh'.parseFileMap.keys) :
    pot fs b sh' ≤ pot fs b sh := by
  unfold pot
  induction fs with
  | nil => exact Nat.le_refl _
  | cons e fs ih =>
    simp only [List.map_cons, List.sum_cons]
    by_cases h1 : e.1 ∈ sh.parseFileMap.keys
    · rw [if_pos h1, if_pos (h _ h1)]
      omega
    · rw [if_neg h1]
      split <;> omega

theorem pot_register (fs : GoMap Entry) (b : Nat) {sh sh' : Shared} (h : ∀ k ∈ sh.parseFileMap.keys, k ∈ sh'.parseFileMap.keys)
    {path : Str} {en : Entry} (hm : (path, en) ∈ fs) (h1 : path ∉ sh.parseFileMap.keys) (h2 : path ∈ sh'.parseFileMap.keys) :
    pot fs b sh' + (1 + lookups en * b) ≤ pot fs b sh := by
  induction fs with
  | nil => cases hm
  | cons e fs ih =>
    have hrest := pot_mono fs b h
    have hcons : ∀ sh, pot (e :: fs) b sh = (if e.1 ∈ sh.parseFileMap.keys then 0 else 1 + lookups e.2 * b) + pot fs b sh :=
      fun sh => by simp [pot]
    rw [hcons, hcons]
    rcases List.mem_cons.1 hm with hm | hm
    · subst hm
      rw [if_pos h2, if_neg h1]
      simp only
      omega
    · have := ih hm
      by_cases h3 : e.1 ∈ sh.parseFileMap.keys
      · rw [if_pos h3, if_pos (h _ h3)]
        omega
      · rw [if_neg h3]
        split <;> omega

theorem pot_le (fs : GoMap Entry) (b : Nat) (sh : Shared) : pot fs b sh ≤ (fs.map fun e => 1 + lookups e.2 * b).sum := by
  unfold pot
  induction fs with
  | nil => exact Nat.le_refl _
  | cons e fs ih =>
    simp only [List.map_cons, List.sum_cons]
    split <;> omega

section
variable (W : World)

/-- Only locations found in the files are in the include map. -/
def Good (sh : Shared) : Prop := ∀ k ∈ sh.includeMap.keys, k ∈ locs W

/-- What has been read and what may have to be. -/
def total (sh : Shared) : Nat := sh.log.length + pot W.fs ((locs W).length + 1) sh

variable {W}

theorem mem_locs {path : Str} {toks : List Token} {name : Str} {attrs : List Attr}
    (hf : W.fs.get? path = some (.file toks)) (hm : Token.start name attrs ∈ toks) {a : Attr} (ha : a ∈ attrs)
    (hl : a.local = c!"schemaLocation") : a.value ∈ locs W :=
  List.mem_flatMap.2 ⟨_, GoMap.mem_of_get? hf, List.mem_flatMap.2 ⟨_, hm, List.mem_map.2 ⟨a, List.mem_filter.2 ⟨ha, by simpa using hl⟩, rfl⟩⟩⟩

theorem good_include (attrs : List Attr) (h : ∀ a ∈ attrs, a.local = c!"schemaLocation" → a.value ∈ locs W) {sh : Shared}
    (hg : Good W sh) : Good W (onInclude attrs sh) := by
  unfold onInclude
  induction attrs generalizing sh with
  | nil => exact hg
  | cons a as ih =>
    have ih := fun {sh} => ih (sh := sh) fun x hx => h x (by simp [hx])
    rw [List.foldl_cons]
    split
    · rename_i hl
      split
      · exact ih hg
      · refine ih fun k hk => ?_
        rcases (GoMap.mem_keys_set _ _ _ _).mp hk with rfl | hk
        · exact h a (by simp) hl
        · exact hg k hk
    · exact ih hg

theorem total_congr {a b : Shared} (h1 : b.log = a.log) (h2 : b.parseFileMap = a.parseFileMap) : total W b = total W a := by
  unfold total pot
  rw [h1, h2]

theorem tags {path : Str} {toks : List Token} (hf : W.fs.get? path = some (.file toks)) (name : Str) (as : List Attr)
    (hm : Token.start name as ∈ toks) : Costs (Good W) (total W) 0 (onSh (onImport W.isURL as)) ∧
      Costs (Good W) (total W) 0 (onSh (onInclude as)) ∧ Costs (Good W) (total W) 0 (onSh (onSchema as)) := by
  refine ⟨fun s hg => ?_, fun s hg => ?_, fun s hg => ?_⟩
  · obtain ⟨h1, -, h3, -, -, h6, -⟩ := onImport_frame W.isURL as s.sh
    refine ⟨?_, Nat.le_of_eq (total_congr (a := s.sh) h6 h1)⟩
    show Good W (onImport W.isURL as s.sh)
    unfold Good
    rw [h3]
    exact hg
  · obtain ⟨h1, -, -, -, -, h6, -⟩ := onInclude_frame as s.sh
    exact ⟨good_include as (fun a ha hl => mem_locs hf hm ha hl) hg, Nat.le_of_eq (total_congr (a := s.sh) h6 h1)⟩
  · obtain ⟨h1, -, -, h4, -, h6, -⟩ := onSchema_frame as s.sh
    refine ⟨?_, Nat.le_of_eq (total_congr (a := s.sh) h6 h1)⟩
    show Good W (onSchema as s.sh)
    unfold Good
    rw [h4]
    exact hg

/-- The state after a computation is good and at most `c` above. -/
def Cost (W : World) (c : Nat) {α : Type} (m : Go Shared α) (sh : Shared) : Prop :=
  Good W (m sh).state ∧ total W (m sh).state ≤ total W sh + c

variable [Uni]

omit [Uni] in
theorem includeLoop_cost {rec : Cfg → Go Shared Tree} {cfg : Cfg}
    (hex : ∀ path sh, Good W sh → Cost W 1 (rec (nestedCfg cfg path true)) sh) (name : Str) (init : List Str) (k : Nat)
    (visited : List Str) (vt : Str) (sh : Shared) (hg : Good W sh) (hn : visited.Nodup) (hv : ∀ x ∈ visited, x ∈ locs W) :
    Cost W ((locs W).length - visited.length) (includeLoop W rec cfg name init k visited vt) sh := by
  induction k generalizing visited vt sh with
  | zero => exact ⟨hg, Nat.le_add_right _ _⟩
  | succ k ih =>
    unfold Cost includeLoop
    dsimp only
    have hg' : Good W { sh with tick := sh.tick + 1 } := hg
    cases hk : nextKey W init visited sh with
    | none => exact ⟨hg', Nat.le_add_right _ _⟩
    | some inc =>
      dsimp only
      obtain ⟨h1, h2⟩ := C22.nextKey_mem hk
      have hn' : (inc :: visited).Nodup := List.nodup_cons.2 ⟨h2, hn⟩
      have hv' : ∀ x ∈ inc :: visited, x ∈ locs W := fun x hx => by
        rcases List.mem_cons.1 hx with rfl | hx
        · exact hg _ h1
        · exact hv x hx
      have hlen : visited.length + 1 ≤ (locs W).length := C22.nodup_length_le hn' hv'
      obtain ⟨h3, h4⟩ := hex (pathJoin cfg.fileDir inc) _ hg'
      have h4 : _ ≤ total W sh + 1 := h4
      cases e : rec (nestedCfg cfg (pathJoin cfg.fileDir inc) true) { sh with tick := sh.tick + 1 } with
      | halt hh s1 => rw [e] at h3 h4; exact ⟨h3, Nat.le_trans h4 (by omega)⟩
      | err er s1 => rw [e] at h3 h4; exact ⟨h3, Nat.le_trans h4 (by omega)⟩
      | ok t s1 =>
        rw [e] at h3 h4
        obtain ⟨h5, h6⟩ := ih (inc :: visited) (if getBasefromSimpleType name t ≠ name then getBasefromSimpleType name t else vt)
          s1 h3 hn' hv'
        refine ⟨h5, Nat.le_trans h6 ?_⟩
        simp only [Out.state, List.length_cons] at h4 ⊢
        omega

omit [Uni] in
theorem resolveInDep_cost {rec : Cfg → Go Shared Tree} {cfg : Cfg}
    (hex : ∀ path sh, Good W sh → Cost W 1 (rec (nestedCfg cfg path true)) sh) (name xsd : Str) (dep : Tree) (sh : Shared)
    (hg : Good W sh) : Cost W 1 (resolveInDep rec cfg name xsd dep) sh := by
  unfold Cost resolveInDep
  dsimp only
  split
  · exact ⟨hg, Nat.le_add_right _ _⟩
  · obtain ⟨h1, h2⟩ := hex xsd sh hg
    cases e : rec (nestedCfg cfg xsd true) sh with
    | ok t s1 => rw [e] at h1 h2; exact ⟨h1, h2⟩
    | err er s1 => rw [e] at h1 h2; exact ⟨h1, h2⟩
    | halt hh s1 => rw [e] at h1 h2; exact ⟨h1, h2⟩

theorem getValueType_cost {rec : Cfg → Go Shared Tree} {cfg : Cfg}
    (hex : ∀ path sh, Good W sh → Cost W 1 (rec (nestedCfg cfg path true)) sh)
    (hgen : ∀ path sh, Good W sh → path ∉ sh.parseFileMap.keys → Cost W 0 (rec (nestedCfg cfg path false)) sh)
    (v : Str) (tree : Tree) (sh : Shared) (hg : Good W sh) :
    Cost W (if cfg.extract then 0 else (locs W).length + 1) (getValueType W rec cfg v tree) sh := by
  unfold Cost getValueType
  dsimp only
  split
  · exact ⟨hg, Nat.le_add_right _ _⟩
  split
  · exact ⟨hg, Nat.le_add_right _ _⟩
  by_cases hx : cfg.extract = true
  · rw [if_pos hx]
    exact ⟨hg, Nat.le_add_right _ _⟩
  rw [if_neg hx, if_neg hx]
  unfold resolveOutside
  dsimp only
  split
  · exact ⟨hg, Nat.le_add_right _ _⟩
  generalize hp : pathJoin cfg.fileDir (sh.nsLoc.getStr (sh.localNS.getStr (getNSPrefix v))) = path
  have hfile : ∀ vt, Good W (resolveInFile rec cfg (trimNSPrefix v) vt path sh).state ∧
      total W (resolveInFile rec cfg (trimNSPrefix v) vt path sh).state ≤ total W sh + ((locs W).length + 1) := by
    intro vt
    unfold resolveInFile
    cases hd : sh.parseFileMap.get? path with
    | some dep =>
      obtain ⟨h1, h2⟩ := resolveInDep_cost hex (trimNSPrefix v) path dep sh hg
      exact ⟨h1, Nat.le_trans h2 (by omega)⟩
    | none =>
      dsimp only
      obtain ⟨h1, h2⟩ := hgen path sh hg (GoMap.get?_eq_none.mp hd)
      cases e : rec (nestedCfg cfg path false) sh with
      | ok t s1 =>
        rw [e] at h1 h2
        obtain ⟨h3, h4⟩ := resolveInDep_cost hex (trimNSPrefix v) path t s1 h1
        exact ⟨h3, Nat.le_trans h4 (by simp only [Out.state] at h2; omega)⟩
      | err er s1 => rw [e] at h1 h2; exact ⟨h1, Nat.le_trans h2 (by omega)⟩
      | halt hh s1 => rw [e] at h1 h2; exact ⟨h1, Nat.le_trans h2 (by omega)⟩
  cases W.fs.get? path with
  | none => exact ⟨hg, Nat.le_add_right _ _⟩
  | some en =>
    cases en with
    | noOpen => exact hfile _
    | file toks => exact hfile _
    | dir =>
      dsimp only
      obtain ⟨h1, h2⟩ := includeLoop_cost hex (trimNSPrefix v) sh.includeMap.keys (sh.includeMap.length + W.size + 1) [] [] sh hg
        List.nodup_nil nofun
      cases e : includeLoop W rec cfg (trimNSPrefix v) sh.includeMap.keys (sh.includeMap.length + W.size + 1) [] [] sh with
      | ok t s1 => rw [e] at h1 h2; exact ⟨h1, Nat.le_trans h2 (by simp only [List.length_nil]; omega)⟩
      | err er s1 => rw [e] at h1 h2; exact ⟨h1, Nat.le_trans h2 (by simp only [List.length_nil]; omega)⟩
      | halt hh s1 => rw [e] at h1 h2; exact ⟨h1, Nat.le_trans h2 (by simp only [List.length_nil]; omega)⟩

theorem gvt_cost {rec : Cfg → Go Shared Tree} {cfg : Cfg}
    (hex : ∀ path sh, Good W sh → Cost W 1 (rec (nestedCfg cfg path true)) sh)
    (hgen : ∀ path sh, Good W sh → path ∉ sh.parseFileMap.keys → Cost W 0 (rec (nestedCfg cfg path false)) sh) (v : Str) :
    Costs (Good W) (total W) (if cfg.extract then 0 else (locs W).length + 1) (gvtOf W rec cfg v) := by
  intro s hg
  obtain ⟨h1, h2⟩ := getValueType_cost hex hgen v s.p.freeze s.sh hg
  unfold gvtOf
  cases e : getValueType W rec cfg v s.p.freeze s.sh with
  | ok t s1 => rw [e] at h1 h2; exact ⟨h1, h2⟩
  | err er s1 => rw [e] at h1 h2; exact ⟨h1, h2⟩
  | halt hh s1 => rw [e] at h1 h2; exact ⟨h1, h2⟩

theorem generate_frame (W : World) (lang pkg file : Str) (tree : Tree) (sh : Shared) :
    ∃ o, (generate W lang pkg file tree sh).state = { sh with outputs := o } := by
  have hw : ∀ path text, ∃ o, (writeFile W path text sh).state = { sh with outputs := o } := by
    intro path text
    unfold writeFile
    split
    · exact ⟨_, rfl⟩
    · exact ⟨sh.outputs, rfl⟩
  unfold generate
  split
  · unfold writeGo
    split
    · exact hw _ _
    · rename_i src e
      have := hw (fileWithExtension file c!".go") (goRawSource pkg tree)
      cases e2 : writeFile W (fileWithExtension file c!".go") (goRawSource pkg tree) sh with
      | ok t s1 => rw [e2] at this; exact this
      | err er s1 => rw [e2] at this; exact this
      | halt hh s1 => rw [e2] at this; exact this
  split
  · exact hw _ _
  split
  · exact hw _ _
  split
  · exact hw _ _
  split
  · exact hw _ _
  · exact ⟨sh.outputs, rfl⟩

theorem finish_cost (cfg : Cfg) (tree : Tree) (sh : Shared) (hg : Good W sh) : Cost W 0 (finish W cfg tree) sh := by
  unfold Cost finish
  split
  · exact ⟨hg, Nat.le_refl _⟩
  dsimp only
  have hr : Good W (register cfg.filePath tree sh) ∧ total W (register cfg.filePath tree sh) ≤ total W sh + 0 := by
    refine ⟨hg, ?_⟩
    have h := pot_mono W.fs ((locs W).length + 1) (sh := sh) (sh' := register cfg.filePath tree sh)
      fun k hk => (GoMap.mem_keys_set _ _ _ _).2 (Or.inr hk)
    show sh.log.length + _ ≤ sh.log.length + _ + 0
    omega
  split
  · obtain ⟨o, ho⟩ := generate_frame W cfg.lang cfg.package (outputPath cfg) tree (register cfg.filePath tree sh)
    have h2 : Good W (generate W cfg.lang cfg.package (outputPath cfg) tree (register cfg.filePath tree sh)).state ∧
        total W (generate W cfg.lang cfg.package (outputPath cfg) tree (register cfg.filePath tree sh)).state ≤ total W sh + 0 := by
      rw [ho]
      exact hr
    cases e : generate W cfg.lang cfg.package (outputPath cfg) tree (register cfg.filePath tree sh) with
    | ok t s1 => rw [e] at h2; exact h2
    | err er s1 => rw [e] at h2; exact h2
    | halt hh s1 => rw [e] at h2; exact h2
  · exact hr

theorem parse_cost (n : Nat) (cfg : Cfg) (sh : Shared) (hg : Good W sh)
    (h : cfg.extract = true ∨ cfg.filePath ∉ sh.parseFileMap.keys) :
    Cost W (if cfg.extract then 1 else 0) (parse W n cfg) sh := by
  induction n generalizing cfg sh with
  | zero => exact ⟨hg, Nat.le_add_right _ _⟩
  | succ n ih =>
    unfold Cost
    simp only [parse, parseWith]
    cases hf : W.fs.get? cfg.filePath with
    | none => exact ⟨hg, Nat.le_add_right _ _⟩
    | some en =>
      cases en with
      | dir => exact ⟨hg, Nat.le_add_right _ _⟩
      | noOpen => exact ⟨hg, Nat.le_add_right _ _⟩
      | file toks =>
        dsimp only
        unfold parseOpen
        have hex : ∀ path sh, Good W sh → Cost W 1 (parse W n (nestedCfg cfg path true)) sh :=
          fun path sh hg => ih (nestedCfg cfg path true) sh hg (Or.inl rfl)
        have hgen : ∀ path sh, Good W sh → path ∉ sh.parseFileMap.keys → Cost W 0 (parse W n (nestedCfg cfg path false)) sh :=
          fun path sh hg hp => ih (nestedCfg cfg path false) sh hg (Or.inr hp)
        have hb : Good W (beginParse cfg sh) ∧ total W (beginParse cfg sh) +
            (toks.map asks).sum * (if cfg.extract then 0 else (locs W).length + 1) ≤ total W sh + (if cfg.extract then 1 else 0) := by
          unfold beginParse
          dsimp only
          by_cases hx : cfg.extract = true
          · rw [if_pos hx, if_pos hx, if_pos hx]
            refine ⟨hg, ?_⟩
            unfold total pot
            dsimp only
            rw [List.length_append]
            simp only [List.length_singleton]
            omega
          · rw [if_neg hx, if_neg hx, if_neg hx]
            refine ⟨hg, ?_⟩
            have h1 := pot_register W.fs ((locs W).length + 1) (sh := sh)
              (sh' := register cfg.filePath cfg.tree0 { sh with log := sh.log ++ [(cfg.filePath, cfg.extract)] })
              (fun k hk => (GoMap.mem_keys_set _ _ _ _).2 (Or.inr hk)) (GoMap.mem_of_get? hf) (h.resolve_left hx)
              ((GoMap.mem_keys_set _ _ _ _).2 (Or.inl rfl))
            show (sh.log ++ [(cfg.filePath, cfg.extract)]).length + _ + _ ≤ sh.log.length + _ + 0
            rw [List.length_append]
            simp only [List.length_singleton, lookups] at h1 ⊢
            omega
        obtain ⟨h1, h2⟩ := Costs.run (gvt_cost hex hgen) W toks (tags hf) { sh := beginParse cfg sh, p := {} } hb.1
        have h2 := Nat.le_trans h2 hb.2
        cases e : run W (gvtOf W (parse W n) cfg) toks { sh := beginParse cfg sh, p := {} } with
        | err er s1 => rw [e] at h1 h2; exact ⟨h1, h2⟩
        | halt hh s1 => rw [e] at h1 h2; exact ⟨h1, h2⟩
        | ok r s1 =>
          rw [e] at h1 h2
          obtain ⟨h3, h4⟩ := finish_cost cfg s1.p.freeze s1.sh h1
          exact ⟨h3, Nat.le_trans h4 h2⟩

end

section
variable [Uni]

/-- C94: a parse that generates, started in a fresh state, reads at most `bound W` files (counting a file as often as it is
read); a parse that only extracts reads one. -/
theorem parse_reads (W : World) (cfg : Cfg) (log : List (Str × Bool)) (outs : List (Str × Str)) (tick : Nat) :
    (cfg.extract = false → (Parse W cfg { outputs := outs, tick := tick, log := log }).state.log.length ≤ log.length + bound W) ∧
    (cfg.extract = true → ∀ sh, (Parse W cfg sh).state.log.length ≤ sh.log.length + 1) := by
  constructor
  · intro hx
    obtain ⟨-, h⟩ := parse_cost (W := W) (W.fs.length + 2) cfg { outputs := outs, tick := tick, log := log }
      (fun k hk => absurd hk List.not_mem_nil) (Or.inr List.not_mem_nil)
    rw [if_neg (by simp [hx])] at h
    have h1 := pot_le W.fs ((locs W).length + 1) { outputs := outs, tick := tick, log := log }
    unfold total at h
    unfold Parse bound
    simp only at h ⊢
    omega
  · intro hx sh
    rcases (C23.extract_silent W cfg hx sh).2.2.2 with h | h <;> rw [h]
    · exact Nat.le_add_right _ _
    · rw [List.length_append]; exact Nat.le_refl _

/-- C94: the command reads at most `bound W` files for each of its inputs. -/
theorem command_reads (W : World) (walk : Str → List Str) (f : Flags) (c : Config) (files : List Str)
    (hc : parseFlags f = .go c) (hl : getFileList W walk c.i = some files) :
    (main' W walk f).2.log.length ≤ files.length * bound W := by
  have key : ∀ (fs : List Str) (sh : Shared), (mainLoop W c fs sh).2.log.length ≤ sh.log.length + fs.length * bound W := by
    intro fs
    induction fs with
    | nil => intro sh; exact Nat.le_add_right _ _
    | cons f fs ih =>
      intro sh
      unfold mainLoop
      have h1 := (parse_reads W (mainCfg c f) sh.log sh.outputs sh.tick).1 rfl
      rw [List.length_cons, Nat.add_mul, Nat.one_mul]
      cases e : Parse W (mainCfg c f) { outputs := sh.outputs, tick := sh.tick, log := sh.log } with
      | ok t s1 =>
        rw [e] at h1
        have := ih s1
        simp only [Out.state] at h1 ⊢
        omega
      | err er s1 => rw [e] at h1; simp only [Out.state] at h1 ⊢; omega
      | halt hh s1 => rw [e] at h1; cases hh <;> simp only [Out.state] at h1 ⊢ <;> omega
  unfold main'
  rw [hc]
  dsimp only
  rw [hl]
  exact Nat.le_trans (key files {}) (by simp)

end

/-! ## Examples -/

open Ex in
/-- A schema with three references and two includes, and three more references in one of these. -/
def W0 : World := world [
  ("a.xsd", [on "schema"] ++ leaf "include" [("schemaLocation", "b.xsd")] ++ leaf "include" [("schemaLocation", "c.xsd")] ++
    leaf "element" [("name", "e"), ("type", "S")] ++ leaf "element" [("name", "f"), ("type", "T")] ++
    leaf "element" [("name", "g"), ("type", "U")] ++ [off "schema"]),
  ("b.xsd", [on "schema"] ++ leaf "element" [("name", "h"), ("type", "V")] ++ leaf "element" [("name", "i"), ("type", "W")] ++
    leaf "element" [("name", "j"), ("type", "X")] ++ [off "schema"]),
  ("c.xsd", [on "schema", off "schema"])] ["."]

/-- The included files are read again for each reference that is not resolved in the file itself: 1 + 3 · 2 files. -/
theorem read_again : (Ex.parse W0 "a.xsd" "Go").state.log.map (·.1) =
    [c!"a.xsd", c!"b.xsd", c!"c.xsd", c!"b.xsd", c!"c.xsd", c!"b.xsd", c!"c.xsd"] ∧ (locs W0).length = 2 := by decide +kernel

example : (Ex.parse W0 "a.xsd" "Go").state.log.length = 7 ∧ bound W0 = 4 + (34 + 24 + 3) * 3 := by decide +kernel

end Xgen.C94
