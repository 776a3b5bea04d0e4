import Verif.Props.C61
import Verif.Props.C107

/-! # C108: from the arguments and the bytes in a directory to source files

C107 for a directory: every file in it is the main schema of a project (C62), and these projects may share schemas. -/

namespace Xgen.C108
open C62 C65 C91
open C61 (Each Leads places Named tops Plainly)
open C11 (descend)
open C103 (Follows Fit Harmless)
open C107 (Keeps Formats Accepted Holds)
open Xgen.Xml Xgen.Text Xgen.Bytes

section
variable [Uni] [NameChars] [Charsets]

/-! ## Specification -/

/-- The file at `path` and what it imports and includes are the project, on this disk, for these options. -/
structure Ready (disk : List (Str × Stock)) (W : World) (c : Config) (ext path : Str) (π : Project) : Prop where
  world : π.W = W
  cfg : π.cfg = mainCfg c path
  keeps : C107.Keeps disk π
  sound : (∀ f ∈ π.all ++ π.included, Contains π.W f (π.docs f)) → π.Sound
  create : C103.Creatable π ext
  fit : ∀ f ∈ π.all, Fit π.cfg.lang (π.trees f)

/-- What lies at a path: a directory, or the main schema of a project. -/
def Lies (disk : List (Str × Stock)) (W : World) (c : Config) (ext path : Str) : Option Project → Prop
  | none => W.fs.get? path = some .dir
  | some π => Ready disk W c ext path π

/-- The files written for a project: one for every imported schema that is needed, and then one for the schema at `path`, at `out`; each is a source file with
the components of its schema. -/
def Made (c : Config) (ext path out : Str) (π : Project) (files : List (Str × Str)) : Prop :=
  ∃ (gs : List Str) (wt : Str → Tree) (text : Str → Str), gs.Nodup ∧ (∀ g ∈ gs, g ∈ π.files) ∧ (∀ f ∈ path :: gs, ∀ g, π.Needs f g → g ∈ gs) ∧
    (∀ f ∈ path :: gs, C57.bare (wt f) = C57.bare (π.trees f) ∧ ∃ order, C58.Order order ∧
      Accepted c.lang (if f = path then c.pkg else []) order (wt f) (text f)) ∧
    files = gs.map (fun g => (fileWithExtension (pathJoin c.o g) ext, text g)) ++ [(out, text path)]

/-! ## Proofs -/

variable [UniLaws]

/-- One file. -/
theorem one {disk : List (Str × Stock)} {W : World} {c : Config} {ext path : Str} {π : Project} (h : Ready disk W c ext path π)
    (hg : c.lang = c!"Go" → Formats W.gofmt) (sh : Shared) : ∃ t sh' new, Parse W (mainCfg c path) (C39.fresh sh) = .ok t sh' ∧
      sh'.outputs = sh.outputs ++ new ∧ Made c ext path (C24.documentedPath (mainCfg c path) ext) π new := by
  have hsound : π.Sound := h.sound fun f hf => by
    obtain ⟨toks, h1, h2, h3, -⟩ := h.keeps.file hf
    exact ⟨toks, h1, h2, h3⟩
  have hd : ∀ f ∈ π.all, ∀ toks, π.W.fs.get? f = some (.file toks) → ∀ x, Token.text x ∈ toks → Harmless π.cfg.lang (trimSpace x) := by
    intro f hf toks ht
    obtain ⟨toks', h1, -, -, h4⟩ := h.keeps.file (List.mem_append_left _ hf)
    rw [h1] at ht
    cases ht
    exact h4 hf
  have hin : π.cfg.filePath = path := by rw [h.cfg]; rfl
  have hlang : π.cfg.lang = c.lang := by rw [h.cfg]; rfl
  have hpkg : π.cfg.package = c.pkg := by rw [h.cfg]; rfl
  have hW := h.world
  obtain ⟨gs, wt, text, sh', g1, g2, g3, g4, g5, g6⟩ := C103.project_partial hsound h.create h.fit hd (C39.fresh sh) ⟨rfl, rfl, rfl, fun _ _ => rfl⟩
  rw [hin] at g3 g4 g5 g6
  rw [hlang, hpkg] at g4
  rw [h.cfg, hW] at g6
  refine ⟨_, sh', gs.map (fun g => (C24.documentedPath (π.part g) ext, text g)) ++ [(C24.documentedPath π.cfg ext, text path)], g6, by rw [g5, List.append_assoc]; rfl,
    gs, wt, text, g1, g2, g3, fun f hf => ?_, ?_⟩
  · obtain ⟨h1, source, order, h2, h3, h4⟩ := g4 f hf
    refine ⟨h1, order, h2, ?_⟩
    unfold Accepted
    split
    · rename_i hl
      rw [if_pos hl, hW] at h4
      rcases h3 with ⟨-, h3⟩ | ⟨e, -⟩ | ⟨e, -⟩ | ⟨e, -⟩ | ⟨e, -⟩
      · obtain ⟨y, g, h5, h6, h7⟩ := hg hl _ _ h3
        rw [h4] at h5
        cases h5
        exact ⟨g, h6, h7⟩
      all_goals exact absurd (hl.symm.trans e) (by decide)
    · rename_i hl
      rw [if_neg hl] at h4
      rw [h4]
      exact h3
  · rw [h.cfg]
    congr 1
    refine List.map_congr_left fun g _ => ?_
    unfold C24.documentedPath Project.part
    rw [h.cfg]
    have e : trimPrefix g [] = g := by cases g <;> rfl
    show (fileWithExtension (pathJoin c.o (trimPrefix g [])) ext, text g) = _
    rw [e]

/-- All files of a list, in order. -/
theorem loop {disk : List (Str × Stock)} {W : World} {c : Config} {ext : Str} (hg : c.lang = c!"Go" → Formats W.gofmt) (T : Print.Texts)
    (files : List (Str × Option Project)) (hf : ∀ x ∈ files, Lies disk W c ext x.1 x.2) : ∀ sh, ∃ sh' new,
      mainLoop W c (files.map (·.1)) sh = (.done, sh') ∧ Print.loopText W T c (files.map (·.1)) sh = c!"done\n" ∧ sh'.outputs = sh.outputs ++ new.flatten ∧
      Each (fun x out => Made c ext x.1 (C24.documentedPath (mainCfg c x.1) ext) x.2 out) (files.filterMap fun x => x.2.map (x.1, ·)) new := by
  induction files with
  | nil => intro sh; exact ⟨sh, [], rfl, rfl, by simp, .nil⟩
  | cons x files ih =>
    intro sh
    obtain ⟨path, d⟩ := x
    have hx := hf _ List.mem_cons_self
    have ih := ih fun y hy => hf y (List.mem_cons_of_mem _ hy)
    have hfr : ({ outputs := sh.outputs, tick := sh.tick, log := sh.log } : Shared) = C39.fresh sh := rfl
    rw [List.map_cons, mainLoop, Print.loopText, hfr]
    cases d with
    | none =>
      have hdir := (C29.not_a_file W (mainCfg c path) (C39.fresh sh)).2.2 hx
      rw [hdir]
      obtain ⟨sh', new, h1, h2, h3, h4⟩ := ih (C39.fresh sh)
      exact ⟨sh', new, h1, h2, h3, h4⟩
    | some π =>
      obtain ⟨t, sh1, out, h1, h2, h3⟩ := one hx hg sh
      rw [h1]
      obtain ⟨sh', new, h4, h5, h6, h7⟩ := ih sh1
      refine ⟨sh', out :: new, h4, h5, ?_, .cons h3 h7⟩
      rw [h6, h2]
      simp

/-- A directory to generate from: `content` says what lies at each place below it. -/
structure Folder (disk : List (Str × Stock)) (W : World) (c : Config) (ext : Str) (d : Forest) (content : List Str → Option Project) : Prop where
  input : c.i ≠ []
  output : c.o ≠ []
  plain : Plainly c.i
  named : Named d
  hidden : c.i = c!"." → ∀ n ∈ tops d, n.head? ≠ some '.'
  isDir : W.fs.get? c.i = some .dir
  lies : ∀ l, Leads d l → Lies disk W c ext (descend (clean c.i) l) (content l)

/-- C108: the arguments name a directory, in which every file is a schema that, with what it imports and includes, is a sound project on the disk.  Then the command
prints "done", and it has written for each of them, in the order of their places, the files of the imported schemas that are needed and, to the same place below the
output directory, the file of the schema; all are source files with the components of their schemas; and if what is read is apart from what is written, then so it is on the disk that changes
meanwhile.  (Missing: as for C103.) -/
theorem directory_partial {disk : List (Str × Stock)} {W : World} {lstat : Str → Option Forest} {items : List C60.Item} (hv : ∀ it ∈ items, it.Valid) {rest : List Str}
    (hr : C60.Stops rest) {c : Config} (hc : parseFlags (C60.meaning items) = .go c) {d : Forest} (hd : lstat c.i = some d)
    {content : List Str → Option Project} {ext : Str} (h : Folder disk W c ext d content) (he : (c.lang, ext) ∈ C24.extensions)
    (hg : c.lang = c!"Go" → Formats W.gofmt) (T : Print.Texts) :
    ∃ sh new, xgen W lstat (items.flatMap C60.Item.args ++ rest) = (.done, sh) ∧
      Print.xgenText W T lstat (items.flatMap C60.Item.args ++ rest) = c!"done\n" ∧ sh.outputs = new.flatten ∧
      Each (fun x out => Made c ext (descend (clean c.i) x.1) (fileWithExtension (descend (clean c.o) x.1) ext) x.2 out)
        ((places d).filterMap fun l => (content l).map (l, ·)) new ∧
      ∀ cwd S n, C84.Apart W cwd c ext (c.i :: ((places d).map (descend (clean c.i)) ++ [c.i])) S → W.fs.length + 2 ≤ n →
        Disk.mainNow W cwd n (walkFrom lstat) (C60.meaning items) = (.done, sh) ∧ ∀ q, S q → Disk.look W cwd sh.outputs q = W.fs.get? q := by
  let at' := fun l => (descend (clean c.i) l, content l)
  obtain ⟨sh, new, h1, hp, h2, h3⟩ := loop (disk := disk) hg T ((c.i, none) :: ((places d).map at' ++ [(c.i, none)])) (by
    intro x hx
    simp only [List.mem_cons, List.mem_append, List.mem_map, List.not_mem_nil, or_false] at hx
    rcases hx with rfl | ⟨l, hl, rfl⟩ | rfl
    · exact h.isDir
    · exact h.lies l ((C61.mem_places d l).1 hl)
    · exact h.isDir) {}
  have hm : ((c.i, none) :: ((places d).map at' ++ [(c.i, none)])).map (·.1) = c.i :: ((places d).map (descend (clean c.i)) ++ [c.i]) := by
    simp [at', Function.comp_def]
  rw [hm] at h1 hp
  have hlist : getFileList W (walkFrom lstat) c.i = some (c.i :: ((places d).map (descend (clean c.i)) ++ [c.i])) := by
    unfold getFileList walkFrom
    rw [h.isDir, hd]
    dsimp only
    rw [C61.walk_places d h.named c.i h.input]
    rfl
  have hmain : main' W (walkFrom lstat) (C60.meaning items) = (.done, sh) := by
    unfold main'
    rw [hc]
    dsimp only
    rw [hlist]
    exact h1
  refine ⟨sh, new, ?_, ?_, by rw [h2]; rfl, ?_, fun cwd S n ha hn => ?_⟩
  · rw [(C60.run W lstat items hv).1 hr]; exact hmain
  · unfold Print.xgenText
    rw [C60.reads items hv hr]
    dsimp only
    unfold Print.mainText
    rw [hc]
    dsimp only
    rw [hlist]
    exact hp
  · have hm : ((c.i, none) :: ((places d).map at' ++ [(c.i, none)])).filterMap (fun x => x.2.map (x.1, ·)) =
        ((places d).filterMap fun l => (content l).map (l, ·)).map fun x => (descend (clean c.i) x.1, x.2) := by
      simp only [List.filterMap_cons, List.filterMap_append, List.filterMap_nil, List.append_nil, Option.map_none, List.filterMap_map,
        List.map_filterMap]
      congr 1
      funext l
      simp only [Function.comp, at', Option.map_map]
      rfl
    rw [hm] at h3
    have hpl : ∀ x ∈ (places d).filterMap (fun l => (content l).map (l, ·)), Leads d x.1 := by
      intro x hx
      obtain ⟨l, hl, hx⟩ := List.mem_filterMap.1 hx
      obtain ⟨ds, -, rfl⟩ := Option.map_eq_some_iff.1 hx
      exact (C61.mem_places d l).1 hl
    clear hm h2 h1 hmain
    generalize (places d).filterMap (fun l => (content l).map (l, ·)) = xs at h3 hpl
    induction xs generalizing new with
    | nil => cases h3; exact .nil
    | cons x xs ih =>
      cases h3 with
      | cons hab h3 =>
        refine .cons ?_ (ih _ h3 fun y hy => hpl y (List.mem_cons_of_mem _ hy))
        have hx := hpl x List.mem_cons_self
        have e : C24.documentedPath (mainCfg c (descend (clean c.i) x.1)) ext = fileWithExtension (descend (clean c.o) x.1) ext :=
          C61.mirrored h.output h.plain (hx.ordinary h.named) (fun e n hn => by
            obtain ⟨m, r, e', hm⟩ := hx.top
            rw [e'] at hn
            injection hn with hn
            rw [← hn]
            exact h.hidden e m hm) ext
        rw [← e]
        exact hab
  · have h1 := C84.as_at_the_start (walkFrom lstat) _ hc hlist he ha hn
    refine ⟨h1.trans hmain, fun q hq => ?_⟩
    have h2 := C84.reads_kept (walkFrom lstat) _ hc hlist he ha hq
    rw [hmain] at h2
    exact h2

end

/-! ## Example: a directory with a schema in ISO-8859-1 that imports one in UTF-8, to Go -/

section
attribute [local instance] asciiUni C81.asciiNames noOther
open C107 (first second firstBytes docFirst docSecond first_ok second_ok first_holds second_holds itemsOk items_ok)

/-- The disk. -/
def disk : List (Str × Stock) := [(c!"in", .dir), (c!"in/a.xsd", .file firstBytes), (c!"in/b.xsd", .file (encode second.written))]

/-- What the decoder gives. -/
def world : World :=
  { Ex.world [] with fs := [(c!"in", .dir), (c!"in/a.xsd", .file (.other :: first.tokens [])), (c!"in/b.xsd", .file (second.tokens []))] }

/-- The configuration. -/
def config : Config := { i := c!"in", o := c!"out", lang := c!"Go" }

/-- The project of a file, with the translation of the second schema. -/
def halfway (f : Str) : Project where
  W := world
  cfg := mainCfg config f
  docs f := if f = c!"in/a.xsd" then docFirst else docSecond
  trees _ := Core.treeOf (C40.typeRef c!"Go" false) [] docSecond.decls
  rank f := if f = c!"in/a.xsd" then 1 else 0

/-- The project of a file. -/
def project (f : Str) : Project := { halfway f with trees := fun g => Core.treeOf ((halfway f).ref g) [] ((halfway f).docs g).decls }

/-- What is in the directory. -/
def folder : Forest := .leaf c!"a.xsd" (.leaf c!"b.xsd" .nil)

/-- What lies at its places. -/
def content (l : List Str) : Option Project := some (project (descend c!"in" l))

theorem all : (project c!"in/a.xsd").all = [c!"in/a.xsd", c!"in/b.xsd"] ∧ (project c!"in/a.xsd").included = [] ∧
    (project c!"in/b.xsd").all = [c!"in/b.xsd"] ∧ (project c!"in/b.xsd").included = [] := by decide +kernel

theorem other {f l : Str} {P : Prop} (h : (project f).cfg.lang = l) (hn : c!"Go" ≠ l) : P := absurd h hn

theorem ready (f : Str) (hf : f ∈ [c!"in/a.xsd", c!"in/b.xsd"]) : Ready disk world config c!".go" f (project f) where
  world := rfl
  cfg := rfl
  keeps := by
    refine ⟨.cons rfl (.cons ⟨_, ?_, rfl⟩ (.cons ⟨_, ?_, rfl⟩ .nil)), fun g hg => ?_⟩
    · have := stored_read declLatin_ok (s := first.written) (by unfold Bare; decide +kernel) (show InUtf8 (encode declLatin.written) _ by unfold InUtf8; decide +kernel)
        (.latin (bs := first.written.map fun c => byte c.toNat) (by decide) (by unfold Latin1; decide +kernel) (by unfold InLatin1; decide +kernel))
      rwa [C81.decode_written first first_ok] at this
    · have := utf8_bare (bs := encode second.written) (s := second.written) (by unfold InUtf8; decide +kernel) (by unfold Bare; decide +kernel)
      rwa [C81.decode_written second second_ok] at this
    · have hg : g = c!"in/a.xsd" ∨ g = c!"in/b.xsd" := by
        simp only [List.mem_cons, List.not_mem_nil, or_false] at hf
        rcases hf with rfl | rfl
        · rw [all.1, all.2.1] at hg; simpa using hg
        · rw [all.2.2.1, all.2.2.2] at hg; exact .inr (by simpa using hg)
      rcases hg with rfl | rfl
      · refine ⟨firstBytes, first, rfl, first_holds, (show _ = C40.skeleton docFirst.tokens by decide +kernel), fun _ x hx => ⟨fun _ => ?_, fun h => other h (by decide), fun h => other h (by decide), fun h => other h (by decide)⟩⟩
        revert x
        decide +kernel
      · refine ⟨_, second, rfl, second_holds, (show _ = C40.skeleton docSecond.tokens by decide +kernel), fun _ x hx => ⟨fun _ => ?_, fun h => other h (by decide), fun h => other h (by decide), fun h => other h (by decide)⟩⟩
        revert x
        decide +kernel
  sound := by
    simp only [List.mem_cons, List.not_mem_nil, or_false] at hf
    rcases hf with rfl | rfl <;> intro h
    · refine @Project.Sound.mk asciiUni (project c!"in/a.xsd") ?_ ?_ ?_ ?_ ?_ ?_ ?_ h ?_ ?_ ?_ ?_ ?_ ?_ ?_ ?_ ?_ <;> decide +kernel
    · refine @Project.Sound.mk asciiUni (project c!"in/b.xsd") ?_ ?_ ?_ ?_ ?_ ?_ ?_ h ?_ ?_ ?_ ?_ ?_ ?_ ?_ ?_ ?_ <;> decide +kernel
  create := .mk (show (c!"Go", c!".go") ∈ C24.extensions by decide) (fun _ _ => rfl) (fun _ _ => rfl) (fun _ _ _ => rfl) (fun _ => .inr (show C96.Ident c!"schema" ∧ c!"schema" ≠ c!"_" by decide)) (fun h => other h (by decide))
  fit := by
    intro g hg
    refine ⟨fun _ => ?_, fun h => other h (by decide), fun h => other h (by decide), fun h => other h (by decide), fun h => other h (by decide)⟩
    simp only [List.mem_cons, List.not_mem_nil, or_false] at hf
    rcases hf with rfl | rfl
    · rw [all.1] at hg
      simp only [List.mem_cons, List.not_mem_nil, or_false] at hg
      rcases hg with rfl | rfl
      · exact ⟨by decide +kernel, by decide +kernel, by decide +kernel, items_ok (by decide +kernel), by decide +kernel⟩
      · exact ⟨by decide +kernel, by decide +kernel, by decide +kernel, items_ok (by decide +kernel), by decide +kernel⟩
    · rw [all.2.2.1] at hg
      cases List.mem_singleton.1 hg
      exact ⟨by decide +kernel, by decide +kernel, by decide +kernel, items_ok (by decide +kernel), by decide +kernel⟩

theorem folder_ok : Folder disk world config c!".go" folder content where
  input := by decide
  output := by decide
  plain := by unfold C61.Plainly; decide +kernel
  named := by unfold folder C61.Named C61.Named C61.Named C11.Below; decide
  hidden := by decide
  isDir := rfl
  lies := by
    intro l hl
    have : l ∈ places folder := (C61.mem_places ..).2 hl
    rw [show places folder = [[c!"a.xsd"], [c!"b.xsd"]] by decide] at this
    simp only [List.mem_cons, List.not_mem_nil, or_false] at this
    rcases this with rfl | rfl
    · exact ready c!"in/a.xsd" (by decide)
    · exact ready c!"in/b.xsd" (by decide)

/-- The arguments. -/
def arguments : List C60.Item := [.text false c!"l" c!"Go", .textEq true c!"o" c!"out", .text false c!"i" c!"in"]

/-- Every schema of the directory gets its files. -/
example (T : Print.Texts) : ∃ sh first second, xgen world (fun _ => some folder) [c!"-l", c!"Go", c!"--o=out", c!"-i", c!"in"] = (.done, sh) ∧
    Print.xgenText world T (fun _ => some folder) [c!"-l", c!"Go", c!"--o=out", c!"-i", c!"in"] = c!"done\n" ∧ sh.outputs = first ++ second ∧
    Made config c!".go" c!"in/a.xsd" c!"out/a.xsd.go" (project c!"in/a.xsd") first ∧ Made config c!".go" c!"in/b.xsd" c!"out/b.xsd.go" (project c!"in/b.xsd") second := by
  obtain ⟨sh, new, h1, h2, h3, h4, -⟩ := directory_partial (items := arguments) (by simp [arguments, C60.Item.Valid, C60.texts]) .nil (c := config) (by decide)
    (lstat := fun _ => some folder) rfl folder_ok (by decide) (fun _ x f hf => ⟨x, f, rfl, hf, rfl, rfl, fun _ => Iff.rfl⟩) T
  have e : (places folder).filterMap (fun l => (content l).map (l, ·)) = [([c!"a.xsd"], project c!"in/a.xsd"), ([c!"b.xsd"], project c!"in/b.xsd")] := rfl
  rw [e] at h4
  cases h4 with
  | cons ha h4 =>
    cases h4 with
    | cons hb h4 =>
      cases h4
      exact ⟨sh, _, _, h1, h2, by rw [h3]; simp, ha, hb⟩

/-- The files of the run. -/
example : (xgen world (fun _ => some folder) [c!"-l", c!"Go", c!"--o=out", c!"-i", c!"in"]).2.outputs.map (·.1) =
    [c!"out/in/b.xsd.go", c!"out/a.xsd.go", c!"out/b.xsd.go"] := by decide +kernel

end

end Xgen.C108
