import Verif.Lemmas.ParseRel
import Verif.Spec.Example

/-! # C23: extract-mode parsing has no output and registers nothing -/

namespace Xgen.C23
variable [Uni]

/-- Equal in everything an extract-mode parse must not touch. -/
structure Same (a b : Shared) : Prop where
  outputs : b.outputs = a.outputs
  list : b.parseFileList = a.parseFileList
  files : b.parseFileMap = a.parseFileMap
  log : b.log = a.log

omit [Uni] in
theorem Same.refl (a : Shared) : Same a a := ⟨rfl, rfl, rfl, rfl⟩

omit [Uni] in
theorem Same.trans {a b c : Shared} (h : Same a b) (g : Same b c) : Same a c :=
  ⟨g.outputs.trans h.outputs, g.list.trans h.list, g.files.trans h.files, g.log.trans h.log⟩

/-- C23: nothing is written, nothing is registered, and the only parse that gets to read a file is this one: no other
is started.  This holds for every outcome. -/
theorem extract_silent (W : World) (cfg : Cfg) (hx : cfg.extract = true) (sh : Shared) :
    (Parse W cfg sh).state.outputs = sh.outputs ∧
    (Parse W cfg sh).state.parseFileList = sh.parseFileList ∧
    (Parse W cfg sh).state.parseFileMap = sh.parseFileMap ∧
    ((Parse W cfg sh).state.log = sh.log ∨ (Parse W cfg sh).state.log = sh.log ++ [(cfg.filePath, true)]) := by
  show (parseWith W (parse W (W.fs.length + 1)) cfg sh).state.outputs = _ ∧ _
  change _ ∧ (parseWith W (parse W (W.fs.length + 1)) cfg sh).state.parseFileList = _ ∧
    (parseWith W (parse W (W.fs.length + 1)) cfg sh).state.parseFileMap = _ ∧
    ((parseWith W (parse W (W.fs.length + 1)) cfg sh).state.log = _ ∨
     (parseWith W (parse W (W.fs.length + 1)) cfg sh).state.log = _)
  generalize parse W (W.fs.length + 1) = r
  unfold parseWith
  cases hf : W.fs.get? cfg.filePath with
  | none => exact ⟨rfl, rfl, rfl, Or.inl rfl⟩
  | some en =>
    cases en with
    | dir => exact ⟨rfl, rfl, rfl, Or.inl rfl⟩
    | noOpen => exact ⟨rfl, rfl, rfl, Or.inl rfl⟩
    | file toks =>
      dsimp only
      unfold parseOpen
      have S : Stable (fun _ => True) Same := ⟨Same.refl, Same.trans, fun _ _ => trivial⟩
      have hrun := run_keeps (H := fun _ => True) W S trivial (gvtOf W r cfg)
        (fun v => gvtOf_keeps (getValueType_keeps S (fun h => by simp [hx] at h) (fun h => by simp [hx] at h)
          (fun h => by simp [hx] at h)) v) toks
        (fun name attrs _ sh _ => by
          obtain ⟨a1, a2, -, -, a3, a4, -⟩ := onImport_frame W.isURL attrs sh
          obtain ⟨b1, b2, -, -, b3, b4, -⟩ := onInclude_frame attrs sh
          obtain ⟨c1, c2, -, -, c3, c4, -⟩ := onSchema_frame attrs sh
          exact ⟨⟨a3, a2, a1, a4⟩, ⟨b3, b2, b1, b4⟩, ⟨c3, c2, c1, c4⟩⟩)
      obtain ⟨h1, -⟩ := hrun.2 { sh := beginParse cfg sh, p := {} } trivial
      have hb : beginParse cfg sh = { sh with log := sh.log ++ [(cfg.filePath, true)] } := by
        simp [beginParse, hx]
      cases e : run W (gvtOf W r cfg) toks { sh := beginParse cfg sh, p := {} } with
      | err er s1 =>
        rw [e, hb] at h1
        exact ⟨h1.outputs, h1.list, h1.files, Or.inr h1.log⟩
      | halt h s1 =>
        rw [e, hb] at h1
        exact ⟨h1.outputs, h1.list, h1.files, Or.inr h1.log⟩
      | ok u s1 =>
        rw [e, hb] at h1
        simp only [finish, hx, if_true]
        exact ⟨h1.outputs, h1.list, h1.files, Or.inr h1.log⟩

/-! An extract-mode parse of a file with an import that a full parse would follow. -/

open Ex in
/-- The files of the example. -/
private def W0 : World := world [
  ("a.xsd", [on "schema" [("xmlns:b", "urn:b")], on "import" [("namespace", "urn:b"), ("schemaLocation", "b.xsd")],
    on "element" [("name", "e"), ("type", "b:t")]]),
  ("b.xsd", [on "element" [("name", "t"), ("type", "int")]])]

example : (Ex.parse W0 "a.xsd" "Go" true).state.log = [(c!"a.xsd", true)] ∧
    (Ex.parse W0 "a.xsd" "Go" false).state.log =
      [(c!"a.xsd", false), (c!"b.xsd", false), (c!"b.xsd", true)] := by decide +kernel

end Xgen.C23
