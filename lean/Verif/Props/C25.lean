import Verif.Lemmas.ParseRel
import Verif.Spec.Example

/-! # C25: each imported schema is generated at most once per run -/

namespace Xgen.C25
variable [Uni]

/-- The parses for generation (Extract unset) in a log. -/
def generated (log : List (Str × Bool)) : List Str := (log.filter (fun e => !e.2)).map (·.1)

/-- What happened between two states: the log was extended, no path was generated twice, every path generated was not
registered before and is registered afterwards. -/
def Once (a b : Shared) : Prop :=
  Grows a b ∧ ∃ l, b.log = a.log ++ l ∧ (generated l).Nodup ∧
    ∀ f ∈ generated l, f ∉ a.parseFileMap.keys ∧ f ∈ b.parseFileMap.keys

omit [Uni] in
theorem Once.same {a b : Shared} (h : Grows a b) (hl : b.log = a.log) : Once a b :=
  ⟨h, [], by simp [hl], by simp [generated], by simp [generated]⟩

omit [Uni] in
theorem Once.trans {a b c : Shared} (h : Once a b) (g : Once b c) : Once a c := by
  obtain ⟨hg, l, hl, hn, hf⟩ := h
  obtain ⟨gg, m, gl, gn, gf⟩ := g
  refine ⟨fun f hf => gg f (hg f hf), l ++ m, by simp [gl, hl], ?_, ?_⟩
  · simp only [generated, List.filter_append, List.map_append]
    refine List.nodup_append.mpr ⟨hn, gn, ?_⟩
    rintro x hx y hy rfl
    exact (gf x hy).1 (hf x hx).2
  · intro f h
    simp only [generated, List.filter_append, List.map_append, List.mem_append] at h
    rcases h with h | h
    · exact ⟨(hf f h).1, gg f (hf f h).2⟩
    · exact ⟨fun ha => (gf f h).1 (hg f ha), (gf f h).2⟩

omit [Uni] in
theorem once_begin (cfg : Cfg) (sh : Shared) (h : cfg.extract = true ∨ cfg.filePath ∉ sh.parseFileMap.keys) :
    Once sh (beginParse cfg sh) := by
  refine ⟨begin_grows cfg sh, [(cfg.filePath, cfg.extract)], ?_, ?_, ?_⟩
  · unfold beginParse; dsimp only; split <;> rfl
  · cases hx : cfg.extract <;> simp [generated]
  · intro f hf
    cases hx : cfg.extract with
    | true => simp [generated, hx] at hf
    | false =>
      simp only [generated, hx] at hf
      obtain rfl : f = cfg.filePath := by simpa using hf
      exact ⟨h.resolve_left (by simp [hx]), begin_mem hx⟩

omit [Uni] in
theorem once_shRel (W : World) : ShRel W Once where
  refl _ := Once.same (fun _ h => h) rfl
  trans := Once.trans
  tick _ := Once.same (fun _ h => h) rfl
  tok _ _ sh := by
    obtain ⟨a, b, c⟩ := tok_grows W.isURL _ sh
    exact ⟨Once.same a (onImport_frame _ _ _).2.2.2.2.2.1, Once.same b (onInclude_frame _ _).2.2.2.2.2.1,
      Once.same c (onSchema_frame _ _).2.2.2.2.2.1⟩
  begin := once_begin
  fin path tree sh _ := Once.same (register_grows path tree sh) rfl
  write _ _ _ := Once.same (fun _ h => h) rfl

/-- C25: the parses for generation started by a `Parse` (itself included) are of pairwise different paths, none of
which was registered before, whatever the schemas refer to and in whatever order the includes are visited. -/
theorem generated_once (W : World) (cfg : Cfg) (sh : Shared) (h : cfg.filePath ∉ sh.parseFileMap.keys) :
    ∃ l, (Parse W cfg sh).state.log = sh.log ++ l ∧ (generated l).Nodup ∧
      ∀ f ∈ generated l, f ∉ sh.parseFileMap.keys ∧ f ∈ (Parse W cfg sh).state.parseFileMap.keys :=
  (parse_keeps (once_shRel W) _ cfg sh (once_begin cfg sh (Or.inr h))).1.2

/-! Two files that import each other, with two references each. -/

open Ex in
/-- The files of the example. -/
private def W0 : World := world [
  ("a.xsd", [on "schema" [("xmlns:b", "urn:b")], on "import" [("namespace", "urn:b"), ("schemaLocation", "b.xsd")],
    on "element" [("name", "e"), ("type", "b:t")], on "element" [("name", "f"), ("type", "b:u")]]),
  ("b.xsd", [on "schema" [("xmlns:a", "urn:a")], on "import" [("namespace", "urn:a"), ("schemaLocation", "a.xsd")],
    on "element" [("name", "t"), ("type", "a:e")], on "element" [("name", "u"), ("type", "a:f")]])]

example : generated (Ex.parse W0 "a.xsd" "Go").state.log = [c!"a.xsd", c!"b.xsd"] ∧
    (Ex.parse W0 "a.xsd" "Go").state.log.length = 6 := by decide +kernel

end Xgen.C25
