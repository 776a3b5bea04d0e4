import Verif.Props.C40

/-! # C46: residue between declarations

The property is false: an element without a type is never taken off the stack, and the following simple type is swallowed
by it (`residue`, `swallowed`).  It holds for the declarations of the core fragment (`no_residue_partial`). -/

namespace Xgen.C46
open Core C40
variable [Uni]

/-! ## Specification -/

/-- All stacks are empty and all flags have their initial value.  (The name of the last tag, `InElement`, is not a flag of
this kind: it is set at every start tag.  `idle_blind` shows that it does not matter here.) -/
structure Fresh (p : PState) : Prop where
  currentEle : p.currentEle = []
  inGroup : p.inGroup = 0
  inUnion : p.inUnion = false
  inAttributeGroup : p.inAttributeGroup = false
  simpleType : p.simpleType = []
  complexType : p.complexType = []
  element : p.element = []
  attrSt : p.attrSt = []
  group : p.group = []
  attributeGroup : p.attributeGroup = []
  choice : p.choice = []

/-! ## Theorems -/

omit [Uni] in
theorem fresh_iff (p : PState) : Fresh p ↔ p = idle p.heap p.proto p.inElement := by
  constructor
  · rintro ⟨h1, h2, h3, h4, h5, h6, h7, h8, h9, h10, h11⟩
    obtain ⟨a, b, c, d, e, f, g, h, i, j, k, l, m, n⟩ := p
    dsimp only at *
    subst h1 h2 h3 h4 h5 h6 h7 h8 h9 h10 h11
    rfl
  · intro h
    rw [h]
    exact ⟨rfl, rfl, rfl, rfl, rfl, rfl, rfl, rfl, rfl, rfl, rfl⟩

/-- C46 for the core fragment: a complete regular declaration — with white space, comments and tags without handlers
anywhere — leads from a fresh parser to a fresh parser and only appends its components.

Missing: declarations outside the fragment, for which the property is false. -/
theorem no_residue_partial [UniLaws] (W : World) (rec : Cfg → Go Shared Tree) (cfg : Cfg) (sh0 : Shared) (ha : Alone W cfg sh0)
    (d : Decl) (toks : List Token) (hn : C32.NamesOk toks) (ht : skeleton toks = skeleton d.tokens) (s : St)
    (hs : Like sh0 s.sh) (hf : Fresh s.p) (hv : Valid s.p.heap s.p.proto)
    (hd : d.Regular (typeRef cfg.lang cfg.extract s.p.freeze)) (hq : d.Safe .clean) (hl : d.after .clean = .clean) :
    ∃ s', run W (gvtOf W rec cfg) toks s = .ok () s' ∧ Like sh0 s'.sh ∧ Fresh s'.p ∧ Valid s'.p.heap s'.p.proto ∧
      s'.p.freeze = s.p.freeze ++ (d.nodes (typeRef cfg.lang cfg.extract s.p.freeze)).map some := by
  obtain ⟨sh, p⟩ := s
  obtain ⟨heap, proto, inE, rfl⟩ : ∃ heap proto inE, p = idle heap proto inE := ⟨_, _, _, (fresh_iff p).1 hf⟩
  obtain ⟨sh', heap', proto', inE', i', g', r'⟩ := decl_run (W := W) (answers W rec cfg sh0 ha)
    (typeRef_stable cfg.lang cfg.extract) d sh hs heap proto inE hv hd hq hl
  have hb := C32.gvtOf_blind W rec cfg
  have hsim : C32.Sim ⟨sh, idle heap proto inE⟩ ⟨sh, idle heap proto inE⟩ := ⟨⟨inE, rfl⟩, .inl rfl⟩
  have h1 := C32.run_strip W hb (toks.filter visible) (fun n as h => hn n as (List.mem_filter.1 h).1) _ _ hsim
  have h2 := C32.run_strip W hb (d.tokens.filter visible)
    (fun n as h => decl_names (P := (· ≠ [])) (by decide) d hd n as (List.mem_filter.1 h).1) _ _ hsim
  have ht' : C32.strip (toks.filter visible) = C32.strip (d.tokens.filter visible) := ht
  rw [run_visible, ht'] at h1
  rw [run_visible, show run W (gvtOf W rec cfg) d.tokens _ = _ from r'] at h2
  revert h1 h2
  cases run W (gvtOf W rec cfg) (C32.strip (d.tokens.filter visible)) ⟨sh, idle heap proto inE⟩ with
  | err e t => intro _ h2; exact h2.elim
  | halt e t => intro _ h2; exact h2.elim
  | ok u t =>
    cases run W (gvtOf W rec cfg) toks ⟨sh, idle heap proto inE⟩ with
    | err e t => intro h1; exact h1.elim
    | halt e t => intro h1; exact h1.elim
    | ok u' s' =>
      rintro ⟨-, n, h1⟩ ⟨-, m, h2⟩
      have h3 : C32.put n s' = C32.put m ⟨sh', idle heap' proto' inE'⟩ := h1.symm.trans h2
      have h4 : s' = ⟨sh', idle heap' proto' s'.p.inElement⟩ := by
        have := congrArg (C32.put s'.p.inElement) h3
        exact this
      rw [h4]
      exact ⟨_, rfl, i', (fresh_iff _).2 rfl, g'.valid, g'.tree⟩

/-- Text between declarations changes nothing, whatever the last tag was. -/
theorem idle_text (W : World) (gvt : Gvt) (x : Str) (s : St) (hf : Fresh s.p) : step W gvt (.text x) s = .ok () s := by
  obtain ⟨sh, p⟩ := s
  obtain ⟨heap, proto, inE, rfl⟩ : ∃ heap proto inE, p = idle heap proto inE := ⟨_, _, _, (fresh_iff p).1 hf⟩
  rw [C31.total]
  have : onCharData x (idle heap proto inE) = idle heap proto inE := by
    unfold onCharData idle
    split
    · rfl
    · simp [charDataBelow]
  rw [this]

/-- The name of the last tag does not influence what follows a fresh state. -/
theorem idle_blind (W : World) (rec : Cfg → Go Shared Tree) (cfg : Cfg) (toks : List Token) (hn : C32.NamesOk toks) (s : St)
    (hf : Fresh s.p) (n : Str) :
    C32.OutSim (run W (gvtOf W rec cfg) toks s) (run W (gvtOf W rec cfg) (C32.strip toks) (C32.put n s)) :=
  C32.run_strip W (C32.gvtOf_blind W rec cfg) toks hn s _ ⟨⟨n, rfl⟩, .inl hf.element⟩

/-! ## The negation -/

open Ex

/-- `<element name="x"/>`, which XSD allows (its type is anyType). -/
def untyped : List Token := leaf "element" [("name", "x")]

/-- A named simple type with a length. -/
def color : List Token :=
  [on "simpleType" [("name", "Color")], on "restriction" [("base", "xs:string")]] ++ leaf "length" [("value", "3")] ++
    [off "restriction", off "simpleType"]

/-- Run tokens from the initial state, resolving types in extract mode. -/
def from0 (toks : List Token) : Out St Unit :=
  @run asciiUni (world []) (gvtOf (world []) (@Parse asciiUni (world [])) { filePath := c!"a.xsd", lang := c!"Go", extract := true })
    toks ⟨{}, {}⟩

omit [Uni] in
/-- C46 is false: after the declaration the Element stack is not empty. -/
theorem residue : ∃ s', from0 untyped = .ok () s' ∧ ¬ Fresh s'.p := by
  refine ⟨(from0 untyped).state, by decide +kernel, fun h => ?_⟩
  have := h.element
  revert this
  decide +kernel

omit [Uni] in
/-- Alone, the simple type is declared; after the element it is missing, and the element got its type. -/
theorem swallowed :
    (from0 color).state.p.freeze = [some (.simple { name := c!"Color", base := c!"string" })] ∧
    (from0 (untyped ++ color)).state.p.freeze = [some (.elem { name := c!"x", type := c!"string" })] := by
  decide +kernel

/-- The hypotheses of `no_residue_partial` at the start of a document, for the first declaration of C40's example. -/
example : (C40.declarations.head?.map fun d => decide (d.Regular (typeRef c!"Go" true ({} : PState).freeze) ∧ d.Safe .clean ∧
    d.after .clean = .clean)) = some true := by
  decide +kernel
example : Fresh {} := (fresh_iff _).2 rfl

end Xgen.C46
