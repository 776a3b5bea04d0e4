import Verif.Props.C22

/-! # C35: truncated XML is processed as its prefix and reported as success -/

namespace Xgen.C35
variable [Uni]

/-- One answer of `decoder.Token()`: a token or nil, and an error or nil (encoding/xml). -/
structure Answer where
  token : Option Token
  /-- the decoder reported a syntax error or io.EOF -/
  error : Option Str
deriving DecidableEq

/-- The loop of parser.go:102-129 as written: ask the decoder, drop the error, stop at a nil token.  The decoder is any
finite or prematurely ending sequence of answers. -/
def tokenLoop (W : World) (gvt : Gvt) : List Answer → Go St Unit
  | [] => pure ()
  | a :: rest =>
    match a.token with
    | none => pure ()
    | some t => do
      step W gvt t
      tokenLoop W gvt rest

/-- Specification: the tokens before the first nil token. -/
def delivered (d : List Answer) : List Token := (d.takeWhile (·.token.isSome)).filterMap (·.token)

/-- The loop only depends on the tokens delivered: errors are never looked at, nothing after the defect is. -/
theorem loop_eq (W : World) (gvt : Gvt) (d : List Answer) : tokenLoop W gvt d = run W gvt (delivered d) := by
  induction d with
  | nil => rfl
  | cons a rest ih =>
    unfold tokenLoop
    cases h : a.token with
    | none => simp [delivered, h, run]
    | some t =>
      have : delivered (a :: rest) = t :: delivered rest := by simp [delivered, h]
      rw [this]
      simp only [run, ih]

/-- C35: `Parse` of a file read through any decoder is the token loop above followed by the generation of code, and its
outcome is determined by the tokens delivered before the first nil token.  So a document with a syntax error is treated
as the document that ends there: same tree, same files written, and success if that document succeeds. -/
theorem parse_eq_loop (W : World) (cfg : Cfg) (sh : Shared) (d : List Answer)
    (hf : W.fs.get? cfg.filePath = some (.file (delivered d))) :
    Parse W cfg sh =
      match tokenLoop W (gvtOf W (Parse W) cfg) d { sh := beginParse cfg sh, p := {} } with
      | .ok _ s => finish W cfg s.p.freeze s.sh
      | .err e s => .err e s.sh
      | .halt h s => .halt h s.sh := by
  rw [C22.Parse_eq, loop_eq]
  simp only [parseWith, hf, parseOpen]
  cases run W (gvtOf W (Parse W) cfg) (delivered d) { sh := beginParse cfg sh } <;> rfl

/-- Cutting the answers at a nil token, or changing the error there or what follows, changes nothing. -/
theorem defect_invisible (W : World) (gvt : Gvt) (pre rest : List Answer) (e : Option Str) :
    tokenLoop W gvt (pre ++ ⟨none, e⟩ :: rest) = tokenLoop W gvt pre := by
  rw [loop_eq, loop_eq]
  congr 1
  induction pre with
  | nil => simp [delivered]
  | cons a pre ih =>
    cases h : a.token with
    | none => simp [delivered, h]
    | some t =>
      simp only [delivered, List.cons_append, List.takeWhile_cons, h, Option.isSome_some, if_true,
        List.filterMap_cons] at ih ⊢
      rw [ih]

/-- A document cut off after the first of two declarations with a syntax error: code for the first is generated, and
the result is a success. -/
private def cut : List Answer :=
  [⟨some (Ex.on "element" [("name", "a"), ("type", "int")]), none⟩, ⟨some (Ex.off "element"), none⟩,
   ⟨none, some c!"XML syntax error on line 3"⟩,
   ⟨some (Ex.on "element" [("name", "b"), ("type", "int")]), none⟩]

example : Ex.parse (Ex.world [("a.xsd", delivered cut)]) "a.xsd" "C" =
  .ok [some (.elem { name := c!"a", type := c!"int" })]
    { parseFileList := [(c!"a.xsd", true)],
      parseFileMap := [(c!"a.xsd", [some (.elem { name := c!"a", type := c!"int" })])],
      log := [(c!"a.xsd", false)],
      outputs := [(c!"a.xsd.h", c!"// Code generated by xgen. DO NOT EDIT.\n\ntypedef int A;\n")] } := by
  decide +kernel

end Xgen.C35
