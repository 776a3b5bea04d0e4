import Verif.Lemmas.Disk
import Verif.Props.C75
import Verif.Model.Cli

/-! # What a parse computes from files that lie elsewhere -/

namespace Xgen.Move
open Disk
variable [Uni]

/-- Ends alike: the same result or the same abnormal end, errors of whatever text, states related by `J`. -/
def Like {σ : Type} (J : σ → σ → Prop) {α : Type} : Out σ α → Out σ α → Prop
  | .ok a s, .ok b t => b = a ∧ J s t
  | .err _ s, .err _ t => J s t
  | .halt h s, .halt g t => g = h ∧ J s t
  | _, _ => False

/-- From related states, ends alike, if the first run has budget enough. -/
def LeJ {σ : Type} (J : σ → σ → Prop) {α : Type} (m m' : Go σ α) : Prop :=
  ∀ s t, J s t → (∀ s', m s ≠ .halt .fuel s') → Like J (m s) (m' t)

/-- The relation on parsers running. -/
def Both (J : Shared → Shared → Prop) (s t : St) : Prop := J s.sh t.sh ∧ t.p = s.p

section
variable {J : Shared → Shared → Prop}

omit [Uni] in
theorem LeJ.bind {σ : Type} {J : σ → σ → Prop} {α β : Type} {m m' : Go σ α} {f f' : α → Go σ β} (hm : LeJ J m m')
    (hf : ∀ a, LeJ J (f a) (f' a)) : LeJ J (m >>= f) (m' >>= f') := by
  intro s t hi hs
  simp only [Go.bind_apply] at hs ⊢
  have h1 := hm s t hi
  cases e : m s with
  | ok a s1 =>
    rw [e] at hs h1
    have h1 := h1 (by intro s' h'; cases h')
    cases e' : m' t with
    | ok b t1 => rw [e'] at h1; obtain ⟨rfl, h2⟩ := h1; exact hf _ s1 t1 h2 hs
    | err _ _ => rw [e'] at h1; exact h1.elim
    | halt _ _ => rw [e'] at h1; exact h1.elim
  | err er s1 =>
    rw [e] at h1
    have h1 := h1 (by intro s' h'; cases h')
    cases e' : m' t with
    | ok b t1 => rw [e'] at h1; exact h1.elim
    | err _ _ => rw [e'] at h1; exact h1
    | halt _ _ => rw [e'] at h1; exact h1.elim
  | halt hh s1 =>
    rw [e] at hs h1
    have h1 := h1 (by intro s' h'; cases h'; exact hs _ rfl)
    cases e' : m' t with
    | ok b t1 => rw [e'] at h1; exact h1.elim
    | err _ _ => rw [e'] at h1; exact h1.elim
    | halt _ _ => rw [e'] at h1; exact h1

/-- Look-ups of a type name alike: the name, and whether there is an error. -/
def LikeN {σ : Type} (J : σ → σ → Prop) : Out σ (Str × Option Err) → Out σ (Str × Option Err) → Prop
  | .ok a s, .ok b t => b.1 = a.1 ∧ b.2.isSome = a.2.isSome ∧ J s t
  | .err _ s, .err _ t => J s t
  | .halt h s, .halt g t => g = h ∧ J s t
  | _, _ => False

/-- What a resolver must do alike: the name it gives, and whether it gives an error. -/
def Names (J : Shared → Shared → Prop) (m m' : Go St (Str × Option Err)) : Prop :=
  ∀ s t, Both J s t → (∀ s', m s ≠ .halt .fuel s') →
    LikeN (Both J) (m s) (m' t)

omit [Uni] in
theorem names_bind {m m' : Go St (Str × Option Err)} (hm : Names J m m') {β : Type} {f f' : Str × Option Err → Go St β}
    (hf : ∀ a b, b.1 = a.1 → b.2.isSome = a.2.isSome → LeJ (Both J) (f a) (f' b)) : LeJ (Both J) (m >>= f) (m' >>= f') := by
  intro s t hi hs
  simp only [Go.bind_apply] at hs ⊢
  have h1 := hm s t hi
  cases e : m s with
  | ok a s1 =>
    rw [e] at hs h1
    have h1 := h1 (by intro s' h'; cases h')
    cases e' : m' t with
    | ok b t1 => rw [e'] at h1; obtain ⟨h2, h3, h4⟩ := h1; exact hf _ _ h2 h3 s1 t1 h4 hs
    | err _ _ => rw [e'] at h1; exact h1.elim
    | halt _ _ => rw [e'] at h1; exact h1.elim
  | err er s1 =>
    rw [e] at h1
    have h1 := h1 (by intro s' h'; cases h')
    cases e' : m' t with
    | ok b t1 => rw [e'] at h1; exact h1.elim
    | err _ _ => rw [e'] at h1; exact h1
    | halt _ _ => rw [e'] at h1; exact h1.elim
  | halt hh s1 =>
    rw [e] at hs h1
    have h1 := h1 (by intro s' h'; cases h'; exact hs _ rfl)
    cases e' : m' t with
    | ok b t1 => rw [e'] at h1; exact h1.elim
    | err _ _ => rw [e'] at h1; exact h1.elim
    | halt _ _ => rw [e'] at h1; exact h1

omit [Uni] in
theorem throwOpt_le {o o' : Option Err} (h : o'.isSome = o.isSome) : LeJ (Both J) (Go.throwOpt o) (Go.throwOpt o') := by
  intro s t hi _
  cases o <;> cases o'
  · exact ⟨rfl, hi⟩
  · cases h
  · cases h
  · exact hi

omit [Uni] in
theorem LeJ.closed {g g' : Gvt} (h : ∀ v, Names J (g v) (g' v)) : Closed (LeJ (Both J)) g g' where
  pure _ _ _ hi _ := ⟨rfl, hi⟩
  bind := LeJ.bind
  throw _ _ _ hi _ := hi
  read := by
    intro α m m' hk s t hi hs
    obtain ⟨k, k', hl, he⟩ := hk (view s.p)
    have e1 := (he s rfl).1
    have e2 := (he t (by rw [hi.2])).2
    rw [e1] at hs ⊢
    rw [e2]
    exact hl s t hi hs
  assignType v set hp := by
    refine names_bind (h v) fun a b h1 h2 => ?_
    rw [h1]
    exact LeJ.bind (hp _) fun _ => throwOpt_le h2
  resolve v := by
    refine names_bind (h v) fun a b h1 h2 => ?_
    rw [h1]
    exact LeJ.bind (throwOpt_le h2) fun _ _ _ hi _ => ⟨rfl, hi⟩

theorem run_world {W W' : World} (hu : W'.isURL = W.isURL) (g : Gvt) (toks : List Token) :
    Xgen.run W' g toks = Xgen.run W g toks := by
  induction toks with
  | nil => rfl
  | cons t ts ih =>
    simp only [Xgen.run, ih]
    congr 1
    cases t with
    | start name attrs =>
      simp only [step]
      congr 1
      funext _
      cases onKind name with
      | none => rfl
      | some k => cases k <;> simp only [callOn, hu]
    | stop name => rfl
    | text s => rfl
    | other => rfl

theorem LeJ.run (W W' : World) (hu : W'.isURL = W.isURL) {g g' : Gvt} (h : ∀ v, Names J (g v) (g' v)) (toks : List Token)
    (ht : ∀ name attrs, Token.start name attrs ∈ toks → ∀ sh sh', J sh sh' →
      J (onImport W.isURL attrs sh) (onImport W.isURL attrs sh') ∧ J (onInclude attrs sh) (onInclude attrs sh') ∧
      J (onSchema attrs sh) (onSchema attrs sh')) :
    LeJ (Both J) (Xgen.run W g toks) (Xgen.run W' g' toks) := by
  rw [run_world hu]
  have B := LeJ.closed h
  have hp : ∀ f, LeJ (Both J) (onP f) (onP f) := fun f s t hi _ => ⟨rfl, hi.1, congrArg f hi.2⟩
  refine run_rel B toks fun t htm => {
    toClosed := B
    setIn := fun _ _ _ => hp _
    on := ?_
    stop := fun _ _ _ _ => { toClosed := B, prim := fun _ _ => hp _ }
    text := fun _ _ => hp _ }
  rintro name attrs k rfl _
  exact {
    toClosed := B
    panic := fun _ s t hi _ => ⟨rfl, hi⟩
    prim := fun _ _ => hp _
    prim? := fun f _ s t hi _ => by
      unfold onP?
      rw [hi.2]
      cases f s.p with
      | none => exact ⟨rfl, hi⟩
      | some p => exact ⟨rfl, hi.1, rfl⟩
    import' := fun _ s t hi _ => ⟨rfl, (ht _ _ htm s.sh t.sh hi.1).1, hi.2⟩
    include' := fun _ s t hi _ => ⟨rfl, (ht _ _ htm s.sh t.sh hi.1).2.1, hi.2⟩
    schema' := fun _ s t hi _ => ⟨rfl, (ht _ _ htm s.sh t.sh hi.1).2.2, hi.2⟩ }

end

/-! ## The relation for moved files -/

/-- Files written: the same texts, the paths before their extension related by `Q`. -/
def Wrote (Q : Str → Str → Prop) (o o' : Str × Str) : Prop :=
  o'.2 = o.2 ∧ ∃ q q' e, Q q q' ∧ o.1 = fileWithExtension q e ∧ o'.1 = fileWithExtension q' e

omit [Uni] in
theorem snoc {α β : Type} {R : α → β → Prop} {l : List α} {m : List β} (h : C75.Each R l m) {a : α} {b : β} (hab : R a b) :
    C75.Each R (l ++ [a]) (m ++ [b]) := by
  induction h with
  | nil => exact .cons hab .nil
  | cons h1 _ ih => exact .cons h1 ih

/-- The states of two runs, the second with every path `p` moved to `φ p`. -/
structure MovedSh (φ : Str → Str) (S L : Str → Prop) (Q : Str → Str → Prop) (a b : Shared) : Prop where
  inc : b.includeMap = a.includeMap
  loc : b.localNS = a.localNS
  ns : b.nsLoc = a.nsLoc
  map : ∀ p, S p → b.parseFileMap.get? (φ p) = a.parseFileMap.get? p
  tick : b.tick = a.tick
  outs : C75.Each (Wrote Q) a.outputs b.outputs
  within : Within L (fun _ => True) a

/-- The paths `S` and locations `L` contain all that a run looks at, and `φ` respects how a location is looked up. -/
structure Paths (φ : Str → Str) (W W' : World) (out out' : Str) (S L : Str → Prop) (Q : Str → Str → Prop) : Prop where
  inj : ∀ p q, S p → S q → φ p = φ q → p = q
  locs : ∀ {p toks name attrs a}, S p → W.fs.get? p = some (.file toks) → Token.start name attrs ∈ toks → a ∈ attrs →
    a.local = c!"schemaLocation" → L a.value
  next : ∀ {p toks l}, S p → W.fs.get? p = some (.file toks) → l = [] ∨ L l →
    S (pathJoin (pathDir p) l) ∧ pathJoin (pathDir (φ p)) l = φ (pathJoin (pathDir p) l)
  puts : ∀ {p toks}, S p → W.fs.get? p = some (.file toks) → Q (pathJoin out p) (pathJoin out' (φ p))
  fs : ∀ p, S p → W'.fs.get? (φ p) = W.fs.get? p
  isURL : W'.isURL = W.isURL
  gofmt : W'.gofmt = W.gofmt
  pick : W'.pick = W.pick
  size : W.size ≤ W'.size
  mkdir : ∀ q q', Q q q' → W'.mkdirOk (pathDir q') = W.mkdirOk (pathDir q)
  create : ∀ q q' e, Q q q' → W'.createOk (fileWithExtension q' e) = W.createOk (fileWithExtension q e)

/-- Two parsers for the same file, moved. -/
structure Pair (φ : Str → Str) (W : World) (out out' : Str) (S : Str → Prop) (Q : Str → Str → Prop) (a b : Cfg) : Prop where
  file : S a.filePath
  moved : b.filePath = φ a.filePath
  outA : a.outputDir = out
  outB : b.outputDir = out'
  lang : b.lang = a.lang
  package : b.package = a.package
  extract : b.extract = a.extract
  tree0 : b.tree0 = a.tree0
  puts : a.extract = false → ∀ toks, W.fs.get? a.filePath = some (.file toks) → Q (outputPath a) (outputPath b)

section
variable {φ : Str → Str} {W W' : World} {out out' : Str} {S L : Str → Prop} {Q : Str → Str → Prop}

omit [Uni] in
theorem MovedSh.within' {a b : Shared} (h : MovedSh φ S L Q a b) : Within L (fun _ => True) b :=
  ⟨by rw [h.ns]; exact h.within.ns, by rw [h.inc]; exact h.within.inc, fun _ _ => trivial⟩

omit [Uni] in
theorem MovedSh.import {isURL : Str → Bool} {attrs : List Attr} (hl : ∀ a ∈ attrs, a.local = c!"schemaLocation" → L a.value)
    {a b : Shared} (h : MovedSh φ S L Q a b) : MovedSh φ S L Q (onImport isURL attrs a) (onImport isURL attrs b) := by
  have hw := h.within.import (isURL := isURL) hl
  obtain ⟨includeA, localA, nsA, listA, mapA, outsA, tickA, logA⟩ := a
  obtain ⟨includeB, localB, nsB, listB, mapB, outsB, tickB, logB⟩ := b
  obtain ⟨h1, h2, h3, h4, h5, h6, -⟩ := h
  dsimp only at h1 h2 h3 h4 h5 h6
  subst h1 h2 h3 h5
  have key : ∃ n, onImport isURL attrs ⟨includeB, localB, nsB, listA, mapA, outsA, tickB, logA⟩ =
        ⟨includeB, localB, n, listA, mapA, outsA, tickB, logA⟩ ∧
      onImport isURL attrs ⟨includeB, localB, nsB, listB, mapB, outsB, tickB, logB⟩ =
        ⟨includeB, localB, n, listB, mapB, outsB, tickB, logB⟩ := by
    clear hw
    unfold onImport
    generalize ([] : Str) = acc
    induction attrs generalizing nsB acc with
    | nil => exact ⟨_, rfl, rfl⟩
    | cons a as ih =>
      have ih := fun n acc => ih (fun a ha => hl a (by simp [ha])) n acc
      rw [List.foldl_cons, List.foldl_cons]
      unfold onImportAttr
      split
      · exact ih _ _
      split
      · split
        · exact ih _ _
        dsimp only
        split
        · exact ih _ _
        · exact ih _ _
      · exact ih _ _
  obtain ⟨n, e1, e2⟩ := key
  rw [e1] at hw
  rw [e1, e2]
  exact ⟨rfl, rfl, rfl, h4, rfl, h6, hw⟩

omit [Uni] in
theorem MovedSh.include {attrs : List Attr} (hl : ∀ a ∈ attrs, a.local = c!"schemaLocation" → L a.value)
    {a b : Shared} (h : MovedSh φ S L Q a b) : MovedSh φ S L Q (onInclude attrs a) (onInclude attrs b) := by
  have hw := h.within.include hl
  obtain ⟨includeA, localA, nsA, listA, mapA, outsA, tickA, logA⟩ := a
  obtain ⟨includeB, localB, nsB, listB, mapB, outsB, tickB, logB⟩ := b
  obtain ⟨h1, h2, h3, h4, h5, h6, -⟩ := h
  dsimp only at h1 h2 h3 h4 h5 h6
  subst h1 h2 h3 h5
  have key : ∃ n, onInclude attrs ⟨includeB, localB, nsB, listA, mapA, outsA, tickB, logA⟩ =
        ⟨n, localB, nsB, listA, mapA, outsA, tickB, logA⟩ ∧
      onInclude attrs ⟨includeB, localB, nsB, listB, mapB, outsB, tickB, logB⟩ =
        ⟨n, localB, nsB, listB, mapB, outsB, tickB, logB⟩ := by
    clear hw
    unfold onInclude
    induction attrs generalizing includeB with
    | nil => exact ⟨_, rfl, rfl⟩
    | cons a as ih =>
      have ih := fun n => ih (fun a ha => hl a (by simp [ha])) n
      rw [List.foldl_cons, List.foldl_cons]
      split
      · dsimp only
        split
        · exact ih _
        · exact ih _
      · exact ih _
  obtain ⟨n, e1, e2⟩ := key
  rw [e1] at hw
  rw [e1, e2]
  exact ⟨rfl, rfl, rfl, h4, rfl, h6, hw⟩

omit [Uni] in
theorem MovedSh.schema {attrs : List Attr} {a b : Shared} (h : MovedSh φ S L Q a b) :
    MovedSh φ S L Q (onSchema attrs a) (onSchema attrs b) := by
  have hw := h.within.schema (attrs := attrs)
  obtain ⟨includeA, localA, nsA, listA, mapA, outsA, tickA, logA⟩ := a
  obtain ⟨includeB, localB, nsB, listB, mapB, outsB, tickB, logB⟩ := b
  obtain ⟨h1, h2, h3, h4, h5, h6, -⟩ := h
  dsimp only at h1 h2 h3 h4 h5 h6
  subst h1 h2 h3 h5
  have key : ∃ n, onSchema attrs ⟨includeB, localB, nsB, listA, mapA, outsA, tickB, logA⟩ =
        ⟨includeB, n, nsB, listA, mapA, outsA, tickB, logA⟩ ∧
      onSchema attrs ⟨includeB, localB, nsB, listB, mapB, outsB, tickB, logB⟩ =
        ⟨includeB, n, nsB, listB, mapB, outsB, tickB, logB⟩ := by
    clear hw
    unfold onSchema
    induction attrs generalizing localB with
    | nil => exact ⟨_, rfl, rfl⟩
    | cons a as ih =>
      rw [List.foldl_cons, List.foldl_cons]
      split
      · exact ih _
      · exact ih _
  obtain ⟨n, e1, e2⟩ := key
  rw [e1] at hw
  rw [e1, e2]
  exact ⟨rfl, rfl, rfl, h4, rfl, h6, hw⟩

omit [Uni] in
theorem MovedSh.register (hP : Paths φ W W' out out' S L Q) {p : Str} (hp : S p) (t : Tree) {a b : Shared}
    (h : MovedSh φ S L Q a b) : MovedSh φ S L Q (register p t a) (register (φ p) t b) := by
  refine ⟨h.inc, h.loc, h.ns, fun q hq => ?_, h.tick, h.outs, ⟨h.within.ns, h.within.inc, h.within.out⟩⟩
  unfold Xgen.register
  dsimp only
  rw [GoMap.get?_set, GoMap.get?_set, h.map q hq]
  by_cases e : q = p
  · rw [if_pos e, if_pos (by rw [e])]
  · rw [if_neg e, if_neg (fun e' => e (hP.inj _ _ hq hp e'))]

omit [Uni] in
theorem MovedSh.begin (hP : Paths φ W W' out out' S L Q) {c c' : Cfg} (hc : Pair φ W out out' S Q c c') {a b : Shared}
    (h : MovedSh φ S L Q a b) : MovedSh φ S L Q (beginParse c a) (beginParse c' b) := by
  unfold beginParse
  dsimp only
  rw [hc.extract, hc.moved, hc.tree0]
  have h1 : MovedSh φ S L Q { a with log := a.log ++ [(c.filePath, c.extract)] }
      { b with log := b.log ++ [(φ c.filePath, c.extract)] } :=
    ⟨h.inc, h.loc, h.ns, h.map, h.tick, h.outs, ⟨h.within.ns, h.within.inc, h.within.out⟩⟩
  split
  · exact h1
  · exact h1.register hP hc.file _

omit [Uni] in
theorem writeFile_moved (hP : Paths φ W W' out out' S L Q) {q q' : Str} (hq : Q q q') (e text : Str) :
    LeJ (MovedSh φ S L Q) (writeFile W (fileWithExtension q e) text) (writeFile W' (fileWithExtension q' e) text) := by
  intro a b h _
  unfold writeFile
  rw [hP.create q q' e hq]
  split
  · exact ⟨rfl, h.inc, h.loc, h.ns, h.map, h.tick, snoc h.outs ⟨rfl, q, q', e, hq, rfl, rfl⟩,
      ⟨h.within.ns, h.within.inc, fun _ _ => trivial⟩⟩
  · exact h

theorem generate_moved (hP : Paths φ W W' out out' S L Q) {q q' : Str} (hq : Q q q') (lang pkg : Str) (tree : Tree) :
    LeJ (MovedSh φ S L Q) (generate W lang pkg q tree) (generate W' lang pkg q' tree) := by
  unfold generate
  dsimp only
  split
  · intro a b h hs
    unfold writeGo
    rw [hP.gofmt]
    cases W.gofmt (goSource pkg tree) with
    | some src => exact writeFile_moved hP hq c!".go" src a b h (by intro s'; unfold writeFile; split <;> intro h' <;> cases h')
    | none =>
      dsimp only
      have := writeFile_moved hP hq c!".go" (goRawSource pkg tree) a b h
        (by intro s'; unfold writeFile; split <;> intro h' <;> cases h')
      revert this
      cases writeFile W (fileWithExtension q c!".go") (goRawSource pkg tree) a <;>
        cases writeFile W' (fileWithExtension q' c!".go") (goRawSource pkg tree) b <;> intro this
      case ok.ok => exact this.2
      case err.err => exact this
      case halt.halt => exact this
      all_goals exact this.elim
  split
  · exact writeFile_moved hP hq _ _
  split
  · exact writeFile_moved hP hq _ _
  split
  · exact writeFile_moved hP hq _ _
  split
  · exact writeFile_moved hP hq _ _
  · exact fun a b h _ => ⟨rfl, h⟩

theorem finish_moved (hP : Paths φ W W' out out' S L Q) {c c' : Cfg} (hc : Pair φ W out out' S Q c c')
    {toks : List Token} (hf : W.fs.get? c.filePath = some (.file toks)) (tree : Tree) :
    LeJ (MovedSh φ S L Q) (finish W c tree) (finish W' c' tree) := by
  intro a b h hs
  unfold finish at hs ⊢
  rw [hc.extract]
  cases hx : c.extract with
  | true => exact ⟨rfl, h⟩
  | false =>
    have hq := hc.puts hx toks hf
    rw [hx] at hs
    simp only [Bool.false_eq_true, if_false] at hs ⊢
    have h1 := h.register hP hc.file tree
    rw [hc.moved, hP.mkdir _ _ hq, hc.lang, hc.package]
    split
    · rename_i hm
      rw [if_pos hm] at hs
      have := generate_moved hP hq c.lang c.package tree _ _ h1 (by
        intro s' e
        exact hs s' (by rw [e]))
      revert this
      cases generate W c.lang c.package (outputPath c) tree (register c.filePath tree a) <;>
        cases generate W' c.lang c.package (outputPath c') tree (register (φ c.filePath) tree b) <;> intro this
      case ok.ok => exact ⟨rfl, this.2⟩
      case err.err => exact this
      case halt.halt => exact this
      all_goals exact this.elim
    · exact ⟨rfl, h1⟩

/-! ## Reading -/

omit [Uni] in
theorem Like.cases {σ α : Type} {J : σ → σ → Prop} {x y : Out σ α} (h : Like J x y) :
    (∃ a s t, x = .ok a s ∧ y = .ok a t ∧ J s t) ∨ (∃ e e' s t, x = .err e s ∧ y = .err e' t ∧ J s t) ∨
      ∃ g s t, x = .halt g s ∧ y = .halt g t ∧ J s t := by
  cases x <;> cases y
  case ok.ok => obtain ⟨rfl, h⟩ := h; exact Or.inl ⟨_, _, _, rfl, rfl, h⟩
  case err.err => exact Or.inr (Or.inl ⟨_, _, _, _, rfl, rfl, h⟩)
  case halt.halt => obtain ⟨rfl, h⟩ := h; exact Or.inr (Or.inr ⟨_, _, _, rfl, rfl, h⟩)
  all_goals exact h.elim

omit [Uni] in
theorem includeLoop_moved (hP : Paths φ W W' out out' S L Q) {r r' : Cfg → Go Shared Tree} {c c' : Cfg}
    (hr : ∀ l, L l → LeJ (MovedSh φ S L Q) (r (nestedCfg c (pathJoin c.fileDir l) true))
      (r' (nestedCfg c' (pathJoin c'.fileDir l) true)))
    (name : Str) (init : List Str) (k k' : Nat) (hk : k ≤ k') (visited : List Str) (vt : Str) :
    LeJ (MovedSh φ S L Q) (includeLoop W r c name init k visited vt) (includeLoop W' r' c' name init k' visited vt) := by
  induction k generalizing visited vt k' with
  | zero => intro a b _ h; exact absurd rfl (h a)
  | succ k ih =>
    obtain ⟨k', rfl⟩ : ∃ j, k' = j + 1 := ⟨k' - 1, by omega⟩
    intro a b h hf
    unfold includeLoop at hf ⊢
    have hn : nextKey W' init visited b = nextKey W init visited a := by unfold nextKey; rw [hP.pick, h.inc, h.tick]
    rw [hn]
    dsimp only at hf ⊢
    have ht : MovedSh φ S L Q { a with tick := a.tick + 1 } { b with tick := b.tick + 1 } :=
      ⟨h.inc, h.loc, h.ns, h.map, by simp only [h.tick], h.outs, ⟨h.within.ns, h.within.inc, h.within.out⟩⟩
    cases hnk : nextKey W init visited a with
    | none => exact ⟨rfl, ht⟩
    | some inc =>
      rw [hnk] at hf
      dsimp only at hf ⊢
      have hr := hr inc (h.within.inc _ (C22.nextKey_mem hnk).1) _ _ ht (by
        intro s' e
        rw [e] at hf
        exact hf _ rfl)
      rcases hr.cases with ⟨t, s, u, e1, e2, h1⟩ | ⟨e, e', s, u, e1, e2, h1⟩ | ⟨g, s, u, e1, e2, h1⟩
      · rw [e1] at hf ⊢
        rw [e2]
        exact ih _ (by omega) _ _ s u h1 hf
      · rw [e1, e2]; exact ⟨rfl, h1⟩
      · rw [e1, e2]; exact ⟨rfl, h1⟩

/-- What a look-up of a type name must do alike. -/
def NamesSh (J : Shared → Shared → Prop) (m m' : Go Shared (Str × Option Err)) : Prop :=
  ∀ s t, J s t → (∀ s', m s ≠ .halt .fuel s') →
    LikeN J (m s) (m' t)

omit [Uni] in
theorem resolveInDep_moved {J : Shared → Shared → Prop} {r r' : Cfg → Go Shared Tree} {c c' : Cfg} {x x' : Str}
    (hr : LeJ J (r (nestedCfg c x true)) (r' (nestedCfg c' x' true))) (name : Str) (dep : Tree) :
    NamesSh J (resolveInDep r c name x dep) (resolveInDep r' c' name x' dep) := by
  intro a b h hs
  unfold resolveInDep at hs ⊢
  dsimp only at hs ⊢
  by_cases hc : (decide (getBasefromSimpleType name dep ≠ name) && decide (getBasefromSimpleType name dep ≠ [])) = true
  · rw [if_pos hc, if_pos hc]
    exact ⟨rfl, rfl, h⟩
  · rw [if_neg hc] at hs
    rw [if_neg hc, if_neg hc]
    have hr := hr a b h (by
      intro s' e
      rw [e] at hs
      exact hs _ rfl)
    rcases hr.cases with ⟨t, s, u, e1, e2, h1⟩ | ⟨e, e', s, u, e1, e2, h1⟩ | ⟨g, s, u, e1, e2, h1⟩
    · rw [e1, e2]; exact ⟨rfl, rfl, h1⟩
    · rw [e1, e2]; exact ⟨rfl, rfl, h1⟩
    · rw [e1, e2]; exact ⟨rfl, h1⟩

omit [Uni] in
theorem resolveInFile_moved {r r' : Cfg → Go Shared Tree} {c c' : Cfg} {x : Str} (hx : S x)
    (hr : ∀ b, LeJ (MovedSh φ S L Q) (r (nestedCfg c x b)) (r' (nestedCfg c' (φ x) b))) (name vt : Str) :
    NamesSh (MovedSh φ S L Q) (resolveInFile r c name vt x) (resolveInFile r' c' name vt (φ x)) := by
  intro a b h hs
  unfold resolveInFile at hs ⊢
  rw [h.map x hx]
  cases hd : a.parseFileMap.get? x with
  | some dep => rw [hd] at hs; exact resolveInDep_moved (hr true) name dep a b h hs
  | none =>
    rw [hd] at hs
    dsimp only at hs ⊢
    have h1 := hr false a b h (by
      intro s' e
      rw [e] at hs
      exact hs _ rfl)
    rcases h1.cases with ⟨t, s, u, e1, e2, h1⟩ | ⟨e, e', s, u, e1, e2, h1⟩ | ⟨g, s, u, e1, e2, h1⟩
    · rw [e1] at hs ⊢
      rw [e2]
      exact resolveInDep_moved (hr true) name t s u h1 hs
    · rw [e1, e2]; exact ⟨rfl, rfl, h1⟩
    · rw [e1, e2]; exact ⟨rfl, h1⟩

theorem getValueType_moved (hP : Paths φ W W' out out' S L Q) {r r' : Cfg → Go Shared Tree} {c c' : Cfg}
    (hlang : c'.lang = c.lang) (hext : c'.extract = c.extract)
    (hd : ∀ l, l = [] ∨ L l → S (pathJoin c.fileDir l) ∧ pathJoin c'.fileDir l = φ (pathJoin c.fileDir l))
    (hr : ∀ l x, l = [] ∨ L l → LeJ (MovedSh φ S L Q) (r (nestedCfg c (pathJoin c.fileDir l) x))
      (r' (nestedCfg c' (pathJoin c'.fileDir l) x))) (value : Str) (tree : Tree) :
    NamesSh (MovedSh φ S L Q) (getValueType W r c value tree) (getValueType W' r' c' value tree) := by
  intro a b h hs
  unfold getValueType at hs ⊢
  dsimp only at hs ⊢
  rw [hlang, hext]
  cases hb : getBuildInTypeByLang (trimNSPrefix value) c.lang with
  | some t => exact ⟨rfl, rfl, h⟩
  | none =>
    rw [hb] at hs
    dsimp only at hs ⊢
    split
    · exact ⟨rfl, rfl, h⟩
    rename_i hc
    rw [if_neg hc] at hs
    split
    · exact ⟨rfl, rfl, h⟩
    rename_i hc
    rw [if_neg hc] at hs
    unfold resolveOutside at hs ⊢
    dsimp only at hs ⊢
    rw [hP.isURL, h.ns, h.loc]
    split
    · exact ⟨rfl, rfl, h⟩
    rename_i hc
    rw [if_neg hc] at hs
    have hl := h.within.getStr (a.localNS.getStr (getNSPrefix value))
    revert hs hl
    generalize (a.nsLoc.getStr (a.localNS.getStr (getNSPrefix value))) = l
    intro hs hl
    obtain ⟨hS, hJ⟩ := hd l hl
    rw [hJ, hP.fs _ hS]
    cases hf : W.fs.get? (pathJoin c.fileDir l) with
    | none => exact ⟨rfl, rfl, h⟩
    | some en =>
      rw [hf] at hs
      cases en with
      | dir =>
        dsimp only at hs ⊢
        have hr := includeLoop_moved hP (fun l hl => hr l true (Or.inr hl)) (trimNSPrefix value) a.includeMap.keys
          (a.includeMap.length + W.size + 1) (a.includeMap.length + W'.size + 1) (by have := hP.size; omega) [] [] a b h (by
            intro s' e
            rw [e] at hs
            exact hs _ rfl)
        rw [h.inc]
        rcases hr.cases with ⟨t, s, u, e1, e2, h1⟩ | ⟨e, e', s, u, e1, e2, h1⟩ | ⟨g, s, u, e1, e2, h1⟩
        · rw [e1, e2]; exact ⟨rfl, rfl, h1⟩
        · rw [e1, e2]; exact h1
        · rw [e1, e2]; exact ⟨rfl, h1⟩
      | file toks => exact resolveInFile_moved hS (fun x => hJ ▸ hr l x hl) _ _ a b h hs
      | noOpen => exact resolveInFile_moved hS (fun x => hJ ▸ hr l x hl) _ _ a b h hs

theorem parseWith_moved (hP : Paths φ W W' out out' S L Q) {r r' : Cfg → Go Shared Tree}
    (hr : ∀ c c', Pair φ W out out' S Q c c' → LeJ (MovedSh φ S L Q) (r c) (r' c'))
    {c c' : Cfg} (hc : Pair φ W out out' S Q c c') : LeJ (MovedSh φ S L Q) (parseWith W r c) (parseWith W' r' c') := by
  intro a b h hs
  unfold parseWith at hs ⊢
  rw [hc.moved, hP.fs _ hc.file]
  cases hf : W.fs.get? c.filePath with
  | none => exact h
  | some en =>
    rw [hf] at hs
    cases en with
    | dir => exact ⟨hc.tree0, h⟩
    | noOpen => exact h
    | file toks =>
      dsimp only at hs ⊢
      have hd : ∀ l, l = [] ∨ L l → S (pathJoin c.fileDir l) ∧ pathJoin c'.fileDir l = φ (pathJoin c.fileDir l) := by
        intro l hl
        have := hP.next hc.file hf hl
        unfold Cfg.fileDir
        rw [hc.moved]
        exact this
      have hg : ∀ v, Names (MovedSh φ S L Q) (gvtOf W r c v) (gvtOf W' r' c' v) := by
        intro v s t hi hs
        unfold gvtOf at hs ⊢
        have h1 := getValueType_moved hP hc.lang hc.extract hd (r := r) (r' := r') (fun l x hl => by
          obtain ⟨h1, h2⟩ := hd l hl
          refine hr _ _ ⟨h1, h2, hc.outA, hc.outB, hc.lang, rfl, rfl, rfl, fun _ toks' hf' => ?_⟩
          have := hP.puts h1 hf'
          simpa [outputPath, nestedCfg, hc.outA, hc.outB, h2, trimPrefix, hasPrefix] using this) v s.p.freeze s.sh t.sh hi.1 (by
            intro s' e
            rw [e] at hs
            exact hs _ rfl)
        rw [hi.2]
        revert h1
        cases getValueType W r c v s.p.freeze s.sh <;> cases getValueType W' r' c' v s.p.freeze t.sh <;> intro h1
        case ok.ok => exact ⟨h1.1, h1.2.1, h1.2.2, rfl⟩
        case err.err => exact ⟨h1, rfl⟩
        case halt.halt => exact ⟨h1.1, h1.2, rfl⟩
        all_goals exact h1.elim
      unfold parseOpen at hs ⊢
      have hr := LeJ.run W W' hP.isURL hg toks (fun name attrs hm sh sh' hi =>
        have hl := fun a ha => hP.locs (a := a) hc.file hf hm ha
        ⟨hi.import hl, hi.include hl, hi.schema⟩) { sh := beginParse c a, p := {} } { sh := beginParse c' b, p := {} }
        ⟨h.begin hP hc, rfl⟩ (by
          intro s' e
          rw [e] at hs
          exact hs _ rfl)
      rcases hr.cases with ⟨t, s, u, e1, e2, h1⟩ | ⟨e, e', s, u, e1, e2, h1⟩ | ⟨g, s, u, e1, e2, h1⟩
      · rw [e1] at hs ⊢
        rw [e2]
        dsimp only at hs ⊢
        rw [h1.2]
        exact finish_moved hP hc hf _ _ _ h1.1 hs
      · rw [e1, e2]; exact h1.1
      · rw [e1, e2]; exact ⟨rfl, h1.1⟩

theorem parse_moved (hP : Paths φ W W' out out' S L Q) (n m : Nat) (hm : n ≤ m) {c c' : Cfg}
    (hc : Pair φ W out out' S Q c c') : LeJ (MovedSh φ S L Q) (parse W n c) (parse W' m c') := by
  induction n generalizing m c c' with
  | zero => intro a _ _ hs; exact absurd rfl (hs a)
  | succ n ih =>
    obtain ⟨m, rfl⟩ : ∃ j, m = j + 1 := ⟨m - 1, by omega⟩
    exact parseWith_moved hP (fun c c' hc => ih m (by omega) hc) hc

/-- Moved files give the same, moved. -/
theorem Parse_moved [UniLaws] (hP : Paths φ W W' out out' S L Q) {c c' : Cfg} (hc : Pair φ W out out' S Q c c') {a b : Shared}
    (h : MovedSh φ S L Q a b) : Like (MovedSh φ S L Q) (Parse W c a) (Parse W' c' b) := by
  have h1 := parse_moved hP (W.fs.length + 2) (W.fs.length + W'.fs.length + 2) (by omega) hc a b h
    fun s' => C22.terminates W _ (Nat.le_refl _) c a s'
  rw [C22.budget_irrelevant W' _ (by omega)] at h1
  exact h1

/-- The loop of the command over moved files. -/
theorem mainLoop_moved [UniLaws] {c c' : Config} (hP : Paths φ W W' c.o c'.o S L Q) (hl : c'.lang = c.lang) (hk : c'.pkg = c.pkg)
    (files : List Str) (hf : ∀ f ∈ files, S f ∧
      ∀ toks, W.fs.get? f = some (.file toks) → Q (outputPath (mainCfg c f)) (outputPath (mainCfg c' (φ f))))
    {a b : Shared} (ht : b.tick = a.tick) (ho : C75.Each (Wrote Q) a.outputs b.outputs) :
    (mainLoop W' c' (files.map φ) b).1 = (mainLoop W c files a).1 ∧
      C75.Each (Wrote Q) (mainLoop W c files a).2.outputs (mainLoop W' c' (files.map φ) b).2.outputs := by
  induction files generalizing a b with
  | nil => exact ⟨rfl, ho⟩
  | cons f fs ih =>
    obtain ⟨hS, hq⟩ := hf f List.mem_cons_self
    have h := Parse_moved hP (c := mainCfg c f) (c' := mainCfg c' (φ f)) ⟨hS, rfl, rfl, rfl, hl, hk, rfl, rfl, fun _ => hq⟩
      (a := { outputs := a.outputs, tick := a.tick, log := a.log }) (b := { outputs := b.outputs, tick := b.tick, log := b.log })
      ⟨rfl, rfl, rfl, fun _ _ => rfl, ht, ho, ⟨(by intro k v h; cases h), (by intro k h; cases h), fun _ _ => trivial⟩⟩
    rw [List.map_cons, mainLoop, mainLoop]
    rcases h.cases with ⟨t, s, u, e1, e2, h1⟩ | ⟨e, e', s, u, e1, e2, h1⟩ | ⟨g, s, u, e1, e2, h1⟩
    · rw [e1, e2]
      exact ih (fun f hm => hf f (List.mem_cons_of_mem _ hm)) h1.tick h1.outs
    · rw [e1, e2]; exact ⟨rfl, h1.outs⟩
    · rw [e1, e2]
      cases g <;> exact ⟨rfl, h1.outs⟩

end
end Xgen.Move
