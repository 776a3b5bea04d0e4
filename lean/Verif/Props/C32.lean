import Verif.Lemmas.Inv
import Verif.Props.C22
import Verif.Spec.Example
import Verif.Spec.Handled

/-! # C32: unhandled elements are transparent -/

namespace Xgen.C32
open Handled
variable [Uni]

/-! ## Specification -/

/-- Tags without a handler, and comments, processing instructions and directives. -/
def transparent : Token → Bool
  | .start n _ => !startHandled.contains (makeFirstUpperCase n)
  | .stop n => !endHandled.contains (makeFirstUpperCase n)
  | .text _ => false
  | .other => true

/-- A document without its transparent tokens. -/
def strip (toks : List Token) : List Token := toks.filter fun t => !transparent t

/-- The same in every file. -/
def stripEntry : Entry → Entry
  | .file toks => .file (strip toks)
  | e => e

/-- The same in every file of a world. -/
def stripWorld (W : World) : World := { W with fs := W.fs.map fun e => (e.1, stripEntry e.2) }

/-- Start tags have names (the decoder rejects others). -/
def NamesOk (toks : List Token) : Prop := ∀ n as, Token.start n as ∈ toks → n ≠ []

/-! ## Changing the name of the current element -/

/-- The state with another current element. -/
def put (n : Str) (s : St) : St := { s with p := { s.p with inElement := n } }

/-- The outcome with another current element. -/
def Out.put {α : Type} (n : Str) : Out St α → Out St α
  | .ok a s => .ok a (C32.put n s)
  | .err e s => .err e (C32.put n s)
  | .halt h s => .halt h (C32.put n s)

/-- The computation does not depend on the current element and leaves an empty element stack empty. -/
def Blind {α : Type} (m m' : Go St α) : Prop :=
  m = m' ∧ ∀ s, (∀ n, m (put n s) = Out.put n (m s)) ∧ (s.p.element = [] → (m s).state.p.element = []) ∧
    (m s).state.p.inElement = s.p.inElement

/-- A resolver that looks at the parser state only through the tree. -/
def BlindGvt (gvt : Gvt) : Prop := ∀ v s, (∀ n, gvt v (put n s) = Out.put n (gvt v s)) ∧ (gvt v s).state.p = s.p

omit [Uni] in
theorem blind_closed {gvt : Gvt} (hg : BlindGvt gvt) : Closed Blind gvt gvt := Closed.ofGvt {
  pure a := ⟨rfl, fun s => ⟨fun _ => rfl, fun h => h, rfl⟩⟩
  bind := by
    rintro α β m m' f f' ⟨rfl, hm⟩ hf
    have hff : f = f' := funext fun a => (hf a).1
    subst hff
    refine ⟨rfl, fun s => ?_⟩
    obtain ⟨h1, h2, h3⟩ := hm s
    simp only [Go.bind_apply]
    cases e : m s with
    | ok a s1 =>
      rw [e] at h1 h2 h3
      obtain ⟨k1, k2, k3⟩ := (hf a).2 s1
      refine ⟨fun n => ?_, fun h => k2 (h2 h), k3.trans h3⟩
      rw [h1 n]
      exact k1 n
    | err er s1 =>
      rw [e] at h1 h2 h3
      exact ⟨fun n => by rw [h1 n]; rfl, h2, h3⟩
    | halt hh s1 =>
      rw [e] at h1 h2 h3
      exact ⟨fun n => by rw [h1 n]; rfl, h2, h3⟩
  throw e := ⟨rfl, fun s => ⟨fun _ => rfl, fun h => h, rfl⟩⟩
  read := by
    intro α m m' hk
    constructor
    · funext s
      obtain ⟨k, k', ⟨hkk, _⟩, he⟩ := hk (view s.p)
      rw [(he s rfl).1, (he s rfl).2, hkk]
    · intro s
      obtain ⟨k, k', ⟨_, h⟩, he⟩ := hk (view s.p)
      obtain ⟨h1, h2, h3⟩ := h s
      rw [(he s rfl).1]
      refine ⟨fun n => ?_, h2, h3⟩
      rw [(he (put n s) rfl).1]
      exact h1 n
  gvt v := ⟨rfl, fun s => ⟨(hg v s).1, fun h => by rw [(hg v s).2]; exact h, by rw [(hg v s).2]⟩⟩ }

omit [Uni] in
theorem blind_end {name : Str} {k : EndKind} {f : PState → PState} (hf : EndPrim name k f) : Blind (onP f) (onP f) := by
  have key : ∀ p n, f { p with inElement := n } = { f p with inElement := n } ∧
      (p.element = [] → (f p).element = []) ∧ (f p).inElement = p.inElement := by
    intro p n
    obtain ⟨heap, proto, inE, cur, inG, inU, inAG, st, ct, el, ats, gr, ags, ch⟩ := p
    cases hf with
    | «attribute» =>
      cases ats with
      | nil => exact ⟨rfl, fun h => h, rfl⟩
      | cons x xs => cases ags <;> cases ct <;> exact ⟨rfl, fun h => h, rfl⟩
    | attributeGroup => cases ags <;> exact ⟨rfl, fun h => h, rfl⟩
    | choice => exact ⟨rfl, fun h => h, rfl⟩
    | complexType => exact ⟨rfl, fun h => h, rfl⟩
    | element =>
      cases el with
      | nil => exact ⟨rfl, fun h => h, rfl⟩
      | cons a as => cases ct <;> exact ⟨rfl, fun h => absurd h (List.cons_ne_nil _ _), rfl⟩
    | group =>
      unfold endGroup
      dsimp only
      cases decide (name = cur) && decide (inG = 1)
      · simp only [Bool.false_eq_true, if_false]
        split <;> exact ⟨rfl, fun h => h, rfl⟩
      · simp only [if_true]
        split <;> exact ⟨rfl, fun h => h, rfl⟩
    | simpleType =>
      have h1 : ∀ (q : PState), endSimpleTypeComplex name { q with inElement := n } =
          { endSimpleTypeComplex name q with inElement := n } ∧
          (endSimpleTypeComplex name q).element = q.element ∧ (endSimpleTypeComplex name q).inElement = q.inElement := by
        intro q
        unfold endSimpleTypeComplex
        dsimp only
        split <;> exact ⟨rfl, rfl, rfl⟩
      have h2 : ∀ (q : PState), endSimpleTypeSimple name { q with inElement := n } =
          { endSimpleTypeSimple name q with inElement := n } ∧
          (endSimpleTypeSimple name q).element = q.element ∧ (endSimpleTypeSimple name q).inElement = q.inElement := by
        intro q
        unfold endSimpleTypeSimple
        dsimp only
        split <;> exact ⟨rfl, rfl, rfl⟩
      have h3 : ∀ (q : PState), endSimpleTypeSimple name (endSimpleTypeComplex name { q with inElement := n }) =
          { endSimpleTypeSimple name (endSimpleTypeComplex name q) with inElement := n } ∧
          (q.element = [] → (endSimpleTypeSimple name (endSimpleTypeComplex name q)).element = []) ∧
          (endSimpleTypeSimple name (endSimpleTypeComplex name q)).inElement = q.inElement := by
        intro q
        refine ⟨?_, ?_, ?_⟩
        · rw [(h1 q).1, (h2 _).1]
        · rw [(h2 _).2.1, (h1 q).2.1]; exact fun h => h
        · rw [(h2 _).2.2, (h1 q).2.2]
      cases st with
      | nil => exact h3 ⟨heap, proto, inE, cur, inG, inU, inAG, [], ct, el, ats, gr, ags, ch⟩
      | cons x xs =>
        cases ats with
        | nil => exact h3 ⟨heap, proto, inE, cur, inG, inU, inAG, x :: xs, ct, el, [], gr, ags, ch⟩
        | cons y ys => exact ⟨rfl, fun h => h, rfl⟩
    | union => cases st <;> exact ⟨rfl, fun h => h, rfl⟩
    | setElementType k t => cases el <;> exact ⟨rfl, fun h => h, rfl⟩
    | restrictionElement => cases el <;> cases ct <;> exact ⟨rfl, fun h => h, rfl⟩
    | _ => exact ⟨rfl, fun h => h, rfl⟩
  refine ⟨rfl, fun s => ⟨fun n => ?_, (key s.p []).2.1, (key s.p []).2.2⟩⟩
  simp only [onP_apply, put, Out.put, (key s.p n).1]

theorem callEnd_blind {gvt : Gvt} (hg : BlindGvt gvt) (name : Str) (k : EndKind) :
    Blind (callEnd gvt name k) (callEnd gvt name k) :=
  callEnd_rel { toClosed := blind_closed hg, prim := fun _ hf => blind_end hf }

omit [Uni] in
theorem onCharData_put (x n : Str) (p : PState) (h : p.element = [] ∨ (n ≠ [] ∧ p.inElement ≠ [])) :
    onCharData x { p with inElement := n } = { onCharData x p with inElement := n } := by
  obtain ⟨heap, proto, inE, cur, inG, inU, inAG, st, ct, el, ats, gr, ags, ch⟩ := p
  have hb : (decide (n ≠ []) && !el.isEmpty) = (decide (inE ≠ []) && !el.isEmpty) := by
    rcases h with h | ⟨h1, h2⟩
    · dsimp only at h; subst h; simp
    · dsimp only at h2; simp [h1, h2]
  have hc : charDataBelow (trimSpace x) ⟨heap, proto, n, cur, inG, inU, inAG, st, ct, el, ats, gr, ags, ch⟩ =
      { charDataBelow (trimSpace x) ⟨heap, proto, inE, cur, inG, inU, inAG, st, ct, el, ats, gr, ags, ch⟩
        with inElement := n } := by
    unfold charDataBelow
    dsimp only
    rw [hb]
    split
    · cases el <;> rfl
    · cases ats with
      | cons _ _ => rfl
      | nil =>
        dsimp only
        split
        · rfl
        split
        · cases ct with
          | nil => rfl
          | cons c cs => dsimp only; split <;> rfl
        · rfl
  unfold onCharData
  split
  · rfl
  · cases inAG with
    | false => exact hc
    | true =>
      cases ags with
      | nil => exact hc
      | cons _ _ => rfl

omit [Uni] in
theorem onCharData_frame (x : Str) (p : PState) :
    (onCharData x p).element = p.element ∧ (onCharData x p).inElement = p.inElement := by
  unfold onCharData
  split
  · simp
  · split
    · simp
    · unfold charDataBelow
      split
      · unfold PState.modTopElement; split <;> simp_all
      · split
        · simp
        · split
          · simp
          · split
            · split
              · simp
              · split <;> simp
            · simp

/-! ## Removing transparent tokens from one document -/

/-- Two states that differ at most in the current element, in a way that no handler can see. -/
def Sim (s t : St) : Prop := (∃ n, t = put n s) ∧ (s.p.element = [] ∨ (s.p.inElement ≠ [] ∧ t.p.inElement ≠ []))

/-- Two outcomes alike. -/
def OutSim {α : Type} : Out St α → Out St α → Prop
  | .ok a s, .ok b t => a = b ∧ ∃ n, t = put n s
  | .err a s, .err b t => a = b ∧ ∃ n, t = put n s
  | .halt a s, .halt b t => a = b ∧ ∃ n, t = put n s
  | _, _ => False

omit [Uni] in
theorem OutSim.of_put {α : Type} (n : Str) (o : Out St α) : OutSim o (Out.put n o) := by
  cases o <;> exact ⟨rfl, n, rfl⟩

theorem run_strip (W : World) {gvt : Gvt} (hg : BlindGvt gvt) (toks : List Token) (hn : NamesOk toks) (s t : St)
    (hst : Sim s t) : OutSim (run W gvt toks s) (run W gvt (strip toks) t) := by
  induction toks generalizing s t with
  | nil =>
    obtain ⟨⟨n, rfl⟩, -⟩ := hst
    exact ⟨rfl, n, rfl⟩
  | cons tok ts ih =>
    have ih' := ih fun n as hm => hn n as (List.mem_cons_of_mem _ hm)
    -- a token kept, after which the outcomes are alike
    have kept : ∀ (o : Out St Unit) (o' : Out St Unit), step W gvt tok s = o → step W gvt tok t = o' →
        transparent tok = false →
        (∀ s1, o = .ok () s1 → ∃ t1, o' = .ok () t1 ∧ Sim s1 t1) → (∀ e s1, o = .err e s1 → ∃ n, o' = .err e (put n s1)) →
        (∀ h s1, o = .halt h s1 → ∃ n, o' = .halt h (put n s1)) →
        OutSim (run W gvt (tok :: ts) s) (run W gvt (strip (tok :: ts)) t) := by
      intro o o' ho ho' htr h1 h2 h3
      have hs : strip (tok :: ts) = tok :: strip ts := by simp [strip, htr]
      rw [hs, run, run, Go.bind_apply, Go.bind_apply, ho, ho']
      cases o with
      | ok a s1 => obtain ⟨t1, rfl, hst⟩ := h1 s1 rfl; exact ih' s1 t1 hst
      | err e s1 => obtain ⟨n, rfl⟩ := h2 e s1 rfl; exact ⟨rfl, n, rfl⟩
      | halt h s1 => obtain ⟨n, rfl⟩ := h3 h s1 rfl; exact ⟨rfl, n, rfl⟩
    -- a token dropped
    have dropped : ∀ s1, step W gvt tok s = .ok () s1 → transparent tok = true → Sim s1 t →
        OutSim (run W gvt (tok :: ts) s) (run W gvt (strip (tok :: ts)) t) := by
      intro s1 h1 htr hst
      have hs : strip (tok :: ts) = strip ts := by simp [strip, htr]
      rw [hs, run, Go.bind_apply, h1]
      exact ih' s1 t hst
    obtain ⟨⟨n, rfl⟩, hel⟩ := hst
    cases tok with
    | other => exact dropped s rfl rfl ⟨⟨n, rfl⟩, hel⟩
    | text x =>
      refine kept _ _ rfl rfl rfl ?_ (by intro e s1 h; cases h) (by intro e s1 h; cases h)
      intro s1 h
      cases h
      refine ⟨_, rfl, ⟨n, ?_⟩, ?_⟩
      · have := onCharData_put x n s.p (by
          rcases hel with h | h
          · exact Or.inl h
          · exact Or.inr ⟨h.2, h.1⟩)
        simp only [put]
        rw [this]
      · have h1 := onCharData_frame x s.p
        have h2 := onCharData_frame x (put n s).p
        rw [h1.1, h1.2]
        show _ ∨ _ ∧ (onCharData x (put n s).p).inElement ≠ []
        rw [h2.2]
        exact hel
    | stop nm =>
      cases hk : endKind nm with
      | none =>
        by_cases htr : transparent (.stop nm) = true
        · refine dropped s ?_ htr ⟨⟨n, rfl⟩, hel⟩
          rw [step, hk]; rfl
        · refine kept (.ok () s) (.ok () (put n s)) (by rw [step, hk]; rfl) (by rw [step, hk]; rfl) (by simpa using htr)
            ?_ (by intro e s1 h; cases h) (by intro e s1 h; cases h)
          intro s1 h; cases h
          exact ⟨_, rfl, ⟨n, rfl⟩, hel⟩
      | some k =>
        have htr : transparent (.stop nm) = false := by
          cases h : transparent (.stop nm) with
          | false => rfl
          | true =>
            rw [endKind_none (by simpa [transparent] using h)] at hk
            cases hk
        obtain ⟨b1, b2, b3⟩ := (callEnd_blind hg nm k).2 s
        have e1 : step W gvt (.stop nm) s = callEnd gvt nm k s := by rw [step, hk]
        have e2 : step W gvt (.stop nm) (put n s) = Out.put n (callEnd gvt nm k s) := by rw [step, hk]; exact b1 n
        refine kept _ _ e1 e2 htr ?_ ?_ ?_
        · intro s1 h
          rw [h] at b2 b3 ⊢
          refine ⟨_, rfl, ⟨n, rfl⟩, ?_⟩
          rcases hel with h | ⟨h, h'⟩
          · exact Or.inl (b2 h)
          · right
            refine ⟨?_, h'⟩
            have b3 : s1.p.inElement = s.p.inElement := b3
            rw [b3]; exact h
        · intro e s1 h; rw [h]; exact ⟨n, rfl⟩
        · intro e s1 h; rw [h]; exact ⟨n, rfl⟩
    | start nm as =>
      have hne : nm ≠ [] := hn nm as (by simp)
      have same : step W gvt (.start nm as) (put n s) = step W gvt (.start nm as) s := by
        rw [step, Go.bind_apply, Go.bind_apply]; rfl
      by_cases htr : transparent (.start nm as) = true
      · have hk : onKind nm = none := onKind_none (by simpa [transparent] using htr)
        refine dropped (put nm s) (by rw [step, Go.bind_apply, hk]; rfl) htr ⟨⟨n, rfl⟩, ?_⟩
        rcases hel with h | ⟨h, h'⟩
        · exact Or.inl h
        · exact Or.inr ⟨hne, h'⟩
      · -- after a kept start tag the two states are equal
        refine kept _ _ rfl same (by simpa using htr) ?_ ?_ ?_
        · intro s1 h
          refine ⟨s1, h, ⟨s1.p.inElement, rfl⟩, ?_⟩
          right
          have hin : s1.p.inElement = nm := by
            rw [step, Go.bind_apply, onP_apply] at h
            cases hk : onKind nm with
            | none => rw [hk] at h; cases h; rfl
            | some k =>
              rw [hk] at h
              have := (callOn_keepsP (J := fun p => p.inElement = nm) (H := fun _ => True) W
                (fun v s => ⟨(hg v s).2, fun _ _ _ => trivial⟩) as k (fun _ => trivial)
                (fun f hf p hp => (onPrim_inElement hf p).trans hp)
                (fun f hf p hp => ⟨fun _ => trivial, fun p' e => (onPrim?_inElement hf e).trans hp⟩)).2
                { s with p := { s.p with inElement := nm } } rfl
              dsimp only at h
              rw [h] at this
              exact this.1
          rw [hin]
          exact ⟨hne, hne⟩
        · intro e s1 h; exact ⟨s1.p.inElement, h⟩
        · intro e s1 h; exact ⟨s1.p.inElement, h⟩

theorem gvtOf_blind (W : World) (rec : Cfg → Go Shared Tree) (cfg : Cfg) : BlindGvt (gvtOf W rec cfg) := by
  intro v s
  unfold gvtOf
  have hf : ∀ n, (put n s).p.freeze = s.p.freeze := fun _ => rfl
  have hs : ∀ n, (put n s).sh = s.sh := fun _ => rfl
  simp only [hf, hs]
  cases getValueType W rec cfg v s.p.freeze s.sh <;> exact ⟨fun _ => rfl, rfl⟩

/-- One document: parsing it and parsing it without its transparent tokens give the same outcome, in every world, for
every configuration and every behaviour of nested parses. -/
theorem parseOpen_strip (W : World) (rec : Cfg → Go Shared Tree) (cfg : Cfg) (toks : List Token) (hn : NamesOk toks)
    (sh : Shared) : parseOpen W rec cfg (strip toks) sh = parseOpen W rec cfg toks sh := by
  have h := run_strip W (gvtOf_blind W rec cfg) toks hn { sh := beginParse cfg sh, p := {} }
    { sh := beginParse cfg sh, p := {} } ⟨⟨[], rfl⟩, Or.inl rfl⟩
  unfold parseOpen
  revert h
  generalize run W (gvtOf W rec cfg) toks { sh := beginParse cfg sh, p := {} } = o
  generalize run W (gvtOf W rec cfg) (strip toks) { sh := beginParse cfg sh, p := {} } = o'
  intro h
  cases o <;> cases o' <;> first | exact h.elim | (obtain ⟨rfl, n, rfl⟩ := h; rfl)

/-! ## All documents at once -/

omit [Uni] in
theorem get?_map (f : Entry → Entry) (fs : GoMap Entry) (path : Str) :
    GoMap.get? (fs.map fun e => (e.1, f e.2)) path = (fs.get? path).map f := by
  induction fs with
  | nil => rfl
  | cons e es ih =>
    simp only [List.map_cons, GoMap.get?]
    split
    · rfl
    · exact ih

theorem includeLoop_strip (W : World) (rec : Cfg → Go Shared Tree) (cfg : Cfg) (name : Str) (init : List Str) (k : Nat)
    (visited : List Str) (vt : Str) (sh : Shared) :
    includeLoop (stripWorld W) rec cfg name init k visited vt sh = includeLoop W rec cfg name init k visited vt sh := by
  induction k generalizing visited vt sh with
  | zero => rfl
  | succ k ih =>
    unfold includeLoop
    have : nextKey (stripWorld W) init visited sh = nextKey W init visited sh := rfl
    rw [this]
    cases nextKey W init visited sh with
    | none => rfl
    | some inc =>
      dsimp only
      cases rec (nestedCfg cfg (pathJoin cfg.fileDir inc) true) { sh with tick := sh.tick + 1 } with
      | ok t s1 => exact ih _ _ _
      | err e s1 => rfl
      | halt h s1 => rfl

omit [Uni] in
theorem sum_filter_le (p : Token → Bool) (l : List Token) :
    ((l.filter p).map Token.size).sum ≤ (l.map Token.size).sum := by
  induction l with
  | nil => exact Nat.le_refl _
  | cons x xs ih =>
    rw [List.filter_cons]
    split
    · simp only [List.map_cons, List.sum_cons]; omega
    · simp only [List.map_cons, List.sum_cons]; omega

theorem size_strip (W : World) : (stripWorld W).size ≤ W.size := by
  unfold World.size stripWorld
  dsimp only
  induction W.fs with
  | nil => exact Nat.le_refl _
  | cons e es ih =>
    simp only [List.map_cons, List.sum_cons]
    have : (stripEntry e.2).size ≤ e.2.size := by
      cases e.2 with
      | file toks => exact sum_filter_le _ _
      | dir => exact Nat.le_refl _
      | noOpen => exact Nat.le_refl _
    omega

theorem run_world {W W' : World} (h : W'.isURL = W.isURL) (gvt : Gvt) (toks : List Token) :
    run W' gvt toks = run W gvt toks := by
  have hs : ∀ t, step W' gvt t = step W gvt t := by
    intro t
    cases t with
    | start n as =>
      simp only [step]
      cases onKind n with
      | none => rfl
      | some k => cases k <;> simp only [callOn, h]
    | _ => rfl
  induction toks with
  | nil => rfl
  | cons t ts ih => rw [run, run, hs, ih]

theorem getValueType_strip (W : World) (cfg : Cfg) (value : Str) (tree : Tree) (sh : Shared) :
    getValueType W (Parse (stripWorld W)) cfg value tree sh =
    getValueType (stripWorld W) (Parse (stripWorld W)) cfg value tree sh := by
  unfold getValueType
  dsimp only
  cases getBuildInTypeByLang (trimNSPrefix value) cfg.lang with
  | some t => rfl
  | none =>
    dsimp only
    split
    · rfl
    split
    · rfl
    unfold resolveOutside
    have hu : (stripWorld W).isURL = W.isURL := rfl
    simp only [hu]
    split
    · rfl
    have hf : ∀ path, (stripWorld W).fs.get? path = (W.fs.get? path).map stripEntry := fun path => get?_map _ _ _
    rw [hf]
    cases W.fs.get? (pathJoin cfg.fileDir (sh.nsLoc.getStr (sh.localNS.getStr (getNSPrefix value)))) with
    | none => rfl
    | some e =>
      cases e with
      | dir =>
        simp only [Option.map_some, stripEntry]
        rw [← includeLoop_strip, C22.loop_budget_irrelevant (stripWorld W)]
        have := size_strip W
        omega
      | file toks => rfl
      | noOpen => rfl

/-- C32: removing the transparent tokens from all files of a world changes neither the tree, nor the shared maps, nor
the files written, nor the error of any parse. -/
theorem transparent_world (W : World) (hn : ∀ path toks, W.fs.get? path = some (.file toks) → NamesOk toks) :
    Parse (stripWorld W) = Parse W := by
  refine C22.Parse_unique W _ fun cfg => ?_
  funext sh
  rw [C22.Parse_eq]
  have hg : gvtOf W (Parse (stripWorld W)) cfg = gvtOf (stripWorld W) (Parse (stripWorld W)) cfg := by
    funext v s
    unfold gvtOf
    rw [getValueType_strip]
  have hf : (stripWorld W).fs.get? cfg.filePath = (W.fs.get? cfg.filePath).map stripEntry := get?_map _ _ _
  unfold parseWith
  rw [hf]
  cases hw : W.fs.get? cfg.filePath with
  | none => rfl
  | some e =>
    cases e with
    | dir => rfl
    | noOpen => rfl
    | file toks =>
      simp only [Option.map_some, stripEntry]
      rw [← parseOpen_strip W _ cfg toks (hn _ _ hw)]
      unfold parseOpen
      rw [hg, run_world (show (stripWorld W).isURL = W.isURL from rfl)]
      rfl

/-- So two worlds whose files differ only by transparent tokens, inserted or deleted anywhere, behave alike. -/
theorem insertion (W W' : World) (hn : ∀ path toks, W.fs.get? path = some (.file toks) → NamesOk toks)
    (hn' : ∀ path toks, W'.fs.get? path = some (.file toks) → NamesOk toks) (h : stripWorld W = stripWorld W') :
    Parse W = Parse W' := by
  rw [← transparent_world W hn, ← transparent_world W' hn', h]

open Ex

/-- Sequences, annotations and comments in the middle of a declaration. -/
example : @stripWorld asciiUni (world [("a.xsd", [.other, on "schema", on "complexType" [("name", "T")], on "sequence",
      on "element" [("name", "a"), ("type", "string")], on "annotation", off "annotation", off "element", off "sequence",
      off "complexType", off "schema"])]) =
    @stripWorld asciiUni (world [("a.xsd", [on "schema", on "complexType" [("name", "T")], on "all",
      on "element" [("name", "a"), ("type", "string")], off "element", .other, off "all", off "complexType"])]) := by
  rfl

/-- The hypothesis is met by every document the decoder delivers. -/
example : NamesOk [on "schema", on "complexType" [("name", "T")]] := by
  intro n as h
  simp only [List.mem_cons, on, Token.start.injEq, List.not_mem_nil, or_false] at h
  rcases h with h | h <;> (rw [h.1]; decide)

end Xgen.C32
