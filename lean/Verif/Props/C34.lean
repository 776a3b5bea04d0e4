import Verif.Props.C32

/-! # C34: output does not depend on map iteration order

False in general: an included file that itself includes another one adds an entry to the map that is being iterated, and
Go leaves open whether it is visited.  Proved when all include tags of all files name the same location (or there are
none). -/

namespace Xgen.C34
variable [Uni]

/-! ## The negation -/

open Ex in
/-- A valid schema: a.xsd includes b.xsd, which includes d.xsd, which declares T. -/
def chain (pick : Nat → Nat) : World := world [
  ("a.xsd", [on "schema"] ++ leaf "include" [("schemaLocation", "b.xsd")] ++ [on "complexType" [("name", "C")]] ++
    leaf "attribute" [("name", "x"), ("type", "T")] ++ [off "complexType", off "schema"]),
  ("b.xsd", [on "schema"] ++ leaf "include" [("schemaLocation", "d.xsd")] ++ [off "schema"]),
  ("d.xsd", [on "schema", on "simpleType" [("name", "T")], on "restriction" [("base", "string")], off "restriction",
    off "simpleType", off "schema"])] (pick := pick)

/-- The attribute types in the resulting tree. -/
def attrTypes : Out Shared Tree → List Str
  | .ok t _ => t.flatMap fun n => match n with
    | some (.complex c) => c.attributes.map (·.type)
    | _ => []
  | _ => []

/-- Visiting the entry added during the iteration or not decides whether the type is resolved. -/
theorem order_matters :
    attrTypes (Ex.parse (chain fun _ => 0) "a.xsd" "Go") = [c!"string"] ∧
    attrTypes (Ex.parse (chain fun _ => 1) "a.xsd" "Go") = [c!"T"] := by decide +kernel

/-- C34 is false: two iteration orders of the same files give different results. -/
theorem order_dependent : ¬ ∀ (W : World) (g : Nat → Nat) (cfg : Cfg) (sh : Shared),
    @Parse asciiUni { W with pick := g } cfg sh = @Parse asciiUni W cfg sh := by
  intro h
  have h1 := order_matters
  have hc : chain (fun _ => 1) = { chain (fun _ => 0) with pick := fun _ => 1 } := rfl
  have h2 : Ex.parse (chain fun _ => 1) "a.xsd" "Go" = Ex.parse (chain fun _ => 0) "a.xsd" "Go" := by
    unfold Ex.parse
    rw [hc]
    exact h _ _ _ _
  rw [h2] at h1
  exact absurd (h1.1.symm.trans h1.2) (by decide)

/-! ## Independence with at most one include location -/

/-- Every include tag of the file names location `k`. -/
def OnlyIncludes (k : Str) (toks : List Token) : Prop :=
  ∀ n as, Token.start n as ∈ toks → makeFirstUpperCase n = c!"Include" →
    ∀ a ∈ as, a.local = c!"schemaLocation" → a.value = k

/-- The include map has at most the entry `k`. -/
def Q0 (k : Str) (sh : Shared) : Prop := sh.includeMap = [] ∨ ∃ b, sh.includeMap = [(k, b)]

/-- The include map has the entry `k` only. -/
def Q1 (k : Str) (sh : Shared) : Prop := ∃ b, sh.includeMap = [(k, b)]

/-- From states with at most the entry `k` the two computations agree, and the map stays as it is or gets the entry. -/
def Same (k : Str) {α : Type} (m m' : Go St α) : Prop :=
  ∀ s, Q0 k s.sh → m s = m' s ∧ Q0 k (m s).state.sh ∧ (Q1 k s.sh → Q1 k (m s).state.sh)

/-- The same on the shared state. -/
def SameSh (k : Str) {α : Type} (m m' : Go Shared α) (sh : Shared) : Prop :=
  m sh = m' sh ∧ Q0 k (m sh).state ∧ (Q1 k sh → Q1 k (m sh).state)

omit [Uni] in
theorem same_closed {k : Str} {gvt gvt' : Gvt} (hg : ∀ v, Same k (gvt v) (gvt' v)) : Closed (Same k) gvt gvt' := Closed.ofGvt {
  pure _ _ h := ⟨rfl, h, fun h => h⟩
  bind := by
    intro α β m m' f f' hm hf s hs
    obtain ⟨h1, h2, h3⟩ := hm s hs
    simp only [Go.bind_apply, ← h1]
    cases e : m s with
    | ok a s1 =>
      rw [e] at h2 h3
      obtain ⟨k1, k2, k3⟩ := hf a s1 h2
      exact ⟨k1, k2, fun h => k3 (h3 h)⟩
    | err er s1 => rw [e] at h2 h3; exact ⟨rfl, h2, h3⟩
    | halt hh s1 => rw [e] at h2 h3; exact ⟨rfl, h2, h3⟩
  throw _ _ h := ⟨rfl, h, fun h => h⟩
  read := by
    intro α m m' hk s hs
    obtain ⟨n, n', hl, he⟩ := hk (view s.p)
    obtain ⟨e1, e2⟩ := he s rfl
    rw [e1, e2]
    exact hl s hs
  gvt := hg }

omit [Uni] in
theorem same_onP (k : Str) (f : PState → PState) : Same k (onP f) (onP f) := fun _ h => ⟨rfl, h, fun h => h⟩

omit [Uni] in
theorem same_onP? (k : Str) (f : PState → Option PState) : Same k (onP? f) (onP? f) := by
  intro s h
  unfold onP?
  cases f s.p <;> exact ⟨rfl, h, fun h => h⟩

omit [Uni] in
theorem same_frame (k : Str) {f : Shared → Shared} (hf : ∀ sh, (f sh).includeMap = sh.includeMap) :
    Same k (onSh f) (onSh f) := by
  intro s h
  refine ⟨rfl, ?_, ?_⟩
  · show (f s.sh).includeMap = [] ∨ ∃ b, (f s.sh).includeMap = [(k, b)]; rw [hf]; exact h
  · show _ → ∃ b, (f s.sh).includeMap = [(k, b)]; rw [hf]; exact fun h => h

omit [Uni] in
theorem onInclude_one {k : Str} {as : List Attr} (h : ∀ a ∈ as, a.local = c!"schemaLocation" → a.value = k)
    (sh : Shared) : (Q0 k sh → Q0 k (onInclude as sh)) ∧ (Q1 k sh → Q1 k (onInclude as sh)) := by
  unfold onInclude
  induction as generalizing sh with
  | nil => exact ⟨fun h => h, fun h => h⟩
  | cons a as ih =>
    have ih' := ih fun x hx => h x (List.mem_cons_of_mem _ hx)
    rw [List.foldl_cons]
    by_cases h1 : a.local = c!"schemaLocation"
    · rw [if_pos h1]
      have hv := h a (by simp) h1
      split
      · exact ih' sh
      · rename_i hn
        obtain ⟨i0, i1⟩ := ih' { sh with includeMap := sh.includeMap.set a.value true }
        constructor
        · intro hq
          apply i0
          rcases hq with hq | ⟨b, hq⟩
          · exact Or.inr ⟨true, by rw [hq, hv]; rfl⟩
          · exfalso; apply hn; rw [hq, hv]; simp [GoMap.has, GoMap.get?]
        · rintro ⟨b, hq⟩
          exfalso; apply hn; rw [hq, hv]; simp [GoMap.has, GoMap.get?]
    · rw [if_neg h1]; exact ih' sh

theorem run_same {k : Str} (W : World) {gvt gvt' : Gvt} (hg : ∀ v, Same k (gvt v) (gvt' v)) (toks : List Token)
    (ht : OnlyIncludes k toks) : Same k (run W gvt toks) (run W gvt' toks) := by
  have B := same_closed hg
  refine run_rel B toks fun t htm => ?_
  exact {
    toClosed := B
    setIn := fun _ _ _ => same_onP k _
    on := by
      rintro name attrs knd rfl hk
      exact {
        toClosed := B
        panic := fun _ _ h => ⟨rfl, h, fun h => h⟩
        prim := fun f _ => same_onP k f
        prim? := fun f _ => same_onP? k f
        import' := fun _ => same_frame k fun sh => (onImport_frame W.isURL attrs sh).2.2.1
        include' := by
          rintro rfl s hs
          have hn : makeFirstUpperCase name = c!"Include" := by
            have hm := GoMap.mem_of_get? hk
            have : ∀ x ∈ onTable, x.2 = .include → x.1 = c!"Include" := by decide
            exact this _ hm rfl
          obtain ⟨h0, h1⟩ := onInclude_one (ht name attrs htm hn) s.sh
          exact ⟨rfl, h0 hs, h1⟩
        schema' := fun _ => same_frame k fun sh => (onSchema_frame attrs sh).2.2.2.1 }
    stop := fun _ _ _ _ => { toClosed := B, prim := fun f _ => same_onP k f }
    text := fun _ _ => same_onP k _ }

omit [Uni] in
theorem nextKey_nil (W : World) (init visited : List Str) (sh : Shared)
    (h : sh.includeMap.keys.filter (fun x => !visited.contains x) = []) : nextKey W init visited sh = none := by
  unfold nextKey
  simp only [h, List.getElem?_nil]

theorem includeLoop_same {k : Str} {W W' : World} {r r' : Cfg → Go Shared Tree} {cfg : Cfg}
    (hr : ∀ path sh, Q0 k sh → SameSh k (r (nestedCfg cfg path true)) (r' (nestedCfg cfg path true)) sh)
    (name : Str) (fuel : Nat) (sh : Shared) (hq : Q0 k sh) (hf : 2 ≤ fuel) :
    SameSh k (includeLoop W r cfg name sh.includeMap.keys fuel [] [])
      (includeLoop W' r' cfg name sh.includeMap.keys fuel [] []) sh := by
  obtain ⟨f, rfl⟩ : ∃ f, fuel = f + 2 := ⟨fuel - 2, by omega⟩
  rcases hq with hq | ⟨b, hq⟩
  · have h1 : ∀ V, nextKey V sh.includeMap.keys [] sh = none := fun V => nextKey_nil V _ _ _ (by rw [hq]; rfl)
    unfold SameSh includeLoop
    simp only [h1]
    exact ⟨trivial, Or.inl hq, fun h => h⟩
  · have h1 : ∀ V, nextKey V sh.includeMap.keys [] sh = some k := by
      intro V
      unfold nextKey
      rw [hq]
      simp [GoMap.keys, Nat.mod_one]
    unfold SameSh includeLoop
    simp only [h1]
    obtain ⟨e1, q0, q1⟩ := hr (pathJoin cfg.fileDir k) { sh with tick := sh.tick + 1 } (Or.inr ⟨b, hq⟩)
    simp only [← e1]
    have q1' := q1 ⟨b, hq⟩
    revert q0 q1'
    cases r (nestedCfg cfg (pathJoin cfg.fileDir k) true) { sh with tick := sh.tick + 1 } with
    | err er s1 => exact fun q0 q1' => ⟨rfl, q0, fun _ => q1'⟩
    | halt hh s1 => exact fun q0 q1' => ⟨rfl, q0, fun _ => q1'⟩
    | ok t s1 =>
      intro q0 q1'
      obtain ⟨b', hb'⟩ := q1'
      have h2 : ∀ V init, nextKey V init [k] s1 = none := by
        intro V init
        have hb'' : s1.includeMap = [(k, b')] := hb'
        exact nextKey_nil V _ _ _ (by rw [hb'']; simp [GoMap.keys])
      dsimp only
      unfold includeLoop
      simp only [h2]
      exact ⟨trivial, Or.inr ⟨b', hb'⟩, fun _ => ⟨b', hb'⟩⟩

theorem getValueType_same {k : Str} {W W' : World} (hfs : W'.fs = W.fs) (hu : W'.isURL = W.isURL)
    {r r' : Cfg → Go Shared Tree} (hr : ∀ cfg sh, Q0 k sh → SameSh k (r cfg) (r' cfg) sh) (cfg : Cfg) (value : Str)
    (tree : Tree) (sh : Shared) (hq : Q0 k sh) :
    SameSh k (getValueType W r cfg value tree) (getValueType W' r' cfg value tree) sh := by
  have dep : ∀ name xsd dep sh, Q0 k sh →
      SameSh k (resolveInDep r cfg name xsd dep) (resolveInDep r' cfg name xsd dep) sh := by
    intro name xsd dep sh hq
    unfold SameSh resolveInDep
    dsimp only
    split
    · exact ⟨rfl, hq, fun h => h⟩
    · obtain ⟨e1, q0, q1⟩ := hr (nestedCfg cfg xsd true) sh hq
      rw [← e1]
      revert q0 q1
      cases r (nestedCfg cfg xsd true) sh <;> exact fun q0 q1 => ⟨rfl, q0, q1⟩
  have file : ∀ name vt xsd sh, Q0 k sh →
      SameSh k (resolveInFile r cfg name vt xsd) (resolveInFile r' cfg name vt xsd) sh := by
    intro name vt xsd sh hq
    unfold SameSh resolveInFile
    cases sh.parseFileMap.get? xsd with
    | some d => exact dep _ _ _ _ hq
    | none =>
      dsimp only
      obtain ⟨e1, q0, q1⟩ := hr (nestedCfg cfg xsd false) sh hq
      rw [← e1]
      revert q0 q1
      cases r (nestedCfg cfg xsd false) sh with
      | err er s1 => exact fun q0 q1 => ⟨rfl, q0, q1⟩
      | halt hh s1 => exact fun q0 q1 => ⟨rfl, q0, q1⟩
      | ok t s1 =>
        intro q0 q1
        obtain ⟨k1, k2, k3⟩ := dep name xsd t s1 q0
        exact ⟨k1, k2, fun h => k3 (q1 h)⟩
  unfold SameSh getValueType
  dsimp only
  cases getBuildInTypeByLang (trimNSPrefix value) cfg.lang with
  | some t => exact ⟨rfl, hq, fun h => h⟩
  | none =>
    dsimp only
    split
    · exact ⟨rfl, hq, fun h => h⟩
    split
    · exact ⟨rfl, hq, fun h => h⟩
    have hsz : W'.size = W.size := by unfold World.size; rw [hfs]
    unfold resolveOutside
    simp only [hu, hfs, hsz]
    split
    · exact ⟨rfl, hq, fun h => h⟩
    generalize pathJoin cfg.fileDir (sh.nsLoc.getStr (sh.localNS.getStr (getNSPrefix value))) = xsd
    cases hx : W.fs.get? xsd with
    | none => exact ⟨rfl, hq, fun h => h⟩
    | some e =>
      cases e with
      | dir =>
        dsimp only
        rcases hq with hq0 | ⟨b, hq1⟩
        · have h1 : ∀ V, nextKey V sh.includeMap.keys [] sh = none := fun V => nextKey_nil V _ _ _ (by rw [hq0]; rfl)
          unfold includeLoop
          simp only [h1]
          exact ⟨trivial, Or.inl hq0, fun h => h⟩
        · obtain ⟨e1, q0, q1⟩ := includeLoop_same (W := W) (W' := W') (cfg := cfg) (fun path sh hq => hr _ sh hq)
            (trimNSPrefix value) (sh.includeMap.length + W.size + 1) sh (Or.inr ⟨b, hq1⟩) (by rw [hq1]; simp)
          rw [← e1]
          revert q0 q1
          cases includeLoop W r cfg (trimNSPrefix value) sh.includeMap.keys (sh.includeMap.length + W.size + 1)
            [] [] sh <;> exact fun q0 q1 => ⟨rfl, q0, q1⟩
      | file toks => exact file _ _ _ _ hq
      | noOpen => exact file _ _ _ _ hq

/-- The fields of the shared state other than the include map do not matter here. -/
theorem finish_same (W : World) (cfg : Cfg) (tree : Tree) (sh : Shared) :
    (finish W cfg tree sh).state.includeMap = sh.includeMap := by
  have wf : ∀ path content sh, (writeFile W path content sh).state.includeMap = sh.includeMap := by
    intro path content sh
    unfold writeFile
    split <;> rfl
  have gen : ∀ pkg file sh, (generate W cfg.lang pkg file tree sh).state.includeMap = sh.includeMap := by
    intro pkg file sh
    unfold generate
    split
    · unfold writeGo
      split
      · exact wf _ _ _
      · have := wf (fileWithExtension file c!".go") (goRawSource pkg tree) sh
        revert this
        cases writeFile W (fileWithExtension file c!".go") (goRawSource pkg tree) sh <;> exact fun h => h
    split
    · exact wf _ _ _
    split
    · exact wf _ _ _
    split
    · exact wf _ _ _
    split
    · exact wf _ _ _
    · rfl
  unfold finish
  dsimp only
  split
  · rfl
  split
  · have := gen cfg.package (outputPath cfg) (register cfg.filePath tree sh)
    revert this
    cases generate W cfg.lang cfg.package (outputPath cfg) tree (register cfg.filePath tree sh) <;> exact fun h => h
  · rfl

theorem parse_same {k : Str} (W : World) (g : Nat → Nat)
    (hW : ∀ path toks, W.fs.get? path = some (.file toks) → OnlyIncludes k toks) (n : Nat) (cfg : Cfg) (sh : Shared)
    (hq : Q0 k sh) : SameSh k (parse W n cfg) (parse { W with pick := g } n cfg) sh := by
  induction n generalizing cfg sh with
  | zero => exact ⟨rfl, hq, fun h => h⟩
  | succ n ih =>
    unfold SameSh parse parseWith
    dsimp only
    cases hf : W.fs.get? cfg.filePath with
    | none => exact ⟨rfl, hq, fun h => h⟩
    | some e =>
      cases e with
      | dir => exact ⟨rfl, hq, fun h => h⟩
      | noOpen => exact ⟨rfl, hq, fun h => h⟩
      | file toks =>
        dsimp only
        unfold parseOpen
        rw [C32.run_world (W := W) (W' := { W with pick := g }) rfl]
        have hg : ∀ v, Same k (gvtOf W (parse W n) cfg v) (gvtOf { W with pick := g } (parse { W with pick := g } n) cfg v) := by
          intro v s hs
          obtain ⟨e1, q0, q1⟩ := getValueType_same (W := W) (W' := { W with pick := g }) rfl rfl
            (fun cfg sh hq => ih cfg sh hq) cfg v s.p.freeze s.sh hs
          unfold gvtOf
          rw [← e1]
          revert q0 q1
          cases getValueType W (parse W n) cfg v s.p.freeze s.sh <;> exact fun q0 q1 => ⟨rfl, q0, q1⟩
        have hb : (beginParse cfg sh).includeMap = sh.includeMap := by
          unfold beginParse; dsimp only; split <;> rfl
        obtain ⟨e1, q0, q1⟩ := run_same W hg toks (hW _ _ hf) { sh := beginParse cfg sh, p := {} }
          (by unfold Q0; dsimp only; rw [hb]; exact hq)
        rw [← e1]
        have q1' : Q1 k sh → Q1 k (run W (gvtOf W (parse W n) cfg) toks { sh := beginParse cfg sh, p := {} }).state.sh := by
          intro h; apply q1; unfold Q1; dsimp only; rw [hb]; exact h
        revert q0 q1'
        cases run W (gvtOf W (parse W n) cfg) toks { sh := beginParse cfg sh, p := {} } with
        | err er s1 => exact fun q0 q1 => ⟨rfl, q0, q1⟩
        | halt hh s1 => exact fun q0 q1 => ⟨rfl, q0, q1⟩
        | ok a s1 =>
          intro q0 q1
          dsimp only
          have hfin := finish_same W cfg s1.p.freeze s1.sh
          refine ⟨rfl, ?_, fun h => ?_⟩
          · unfold Q0; rw [hfin]; exact q0
          · unfold Q1; rw [hfin]; exact q1 h

/-- C34 where it holds: if all include tags of all files name one location `k` (in particular if there are none), then
tree, error, shared maps and files written are the same for every iteration order. -/
theorem order_irrelevant_partial (k : Str) (W : World) (g : Nat → Nat)
    (hW : ∀ path toks, W.fs.get? path = some (.file toks) → OnlyIncludes k toks) (cfg : Cfg) (sh : Shared)
    (hsh : sh.includeMap = []) : Parse { W with pick := g } cfg sh = Parse W cfg sh :=
  (parse_same W g hW _ cfg sh (Or.inl hsh)).1.symm

open Ex in
/-- One include, used by a type reference. -/
example : @OnlyIncludes asciiUni c!"b.xsd" ([on "schema"] ++ leaf "include" [("schemaLocation", "b.xsd")] ++
    leaf "element" [("name", "x"), ("type", "T")] ++ [off "schema"]) := by
  intro n as h
  simp only [List.cons_append, List.nil_append, leaf, on, off, List.mem_cons, Token.start.injEq, List.not_mem_nil,
    or_false, reduceCtorEq, false_or] at h
  rcases h with h | h | h <;> (rw [h.1, h.2]; decide)

end Xgen.C34
