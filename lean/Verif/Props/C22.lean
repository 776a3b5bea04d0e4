import Verif.Lemmas.ParseRel
import Verif.Spec.Example

/-! # C22: parsing terminates on cyclic imports and includes -/

namespace Xgen.C22
variable [Uni]

/-! ## The include map stays small -/

/-- The attribute values of a start tag. -/
def tokenValues : Token → List Str
  | .start _ attrs => attrs.map (·.value)
  | _ => []

/-- The attribute values of a file. -/
def entryValues : Entry → List Str
  | .file toks => toks.flatMap tokenValues
  | _ => []

/-- All attribute values of all files. -/
def values (W : World) : List Str := W.fs.flatMap fun e => entryValues e.2

omit [Uni] in
theorem length_values (W : World) : (values W).length = W.size := by
  unfold values World.size
  rw [List.length_flatMap]
  congr 1
  apply List.map_congr_left
  rintro ⟨path, e⟩ -
  cases e with
  | dir => rfl
  | noOpen => rfl
  | file toks =>
    simp only [entryValues, Entry.size, List.length_flatMap]
    congr 1
    apply List.map_congr_left
    intro t _
    cases t <;> simp [tokenValues, Token.size]

omit [Uni] in
theorem mem_values {W : World} {path : Str} {toks : List Token} {name : Str} {attrs : List Attr}
    (hf : W.fs.get? path = some (.file toks)) (hm : Token.start name attrs ∈ toks) {a : Attr} (ha : a ∈ attrs) :
    a.value ∈ values W := by
  simp only [values, List.mem_flatMap]
  refine ⟨_, GoMap.mem_of_get? hf, ?_⟩
  simp only [entryValues, List.mem_flatMap]
  exact ⟨_, hm, List.mem_map_of_mem ha⟩

/-- Only attribute values of the files are ever added to the include map. -/
def Incl (W : World) (a b : Shared) : Prop := ∀ k ∈ b.includeMap.keys, k ∈ a.includeMap.keys ∨ k ∈ values W

omit [Uni] in
theorem incl_include {W : World} (attrs : List Attr) (h : ∀ a ∈ attrs, a.value ∈ values W) (sh : Shared) :
    Incl W sh (onInclude attrs sh) := by
  unfold onInclude
  induction attrs generalizing sh with
  | nil => exact fun _ h => Or.inl h
  | cons a as ih =>
    have ih := fun sh => ih (fun x hx => h x (by simp [hx])) sh
    rw [List.foldl_cons]
    split
    · split
      · exact ih sh
      · intro k hk
        rcases ih _ k hk with hk | hk
        · rcases (GoMap.mem_keys_set _ _ _ _).mp hk with rfl | hk
          · exact Or.inr (h a (by simp))
          · exact Or.inl hk
        · exact Or.inr hk
    · exact ih sh

omit [Uni] in
theorem incl_begin (W : World) (cfg : Cfg) (sh : Shared) : Incl W sh (beginParse cfg sh) := by
  unfold beginParse
  dsimp only
  split <;> exact fun _ h => Or.inl h

omit [Uni] in
theorem incl_shRel (W : World) : ShRel W (Incl W) where
  refl _ _ h := Or.inl h
  trans h g k hk := by
    rcases g k hk with hk | hk
    · exact h k hk
    · exact Or.inr hk
  tick _ _ h := Or.inl h
  tok hf hm sh := by
    refine ⟨fun k hk => Or.inl ?_, incl_include _ (fun a ha => mem_values hf hm ha) sh, fun k hk => Or.inl ?_⟩
    · rwa [(onImport_frame _ _ _).2.2.1] at hk
    · rwa [(onSchema_frame _ _).2.2.2.1] at hk
  begin cfg sh _ := incl_begin W cfg sh
  fin _ _ _ _ _ h := Or.inl h
  write _ _ _ _ h := Or.inl h

/-! ## The include loop ends -/

omit [Uni] in
theorem nextKey_mem {W : World} {init visited : List Str} {sh : Shared} {k : Str}
    (h : nextKey W init visited sh = some k) : k ∈ sh.includeMap.keys ∧ k ∉ visited := by
  unfold nextKey at h
  have := List.mem_of_getElem? h
  simpa using this

omit [Uni] in
theorem nodup_length_le {l m : List Str} (hn : l.Nodup) (h : ∀ x ∈ l, x ∈ m) : l.length ≤ m.length := by
  induction l generalizing m with
  | nil => simp
  | cons x l ih =>
    obtain ⟨hx, hn⟩ := List.nodup_cons.mp hn
    have hxm := h x (by simp)
    have := ih hn (m := m.erase x) fun y hy => (List.mem_erase_of_ne (by rintro rfl; exact hx hy)).mpr (h y (by simp [hy]))
    rw [List.length_erase_of_mem hxm] at this
    have := List.length_pos_of_mem hxm
    simp only [List.length_cons]
    omega

theorem includeLoop_noFuel {W : World} {rec : Cfg → Go Shared Tree} {cfg : Cfg}
    (hex : ∀ path sh, KeepsAt (Incl W) (fun h => h ≠ .fuel) (rec (nestedCfg cfg path true)) sh) (name : Str)
    (init base : List Str) (k : Nat) (visited : List Str) (vt : Str) (sh : Shared)
    (hk : base.length + W.size + 1 ≤ k + visited.length) (hn : visited.Nodup)
    (hv : ∀ x ∈ visited, x ∈ base ∨ x ∈ values W) (hs : ∀ x ∈ sh.includeMap.keys, x ∈ base ∨ x ∈ values W) :
    ∀ s', includeLoop W rec cfg name init k visited vt sh ≠ .halt .fuel s' := by
  induction k generalizing visited vt sh with
  | zero =>
    have := nodup_length_le hn (m := base ++ values W) (fun x hx => by simpa using hv x hx)
    rw [List.length_append, length_values] at this
    omega
  | succ k ih =>
    intro s'
    unfold includeLoop
    dsimp only
    cases hnk : nextKey W init visited sh with
    | none => intro h; cases h
    | some inc =>
      obtain ⟨hm, hnv⟩ := nextKey_mem hnk
      dsimp only
      obtain ⟨h1, h2⟩ := hex (pathJoin cfg.fileDir inc) { sh with tick := sh.tick + 1 }
      cases e : rec (nestedCfg cfg (pathJoin cfg.fileDir inc) true) { sh with tick := sh.tick + 1 } with
      | halt h s1 => intro e'; cases e'; exact h2 _ _ e rfl
      | err er s1 => intro h; cases h
      | ok t s1 =>
        rw [e] at h1
        apply ih
        · simp only [List.length_cons]; omega
        · exact List.nodup_cons.mpr ⟨hnv, hn⟩
        · intro x hx
          rcases List.mem_cons.mp hx with rfl | hx
          · exact hs _ hm
          · exact hv x hx
        · intro x hx
          rcases h1 x hx with hx | hx
          · exact hs x hx
          · exact Or.inr hx

/-! ## The recursion ends -/

/-- Number of existing paths not registered yet. -/
def todo (W : World) (sh : Shared) : Nat := W.fs.keys.countP (fun f => !sh.parseFileMap.keys.contains f)

omit [Uni] in
theorem todo_le (W : World) {a b : Shared} (h : Grows a b) : todo W b ≤ todo W a := by
  unfold todo
  apply List.countP_mono_left
  intro f _ hf
  simp only [Bool.not_eq_true', List.contains_eq_mem, decide_eq_false_iff_not] at hf ⊢
  exact fun hm => hf (h f hm)

omit [Uni] in
theorem countP_lt {l : List Str} {p q : Str → Bool} (h : ∀ x ∈ l, q x = true → p x = true) {y : Str} (hy : y ∈ l)
    (hp : p y = true) (hq : q y = false) : l.countP q < l.countP p := by
  induction l with
  | nil => simp at hy
  | cons a l ih =>
    have hle : l.countP q ≤ l.countP p := List.countP_mono_left fun x hx => h x (by simp [hx])
    simp only [List.countP_cons]
    rcases List.mem_cons.mp hy with rfl | hy
    · simp only [hp, hq]; simp; omega
    · have := ih (fun x hx => h x (by simp [hx])) hy
      have ha := h a (by simp)
      cases hqa : q a
      · simp; omega
      · simp [ha hqa]; omega

omit [Uni] in
theorem todo_lt (W : World) (cfg : Cfg) (sh : Shared) (hx : cfg.extract = false) (hm : cfg.filePath ∈ W.fs.keys)
    (hn : cfg.filePath ∉ sh.parseFileMap.keys) : todo W (beginParse cfg sh) < todo W sh := by
  refine countP_lt (y := cfg.filePath) ?_ hm (by simpa using hn) ?_
  · intro f _ hf
    simp only [Bool.not_eq_true', List.contains_eq_mem, decide_eq_false_iff_not] at hf ⊢
    exact fun h => hf (begin_grows cfg sh f h)
  · simpa using begin_mem (sh := sh) hx

/-- Nested levels that are enough. -/
theorem parse_noFuel (W : World) (n : Nat) (cfg : Cfg) (sh : Shared) (h1 : 1 ≤ n)
    (h2 : cfg.extract = false → todo W (beginParse cfg sh) + 2 ≤ n) : ∀ s', parse W n cfg sh ≠ .halt .fuel s' := by
  induction n generalizing cfg sh with
  | zero => omega
  | succ n ih =>
    have hR := incl_shRel W
    have SQ : Stable (fun sh => cfg.extract = false → todo W sh + 1 ≤ n)
        (fun a b => Incl W a b ∧ Grows a b) := by
      refine ⟨(Grows.stable hR).refl, (Grows.stable hR).trans, fun {a b} h hq hx => ?_⟩
      have := todo_le W h.2
      have := hq hx
      omega
    have hpre : ∀ path sh, cfg.extract = false → todo W sh + 1 ≤ n →
        KeepsAt (fun a b => Incl W a b ∧ Grows a b) (fun h => h ≠ .fuel)
          (parse W n (nestedCfg cfg path true)) sh := by
      intro path sh _ hq
      refine ⟨parse_keeps hR n _ sh (incl_begin W _ sh), fun h s' e => ?_⟩
      rintro rfl
      exact ih (nestedCfg cfg path true) sh (by omega) (fun h => by cases h) s' e
    have := parseWith_keeps (H := fun h => h ≠ .fuel) hR (by simp) (by simp) SQ (rec := parse W n) (cfg := cfg)
      (sh := sh) (incl_begin W cfg sh) (fun _ _ sh => tok_grows _ _ sh)
      (fun _ hx => by have := h2 hx; omega) fun _ => getValueType_keeps SQ
        (fun hx path sh hq => hpre path sh hx (hq hx))
        (fun hx path sh hq hnm hm => by
          refine ⟨parse_keeps hR n _ sh (incl_begin W _ sh), fun h s' e => ?_⟩
          rintro rfl
          have hlt := todo_lt W (nestedCfg cfg path false) sh rfl hm hnm
          have := hq hx
          exact ih (nestedCfg cfg path false) sh (by omega) (fun _ => by omega) s' e)
        (fun hx name sh hq => by
          constructor
          · exact includeLoop_keeps (Grows.stable hR)
              (fun path sh => parse_keeps hR n _ sh (incl_begin W _ sh)) name _ _ _ _ sh
          · rintro h s' e rfl
            refine includeLoop_noFuel (base := sh.includeMap.keys) (fun path sh => ?_) name _ _ _ _ sh ?_ ?_ ?_ ?_ s' e
            · refine ⟨(parse_keeps hR n _ sh (incl_begin W _ sh)).1, fun h s' e => ?_⟩
              rintro rfl
              have := hq hx
              exact ih (nestedCfg cfg path true) sh (by omega) (fun h => by cases h) s' e
            · simp [GoMap.keys]
            · simp
            · simp
            · exact fun x hx => Or.inl hx)
    intro s' e
    exact this.2 _ _ e rfl

/-! ## A larger budget changes nothing -/

/-- `m'` agrees with `m` wherever `m` does not run out of budget. -/
def Le {σ α : Type} (m m' : Go σ α) : Prop := ∀ s, (∀ s', m s ≠ .halt .fuel s') → m' s = m s

omit [Uni] in
theorem Le.bind {σ α β : Type} {m m' : Go σ α} {f f' : α → Go σ β} (h : Le m m') (g : ∀ a, Le (f a) (f' a)) :
    Le (m >>= f) (m' >>= f') := by
  intro s hs
  simp only [Go.bind_apply] at hs ⊢
  cases e : m s with
  | ok a s1 =>
    rw [e] at hs
    rw [h s (by rw [e]; intro s' h'; cases h'), e]
    exact g a s1 hs
  | err er s1 => rw [h s (by rw [e]; intro s' h'; cases h'), e]
  | halt hh s1 =>
    rw [e] at hs
    rw [h s (by rw [e]; intro s' h'; cases h'; exact hs _ rfl), e]

omit [Uni] in
theorem le_closed {gvt gvt' : Gvt} (h : ∀ v, Le (gvt v) (gvt' v)) : Closed Le gvt gvt' := Closed.ofGvt {
  pure _ _ _ := rfl
  bind := Le.bind
  throw _ _ _ := rfl
  read := by
    intro α m m' hk s hs
    obtain ⟨k, k', hl, he⟩ := hk (view s.p)
    obtain ⟨e1, e2⟩ := he s rfl
    rw [e1] at hs ⊢
    rw [e2]
    exact hl s hs
  gvt := h }

theorem run_le (W : World) {gvt gvt' : Gvt} (h : ∀ v, Le (gvt v) (gvt' v)) (toks : List Token) :
    Le (run W gvt toks) (run W gvt' toks) := by
  have B := le_closed h
  have hr : ∀ {α : Type} (m : Go St α), Le m m := fun _ _ _ => rfl
  exact run_rel B toks fun t _ => {
    toClosed := B
    setIn := fun _ _ _ => hr _
    on := fun _ _ _ _ _ => {
      toClosed := B, panic := fun _ => hr _, prim := fun _ _ => hr _, prim? := fun _ _ => hr _
      import' := fun _ => hr _, include' := fun _ => hr _, schema' := fun _ => hr _ }
    stop := fun _ _ _ _ => { toClosed := B, prim := fun _ _ => hr _ }
    text := fun _ _ => hr _ }

omit [Uni] in
theorem includeLoop_le (W : World) {r r' : Cfg → Go Shared Tree} (h : ∀ cfg, Le (r cfg) (r' cfg)) (cfg : Cfg)
    (name : Str) (init : List Str) (k k' : Nat) (hk : k ≤ k') (visited : List Str) (vt : Str) :
    Le (includeLoop W r cfg name init k visited vt) (includeLoop W r' cfg name init k' visited vt) := by
  induction k generalizing visited vt k' with
  | zero => intro s hs; exact absurd rfl (hs s)
  | succ k ih =>
    obtain ⟨k', rfl⟩ : ∃ j, k' = j + 1 := ⟨k' - 1, by omega⟩
    intro sh hs
    unfold includeLoop at hs ⊢
    dsimp only at hs ⊢
    cases hnk : nextKey W init visited sh with
    | none => rfl
    | some inc =>
      rw [hnk] at hs
      dsimp only at hs ⊢
      have hr := h (nestedCfg cfg (pathJoin cfg.fileDir inc) true) { sh with tick := sh.tick + 1 }
      cases e : r (nestedCfg cfg (pathJoin cfg.fileDir inc) true) { sh with tick := sh.tick + 1 } with
      | ok t s1 =>
        rw [e] at hs hr
        rw [hr (by intro s' h'; cases h')]
        exact ih _ (by omega) _ _ s1 hs
      | err er s1 => rw [e] at hr; rw [hr (by intro s' h'; cases h')]
      | halt hh s1 =>
        rw [e] at hs hr
        rw [hr (by intro s' h'; cases h'; exact hs _ rfl)]

omit [Uni] in
theorem resolveInDep_le {r r' : Cfg → Go Shared Tree} (h : ∀ cfg, Le (r cfg) (r' cfg)) (cfg : Cfg) (name xsd : Str)
    (dep : Tree) : Le (resolveInDep r cfg name xsd dep) (resolveInDep r' cfg name xsd dep) := by
  intro sh hs
  unfold resolveInDep at hs ⊢
  dsimp only at hs ⊢
  split
  · rfl
  · rename_i hc
    rw [if_neg hc] at hs
    have hr := h (nestedCfg cfg xsd true) sh
    cases e : r (nestedCfg cfg xsd true) sh with
    | ok t s1 => rw [e] at hr; rw [hr (by intro s' h'; cases h')]
    | err er s1 => rw [e] at hr; rw [hr (by intro s' h'; cases h')]
    | halt hh s1 => rw [e] at hs hr; rw [hr (by intro s' h'; cases h'; exact hs _ rfl)]

omit [Uni] in
theorem resolveInFile_le {r r' : Cfg → Go Shared Tree} (h : ∀ cfg, Le (r cfg) (r' cfg)) (cfg : Cfg)
    (name vt xsd : Str) : Le (resolveInFile r cfg name vt xsd) (resolveInFile r' cfg name vt xsd) := by
  intro sh hs
  unfold resolveInFile at hs ⊢
  cases hd : sh.parseFileMap.get? xsd with
  | some dep => rw [hd] at hs; exact resolveInDep_le h cfg name xsd dep sh hs
  | none =>
    rw [hd] at hs
    dsimp only at hs ⊢
    have hr := h (nestedCfg cfg xsd false) sh
    cases e : r (nestedCfg cfg xsd false) sh with
    | ok t s1 =>
      rw [e] at hr hs
      rw [hr (by intro s' h'; cases h')]
      exact resolveInDep_le h cfg name xsd t s1 hs
    | err er s1 => rw [e] at hr; rw [hr (by intro s' h'; cases h')]
    | halt hh s1 => rw [e] at hs hr; rw [hr (by intro s' h'; cases h'; exact hs _ rfl)]

theorem getValueType_le (W : World) {r r' : Cfg → Go Shared Tree} (h : ∀ cfg, Le (r cfg) (r' cfg)) (cfg : Cfg)
    (value : Str) (tree : Tree) : Le (getValueType W r cfg value tree) (getValueType W r' cfg value tree) := by
  intro sh hs
  unfold getValueType at hs ⊢
  dsimp only at hs ⊢
  cases hb : getBuildInTypeByLang (trimNSPrefix value) cfg.lang with
  | some t => rfl
  | none =>
    rw [hb] at hs
    dsimp only at hs ⊢
    split
    · rfl
    rename_i hc
    rw [if_neg hc] at hs
    split
    · rfl
    rename_i hc
    rw [if_neg hc] at hs
    unfold resolveOutside at hs ⊢
    dsimp only at hs ⊢
    split
    · rfl
    rename_i hc
    rw [if_neg hc] at hs
    revert hs
    generalize pathJoin cfg.fileDir (sh.nsLoc.getStr (sh.localNS.getStr (getNSPrefix value))) = xsd
    intro hs
    cases hf : W.fs.get? xsd with
    | none => rfl
    | some en =>
      rw [hf] at hs
      cases en with
      | dir =>
        dsimp only at hs ⊢
        have hr := includeLoop_le W h cfg (trimNSPrefix value) sh.includeMap.keys (sh.includeMap.length + W.size + 1) _
          (Nat.le_refl _) [] [] sh
        cases e : includeLoop W r cfg (trimNSPrefix value) sh.includeMap.keys (sh.includeMap.length + W.size + 1)
            [] [] sh with
        | ok t s1 => rw [e] at hr; rw [hr (by intro s' h'; cases h')]
        | err er s1 => rw [e] at hr; rw [hr (by intro s' h'; cases h')]
        | halt hh s1 => rw [e] at hs hr; rw [hr (by intro s' h'; cases h'; exact hs _ rfl)]
      | file toks => exact resolveInFile_le h cfg _ _ xsd sh hs
      | noOpen => exact resolveInFile_le h cfg _ _ xsd sh hs

theorem gvtOf_le (W : World) {r r' : Cfg → Go Shared Tree} (h : ∀ cfg, Le (r cfg) (r' cfg)) (cfg : Cfg) (v : Str) :
    Le (gvtOf W r cfg v) (gvtOf W r' cfg v) := by
  intro s hs
  unfold gvtOf at hs ⊢
  have hr := getValueType_le W h cfg v s.p.freeze s.sh
  cases e : getValueType W r cfg v s.p.freeze s.sh with
  | ok t s1 => rw [e] at hr; rw [hr (by intro s' h'; cases h')]
  | err er s1 => rw [e] at hr; rw [hr (by intro s' h'; cases h')]
  | halt hh s1 => rw [e] at hs hr; rw [hr (by intro s' h'; cases h'; exact hs _ rfl)]

theorem parseWith_le (W : World) {r r' : Cfg → Go Shared Tree} (h : ∀ cfg, Le (r cfg) (r' cfg)) (cfg : Cfg) :
    Le (parseWith W r cfg) (parseWith W r' cfg) := by
  intro sh hs
  unfold parseWith at hs ⊢
  cases hf : W.fs.get? cfg.filePath with
  | none => rfl
  | some en =>
    rw [hf] at hs
    cases en with
    | dir => rfl
    | noOpen => rfl
    | file toks =>
      dsimp only at hs ⊢
      unfold parseOpen at hs ⊢
      have hr := run_le W (fun v => gvtOf_le W h cfg v) toks { sh := beginParse cfg sh, p := {} }
      cases e : run W (gvtOf W r cfg) toks { sh := beginParse cfg sh, p := {} } with
      | ok t s1 => rw [e] at hr; rw [hr (by intro s' h'; cases h')]
      | err er s1 => rw [e] at hr; rw [hr (by intro s' h'; cases h')]
      | halt hh s1 => rw [e] at hs hr; rw [hr (by intro s' h'; cases h'; exact hs _ rfl)]

theorem parse_le_succ (W : World) (n : Nat) (cfg : Cfg) : Le (parse W n cfg) (parse W (n + 1) cfg) := by
  induction n generalizing cfg with
  | zero => intro s hs; exact absurd rfl (hs s)
  | succ n ih => exact parseWith_le W ih cfg

theorem parse_le (W : World) {n m : Nat} (h : n ≤ m) (cfg : Cfg) : Le (parse W n cfg) (parse W m cfg) := by
  induction m with
  | zero => obtain rfl : n = 0 := by omega
            exact fun _ _ => rfl
  | succ m ih =>
    by_cases hm : n = m + 1
    · subst hm; exact fun _ _ => rfl
    · intro s hs
      have h1 := ih (by omega) s hs
      rw [parse_le_succ W m cfg s (by rw [h1]; exact hs), h1]

/-! ## The statement -/

/-- A budget of one level per existing path, plus two, is never exhausted: the nesting of parses is bounded by the
number of files, whatever they import or include, for every iteration order. -/
theorem terminates (W : World) (n : Nat) (hn : W.fs.length + 2 ≤ n) (cfg : Cfg) (sh sh' : Shared) :
    parse W n cfg sh ≠ .halt .fuel sh' := by
  apply parse_noFuel W n cfg sh (by omega)
  intro _
  have : todo W (beginParse cfg sh) ≤ W.fs.length := by
    unfold todo
    have := List.countP_le_length (p := fun f => !(beginParse cfg sh).parseFileMap.keys.contains f) (l := W.fs.keys)
    simpa [GoMap.keys] using this
  omega

/-- A larger budget gives the same. -/
theorem budget_irrelevant (W : World) (n : Nat) (hn : W.fs.length + 2 ≤ n) (cfg : Cfg) : parse W n cfg = Parse W cfg :=
  funext fun sh => parse_le W hn cfg sh (terminates W _ (Nat.le_refl _) cfg sh)

/-- `Parse` satisfies the recursion equation of the Go code, in which the nested calls are `Parse` itself. -/
theorem Parse_eq (W : World) (cfg : Cfg) : Parse W cfg = parseWith W (Parse W) cfg := by
  have h : parse W (W.fs.length + 2) = Parse W := rfl
  rw [← budget_irrelevant W (W.fs.length + 2 + 1) (by omega) cfg]
  show parseWith W (parse W (W.fs.length + 2)) cfg = _
  rw [h]

/-- And it is the only function that does: the equation has no other meaning. -/
theorem Parse_unique (W : World) (F : Cfg → Go Shared Tree) (hF : ∀ cfg, F cfg = parseWith W F cfg) : F = Parse W := by
  have hle : ∀ n cfg, Le (parse W n cfg) (F cfg) := by
    intro n
    induction n with
    | zero => intro cfg s hs; exact absurd rfl (hs s)
    | succ n ih =>
      intro cfg
      rw [hF cfg]
      exact parseWith_le W ih cfg
  funext cfg sh
  exact hle _ cfg sh (terminates W _ (Nat.le_refl _) cfg sh)

/-- The include loop is not cut short either: a larger budget gives the same. -/
theorem loop_budget_irrelevant (W : World) (cfg : Cfg) (name : Str) (sh : Shared) (k : Nat)
    (hk : sh.includeMap.length + W.size + 1 ≤ k) :
    includeLoop W (Parse W) cfg name sh.includeMap.keys k [] [] sh =
    includeLoop W (Parse W) cfg name sh.includeMap.keys (sh.includeMap.length + W.size + 1) [] [] sh := by
  refine includeLoop_le W (fun _ _ _ => rfl) cfg name _ _ _ hk _ _ sh ?_
  refine includeLoop_noFuel (base := sh.includeMap.keys) (fun path sh => ?_) name _ _ _ _ sh ?_ ?_ ?_ ?_
  · refine ⟨(parse_keeps (incl_shRel W) _ _ sh (incl_begin W _ sh)).1, fun h s' e => ?_⟩
    rintro rfl
    exact terminates W _ (Nat.le_refl _) _ _ _ e
  · simp [GoMap.keys]
  · simp
  · simp
  · exact fun x hx => Or.inl hx

/-! Two files that import each other and include themselves; the parse succeeds. -/

open Ex in
/-- The files of the example. -/
private def W0 : World := world [
  ("a.xsd", [on "schema" [("xmlns:b", "urn:b")], on "import" [("namespace", "urn:b"), ("schemaLocation", "b.xsd")],
    on "include" [("schemaLocation", "a.xsd")], on "element" [("name", "e"), ("type", "b:t")],
    on "element" [("name", "f"), ("type", "u")]]),
  ("b.xsd", [on "schema" [("xmlns:a", "urn:a")], on "import" [("namespace", "urn:a"), ("schemaLocation", "a.xsd")],
    on "include" [("schemaLocation", "b.xsd")], on "element" [("name", "t"), ("type", "a:e")],
    on "element" [("name", "g"), ("type", "v")]])]

example : (Ex.parse W0 "a.xsd" "Go" matches .ok _ _) = true := by decide +kernel
example : (Ex.parse W0 "a.xsd" "Go").state.log.map (·.1) =
  [c!"a.xsd", c!"b.xsd", c!"a.xsd", c!"a.xsd", c!"b.xsd", c!"b.xsd", c!"a.xsd", c!"b.xsd"] := by decide +kernel

end Xgen.C22
