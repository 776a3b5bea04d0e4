import Verif.Props.C62

/-! # C66: a reference into an imported schema that is not there

A reference whose prefix leads to an imported file that does not exist makes `Parse` fail, whatever else the schema contains.
This holds for the parsed file itself only: when the imported file exists but cannot be read, or when its own imports are
missing, nothing is reported (witnesses `unreadable`, `nested`). -/

namespace Xgen.C66
open Core
variable [Uni] [UniLaws]

/-! ## Specification -/

/-- The prefix `q` means the name space `ns` wherever a file binds it. -/
def Binds (W : World) (q ns : Str) : Prop :=
  ∀ f toks n as, W.fs.get? f = some (.file toks) → Token.start n as ∈ toks →
    ∀ a ∈ as, a.space = c!"xmlns" → a.local = q → a.value = ns

/-- The name space `ns` is at the place `loc` wherever a file says where it is (and tags say the name space first). -/
def Locates (W : World) (ns loc : Str) : Prop :=
  ∀ f toks n as, W.fs.get? f = some (.file toks) → Token.start n as ∈ toks → ∀ i, C62.importOf as = some i →
    C62.Ordered as ∧ (i.1 = ns → i.2 = loc ∨ W.isURL i.2 = true)

/-- The tags of the file do not mention the name as the name of something. -/
def Unnamed (toks : List Token) (x : Str) : Prop :=
  ∀ m bs, Token.start m bs ∈ toks → ∀ a ∈ bs, a.local ∈ [c!"name", c!"ref", c!"base"] → a.value ≠ x

/-- A file that binds the prefix `q`, imports its name space from `loc`, and then refers to `v`. -/
structure Refers (toks : List Token) (q ns loc v : Str) : Prop where
  shape : ∃ a root b ias c n as d,
    toks = a ++ .start c!"schema" root :: (b ++ .start c!"import" ias :: (c ++ .start n as :: d)) ∧
    (∃ x ∈ root, x.space = c!"xmlns" ∧ x.local = q) ∧ C62.importOf ias = some (ns, loc) ∧ v ∈ refers n as ∧
    (n = c!"list" ∨ n = c!"union" → ∃ c' bs, c = c' ++ [.start c!"simpleType" bs])

/-! ## The maps -/

/-- Once known, the name space is at that place. -/
def Located (ns loc : Str) (sh : Shared) : Prop := sh.nsLoc.get? ns = none ∨ sh.nsLoc.get? ns = some loc

omit [Uni] [UniLaws] in
theorem import_none {isURL : Str → Bool} {as : List Attr} (h : C62.importOf as = none) (sh : Shared) :
    onImport isURL as sh = sh := by
  have hn : ∀ a ∈ as, a.local ≠ c!"schemaLocation" := by
    intro a ha e
    unfold C62.importOf attr? at h
    simp only [Option.map_map, Option.map_eq_none_iff, List.find?_eq_none] at h
    exact h a ha (by simp [e])
  unfold onImport
  generalize ([] : Str) = c
  clear h
  induction as generalizing c with
  | nil => rfl
  | cons a as ih =>
    rw [List.foldl_cons]
    have h1 := hn a (by simp)
    unfold onImportAttr
    rw [if_neg h1]
    split
    · exact ih (fun b hb => hn b (by simp [hb])) _
    · exact ih (fun b hb => hn b (by simp [hb])) _

section
variable {W : World} {q ns loc : Str}

omit [Uni] [UniLaws] in
theorem located_import (hl : Locates W ns loc) {f : Str} {toks : List Token} (hf : W.fs.get? f = some (.file toks)) {n : Str} {as : List Attr}
    (hm : Token.start n as ∈ toks) {sh : Shared} (h : Located ns loc sh) : Located ns loc (onImport W.isURL as sh) := by
  cases hi : C62.importOf as with
  | none => rw [import_none hi]; exact h
  | some i =>
    obtain ⟨ho, hp⟩ := hl f toks n as hf hm i hi
    rw [C62.onImport_eq _ _ _ ho, hi]
    unfold C62.importInto
    dsimp only
    split
    · exact h
    · rename_i hc
      have hc := not_or.1 hc
      by_cases e : ns = i.1
      · rcases hp e.symm with e2 | e2
        · exact .inr (by rw [e, ← e2]; exact GoMap.get?_set_self _ _ _)
        · exact absurd e2 hc.2
      · unfold Located
        dsimp only
        rw [GoMap.get?_set_ne _ e]
        exact h

omit [Uni] [UniLaws] in
theorem binds_schema (hb : Binds W q ns) {f : Str} {toks : List Token} (hf : W.fs.get? f = some (.file toks)) {n : Str} {as : List Attr}
    (hm : Token.start n as ∈ toks) {sh : Shared} (h : sh.localNS.getStr q = ns ∨ ∃ x ∈ as, x.space = c!"xmlns" ∧ x.local = q) :
    (onSchema as sh).localNS.getStr q = ns := by
  rw [C26.schema_binds]
  cases hl : (as.filter fun a => a.space = c!"xmlns" ∧ a.local = q).getLast? with
  | none =>
    rcases h with h | ⟨x, hx, h⟩
    · exact h
    · have : x ∈ as.filter fun a => a.space = c!"xmlns" ∧ a.local = q := List.mem_filter.2 ⟨hx, by simp [h]⟩
      rw [List.getLast?_eq_none_iff.1 hl] at this
      cases this
  | some x =>
    have hx := List.mem_filter.1 (List.mem_of_getLast? hl)
    have h2 : x.space = c!"xmlns" ∧ x.local = q := by simpa using hx.2
    exact hb f toks n as hf hm x hx.1 h2.1 h2.2

end

/-! ## Facts about the maps that tags do not change -/

/-- A fact about the maps of name spaces that no tag of a file changes. -/
structure Kept (W : World) (I : Shared → Prop) : Prop where
  maps : ∀ a b : Shared, a.localNS = b.localNS → a.nsLoc = b.nsLoc → I a → I b
  tok : ∀ {f toks n as}, W.fs.get? f = some (.file toks) → Token.start n as ∈ toks → ∀ sh, I sh →
    I (onImport W.isURL as sh) ∧ I (onSchema as sh)

omit [Uni] [UniLaws] in
theorem Kept.include {W : World} {I : Shared → Prop} (h : Kept W I) (as : List Attr) {sh : Shared} (hi : I sh) : I (onInclude as sh) :=
  h.maps _ _ (onInclude_frame as sh).2.2.2.1.symm (onInclude_frame as sh).2.2.1.symm hi

omit [Uni] [UniLaws] in
theorem Kept.shRel {W : World} {I : Shared → Prop} (h : Kept W I) : ShRel W (fun a b => I a → I b) where
  refl _ := id
  trans f g := g ∘ f
  tick _ := h.maps _ _ rfl rfl
  tok hf hm sh := ⟨fun hi => (h.tok hf hm sh hi).1, h.include _, fun hi => (h.tok hf hm sh hi).2⟩
  begin cfg sh _ := by
    refine h.maps _ _ ?_ ?_ <;> (unfold beginParse; dsimp only; split <;> rfl)
  fin _ _ _ _ := h.maps _ _ rfl rfl
  write _ _ _ := h.maps _ _ rfl rfl

omit [Uni] [UniLaws] in
theorem Kept.begin {W : World} {I : Shared → Prop} (h : Kept W I) (cfg : Cfg) {sh : Shared} (hi : I sh) : I (beginParse cfg sh) := by
  revert hi
  refine h.maps _ _ ?_ ?_ <;> (unfold beginParse; dsimp only; split <;> rfl)

omit [UniLaws] in
/-- Asking keeps such facts. -/
theorem Kept.gvt {W : World} {I : Shared → Prop} (h : Kept W I) (cfg : Cfg) (v : Str) (s : St) (hi : I s.sh) :
    I (gvtOf W (Parse W) cfg v s).state.sh := by
  have S := h.shRel
  have SG := Grows.stable S
  have Q' : Stable (fun _ => True) (fun a b => I a → I b) := ⟨S.refl, S.trans, fun _ _ => trivial⟩
  have k := gvtOf_keeps (W := W) (rec := Parse W) (cfg := cfg) (Q := fun _ => True) (R := fun a b => I a → I b) (H := fun _ => True)
    (getValueType_keeps Q'
      (fun _ path sh _ => ⟨(parse_keeps S _ (nestedCfg cfg path true) sh (S.begin _ _ (.inl rfl))).1, fun _ _ _ => trivial⟩)
      (fun _ path sh _ hn _ => ⟨(parse_keeps S _ (nestedCfg cfg path false) sh (S.begin _ _ (.inr hn))).1, fun _ _ _ => trivial⟩)
      (fun _ name sh _ => ⟨includeLoop_keeps (cfg := cfg) S
        (fun path sh => (parse_keeps S _ (nestedCfg cfg path true) sh (S.begin _ _ (.inl rfl))).1) name _ _ [] [] sh, fun _ _ _ => trivial⟩)) v
  exact (k.2 s trivial).1 hi

/-- The resolver does not change the parser state. -/
theorem gvt_p (W : World) (cfg : Cfg) (v : Str) (s : St) : (gvtOf W (Parse W) cfg v s).state.p = s.p := by
  unfold gvtOf
  cases getValueType W (Parse W) cfg v s.p.freeze s.sh <;> rfl

section
variable {W : World} {I : Shared → Prop} {N : Str → Prop} {cfg : Cfg} {f : Str} {all : List Token}

theorem agree_gvt (h : Kept W I) (v : Str) :
    Agree (fun _ => True) N I (fun _ => True) (gvtOf W (Parse W) cfg v) (gvtOf W (Parse W) cfg v) := by
  intro s hv hi
  refine ⟨rfl, fun r s' e => ?_⟩
  have h1 := h.gvt cfg v s hi
  have h2 := gvt_p W cfg v s
  rw [e] at h1 h2
  exact ⟨trivial, by rw [show s'.p = s.p from h2]; exact hv, h1⟩

theorem tagVals_unnamed {x : Str} {toks : List Token} (h : Unnamed toks x) {n : Str} {as : List Attr} (hm : Token.start n as ∈ toks) :
    TagVals (fun _ => True) (· ≠ x) as := fun a ha => ⟨fun _ => trivial, fun _ _ _ => trivial, fun hl => h n as hm a ha hl⟩

/-- Tags of the file keep such facts, and introduce no declaration of the name. -/
theorem agree_tokens (h : Kept W I) (hf : W.fs.get? f = some (.file all)) {x : Str} (hx : x ≠ []) (hn : Unnamed all x) (toks : List Token)
    (ht : ∀ t ∈ toks, t ∈ all) :
    Agree (fun _ => True) (· ≠ x) I (fun _ => True) (run W (gvtOf W (Parse W) cfg) toks) (run W (gvtOf W (Parse W) cfg) toks) := by
  induction toks with
  | nil => exact Agree.pure trivial
  | cons t ts ih =>
    refine Agree.bind (Q := fun _ => True) ?_ fun _ _ => ih fun t h => ht t (by simp [h])
    have plain : ∀ t : Token, (∀ n as, t = .start n as → TagVals (fun _ => True) (· ≠ x) as ∧
        ∀ k, onKind n = some k → k ≠ .import ∧ k ≠ .include ∧ k ≠ .schema) →
        Agree (fun _ => True) (· ≠ x) I (fun _ => True) (step W (gvtOf W (Parse W) cfg) t) (step W (gvtOf W (Parse W) cfg) t) :=
      fun t h' => agree_step (T := fun _ => True) (fun v _ => agree_gvt h v) (fun _ _ => trivial) trivial hx.symm trivial W t h'
    cases t with
    | start n as =>
      have hm := ht (.start n as) (by simp)
      cases hk : onKind n with
      | none =>
        refine plain _ fun m bs e => ?_
        cases e
        exact ⟨tagVals_unnamed hn hm, fun k e => by rw [hk] at e; cases e⟩
      | some k =>
        have special : ∀ F : Shared → Shared, (∀ sh, I sh → I (F sh)) → callOn W (gvtOf W (Parse W) cfg) as k = onSh F →
            Agree (fun _ => True) (· ≠ x) I (fun _ => True) (step W (gvtOf W (Parse W) cfg) (.start n as)) (step W (gvtOf W (Parse W) cfg) (.start n as)) := by
          intro F hF hc s hv hi
          refine ⟨rfl, fun r s' e => ?_⟩
          simp only [step, Go.bind_apply, onP, hk, hc, onSh] at e
          cases e
          exact ⟨trivial, ⟨hv.heap, hv.simple, hv.attr, hv.protoSimple, hv.protoAttr⟩, hF _ hi⟩
        by_cases h1 : k = .import
        · subst h1; exact special _ (fun sh hi => (h.tok hf hm sh hi).1) rfl
        by_cases h2 : k = .include
        · subst h2; exact special _ (fun sh hi => h.include as hi) rfl
        by_cases h3 : k = .schema
        · subst h3; exact special _ (fun sh hi => (h.tok hf hm sh hi).2) rfl
        refine plain _ fun m bs e => ?_
        cases e
        exact ⟨tagVals_unnamed hn hm, fun k' e => by rw [hk] at e; cases e; exact ⟨h1, h2, h3⟩⟩
    | stop n => exact plain _ fun _ _ e => by cases e
    | text y => exact plain _ fun _ _ e => by cases e
    | other => exact plain _ fun _ _ e => by cases e

end

theorem kept_located {W : World} {ns loc : Str} (hl : Locates W ns loc) : Kept W (Located ns loc) where
  maps a b _ h hi := by unfold Located at hi ⊢; rw [← h]; exact hi
  tok hf hm sh hi := ⟨located_import hl hf hm hi, by unfold Located at hi ⊢; rw [(onSchema_frame _ sh).2.2.1]; exact hi⟩

theorem kept_bound {W : World} {q ns loc : Str} (hb : Binds W q ns) (hl : Locates W ns loc) :
    Kept W (fun sh => sh.localNS.getStr q = ns ∧ Located ns loc sh) where
  maps a b h1 h2 hi := ⟨by rw [← h1]; exact hi.1, (kept_located hl).maps a b h1 h2 hi.2⟩
  tok hf hm sh hi := ⟨⟨by rw [(onImport_frame _ _ sh).2.2.2.1]; exact hi.1, ((kept_located hl).tok hf hm sh hi.2).1⟩,
    binds_schema hb hf hm (.inl hi.1), ((kept_located hl).tok hf hm sh hi.2).2⟩

theorem kept_both {W : World} {q ns loc : Str} (hb : Binds W q ns) :
    Kept W (fun sh => sh.localNS.getStr q = ns ∧ sh.nsLoc.get? ns = some loc) where
  maps a b h1 h2 hi := ⟨by rw [← h1]; exact hi.1, by rw [← h2]; exact hi.2⟩
  tok hf hm sh hi := ⟨⟨by rw [(onImport_frame _ _ sh).2.2.2.1]; exact hi.1, (C26.mono_import _ _ sh).kept _ _ hi.2⟩,
    binds_schema hb hf hm (.inl hi.1), by rw [(onSchema_frame _ sh).2.2.1]; exact hi.2⟩

theorem run_split {W : World} {gvt : Gvt} {xs ys : List Token} {s s' : St} {r : Unit} (e : run W gvt (xs ++ ys) s = .ok r s') :
    ∃ s1, run W gvt xs s = .ok () s1 ∧ run W gvt ys s1 = .ok r s' := by
  rw [Core.run_append, Go.bind_apply] at e
  cases h : run W gvt xs s with
  | ok a s1 => rw [h] at e; exact ⟨s1, rfl, e⟩
  | err x s1 => rw [h] at e; cases e
  | halt x s1 => rw [h] at e; cases e

theorem run_cons {W : World} {gvt : Gvt} {t : Token} {ys : List Token} {s s' : St} {r : Unit} (e : run W gvt (t :: ys) s = .ok r s') :
    ∃ s1, step W gvt t s = .ok () s1 ∧ run W gvt ys s1 = .ok r s' := by
  rw [run, Go.bind_apply] at e
  cases h : step W gvt t s with
  | ok a s1 => rw [h] at e; exact ⟨s1, rfl, e⟩
  | err x s1 => rw [h] at e; cases e
  | halt x s1 => rw [h] at e; cases e

/-! ## The theorem -/

/-- A reference to a name that nothing declares, in a name space whose file is not there. -/
theorem getValueType_missing (W : World) (rec : Cfg → Go Shared Tree) (cfg : Cfg) (v : Str) (tree : Tree) (sh : Shared)
    (hx : cfg.extract = false) (hb : getBuildInTypeByLang (Names.localPart v) cfg.lang = none)
    (hd : C62.declared tree (Names.localPart v) = Names.localPart v ∨ C62.declared tree (Names.localPart v) = [])
    (hu : W.isURL (sh.nsLoc.getStr (sh.localNS.getStr (Names.prefixPart v))) = false)
    (hm : W.fs.get? (pathJoin cfg.fileDir (sh.nsLoc.getStr (sh.localNS.getStr (Names.prefixPart v)))) = none) :
    getValueType W rec cfg v tree sh = .ok (C62.declared tree (Names.localPart v),
      some (.stat (pathJoin cfg.fileDir (sh.nsLoc.getStr (sh.localNS.getStr (Names.prefixPart v)))))) sh := by
  unfold getValueType resolveOutside
  simp only [Names.localPart_eq, Names.prefixPart_eq, C62.declared_eq, hb, hx, hu, hm]
  rcases hd with hd | hd <;> rw [hd] <;> simp

/-- C66 for files that do not exist: a reference into an imported schema that is not there makes the parse fail.  (Missing: files
that exist but cannot be read or parsed, where it is false.) -/
theorem fails_partial (W : World) (cfg : Cfg) (sh : Shared) (toks : List Token) (v ns loc : Str) (hx : cfg.extract = false)
    (hf : W.fs.get? cfg.filePath = some (.file toks)) (hr : Refers toks (Names.prefixPart v) ns loc v)
    (hb : Binds W (Names.prefixPart v) ns) (hl : Locates W ns loc) (hfresh : sh.nsLoc.get? ns = none ∨ sh.nsLoc.get? ns = some loc)
    (hu : W.isURL loc = false) (hm : W.fs.get? (pathJoin (pathDir cfg.filePath) loc) = none)
    (hbi : getBuildInTypeByLang (Names.localPart v) cfg.lang = none) (hn : Names.localPart v ≠ []) (hun : Unnamed toks (Names.localPart v))
    (t : Tree) (sh' : Shared) : Parse W cfg sh ≠ .ok t sh' := by
  intro e
  obtain ⟨a, root, b, ias, c, n, as, d, rfl, hroot, hias, hv, hlu⟩ := hr.shape
  rw [C22.Parse_eq] at e
  simp only [parseWith, hf, parseOpen] at e
  cases er : run W (gvtOf W (Parse W) cfg) (a ++ .start c!"schema" root :: (b ++ .start c!"import" ias :: (c ++ .start n as :: d)))
      { sh := beginParse cfg sh, p := {} } with
  | err x s => rw [er] at e; cases e
  | halt x s => rw [er] at e; cases e
  | ok r s =>
    clear e
    have hmem : ∀ x, x ∈ a ++ Token.start c!"schema" root :: (b ++ Token.start c!"import" ias :: (c ++ Token.start n as :: d)) ↔
      x ∈ a ∨ x = Token.start c!"schema" root ∨ x ∈ b ∨ x = Token.start c!"import" ias ∨ x ∈ c ∨ x = Token.start n as ∨ x ∈ d := by
      simp
    generalize hall : a ++ Token.start c!"schema" root :: (b ++ Token.start c!"import" ias :: (c ++ Token.start n as :: d)) = all at *
    have K0 : Kept W (Located ns loc) := kept_located hl
    have K1 : Kept W (fun sh => sh.localNS.getStr (Names.prefixPart v) = ns ∧ Located ns loc sh) := kept_bound hb hl
    have K2 : Kept W (fun sh => sh.localNS.getStr (Names.prefixPart v) = ns ∧ sh.nsLoc.get? ns = some loc) := kept_both hb
    rw [← hall] at er
    obtain ⟨s1, e1, er⟩ := run_split er
    obtain ⟨s2, e2, er⟩ := run_cons er
    obtain ⟨s3, e3, er⟩ := run_split er
    obtain ⟨s4, e4, er⟩ := run_cons er
    obtain ⟨s5, e5, er⟩ := run_split er
    obtain ⟨s6, e6, er⟩ := run_cons er
    have i0 : Located ns loc (beginParse cfg sh) := K0.begin cfg hfresh
    have v0 : Vals (fun _ => True) (· ≠ Names.localPart v) ({} : PState) := by constructor <;> intro x hx <;> cases hx
    obtain ⟨-, v1, i1⟩ := (agree_tokens K0 hf hn hun a (fun x hx => (hmem x).2 (.inl hx)) _ v0 i0).2 _ _ e1
    have i2 : s2.sh.localNS.getStr (Names.prefixPart v) = ns ∧ Located ns loc s2.sh := by
      simp only [step, Go.bind_apply, onP, onKind_schema, callOn, onSh] at e2
      cases e2
      exact ⟨binds_schema hb hf ((hmem _).2 (.inr (.inl rfl))) (.inr hroot), (K0.tok hf ((hmem _).2 (.inr (.inl rfl))) _ i1).2⟩
    have v2 := ((agree_tokens (cfg := cfg) K0 hf hn hun [Token.start c!"schema" root] (fun x hx => (hmem x).2 (.inr (.inl (List.mem_singleton.1 hx)))) _ v1 i1).2 () s2
      (by simp only [run, Go.bind_apply, e2, Go.pure_apply])).2.1
    obtain ⟨-, v3, i3⟩ := (agree_tokens K1 hf hn hun b (fun x hx => (hmem x).2 (.inr (.inr (.inl hx)))) _ v2 i2).2 _ _ e3
    have hmi : Token.start c!"import" ias ∈ all := (hmem _).2 (.inr (.inr (.inr (.inl rfl))))
    have i4 : s4.sh.localNS.getStr (Names.prefixPart v) = ns ∧ s4.sh.nsLoc.get? ns = some loc := by
      simp only [step, Go.bind_apply, onP, onKind_import, callOn, onSh] at e4
      cases e4
      refine ⟨(K1.tok hf hmi _ i3).1.1, ?_⟩
      dsimp only
      rw [C62.onImport_eq _ _ _ (hl _ _ _ _ hf hmi _ hias).1, hias]
      unfold C62.importInto
      dsimp only
      rcases i3.2 with h | h
      · rw [if_neg]
        · exact GoMap.get?_set_self _ _ _
        · rw [hu]
          simp [GoMap.has, h]
      · rw [if_pos]
        · exact h
        · simp [GoMap.has, h]
    have v4 := ((agree_tokens (cfg := cfg) K1 hf hn hun [Token.start c!"import" ias] (fun x hx => by rw [List.mem_singleton.1 hx]; exact hmi) _ v3 i3).2 () s4
      (by simp only [run, Go.bind_apply, e4, Go.pure_apply])).2.1
    obtain ⟨-, v5, i5⟩ := (agree_tokens K2 hf hn hun c (fun x hx => (hmem x).2 (.inr (.inr (.inr (.inr (.inl hx)))))) _ v4 i4).2 _ _ e5
    have hmn : Token.start n as ∈ all := (hmem _).2 (.inr (.inr (.inr (.inr (.inr (.inl rfl))))))
    refine reach_step (T := fun _ => True) (R := fun _ => True) (N := (· ≠ Names.localPart v)) (D := fun _ => False) (v := v)
      (fun u _ => agree_gvt K2 u) (fun _ _ => trivial) (fun u s r s' _ h => h) ?_ W n as (tagVals_unnamed hun hmn) hv s5 ?_ v5 i5 () s6 e6
    · have key : ∀ s, Vals (fun _ => True) (· ≠ Names.localPart v) s.p → (s.sh.localNS.getStr (Names.prefixPart v) = ns ∧ s.sh.nsLoc.get? ns = some loc) →
          ∃ t x, gvtOf W (Parse W) cfg v s = .ok (t, some x) s := by
        intro s hvs hi
        have hloc : s.sh.nsLoc.getStr (s.sh.localNS.getStr (Names.prefixPart v)) = loc := by
          rw [hi.1]; unfold GoMap.getStr; rw [hi.2]; rfl
        have hdecl : C62.declared s.p.freeze (Names.localPart v) = Names.localPart v := by
          unfold C62.declared
          rw [List.find?_eq_none.2]
          intro d hd
          simpa using (C62.vals_types hvs trivial hn.symm).2 d hd
        unfold gvtOf
        rw [getValueType_missing W (Parse W) cfg v s.p.freeze s.sh hx hbi (.inl hdecl) (by rw [hloc]; exact hu) (by rw [hloc]; exact hm)]
        exact ⟨_, _, rfl⟩
      constructor
      · intro s hvs hi r s' e
        obtain ⟨t, x, h⟩ := key s hvs hi
        simp only [resolve, Go.bind_apply, h] at e
        cases e
      · intro set s hvs hi r s' e
        obtain ⟨t, x, h⟩ := key s hvs hi
        simp only [assignType, Go.bind_apply, h] at e
        cases e
    · intro h
      obtain ⟨c', bs, rfl⟩ := hlu h
      obtain ⟨s0, -, e0⟩ := run_split e5
      simp only [run, step, onKind_simpleType, callOn, onP, Go.bind_apply, Go.pure_apply] at e0
      cases e0
      simp only [onSimpleType]
      cases s0.p.simpleType with
      | nil => simp [Stack.setTop]
      | cons x xs => simp [Stack.setTop]

/-- The error of a nested parse is dropped: the reference keeps its local name. -/
theorem swallowed (W : World) (rec : Cfg → Go Shared Tree) (cfg : Cfg) (v file : Str) (tree : Tree) (sh sh' : Shared) (x : Err)
    (hx : cfg.extract = false) (hb : getBuildInTypeByLang (Names.localPart v) cfg.lang = none)
    (hd : C62.declared tree (Names.localPart v) = Names.localPart v)
    (hfile : file = pathJoin cfg.fileDir (sh.nsLoc.getStr (sh.localNS.getStr (Names.prefixPart v))))
    (hu : W.isURL (sh.nsLoc.getStr (sh.localNS.getStr (Names.prefixPart v))) = false)
    (hm : W.fs.get? file = some .noOpen ∨ ∃ toks, W.fs.get? file = some (.file toks)) (hnew : sh.parseFileMap.get? file = none)
    (hr : rec (nestedCfg cfg file false) sh = .err x sh') :
    getValueType W rec cfg v tree sh = .ok (Names.localPart v, none) sh' := by
  subst hfile
  unfold getValueType resolveOutside resolveInFile
  simp only [Names.localPart_eq, Names.prefixPart_eq, C62.declared_eq, hb, hx, hu, hd, hnew, hr]
  rcases hm with hm | ⟨toks, hm⟩ <;> simp [hm]

/-! ## Examples -/

open Ex in
/-- A schema that imports `lib.xsd` and refers to it. -/
def user : List Token :=
  [on "schema" [("xmlns:l", "urn:lib")]] ++ leaf "import" [("namespace", "urn:lib"), ("schemaLocation", "lib.xsd")] ++
    leaf "element" [("name", "a"), ("type", "l:thing")] ++ [off "schema"]

/-- The imported file is missing. -/
def alone : World := Ex.world [("a.xsd", user)]

theorem alone_files {f : Str} {toks : List Token} (h : alone.fs.get? f = some (.file toks)) : toks = user := by
  have := GoMap.mem_of_get? h
  simp only [alone, Ex.world, List.map_cons, List.map_nil, List.cons_append, List.nil_append, List.mem_cons, List.not_mem_nil,
    or_false, Prod.mk.injEq, reduceCtorEq, and_false, false_or, Entry.file.injEq] at this
  exact this.2

theorem alone_tags {n : Str} {as : List Attr} (h : Token.start n as ∈ user) :
    as = [⟨c!"xmlns", c!"l", c!"urn:lib"⟩] ∨ as = [⟨[], c!"namespace", c!"urn:lib"⟩, ⟨[], c!"schemaLocation", c!"lib.xsd"⟩] ∨
      as = [⟨[], c!"name", c!"a"⟩, ⟨[], c!"type", c!"l:thing"⟩] := by
  have e : user = [.start c!"schema" [⟨c!"xmlns", c!"l", c!"urn:lib"⟩],
    .start c!"import" [⟨[], c!"namespace", c!"urn:lib"⟩, ⟨[], c!"schemaLocation", c!"lib.xsd"⟩], .stop c!"import",
    .start c!"element" [⟨[], c!"name", c!"a"⟩, ⟨[], c!"type", c!"l:thing"⟩], .stop c!"element", .stop c!"schema"] := by decide
  rw [e] at h
  simp only [List.mem_cons, Token.start.injEq, reduceCtorEq, false_or, List.not_mem_nil, or_false] at h
  rcases h with h | h | h
  · exact .inl h.2
  · exact .inr (.inl h.2)
  · exact .inr (.inr h.2)

/-- The hypotheses of the theorem hold for it. -/
example (t : Tree) (sh' : Shared) : @Parse asciiUni alone { filePath := c!"a.xsd", lang := c!"Go" } {} ≠ .ok t sh' := by
  refine @fails_partial asciiUni asciiUniLaws alone { filePath := c!"a.xsd", lang := c!"Go" } {} user c!"l:thing" c!"urn:lib" c!"lib.xsd"
    rfl (by decide) ⟨[], [⟨c!"xmlns", c!"l", c!"urn:lib"⟩], [], _, [.stop c!"import"], _, _, [.stop c!"element", .stop c!"schema"],
      rfl, ?_, rfl, ?_, ?_⟩ ?_ ?_ (.inl rfl) (by decide) (by decide) (by decide) (by decide) ?_ t sh'
  · exact ⟨⟨c!"xmlns", c!"l", c!"urn:lib"⟩, by simp, rfl, by decide⟩
  · decide
  · intro h
    exact absurd h (by decide)
  · intro f toks n as hf hm
    rw [alone_files hf] at hm
    rcases alone_tags hm with rfl | rfl | rfl <;> decide
  · intro f toks n as hf hm i hi
    rw [alone_files hf] at hm
    rcases alone_tags hm with rfl | rfl | rfl
    · cases hi
    · cases hi
      exact ⟨⟨by unfold Distinct; decide, by decide⟩, fun _ => .inl rfl⟩
    · cases hi
  · intro n as hm
    rcases alone_tags hm with rfl | rfl | rfl <;> decide

example : (match Ex.parse alone "a.xsd" "Go" with
    | .err e _ => decide (e = .stat c!"lib.xsd")
    | _ => false) = true := by decide +kernel

/-- The imported file cannot be read. -/
def locked : World := { alone with fs := alone.fs ++ [(c!"lib.xsd", .noOpen)] }

open Ex in
/-- The imported file refers to a missing file itself. -/
def deeper : World := Ex.world [("a.xsd", user), ("lib.xsd", [on "schema" [("xmlns:m", "urn:more")]] ++
  leaf "import" [("namespace", "urn:more"), ("schemaLocation", "more.xsd")] ++ leaf "element" [("name", "b"), ("type", "m:thing")] ++
  [off "schema"])]

/-- An imported file that cannot be read is not reported. -/
theorem unreadable : ∃ t sh', Ex.parse locked "a.xsd" "Go" = .ok t sh' := by
  have h : (match Ex.parse locked "a.xsd" "Go" with
    | .ok _ _ => true
    | _ => false) = true := by decide +kernel
  cases e : Ex.parse locked "a.xsd" "Go" with
  | ok t s => exact ⟨t, s, rfl⟩
  | err x s => rw [e] at h; cases h
  | halt x s => rw [e] at h; cases h

/-- An imported file whose own imports are missing is not reported, and no output is written for it. -/
theorem nested : ∃ t sh', Ex.parse deeper "a.xsd" "Go" = .ok t sh' ∧ sh'.outputs.map (·.1) = [c!"a.xsd.go"] := by
  have h : (match Ex.parse deeper "a.xsd" "Go" with
    | .ok _ s => decide (s.outputs.map (·.1) = [c!"a.xsd.go"])
    | _ => false) = true := by decide +kernel
  cases e : Ex.parse deeper "a.xsd" "Go" with
  | ok t s => rw [e] at h; exact ⟨t, s, rfl, of_decide_eq_true h⟩
  | err x s => rw [e] at h; cases h
  | halt x s => rw [e] at h; cases h

end Xgen.C66
