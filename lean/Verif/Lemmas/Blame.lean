import Verif.Model.Parser
import Verif.Spec.Occurs

/-! # Which errors a computation can return -/

namespace Xgen.Blame

/-- All errors that a computation returns are in `E`. -/
def Only (E : Err → Prop) {σ α : Type} (m : Go σ α) : Prop := ∀ s e s', m s = .err e s' → E e

variable {E : Err → Prop} {σ α β : Type}

theorem Only.pure (a : α) : Only E (Pure.pure a : Go σ α) := fun _ _ _ h => by cases h

theorem Only.bind {m : Go σ α} {f : α → Go σ β} (hm : Only E m) (hf : ∀ a, Only E (f a)) : Only E (m >>= f) := by
  intro s e s' h
  rw [Go.bind_apply] at h
  cases hc : m s with
  | ok a s1 => rw [hc] at h; exact hf a s1 e s' h
  | err e1 s1 => rw [hc] at h; cases h; exact hm s _ _ hc
  | halt k s1 => rw [hc] at h; cases h

theorem Only.onP (f : PState → PState) : Only E (onP f) := fun _ _ _ h => by cases h

theorem Only.onSh (f : Shared → Shared) : Only E (onSh f) := fun _ _ _ h => by cases h

theorem Only.throw {e : Err} (h : E e) : Only E (Go.throw e : Go σ α) := fun _ _ _ h' => by cases h'; exact h

theorem Only.forAttrs {step : α → Attr → Go St α} {as : List Attr} (h : ∀ x, ∀ a ∈ as, Only E (step x a)) :
    ∀ x, Only E (Xgen.forAttrs step as x) := by
  induction as with
  | nil => exact fun x => Only.pure x
  | cons a as ih => exact fun x => Only.bind (h x a (by simp)) fun y => ih (fun x b hb => h x b (by simp [hb])) y

/-- The errors of name resolution, returned beside the result. -/
structure GvtOnly (E : Err → Prop) (gvt : Gvt) : Prop where
  never : ∀ v s e s', gvt v s ≠ .err e s'
  beside : ∀ v s r e s', gvt v s = .ok (r, some e) s' → E e

variable {gvt : Gvt}

theorem GvtOnly.resolve (h : GvtOnly E gvt) (v : Str) : Only E (Xgen.resolve gvt v) := by
  intro s e s' he
  unfold Xgen.resolve at he
  rw [Go.bind_apply] at he
  cases hc : gvt v s with
  | ok r s1 =>
    rw [hc] at he
    obtain ⟨r, o⟩ := r
    cases o with
    | none => cases he
    | some e1 => cases he; exact h.beside _ _ _ _ _ hc
  | err e1 s1 => exact absurd hc (h.never _ _ _ _)
  | halt k s1 => rw [hc] at he; cases he

theorem GvtOnly.assign (h : GvtOnly E gvt) (v : Str) (set : Str → PState → PState) : Only E (assignType gvt v set) := by
  intro s e s' he
  unfold assignType at he
  rw [Go.bind_apply] at he
  cases hc : gvt v s with
  | ok r s1 =>
    rw [hc] at he
    obtain ⟨r, o⟩ := r
    cases o with
    | none => cases he
    | some e1 => cases he; exact h.beside _ _ _ _ _ hc
  | err e1 s1 => exact absurd hc (h.never _ _ _ _)
  | halt k s1 => rw [hc] at he; cases he

/-- Illegal values of maxOccurs are to blame. -/
def Counts (E : Err → Prop) (as : List Attr) : Prop :=
  ∀ a ∈ as, a.local = c!"maxOccurs" → ¬ Occurs.Legal a.value → E (.atoi a.value)

theorem counts_of {as : List Attr} (hc : Counts E as) {a : Attr} (ha : a ∈ as) (hl : a.local = c!"maxOccurs")
    (hn : maxOccursPlural a.value = none) : E (.atoi a.value) :=
  hc a ha hl fun h => (Occurs.legal_iff _).2 h hn

theorem onAttribute_only (h : GvtOnly E gvt) (as : List Attr) : Only E (onAttribute gvt as) := by
  refine Only.bind (Only.forAttrs (fun x a _ => ?_) _) fun _ => Only.onP _
  unfold onAttributeAttr
  split
  · exact Only.bind (h.resolve _) fun _ => Only.pure _
  split
  · exact Only.pure _
  split
  · exact Only.bind (h.resolve _) fun _ => Only.pure _
  split <;> exact Only.pure _

theorem onAttributeGroup_only (h : GvtOnly E gvt) (as : List Attr) : Only E (onAttributeGroup gvt as) := by
  refine Only.bind (Only.forAttrs (fun x a _ => ?_) _) fun _ => Only.onP _
  unfold onAttributeGroupAttr
  split
  · exact Only.pure _
  split
  · exact Only.bind (h.resolve _) fun _ => Only.pure _
  · exact Only.pure _

theorem onChoice_only {as : List Attr} (hc : Counts E as) : Only E (onChoice as) := by
  refine Only.bind (Only.forAttrs (fun x a ha => ?_) _) fun _ => Only.onP _
  unfold onChoiceAttr
  split
  · rename_i hl
    cases hm : maxOccursPlural a.value with
    | none => exact Only.throw (counts_of hc ha hl hm)
    | some b => exact Only.pure _
  · exact Only.pure _

theorem onElement_only (h : GvtOnly E gvt) {as : List Attr} (hc : Counts E as) : Only E (onElement gvt as) := by
  refine Only.bind (Only.forAttrs (fun x a ha => ?_) _) fun x => ?_
  · unfold onElementAttr
    split
    · exact Only.bind (h.resolve _) fun _ => Only.pure _
    split
    · exact Only.pure _
    split
    · exact Only.bind (h.resolve _) fun _ => Only.pure _
    split
    · rename_i hl
      cases hm : maxOccursPlural a.value with
      | none => exact Only.throw (counts_of hc ha hl hm)
      | some b => exact Only.pure _
    split <;> exact Only.pure _
  · split
    · exact Only.bind (h.resolve _) fun _ => Only.onP _
    · exact Only.onP _

theorem onExtension_only (h : GvtOnly E gvt) (as : List Attr) : Only E (onExtension gvt as) := by
  refine Only.forAttrs (fun x a _ => ?_) _
  unfold onExtensionAttr
  split
  · refine Only.bind (h.resolve _) fun t => ?_
    intro s e s' he
    dsimp only at he
    cases hc : s.p.complexType with
    | nil => rw [hc] at he; cases he
    | cons c cs =>
      rw [hc] at he
      exact Only.bind (h.assign t setComplexBase) (fun _ => Only.onP (nameComplex a.value)) s e s' he
  · exact Only.pure _

theorem onRestriction_only (h : GvtOnly E gvt) (as : List Attr) : Only E (onRestriction gvt as) := by
  refine Only.forAttrs (fun x a _ => ?_) _
  unfold onRestrictionAttr
  split
  · refine Only.bind (h.resolve _) fun t => ?_
    intro s e s' he
    dsimp only at he
    cases hc : s.p.simpleType with
    | nil => rw [hc] at he; cases he
    | cons c cs =>
      rw [hc] at he
      exact Only.bind (h.assign t setSimpleBase) (fun _ => Only.onP (nameSimple a.value)) s e s' he
  · exact Only.pure _

theorem onGroup_only (h : GvtOnly E gvt) (as : List Attr) : Only E (onGroup gvt as) := by
  refine Only.bind (Only.forAttrs (fun x a _ => ?_) _) fun g => ?_
  · unfold onGroupAttr
    split
    · exact Only.pure _
    split
    · exact Only.bind (h.resolve _) fun _ => Only.pure _
    split <;> exact Only.pure _
  · intro s e s' he
    dsimp only at he
    cases hg : placeGroup? g s.p with
    | none => rw [hg] at he; cases he
    | some p => rw [hg] at he; cases he

theorem onList_only (h : GvtOnly E gvt) (as : List Attr) : Only E (onList gvt as) := by
  intro s e s' he
  unfold onList at he
  cases hc : s.p.simpleType with
  | nil => rw [hc] at he; cases he
  | cons c cs =>
    rw [hc] at he
    refine Only.bind (Only.onP _) (fun _ => Only.forAttrs (fun x a _ => ?_) _) s e s' he
    unfold onListAttr
    split
    · exact h.assign _ _
    · exact Only.pure _

theorem addMembers_only (h : GvtOnly E gvt) (ms : List Str) : Only E (addMembers gvt ms) := by
  induction ms with
  | nil => exact Only.pure _
  | cons m ms ih => exact Only.bind (h.assign _ _) fun _ => ih

theorem onUnion_only (h : GvtOnly E gvt) (as : List Attr) : Only E (onUnion gvt as) := by
  intro s e s' he
  unfold onUnion at he
  dsimp only at he
  cases hc : s.p.simpleType with
  | nil => rw [hc] at he; cases he
  | cons c cs =>
    rw [hc] at he
    refine Only.bind (Only.onP _) (fun _ => Only.forAttrs (fun x a _ => ?_) _) _ e s' he
    unfold onUnionAttr
    split
    · exact addMembers_only h _
    · exact Only.pure _

theorem enumAttribute_only (h : GvtOnly E gvt) : Only E (enumAttribute gvt) := by
  intro s e s' he
  unfold enumAttribute at he
  cases ha : s.p.attrSt with
  | nil => rw [ha] at he; cases he
  | cons a as =>
    cases hs : s.p.simpleType with
    | nil => rw [ha, hs] at he; cases he
    | cons x xs =>
      rw [ha, hs] at he
      exact Only.bind (h.assign _ _) (fun _ => Only.onP _) s e s' he

theorem enumElement_only (h : GvtOnly E gvt) : Only E (enumElement gvt) := by
  intro s e s' he
  unfold enumElement at he
  cases ha : s.p.element with
  | nil => rw [ha] at he; cases he
  | cons a as =>
    cases hs : s.p.simpleType with
    | nil => rw [ha, hs] at he; cases he
    | cons x xs =>
      rw [ha, hs] at he
      exact Only.bind (h.assign _ _) (fun _ => Only.onP _) s e s' he

theorem popToAttribute_only (h : GvtOnly E gvt) : Only E (popToAttribute gvt) := by
  intro s e s' he
  unfold popToAttribute at he
  cases ha : s.p.attrSt with
  | nil => rw [ha] at he; cases he
  | cons a as =>
    cases hs : s.p.simpleType with
    | nil => rw [ha, hs] at he; cases he
    | cons x xs =>
      rw [ha, hs] at he
      exact Only.bind (Only.onP _) (fun _ => Only.bind (h.assign _ _) fun _ => Only.onP _) s e s' he

theorem facetEnd_only (h : GvtOnly E gvt) : Only E (facetEnd gvt) := by
  intro s e s' he
  unfold facetEnd at he
  cases ha : s.p.element with
  | nil => rw [ha] at he; cases he
  | cons a as =>
    cases hs : s.p.simpleType with
    | nil => rw [ha, hs] at he; cases he
    | cons x xs =>
      rw [ha, hs] at he
      exact Only.bind (Only.onP _) (fun _ => Only.bind (h.assign _ _) fun _ => Only.onP _) s e s' he

variable [Uni]

theorem callOn_only (W : World) (h : GvtOnly E gvt) {as : List Attr} (hc : Counts E as) (k : OnKind) : Only E (callOn W gvt as k) := by
  cases k <;> unfold callOn
  case «attribute» => exact onAttribute_only h as
  case attributeGroup => exact onAttributeGroup_only h as
  case charData => exact fun _ _ _ he => by cases he
  case choice => exact onChoice_only hc
  case complexType =>
    intro s e s' he
    dsimp only at he
    unfold onComplexType at he
    cases hx : onComplexType? as s.p with
    | none => rw [hx] at he; cases he
    | some p => rw [hx] at he; cases he
  case element => exact onElement_only h hc
  case enumeration => exact Only.onP _
  case extension => exact onExtension_only h as
  case group => exact onGroup_only h as
  case «import» => exact Only.onSh _
  case «include» => exact Only.onSh _
  case list => exact onList_only h as
  case restriction => exact onRestriction_only h as
  case schema => exact Only.onSh _
  case simpleType => exact Only.onP _
  case union => exact onUnion_only h as

theorem callEnd_only (h : GvtOnly E gvt) (n : Str) (k : EndKind) : Only E (callEnd gvt n k) := by
  cases k <;> unfold callEnd
  case enumeration => exact Only.bind (enumAttribute_only h) fun _ => enumElement_only h
  case extension => exact popToAttribute_only h
  case facet => exact facetEnd_only h
  case pattern => exact Only.bind (popToAttribute_only h) fun _ => facetEnd_only h
  case restriction => exact Only.bind (popToAttribute_only h) fun _ => Only.onP _
  all_goals exact Only.onP _

/-- The errors of the token loop: those of name resolution, and illegal values of maxOccurs. -/
theorem run_only (W : World) (h : GvtOnly E gvt) {toks : List Token} (hc : ∀ n as, .start n as ∈ toks → Counts E as) :
    Only E (run W gvt toks) := by
  induction toks with
  | nil => exact Only.pure _
  | cons t ts ih =>
    refine Only.bind ?_ fun _ => ih fun n as hm => hc n as (by simp [hm])
    cases t with
    | start n as =>
      refine Only.bind (Only.onP _) fun _ => ?_
      cases onKind n with
      | none => exact Only.pure _
      | some k => exact callOn_only W h (hc n as (by simp)) k
    | stop n =>
      dsimp only [step]
      cases endKind n with
      | none => exact Only.pure _
      | some k => exact callEnd_only h n k
    | text s => exact Only.onP _
    | other => exact Only.pure _

theorem includeLoop_no_err (W : World) (rec : Cfg → Go Shared Tree) (cfg : Cfg) (name : Str) (init : List Str) (k : Nat) :
    ∀ visited vt sh e s', includeLoop W rec cfg name init k visited vt sh ≠ .err e s' := by
  induction k with
  | zero => intro _ _ _ _ _ h; cases h
  | succ k ih =>
    intro visited vt sh e s' h
    unfold includeLoop at h
    dsimp only at h
    cases hn : nextKey W init visited sh with
    | none => rw [hn] at h; cases h
    | some inc =>
      rw [hn] at h
      dsimp only at h
      cases hr : rec (nestedCfg cfg (pathJoin cfg.fileDir inc) true) { sh with tick := sh.tick + 1 } with
      | halt k1 s1 => rw [hr] at h; cases h
      | err e1 s1 => rw [hr] at h; cases h
      | ok t s1 => rw [hr] at h; exact ih _ _ _ _ _ h

/-- What name resolution can complain about: a schema that does not exist beside the file. -/
def Missing (W : World) (cfg : Cfg) (e : Err) : Prop :=
  ∃ loc, e = .stat (pathJoin cfg.fileDir loc) ∧ W.fs.get? (pathJoin cfg.fileDir loc) = none ∧ cfg.extract = false

theorem resolveInDep_clean (rec : Cfg → Go Shared Tree) (cfg : Cfg) (name xsdFile : Str) (dep : Tree) (sh : Shared) :
    (∀ e s', resolveInDep rec cfg name xsdFile dep sh ≠ .err e s') ∧
    ∀ r e s', resolveInDep rec cfg name xsdFile dep sh ≠ .ok (r, some e) s' := by
  unfold resolveInDep
  dsimp only
  split
  · exact ⟨by simp, by simp⟩
  · cases rec (nestedCfg cfg xsdFile true) sh with
    | halt h s => exact ⟨by simp, by simp⟩
    | err e s => exact ⟨by simp, by simp⟩
    | ok t s => exact ⟨by simp, by simp⟩

theorem getValueType_only (W : World) (rec : Cfg → Go Shared Tree) (cfg : Cfg) (v : Str) (tree : Tree) (sh : Shared) :
    (∀ e s', getValueType W rec cfg v tree sh ≠ .err e s') ∧
    ∀ r e s', getValueType W rec cfg v tree sh = .ok (r, some e) s' → Missing W cfg e := by
  unfold getValueType
  dsimp only
  cases getBuildInTypeByLang (trimNSPrefix v) cfg.lang with
  | some t => exact ⟨by simp, by simp⟩
  | none =>
    dsimp only
    split
    · exact ⟨by simp, by simp⟩
    split
    · exact ⟨by simp, by simp⟩
    rename_i hx
    unfold resolveOutside
    dsimp only
    split
    · exact ⟨by simp, by simp⟩
    cases hf : W.fs.get? (pathJoin cfg.fileDir (sh.nsLoc.getStr (sh.localNS.getStr (getNSPrefix v)))) with
    | none =>
      refine ⟨by simp, fun r e s' h => ?_⟩
      simp only [Out.ok.injEq, Prod.mk.injEq, Option.some.injEq] at h
      exact ⟨_, h.1.2.symm, hf, by simpa using hx⟩
    | some en =>
      cases en with
      | dir =>
        dsimp only
        cases hl : includeLoop W rec cfg (trimNSPrefix v) sh.includeMap.keys (sh.includeMap.length + W.size + 1) [] [] sh with
        | ok vt s => exact ⟨by simp, by simp⟩
        | err e s => exact absurd hl (includeLoop_no_err W rec cfg _ _ _ _ _ _ _ _)
        | halt k s => exact ⟨by simp, by simp⟩
      | file toks =>
        dsimp only
        unfold resolveInFile
        cases sh.parseFileMap.get? _ with
        | some dep =>
          have := resolveInDep_clean rec cfg (trimNSPrefix v) (pathJoin cfg.fileDir (sh.nsLoc.getStr (sh.localNS.getStr (getNSPrefix v)))) dep sh
          exact ⟨this.1, fun r e s' h => absurd h (this.2 r e s')⟩
        | none =>
          dsimp only
          cases rec (nestedCfg cfg _ false) sh with
          | halt h s => exact ⟨by simp, by simp⟩
          | err e s => exact ⟨by simp, by simp⟩
          | ok t s =>
            have := resolveInDep_clean rec cfg (trimNSPrefix v) (pathJoin cfg.fileDir (sh.nsLoc.getStr (sh.localNS.getStr (getNSPrefix v)))) t s
            exact ⟨this.1, fun r e s' h => absurd h (this.2 r e s')⟩
      | noOpen =>
        dsimp only
        unfold resolveInFile
        cases sh.parseFileMap.get? _ with
        | some dep =>
          have := resolveInDep_clean rec cfg (trimNSPrefix v) (pathJoin cfg.fileDir (sh.nsLoc.getStr (sh.localNS.getStr (getNSPrefix v)))) dep sh
          exact ⟨this.1, fun r e s' h => absurd h (this.2 r e s')⟩
        | none =>
          dsimp only
          cases rec (nestedCfg cfg _ false) sh with
          | halt h s => exact ⟨by simp, by simp⟩
          | err e s => exact ⟨by simp, by simp⟩
          | ok t s =>
            have := resolveInDep_clean rec cfg (trimNSPrefix v) (pathJoin cfg.fileDir (sh.nsLoc.getStr (sh.localNS.getStr (getNSPrefix v)))) t s
            exact ⟨this.1, fun r e s' h => absurd h (this.2 r e s')⟩

theorem gvtOf_only (W : World) (rec : Cfg → Go Shared Tree) (cfg : Cfg) (hE : ∀ e, Missing W cfg e → E e) :
    GvtOnly E (gvtOf W rec cfg) := by
  constructor
  · intro v s e s' h
    unfold gvtOf at h
    have := getValueType_only W rec cfg v s.p.freeze s.sh
    cases hc : getValueType W rec cfg v s.p.freeze s.sh with
    | ok r sh => rw [hc] at h; cases h
    | err e1 sh => exact this.1 _ _ hc
    | halt k sh => rw [hc] at h; cases h
  · intro v s r e s' h
    unfold gvtOf at h
    have := getValueType_only W rec cfg v s.p.freeze s.sh
    cases hc : getValueType W rec cfg v s.p.freeze s.sh with
    | ok r1 sh =>
      rw [hc] at h
      simp only [Out.ok.injEq] at h
      rw [h.1] at hc
      exact hE e (this.2 _ _ _ hc)
    | err e1 sh => exact absurd hc (this.1 _ _)
    | halt k sh => rw [hc] at h; cases h

end Xgen.Blame
