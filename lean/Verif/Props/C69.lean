import Verif.Lemmas.CoreAttrs
import Verif.Lemmas.Map
import Verif.Lemmas.Tags
import Verif.Props.C32
import Verif.Spec.Example

/-! # C69: the order of the attributes of a tag does not matter

XML gives the order of attributes no meaning.  The parser goes through the attributes of a tag from left to right.  Here: as
long as a tag has no attribute twice, a reference no name or type of its own and a legal maxOccurs, any order gives the same
outcome - the same tree, the same error, the same files - in every file the parse reads.  One exception: the location of an
import is stored under the name space seen so far, so a location written before its name space gets lost. -/

namespace Xgen.C69
open Core

/-! ## Specification -/

/-- A tag as XSD wants it: no attribute twice (on the schema tag, attributes may have the same local name in different name
spaces), a reference has neither name nor type, and maxOccurs is legal. -/
structure Tidy (n : Str) (as : List Attr) : Prop where
  distinct : Distinct as ∨ n = c!"schema" ∧ (as.map fun a => (a.space, a.local)).Nodup
  alone : RefAlone as
  occurs : OccursOk as

/-- The two attributes of an import whose order matters. -/
def isImport (a : Attr) : Bool := a.local = c!"namespace" || a.local = c!"schemaLocation"

/-- The same attributes in another order; name space and location of an import keep their order. -/
structure Reordered (as bs : List Attr) : Prop where
  perm : as.Perm bs
  kept : as.filter isImport = bs.filter isImport

/-- Documents that differ in the order of the attributes of their tags. -/
inductive Shuffled : List Token → List Token → Prop
  | nil : Shuffled [] []
  | tag {n as bs ts us} : Tidy n as → Reordered as bs → Shuffled ts us → Shuffled (.start n as :: ts) (.start n bs :: us)
  | same {t ts us} : Shuffled ts us → Shuffled (t :: ts) (t :: us)

/-- Files that differ in the order of attributes. -/
inductive Files : GoMap Entry → GoMap Entry → Prop
  | nil : Files [] []
  | file {f ts us fs gs} : Shuffled ts us → Files fs gs → Files ((f, .file ts) :: fs) ((f, .file us) :: gs)
  | same {e fs gs} : Files fs gs → Files (e :: fs) (e :: gs)

/-- The same state; the prefixes of the schema tag may have been entered in another order. -/
structure Same (a b : Shared) : Prop where
  prefixes : ∀ k, a.localNS.getStr k = b.localNS.getStr k
  rest : { a with localNS := b.localNS } = b

/-- The same outcome. -/
def SameOut {α : Type} : Out Shared α → Out Shared α → Prop
  | .ok a s, .ok b t => a = b ∧ Same s t
  | .err a s, .err b t => a = b ∧ Same s t
  | .halt a s, .halt b t => a = b ∧ Same s t
  | _, _ => False

/-! ## Loops over attributes -/

/-- Two attributes may be swapped. -/
def Comm {α : Type} (step : α → Attr → Go St α) (a b : Attr) : Prop :=
  ∀ x, (step x a >>= fun y => step y b) = (step x b >>= fun y => step y a)

theorem bind_assoc' {α β γ : Type} (m : Go St α) (f : α → Go St β) (g : β → Go St γ) :
    (m >>= f >>= g) = (m >>= fun x => f x >>= g) := by
  funext s
  simp only [Go.bind_apply]
  cases m s <;> rfl

theorem forAttrs_perm {α : Type} {step : α → Attr → Go St α} {as bs : List Attr} (hp : as.Perm bs)
    (hc : ∀ a ∈ as, ∀ b ∈ as, Comm step a b) : ∀ x, forAttrs step as x = forAttrs step bs x := by
  induction hp with
  | nil => intro x; rfl
  | cons a _ ih =>
    intro x
    unfold forAttrs
    congr 1
    funext y
    exact ih (fun b hb c hc' => hc b (List.mem_cons_of_mem _ hb) c (List.mem_cons_of_mem _ hc')) y
  | swap a b l =>
    intro x
    have h := hc a (by simp) b (by simp) x
    simp only [forAttrs]
    rw [← bind_assoc', ← bind_assoc', h]
  | trans h1 _ ih1 ih2 =>
    intro x
    rw [ih1 hc x]
    exact ih2 (fun a ha b hb => hc a (h1.mem_iff.2 ha) b (h1.mem_iff.2 hb)) x

theorem comm_self {α : Type} (step : α → Attr → Go St α) (a : Attr) : Comm step a a := fun _ => rfl

theorem comm_symm {α : Type} {step : α → Attr → Go St α} {a b : Attr} (h : Comm step a b) : Comm step b a :=
  fun x => (h x).symm

/-- An attribute without effects may be swapped with any other that treats the value alike. -/
theorem comm_pure {α τ : Type} {step : α → Attr → Go St α} {a b : Attr} {f : α → α} {m : Go St τ} {g : τ → α → α}
    (ha : ∀ x, step x a = pure (f x)) (hb : ∀ x, step x b = (m >>= fun t => pure (g t x)))
    (h : ∀ t x, g t (f x) = f (g t x)) : Comm step a b := by
  intro x
  funext s
  simp only [Go.bind_apply, ha, hb, Go.pure_apply]
  cases m s with
  | ok t s' => simp [h]
  | err e s' => rfl
  | halt e s' => rfl

/-- Two attributes without effects. -/
theorem comm_pure' {α : Type} {step : α → Attr → Go St α} {a b : Attr} {f g : α → α}
    (ha : ∀ x, step x a = pure (f x)) (hb : ∀ x, step x b = pure (g x)) (h : ∀ x, g (f x) = f (g x)) : Comm step a b := by
  refine comm_pure (τ := Unit) (m := pure ()) (g := fun _ => g) ha ?_ fun _ => h
  intro x
  rw [hb]
  rfl

/-- An ignored attribute may be swapped with any other. -/
theorem comm_id {α : Type} {step : α → Attr → Go St α} {a b : Attr} (ha : ∀ x, step x a = pure x) : Comm step a b := by
  intro x
  funext s
  simp only [Go.bind_apply, ha, Go.pure_apply]
  cases step x b s <;> simp [ha]

theorem eq_of_local {as : List Attr} (hd : Distinct as) {a b : Attr} (ha : a ∈ as) (hb : b ∈ as) (h : a.local = b.local) :
    a = b := by
  induction as with
  | nil => cases ha
  | cons c cs ih =>
    have hn : c.local ∉ cs.map (·.local) := by
      unfold Distinct at hd
      rw [List.map_cons, List.nodup_cons] at hd
      exact hd.1
    rcases List.mem_cons.1 ha with rfl | ha' <;> rcases List.mem_cons.1 hb with rfl | hb'
    · rfl
    · exact absurd (List.mem_map.2 ⟨b, hb', h.symm⟩) hn
    · exact absurd (List.mem_map.2 ⟨a, ha', h⟩) hn
    · exact ih hd.tail ha' hb'

/-- With distinct attributes only different ones have to be considered. -/
theorem comm_of_ne {α : Type} {step : α → Attr → Go St α} {as : List Attr} (hd : Distinct as)
    (h : ∀ a ∈ as, ∀ b ∈ as, a.local ≠ b.local → Comm step a b) : ∀ a ∈ as, ∀ b ∈ as, Comm step a b := by
  intro a ha b hb
  by_cases e : a.local = b.local
  · rw [eq_of_local hd ha hb e]
    exact comm_self _ _
  · exact h a ha b hb e

theorem attr?_isSome {as : List Attr} {a : Attr} (hd : Distinct as) (ha : a ∈ as) {n : Str} (h : a.local = n) :
    attr? as n = some a.value := h ▸ attr?_mem hd ha

/-! ## The start handlers -/

section
variable (gvt : Gvt)

/-- A tag on which only one attribute asks for a type. -/
theorem comm_mixed {α : Type} {step : α → Attr → Go St α} {as : List Attr} (hd : Distinct as) (ask : Attr → Bool)
    (f : Attr → α → α) (g : Attr → Str → α → α)
    (hf : ∀ a ∈ as, ask a = false → ∀ x, step x a = pure (f a x))
    (hg : ∀ a ∈ as, ask a = true → ∀ x, step x a = (resolve gvt a.value >>= fun t => pure (g a t x)))
    (one : ∀ a ∈ as, ∀ b ∈ as, ask a = true → ask b = true → a.local = b.local)
    (hfg : ∀ a ∈ as, ∀ b ∈ as, ask a = false → ask b = true → ∀ t x, g b t (f a x) = f a (g b t x))
    (hff : ∀ a ∈ as, ∀ b ∈ as, a.local ≠ b.local → ask a = false → ask b = false → ∀ x, f b (f a x) = f a (f b x)) :
    ∀ a ∈ as, ∀ b ∈ as, Comm step a b := by
  refine comm_of_ne hd fun a ha b hb hne => ?_
  cases h1 : ask a <;> cases h2 : ask b
  · exact comm_pure' (hf a ha h1) (hf b hb h2) (hff a ha b hb hne h1 h2)
  · exact comm_pure (hf a ha h1) (hg b hb h2) (hfg a ha b hb h1 h2)
  · exact comm_symm (comm_pure (hf b hb h2) (hg a ha h1) (hfg b hb a ha h2 h1))
  · exact absurd (one a ha b hb h1 h2) hne

/-- The attributes that ask for a type. -/
def asks (a : Attr) : Bool := a.local = c!"ref" || a.local = c!"type"

theorem not_asks {a : Attr} (h : asks a = false) : a.local ≠ c!"ref" ∧ a.local ≠ c!"type" := by
  simpa [asks] using h

theorem asks_iff {a : Attr} : asks a = true ↔ a.local = c!"ref" ∨ a.local = c!"type" := by simp [asks]

theorem noref {as : List Attr} (hd : Distinct as) (hr : RefAlone as) {c d : Attr} (hc : c ∈ as) (hd' : d ∈ as)
    (h : c.local = c!"ref") : d.local ≠ c!"name" ∧ d.local ≠ c!"type" := by
  have := hr (by rw [attr?_isSome hd hc h]; rfl)
  exact ⟨fun e => by rw [attr?_isSome hd hd' e] at this; simp at this, fun e => by rw [attr?_isSome hd hd' e] at this; simp at this⟩

theorem asks_one {as : List Attr} (hd : Distinct as) (hr : RefAlone as) :
    ∀ a ∈ as, ∀ b ∈ as, asks a = true → asks b = true → a.local = b.local := by
  intro a ha b hb h1 h2
  rcases asks_iff.1 h1 with h1 | h1 <;> rcases asks_iff.1 h2 with h2 | h2
  · exact h1.trans h2.symm
  · exact absurd h2 (noref hd hr ha hb h1).2
  · exact absurd h1 (noref hd hr hb ha h2).2
  · exact h1.trans h2.symm

theorem maxOccurs_legal {v : Str} (h : Occurs.Legal v) : maxOccursPlural v = some (many v) := by
  rw [← Occurs.legal_iff] at h
  have hmany : many v = decide (maxOccursPlural v = some true) := decide_eq_decide.2 (Occurs.many_iff v).symm
  rw [hmany]
  cases hm : maxOccursPlural v with
  | none => exact absurd hm h
  | some b => cases b <;> rfl

/-! ### Elements -/

/-- Whether an attribute makes its element plural. -/
def pluralBy (a : Attr) : Bool :=
  if a.local = c!"maxOccurs" then many a.value
  else if a.local = c!"unbounded" then decide (a.value ≠ c!"0")
  else false

/-- What an attribute of an element sets without asking for a type. -/
def elemSet (a : Attr) (e : Element) : Element :=
  if a.local = c!"name" then { e with name := a.value } else { e with plural := e.plural || pluralBy a }

/-- What an attribute of an element sets after asking for a type. -/
def elemGet (a : Attr) (t : Str) (e : Element) : Element :=
  if a.local = c!"ref" then { e with name := a.value, type := t } else { e with type := t }

theorem elem_pure {a : Attr} (h : asks a = false) (ho : a.local = c!"maxOccurs" → Occurs.Legal a.value) (e : Element) :
    onElementAttr gvt e a = pure (elemSet a e) := by
  obtain ⟨hr, ht⟩ := not_asks h
  unfold onElementAttr elemSet pluralBy
  rw [if_neg hr]
  by_cases hn : a.local = c!"name"
  · rw [if_pos hn, if_pos hn]
  rw [if_neg hn, if_neg ht, if_neg hn]
  by_cases hm : a.local = c!"maxOccurs"
  · rw [if_pos hm, if_pos hm, maxOccurs_legal (ho hm)]
    cases hv : many a.value <;> simp
  rw [if_neg hm, if_neg hm]
  by_cases hu : a.local = c!"unbounded"
  · rw [if_pos hu, if_pos hu]
    by_cases h0 : a.value = c!"0" <;> simp [h0]
  · rw [if_neg hu, if_neg hu]
    simp

theorem elem_ask {a : Attr} (h : asks a = true) (e : Element) :
    onElementAttr gvt e a = (resolve gvt a.value >>= fun t => pure (elemGet a t e)) := by
  unfold onElementAttr elemGet
  rcases asks_iff.1 h with h | h
  · rw [if_pos h]
    simp only [if_pos h]
  · have h1 : a.local ≠ c!"ref" := by rw [h]; decide
    have h2 : a.local ≠ c!"name" := by rw [h]; decide
    rw [if_neg h1, if_neg h2, if_pos h]
    simp only [if_neg h1]

theorem elem_comm {as : List Attr} (hd : Distinct as) (hr : RefAlone as) (ho : OccursOk as) :
    ∀ a ∈ as, ∀ b ∈ as, Comm (onElementAttr gvt) a b := by
  refine comm_mixed gvt hd asks elemSet elemGet
    (fun a ha h => elem_pure gvt h fun e => ho _ (attr?_isSome hd ha e)) (fun a _ h => elem_ask gvt h) (asks_one hd hr) ?_ ?_
  · intro a ha b hb _ h2 t e
    unfold elemGet elemSet
    by_cases h3 : b.local = c!"ref"
    · simp only [if_pos h3, if_neg (noref hd hr hb ha h3).1]
    · simp only [if_neg h3]
      split <;> rfl
  · intro a ha b hb hne _ _ e
    unfold elemSet
    by_cases a1 : a.local = c!"name"
    · have b1 : b.local ≠ c!"name" := fun h => hne (a1.trans h.symm)
      simp only [if_pos a1, if_neg b1]
    · simp only [if_neg a1]
      split
      · rfl
      · rw [Bool.or_right_comm]

theorem onElement_perm {as bs : List Attr} (hp : as.Perm bs) (hd : Distinct as) (hr : RefAlone as) (ho : OccursOk as) :
    onElement gvt as = onElement gvt bs := by
  unfold onElement
  rw [forAttrs_perm hp (elem_comm gvt hd hr ho)]

/-! ### Attributes -/

/-- What an attribute of an attribute declaration sets without asking for a type. -/
def attrSet (a : Attr) (x : Attribute) : Attribute :=
  if a.local = c!"name" then { x with name := a.value }
  else if a.local = c!"use" then if a.value = c!"required" then { x with optional := false } else x
  else x

/-- What an attribute of an attribute declaration sets after asking for a type. -/
def attrGet (a : Attr) (t : Str) (x : Attribute) : Attribute :=
  if a.local = c!"ref" then { x with name := a.value, type := t } else { x with type := t }

theorem attr_comm {as : List Attr} (hd : Distinct as) (hr : RefAlone as) :
    ∀ a ∈ as, ∀ b ∈ as, Comm (onAttributeAttr gvt) a b := by
  refine comm_mixed gvt hd asks attrSet attrGet ?_ ?_ (asks_one hd hr) ?_ ?_
  · intro a _ h x
    obtain ⟨h1, h2⟩ := not_asks h
    unfold onAttributeAttr attrSet
    rw [if_neg h1]
    by_cases hn : a.local = c!"name"
    · rw [if_pos hn, if_pos hn]
    rw [if_neg hn, if_neg h2, if_neg hn]
    by_cases hu : a.local = c!"use"
    · rw [if_pos hu, if_pos hu]
    · rw [if_neg hu, if_neg hu]
  · intro a _ h x
    unfold onAttributeAttr attrGet
    rcases asks_iff.1 h with h | h
    · rw [if_pos h]
      simp only [if_pos h]
    · have h1 : a.local ≠ c!"ref" := by rw [h]; decide
      have h2 : a.local ≠ c!"name" := by rw [h]; decide
      rw [if_neg h1, if_neg h2, if_pos h]
      simp only [if_neg h1]
  · intro a ha b hb _ h2 t e
    unfold attrGet attrSet
    by_cases h3 : b.local = c!"ref"
    · simp only [if_pos h3, if_neg (noref hd hr hb ha h3).1]
      split
      · split <;> rfl
      · rfl
    · simp only [if_neg h3]
      split
      · rfl
      split
      · split <;> rfl
      · rfl
  · intro a ha b hb hne _ _ e
    unfold attrSet
    by_cases a1 : a.local = c!"name"
    · have b1 : b.local ≠ c!"name" := fun h => hne (a1.trans h.symm)
      simp only [if_pos a1, if_neg b1]
      split
      · split <;> rfl
      · rfl
    · simp only [if_neg a1]
      by_cases b1 : b.local = c!"name"
      · simp only [if_pos b1]
        split
        · split <;> rfl
        · rfl
      · simp only [if_neg b1]
        by_cases a2 : a.local = c!"use"
        · have b2 : b.local ≠ c!"use" := fun h => hne (a2.trans h.symm)
          simp only [if_neg b2]
        · simp only [if_neg a2]

theorem onAttribute_perm {as bs : List Attr} (hp : as.Perm bs) (hd : Distinct as) (hr : RefAlone as) :
    onAttribute gvt as = onAttribute gvt bs := by
  unfold onAttribute
  rw [forAttrs_perm hp (attr_comm gvt hd hr)]

/-! ### Groups and attribute groups -/

/-- The attribute of a reference. -/
def isRef (a : Attr) : Bool := a.local = c!"ref"

theorem isRef_one {as : List Attr} : ∀ a ∈ as, ∀ b ∈ as, isRef a = true → isRef b = true → a.local = b.local := by
  intro a _ b _ h1 h2
  simp only [isRef, decide_eq_true_eq] at h1 h2
  exact h1.trans h2.symm

theorem ag_comm {as : List Attr} (hd : Distinct as) (hr : RefAlone as) :
    ∀ a ∈ as, ∀ b ∈ as, Comm (onAttributeGroupAttr gvt) a b := by
  refine comm_mixed gvt hd isRef (fun a x => if a.local = c!"name" then { x with name := a.value } else x)
    (fun a t x => { x with name := a.value, ref := t }) ?_ ?_ isRef_one ?_ ?_
  · intro a _ h x
    simp only [isRef, decide_eq_false_iff_not] at h
    unfold onAttributeGroupAttr
    by_cases hn : a.local = c!"name"
    · rw [if_pos hn, if_pos hn]
    · rw [if_neg hn, if_neg hn, if_neg h]
  · intro a _ h x
    simp only [isRef, decide_eq_true_eq] at h
    unfold onAttributeGroupAttr
    rw [if_neg (by rw [h]; decide), if_pos h]
  · intro a ha b hb _ h2 t x
    simp only [isRef, decide_eq_true_eq] at h2
    simp only [if_neg (noref hd hr hb ha h2).1]
  · intro a ha b hb hne _ _ x
    by_cases a1 : a.local = c!"name"
    · have b1 : b.local ≠ c!"name" := fun h => hne (a1.trans h.symm)
      simp only [if_neg b1]
    · simp only [if_neg a1]

theorem onAttributeGroup_perm {as bs : List Attr} (hp : as.Perm bs) (hd : Distinct as) (hr : RefAlone as) :
    onAttributeGroup gvt as = onAttributeGroup gvt bs := by
  unfold onAttributeGroup
  rw [forAttrs_perm hp (ag_comm gvt hd hr)]

/-- What an attribute of a group sets without asking for a type. -/
def groupSet (a : Attr) (g : GroupRef) : GroupRef :=
  if a.local = c!"name" then { g with name := a.value }
  else { g with plural := g.plural || (decide (a.local = c!"maxOccurs") && decide (a.value ≠ c!"0")) }

theorem group_comm {as : List Attr} (hd : Distinct as) (hr : RefAlone as) :
    ∀ a ∈ as, ∀ b ∈ as, Comm (onGroupAttr gvt) a b := by
  refine comm_mixed gvt hd isRef groupSet (fun a t x => { x with name := a.value, ref := t }) ?_ ?_ isRef_one ?_ ?_
  · intro a _ h x
    simp only [isRef, decide_eq_false_iff_not] at h
    unfold onGroupAttr groupSet
    by_cases hn : a.local = c!"name"
    · rw [if_pos hn, if_pos hn]
    rw [if_neg hn, if_neg hn, if_neg h]
    by_cases hm : a.local = c!"maxOccurs"
    · rw [if_pos hm]
      by_cases h0 : a.value = c!"0" <;> simp [h0, hm]
    · rw [if_neg hm]
      simp [hm]
  · intro a _ h x
    simp only [isRef, decide_eq_true_eq] at h
    unfold onGroupAttr
    rw [if_neg (by rw [h]; decide), if_pos h]
  · intro a ha b hb _ h2 t x
    simp only [isRef, decide_eq_true_eq] at h2
    simp only [groupSet, if_neg (noref hd hr hb ha h2).1]
  · intro a ha b hb hne _ _ x
    unfold groupSet
    by_cases a1 : a.local = c!"name"
    · have b1 : b.local ≠ c!"name" := fun h => hne (a1.trans h.symm)
      simp only [if_pos a1, if_neg b1]
    · simp only [if_neg a1]
      split
      · rfl
      · rw [Bool.or_right_comm]

theorem onGroup_perm {as bs : List Attr} (hp : as.Perm bs) (hd : Distinct as) (hr : RefAlone as) :
    onGroup gvt as = onGroup gvt bs := by
  unfold onGroup
  rw [forAttrs_perm hp (group_comm gvt hd hr)]

/-! ### Tags with one attribute of interest -/

/-- A tag of which only the attribute `n` is read. -/
theorem single_comm {α : Type} {step : α → Attr → Go St α} {as : List Attr} (hd : Distinct as) (n : Str)
    (h : ∀ a : Attr, a.local ≠ n → ∀ x, step x a = pure x) : ∀ a ∈ as, ∀ b ∈ as, Comm step a b := by
  refine comm_of_ne hd fun a _ b _ hne => ?_
  by_cases ha : a.local = n
  · exact comm_symm (comm_id (h b fun e => hne (ha.trans e.symm)))
  · exact comm_id (h a ha)

theorem onChoice_perm {as bs : List Attr} (hp : as.Perm bs) (hd : Distinct as) : onChoice as = onChoice bs := by
  unfold onChoice
  rw [forAttrs_perm hp (single_comm hd c!"maxOccurs" fun a h x => by unfold onChoiceAttr; rw [if_neg h])]

theorem onExtension_perm {as bs : List Attr} (hp : as.Perm bs) (hd : Distinct as) : onExtension gvt as = onExtension gvt bs := by
  unfold onExtension
  exact forAttrs_perm hp (single_comm hd c!"base" fun a h x => by unfold onExtensionAttr; rw [if_neg h]) ()

theorem onRestriction_perm {as bs : List Attr} (hp : as.Perm bs) (hd : Distinct as) :
    onRestriction gvt as = onRestriction gvt bs := by
  unfold onRestriction
  exact forAttrs_perm hp (single_comm hd c!"base" fun a h x => by unfold onRestrictionAttr; rw [if_neg h]) ()

theorem onList_perm {as bs : List Attr} (hp : as.Perm bs) (hd : Distinct as) : onList gvt as = onList gvt bs := by
  unfold onList
  rw [forAttrs_perm hp (single_comm hd c!"itemType" fun a h x => by unfold onListAttr; rw [if_neg h]) ()]

theorem onUnion_perm {as bs : List Attr} (hp : as.Perm bs) (hd : Distinct as) : onUnion gvt as = onUnion gvt bs := by
  unfold onUnion
  rw [forAttrs_perm hp (single_comm hd c!"memberTypes" fun a h x => by unfold onUnionAttr; rw [if_neg h]) ()]

/-- The same for a fold. -/
theorem foldl_single {β : Type} {f : β → Attr → β} {as bs : List Attr} (hp : as.Perm bs) (hd : Distinct as) (n : Str)
    (h : ∀ x (a : Attr), a.local ≠ n → f x a = x) (x : β) : as.foldl f x = bs.foldl f x := by
  refine hp.foldl_eq' (fun a ha b hb z => ?_) x
  by_cases e : a.local = b.local
  · rw [eq_of_local hd ha hb e]
  by_cases e1 : a.local = n
  · have e2 : b.local ≠ n := fun h => e (e1.trans h.symm)
    rw [h _ b e2, h _ b e2]
  · rw [h _ a e1, h _ a e1]

theorem lastNamed_perm {as bs : List Attr} (hp : as.Perm bs) (hd : Distinct as) (n init : Str) :
    lastNamed n as init = lastNamed n bs init :=
  foldl_single hp hd n (fun x a h => if_neg h) init

theorem onComplexType_perm {as bs : List Attr} (hp : as.Perm bs) (hd : Distinct as) : onComplexType as = onComplexType bs := by
  unfold onComplexType onComplexType?
  rw [lastNamed_perm hp hd]

theorem onSimpleType_perm {as bs : List Attr} (hp : as.Perm bs) (hd : Distinct as) : onSimpleType as = onSimpleType bs := by
  unfold onSimpleType
  funext p
  simp only [lastNamed_perm hp hd]

theorem onEnumeration_perm {as bs : List Attr} (hp : as.Perm bs) (hd : Distinct as) : onEnumeration as = onEnumeration bs := by
  funext p
  exact foldl_single hp hd c!"value" (fun x a h => if_neg h) p

theorem onInclude_perm {as bs : List Attr} (hp : as.Perm bs) (hd : Distinct as) : onInclude as = onInclude bs := by
  funext sh
  exact foldl_single hp hd c!"schemaLocation" (fun x a h => if_neg h) sh

theorem onImport_kept (isURL : Str → Bool) {as bs : List Attr} (h : as.filter isImport = bs.filter isImport) :
    onImport isURL as = onImport isURL bs := by
  have key : ∀ cs : List Attr, ∀ acc, cs.foldl (onImportAttr isURL) acc = (cs.filter isImport).foldl (onImportAttr isURL) acc := by
    intro cs
    induction cs with
    | nil => intro acc; rfl
    | cons c cs ih =>
      intro acc
      by_cases hc : isImport c = true
      · rw [List.filter_cons_of_pos hc, List.foldl_cons, List.foldl_cons, ih]
      · rw [List.filter_cons_of_neg hc, List.foldl_cons, ih]
        congr 1
        simp only [isImport, Bool.or_eq_true, decide_eq_true_eq, not_or] at hc
        unfold onImportAttr
        rw [if_neg hc.1, if_neg hc.2]
  funext sh
  unfold onImport
  rw [key as, key bs, h]

end

/-! ## Prefixes in another order

The schema tag enters its prefixes in the order of its attributes; only their values are ever looked up. -/

/-- The same parser state, and the same shared state up to the order of prefixes. -/
def Alike (s t : St) : Prop := s.p = t.p ∧ Same s.sh t.sh

/-- The same results in alike states. -/
def OutAlike {α : Type} : Out St α → Out St α → Prop
  | .ok a s, .ok b t => a = b ∧ Alike s t
  | .err a s, .err b t => a = b ∧ Alike s t
  | .halt a s, .halt b t => a = b ∧ Alike s t
  | _, _ => False

/-- Alike states lead to the same results. -/
def Resp {α : Type} (m m' : Go St α) : Prop := ∀ s t, Alike s t → OutAlike (m s) (m' t)

theorem Same.refl (a : Shared) : Same a a := ⟨fun _ => rfl, rfl⟩

theorem resp_pure {α : Type} (a : α) : Resp (pure a) (pure a) := fun _ _ h => ⟨rfl, h⟩

theorem resp_throw {α : Type} (e : Err) : Resp (Go.throw e : Go St α) (Go.throw e) := fun _ _ h => ⟨rfl, h⟩

theorem resp_throwOpt (e : Option Err) : Resp (Go.throwOpt e) (Go.throwOpt e) := by
  cases e with
  | none => exact resp_pure ()
  | some e => exact resp_throw e

theorem resp_bind {α β : Type} {m m' : Go St α} {f f' : α → Go St β} (h : Resp m m') (hf : ∀ a, Resp (f a) (f' a)) :
    Resp (m >>= f) (m' >>= f') := by
  intro s t hs
  have h1 := h s t hs
  simp only [Go.bind_apply]
  revert h1
  cases m s <;> cases m' t <;> intro h1
  case ok.ok a s' b t' => obtain ⟨rfl, h2⟩ := h1; exact hf a s' t' h2
  all_goals first | exact h1 | exact h1.elim

theorem resp_onP (f : PState → PState) : Resp (onP f) (onP f) := by
  rintro ⟨sh, p⟩ ⟨sh', p'⟩ ⟨h1, h2⟩
  have h1 : p = p' := h1
  subst h1
  exact ⟨rfl, rfl, h2⟩

/-- A computation that looks at the parser state. -/
theorem resp_state {α : Type} {m m' : Go St α} (h : ∀ p sh sh', Same sh sh' → OutAlike (m ⟨sh, p⟩) (m' ⟨sh', p⟩)) :
    Resp m m' := by
  rintro ⟨sh, p⟩ ⟨sh', p'⟩ ⟨h1, h2⟩
  have h1 : p = p' := h1
  subst h1
  exact h p sh sh' h2

theorem resp_at {α : Type} {m m' : Go St α} (h : Resp m m') (p : PState) {sh sh' : Shared} (hs : Same sh sh') :
    OutAlike (m ⟨sh, p⟩) (m' ⟨sh', p⟩) := h _ _ ⟨rfl, hs⟩

theorem resp_forAttrs {α : Type} {f f' : α → Attr → Go St α} (h : ∀ x a, Resp (f x a) (f' x a)) (as : List Attr) :
    ∀ x, Resp (forAttrs f as x) (forAttrs f' as x) := by
  induction as with
  | nil => exact fun x => resp_pure x
  | cons a as ih => exact fun x => resp_bind (h x a) ih

section
variable {gvt gvt' : Gvt} (hg : ∀ v, Resp (gvt v) (gvt' v))
include hg

theorem resp_resolve (v : Str) : Resp (resolve gvt v) (resolve gvt' v) :=
  resp_bind (hg v) fun r => resp_bind (resp_throwOpt r.2) fun _ => resp_pure r.1

theorem resp_assign (v : Str) (set : Str → PState → PState) : Resp (assignType gvt v set) (assignType gvt' v set) :=
  resp_bind (hg v) fun r => resp_bind (resp_onP _) fun _ => resp_throwOpt r.2

theorem resp_onAttribute (as : List Attr) : Resp (onAttribute gvt as) (onAttribute gvt' as) := by
  refine resp_bind (resp_forAttrs (fun x a => ?_) as _) fun _ => resp_onP _
  unfold onAttributeAttr
  split
  · exact resp_bind (resp_resolve hg _) fun _ => resp_pure _
  split
  · exact resp_pure _
  split
  · exact resp_bind (resp_resolve hg _) fun _ => resp_pure _
  split <;> exact resp_pure _

theorem resp_onAttributeGroup (as : List Attr) : Resp (onAttributeGroup gvt as) (onAttributeGroup gvt' as) := by
  refine resp_bind (resp_forAttrs (fun x a => ?_) as _) fun _ => resp_onP _
  unfold onAttributeGroupAttr
  split
  · exact resp_pure _
  split
  · exact resp_bind (resp_resolve hg _) fun _ => resp_pure _
  · exact resp_pure _

theorem resp_onElement (as : List Attr) : Resp (onElement gvt as) (onElement gvt' as) := by
  refine resp_bind (resp_forAttrs (fun x a => ?_) as _) fun e => ?_
  · unfold onElementAttr
    split
    · exact resp_bind (resp_resolve hg _) fun _ => resp_pure _
    split
    · exact resp_pure _
    split
    · exact resp_bind (resp_resolve hg _) fun _ => resp_pure _
    split
    · split
      · exact resp_throw _
      · exact resp_pure _
    split <;> exact resp_pure _
  · split
    · exact resp_bind (resp_resolve hg _) fun _ => resp_onP _
    · exact resp_onP _

theorem resp_onGroup (as : List Attr) : Resp (onGroup gvt as) (onGroup gvt' as) := by
  refine resp_bind (resp_forAttrs (fun x a => ?_) as _) fun g => resp_state fun p sh sh' hs => ?_
  · unfold onGroupAttr
    split
    · exact resp_pure _
    split
    · exact resp_bind (resp_resolve hg _) fun _ => resp_pure _
    split <;> exact resp_pure _
  · dsimp only
    split
    · exact ⟨rfl, rfl, hs⟩
    · exact ⟨rfl, rfl, hs⟩

theorem resp_onExtension (as : List Attr) : Resp (onExtension gvt as) (onExtension gvt' as) := by
  refine resp_forAttrs (fun x a => ?_) as _
  unfold onExtensionAttr
  split
  · refine resp_bind (resp_resolve hg _) fun t => resp_state fun p sh sh' hs => ?_
    dsimp only
    split
    · exact ⟨rfl, rfl, hs⟩
    · exact resp_at (resp_bind (resp_assign hg _ _) fun _ => resp_onP _) p hs
  · exact resp_pure _

theorem resp_onRestriction (as : List Attr) : Resp (onRestriction gvt as) (onRestriction gvt' as) := by
  refine resp_forAttrs (fun x a => ?_) as _
  unfold onRestrictionAttr
  split
  · refine resp_bind (resp_resolve hg _) fun t => resp_state fun p sh sh' hs => ?_
    dsimp only
    split
    · exact ⟨rfl, rfl, hs⟩
    · exact resp_at (resp_bind (resp_assign hg _ _) fun _ => resp_onP _) p hs
  · exact resp_pure _

theorem resp_onList (as : List Attr) : Resp (onList gvt as) (onList gvt' as) := by
  refine resp_state fun p sh sh' hs => ?_
  unfold onList
  dsimp only
  split
  · exact ⟨rfl, rfl, hs⟩
  · refine resp_at (resp_bind (resp_onP _) fun _ => resp_forAttrs (fun x a => ?_) as _) p hs
    unfold onListAttr
    split
    · exact resp_assign hg _ _
    · exact resp_pure _

theorem resp_addMembers (ms : List Str) : Resp (addMembers gvt ms) (addMembers gvt' ms) := by
  induction ms with
  | nil => exact resp_pure _
  | cons m ms ih => exact resp_bind (resp_assign hg _ _) fun _ => ih

theorem resp_onUnion (as : List Attr) : Resp (onUnion gvt as) (onUnion gvt' as) := by
  refine resp_state fun p sh sh' hs => ?_
  unfold onUnion
  dsimp only
  split
  · exact ⟨rfl, rfl, hs⟩
  · refine resp_at (resp_bind (resp_onP _) fun _ => resp_forAttrs (fun x a => ?_) as _) _ hs
    unfold onUnionAttr
    split
    · exact resp_addMembers hg _
    · exact resp_pure _

theorem resp_popToAttribute : Resp (popToAttribute gvt) (popToAttribute gvt') := by
  refine resp_state fun p sh sh' hs => ?_
  unfold popToAttribute
  dsimp only
  split
  · exact resp_at (resp_bind (resp_onP _) fun _ => resp_bind (resp_assign hg _ _) fun _ => resp_onP _) p hs
  · exact ⟨rfl, rfl, hs⟩

theorem resp_facetEnd : Resp (facetEnd gvt) (facetEnd gvt') := by
  refine resp_state fun p sh sh' hs => ?_
  unfold facetEnd
  dsimp only
  split
  · exact resp_at (resp_bind (resp_onP _) fun _ => resp_bind (resp_assign hg _ _) fun _ => resp_onP _) p hs
  · exact ⟨rfl, rfl, hs⟩

theorem resp_endEnumeration : Resp (endEnumeration gvt) (endEnumeration gvt') := by
  refine resp_bind (resp_state fun p sh sh' hs => ?_) fun _ => resp_state fun p sh sh' hs => ?_
  · unfold enumAttribute
    dsimp only
    split
    · exact resp_at (resp_bind (resp_assign hg _ _) fun _ => resp_onP _) p hs
    · exact ⟨rfl, rfl, hs⟩
  · unfold enumElement
    dsimp only
    split
    · exact resp_at (resp_bind (resp_assign hg _ _) fun _ => resp_onP _) p hs
    · exact ⟨rfl, rfl, hs⟩

theorem resp_callEnd [Uni] (n : Str) (k : EndKind) : Resp (callEnd gvt n k) (callEnd gvt' n k) := by
  cases k with
  | enumeration => exact resp_endEnumeration hg
  | extension => exact resp_popToAttribute hg
  | facet => exact resp_facetEnd hg
  | pattern => exact resp_bind (resp_popToAttribute hg) fun _ => resp_facetEnd hg
  | restriction => exact resp_bind (resp_popToAttribute hg) fun _ => resp_onP _
  | _ => exact resp_onP _

end

/-! ### The schema tag -/

theorem onSchema_rest (as : List Attr) : ∀ (sh : Shared) (m : GoMap Str), { onSchema as sh with localNS := m } = { sh with localNS := m } := by
  induction as with
  | nil => exact fun _ _ => rfl
  | cons a as ih =>
    intro sh m
    unfold onSchema at ih ⊢
    rw [List.foldl_cons, ih]
    split <;> rfl

theorem onSchema_other (k : Str) (as : List Attr) (h : ∀ a ∈ as, a.space = c!"xmlns" → a.local ≠ k) :
    ∀ sh, (onSchema as sh).localNS.getStr k = sh.localNS.getStr k := by
  induction as with
  | nil => exact fun _ => rfl
  | cons a as ih =>
    intro sh
    have ih := ih fun b hb => h b (List.mem_cons_of_mem _ hb)
    unfold onSchema at ih ⊢
    rw [List.foldl_cons, ih]
    split
    · rename_i hx
      simp only [GoMap.getStr, GoMap.get?_set_ne _ (h a (by simp) hx).symm]
    · rfl

theorem onSchema_value (as : List Attr) (hd : (as.map fun a => (a.space, a.local)).Nodup) (a : Attr) (ha : a ∈ as)
    (hx : a.space = c!"xmlns") : ∀ sh, (onSchema as sh).localNS.getStr a.local = a.value := by
  induction as with
  | nil => cases ha
  | cons b bs ih =>
    intro sh
    rw [List.map_cons, List.nodup_cons] at hd
    have step : onSchema (b :: bs) sh =
        onSchema bs (if b.space = c!"xmlns" then { sh with localNS := sh.localNS.set b.local b.value } else sh) := rfl
    rw [step]
    rcases List.mem_cons.1 ha with rfl | hb
    · rw [onSchema_other, if_pos hx]
      · simp only [GoMap.getStr, GoMap.get?_set_self, Option.getD_some]
      · intro c hc h1 h2
        exact hd.1 (List.mem_map.2 ⟨c, hc, by rw [h1, h2, hx]⟩)
    · exact ih hd.2 hb _

theorem onSchema_same {as bs : List Attr} (hp : as.Perm bs) (hd : (as.map fun a => (a.space, a.local)).Nodup) {sh sh' : Shared}
    (h : Same sh sh') : Same (onSchema as sh) (onSchema bs sh') := by
  refine ⟨fun k => ?_, ?_⟩
  · by_cases hk : ∃ a ∈ as, a.space = c!"xmlns" ∧ a.local = k
    · obtain ⟨a, ha, hx, rfl⟩ := hk
      rw [onSchema_value as hd a ha hx, onSchema_value bs ((hp.map _).nodup_iff.1 hd) a (hp.mem_iff.1 ha) hx]
    · rw [onSchema_other k as (fun a ha hx hl => hk ⟨a, ha, hx, hl⟩),
        onSchema_other k bs (fun a ha hx hl => hk ⟨a, hp.mem_iff.2 ha, hx, hl⟩), h.prefixes]
  · have e := h.rest
    rw [onSchema_rest]
    calc { sh with localNS := (onSchema bs sh').localNS }
        = { ({ sh with localNS := sh'.localNS } : Shared) with localNS := (onSchema bs sh').localNS } := rfl
      _ = { sh' with localNS := (onSchema bs sh').localNS } := by rw [e]
      _ = { onSchema bs sh' with localNS := (onSchema bs sh').localNS } := (onSchema_rest bs sh' _).symm
      _ = onSchema bs sh' := rfl

theorem onSchema_alike (as : List Attr) : ∀ {sh sh' : Shared}, Same sh sh' → Same (onSchema as sh) (onSchema as sh') := by
  induction as with
  | nil => exact fun h => h
  | cons a as ih =>
    intro sh sh' h
    unfold onSchema at ih ⊢
    rw [List.foldl_cons, List.foldl_cons]
    split
    · refine ih ⟨fun k => ?_, ?_⟩
      · have e := h.prefixes k
        simp only [GoMap.getStr] at e ⊢
        by_cases hk : k = a.local
        · subst hk
          simp only [GoMap.get?_set_self]
        · simp only [GoMap.get?_set_ne _ hk]
          exact e
      · exact congrArg (fun x : Shared => { x with localNS := sh'.localNS.set a.local a.value }) h.rest
    · exact ih h

theorem pairs_nodup {as : List Attr} (h : Distinct as) : (as.map fun a => (a.space, a.local)).Nodup := by
  unfold Distinct at h
  induction as with
  | nil => exact List.nodup_nil
  | cons a as ih =>
    rw [List.map_cons, List.nodup_cons] at h ⊢
    refine ⟨fun hm => h.1 ?_, ih h.2⟩
    obtain ⟨b, hb, e⟩ := List.mem_map.1 hm
    exact List.mem_map.2 ⟨b, hb, (Prod.mk.inj e).2⟩

/-! ### One token -/

variable [Uni] [UniLaws]

omit [UniLaws] in
theorem onImport_same (isURL : Str → Bool) (as : List Attr) {sh sh' : Shared} (h : Same sh sh') :
    Same (onImport isURL as sh) (onImport isURL as sh') := by
  unfold onImport
  suffices key : ∀ (ns : Str) (sh sh' : Shared), Same sh sh' →
      Same (as.foldl (onImportAttr isURL) (ns, sh)).2 (as.foldl (onImportAttr isURL) (ns, sh')).2 from key [] sh sh' h
  clear h
  induction as with
  | nil => exact fun _ _ _ h => h
  | cons a as ih =>
    intro ns sh sh' h
    rw [List.foldl_cons, List.foldl_cons]
    have hn : sh.nsLoc = sh'.nsLoc := by
      have e := congrArg Shared.nsLoc h.rest
      exact e
    unfold onImportAttr
    split
    · exact ih _ _ _ h
    split
    · dsimp only
      rw [hn]
      split
      · exact ih _ _ _ h
      split
      · exact ih _ _ _ h
      · refine ih _ _ _ ⟨h.prefixes, ?_⟩
        have e := h.rest
        exact congrArg (fun x : Shared => { x with nsLoc := sh'.nsLoc.set ns a.value }) e
    · exact ih _ _ _ h

omit [Uni] [UniLaws] in
theorem onInclude_same (as : List Attr) : ∀ {sh sh' : Shared}, Same sh sh' → Same (onInclude as sh) (onInclude as sh') := by
  induction as with
  | nil => exact fun h => h
  | cons a as ih =>
    intro sh sh' h
    unfold onInclude at ih ⊢
    rw [List.foldl_cons, List.foldl_cons]
    have hn : sh.includeMap = sh'.includeMap := by
      have e := congrArg Shared.includeMap h.rest
      exact e
    split
    · rw [hn]
      split
      · exact ih h
      · exact ih ⟨h.prefixes, congrArg (fun x : Shared => { x with includeMap := sh'.includeMap.set a.value true }) h.rest⟩
    · exact ih h

omit [Uni] [UniLaws] in
theorem resp_onSh {f g : Shared → Shared} (h : ∀ sh sh', Same sh sh' → Same (f sh) (g sh')) : Resp (onSh f) (onSh g) :=
  resp_state fun _ _ _ hs => ⟨rfl, rfl, h _ _ hs⟩

omit [Uni] [UniLaws] in
theorem resp_onComplexType (as : List Attr) : Resp (onComplexType as) (onComplexType as) := by
  refine resp_state fun p sh sh' hs => ?_
  unfold onComplexType
  dsimp only
  split
  · exact ⟨rfl, rfl, hs⟩
  · exact ⟨rfl, rfl, hs⟩

omit [Uni] [UniLaws] in
theorem resp_onChoice (as : List Attr) : Resp (onChoice as) (onChoice as) := by
  refine resp_bind (resp_forAttrs (fun x a => ?_) as _) fun _ => resp_onP _
  unfold onChoiceAttr
  split
  · split
    · exact resp_throw _
    · exact resp_pure _
  · exact resp_pure _

variable {W : World} {fs' : GoMap Entry} {gvt gvt' : Gvt} (hg : ∀ v, Resp (gvt v) (gvt' v))
include hg

/-- The call of a start handler on the same attributes. -/
theorem resp_callOn (as : List Attr) (k : OnKind) : Resp (callOn W gvt as k) (callOn { W with fs := fs' } gvt' as k) := by
  cases k with
  | «attribute» => exact resp_onAttribute hg as
  | attributeGroup => exact resp_onAttributeGroup hg as
  | charData => exact fun _ _ h => ⟨rfl, h⟩
  | choice => exact resp_onChoice as
  | complexType => exact resp_onComplexType as
  | element => exact resp_onElement hg as
  | enumeration => exact resp_onP _
  | extension => exact resp_onExtension hg as
  | group => exact resp_onGroup hg as
  | «import» => exact resp_onSh fun _ _ h => onImport_same _ as h
  | «include» => exact resp_onSh fun _ _ h => onInclude_same as h
  | list => exact resp_onList hg as
  | restriction => exact resp_onRestriction hg as
  | schema => exact resp_onSh fun _ _ h => onSchema_alike as h
  | simpleType => exact resp_onP _
  | union => exact resp_onUnion hg as

omit hg in
/-- A start handler on reordered attributes. -/
theorem callOn_reordered {n : Str} {k : OnKind} (hk : onKind n = some k) {as bs : List Attr} (ht : Tidy n as)
    (hr : Reordered as bs) (hs : k ≠ .schema) : callOn W gvt as k = callOn W gvt bs k := by
  have hd : Distinct as := by
    rcases ht.distinct with h | ⟨rfl, -⟩
    · exact h
    · rw [onKind_schema] at hk
      cases hk
      exact absurd rfl hs
  cases k with
  | «attribute» => exact onAttribute_perm gvt hr.perm hd ht.alone
  | attributeGroup => exact onAttributeGroup_perm gvt hr.perm hd ht.alone
  | charData => rfl
  | choice => exact onChoice_perm hr.perm hd
  | complexType => exact onComplexType_perm hr.perm hd
  | element => exact onElement_perm gvt hr.perm hd ht.alone ht.occurs
  | enumeration => exact congrArg onP (onEnumeration_perm hr.perm hd)
  | extension => exact onExtension_perm gvt hr.perm hd
  | group => exact onGroup_perm gvt hr.perm hd ht.alone
  | «import» => exact congrArg onSh (onImport_kept _ hr.kept)
  | «include» => exact congrArg onSh (onInclude_perm hr.perm hd)
  | list => exact onList_perm gvt hr.perm hd
  | restriction => exact onRestriction_perm gvt hr.perm hd
  | schema => exact absurd rfl hs
  | simpleType => exact congrArg onP (onSimpleType_perm hr.perm hd)
  | union => exact onUnion_perm gvt hr.perm hd

theorem resp_tag {n : Str} {as bs : List Attr} (ht : Tidy n as) (hr : Reordered as bs) :
    Resp (step W gvt (.start n as)) (step { W with fs := fs' } gvt' (.start n bs)) := by
  refine resp_bind (resp_onP _) fun _ => ?_
  cases hk : onKind n with
  | none => exact resp_pure _
  | some k =>
    dsimp only
    by_cases hs : k = .schema
    · subst hs
      refine resp_onSh fun sh sh' h => onSchema_same hr.perm ?_ h
      rcases ht.distinct with h | ⟨-, h⟩
      · exact pairs_nodup h
      · exact h
    · rw [callOn_reordered hk ht hr hs]
      exact resp_callOn hg bs k

theorem resp_step (t : Token) : Resp (step W gvt t) (step { W with fs := fs' } gvt' t) := by
  cases t with
  | start n as =>
    refine resp_bind (resp_onP _) fun _ => ?_
    cases onKind n with
    | none => exact resp_pure _
    | some k => exact resp_callOn hg as k
  | stop n =>
    unfold step
    dsimp only
    cases endKind n with
    | none => exact resp_pure _
    | some k => exact resp_callEnd hg n k
  | text x => exact resp_onP _
  | other => exact resp_pure _

theorem resp_run {ts us : List Token} (h : Shuffled ts us) : Resp (run W gvt ts) (run { W with fs := fs' } gvt' us) := by
  induction h with
  | nil => exact resp_pure _
  | tag ht hr _ ih => exact resp_bind (resp_tag hg ht hr) fun _ => ih
  | same _ ih => exact resp_bind (resp_step hg _) fun _ => ih

omit hg

/-! ## Parse -/

omit [Uni] [UniLaws] in
theorem Shuffled.size {ts us : List Token} (h : Shuffled ts us) : (us.map Token.size).sum = (ts.map Token.size).sum := by
  induction h with
  | nil => rfl
  | tag _ hr _ ih => simp [ih, Token.size, hr.perm.length_eq]
  | same _ ih => simp [ih]

omit [Uni] [UniLaws] in
theorem Files.size {fs gs : GoMap Entry} (h : Files fs gs) :
    (gs.map fun e => e.2.size).sum = (fs.map fun e => e.2.size).sum := by
  induction h with
  | nil => rfl
  | file hs _ ih =>
    rw [List.map_cons, List.map_cons, List.sum_cons, List.sum_cons, ih]
    exact congrArg (· + _) hs.size
  | same _ ih => simp [ih]

omit [Uni] [UniLaws] in
theorem Files.length_eq {fs gs : GoMap Entry} (h : Files fs gs) : gs.length = fs.length := by
  induction h with
  | nil => rfl
  | file _ _ ih => simp [ih]
  | same _ ih => simp [ih]

omit [Uni] [UniLaws] in
theorem Files.get? {fs gs : GoMap Entry} (h : Files fs gs) (f : Str) :
    fs.get? f = gs.get? f ∨ ∃ ts us, Shuffled ts us ∧ fs.get? f = some (.file ts) ∧ gs.get? f = some (.file us) := by
  induction h with
  | nil => exact .inl rfl
  | @file g ts us fs gs hs _ ih =>
    by_cases e : g = f
    · exact .inr ⟨ts, us, hs, by simp [GoMap.get?, e], by simp [GoMap.get?, e]⟩
    · simpa [GoMap.get?, e] using ih
  | @same x fs gs _ ih =>
    obtain ⟨g, v⟩ := x
    by_cases e : g = f
    · exact .inl (by simp [GoMap.get?, e])
    · simpa [GoMap.get?, e] using ih

/-- Parsers that give the same outcome. -/
def Twins (r r' : Cfg → Go Shared Tree) : Prop := ∀ cfg sh sh', Same sh sh' → SameOut (r cfg sh) (r' cfg sh')

variable {rec rec' : Cfg → Go Shared Tree}

omit [Uni] [UniLaws] in
theorem Same.nsLoc {a b : Shared} (h : Same a b) : a.nsLoc = b.nsLoc := by
  have e := congrArg Shared.nsLoc h.rest
  exact e
omit [Uni] [UniLaws] in
theorem Same.includeMap {a b : Shared} (h : Same a b) : a.includeMap = b.includeMap := by
  have e := congrArg Shared.includeMap h.rest
  exact e
omit [Uni] [UniLaws] in
theorem Same.parseFileMap {a b : Shared} (h : Same a b) : a.parseFileMap = b.parseFileMap := by
  have e := congrArg Shared.parseFileMap h.rest
  exact e
omit [Uni] [UniLaws] in
theorem Same.tick {a b : Shared} (h : Same a b) : a.tick = b.tick := by
  have e := congrArg Shared.tick h.rest
  exact e

omit [Uni] [UniLaws] in
theorem Same.map {a b : Shared} (h : Same a b) (f : Shared → Shared)
    (hl : ∀ x, (f x).localNS = x.localNS) (hf : ∀ x m, { f x with localNS := m } = f { x with localNS := m }) : Same (f a) (f b) := by
  refine ⟨fun k => by rw [hl, hl]; exact h.prefixes k, ?_⟩
  rw [hf, hl, h.rest]

omit [Uni] [UniLaws] in
theorem resolveInDep_twins (cfg : Cfg) (hrec : Twins rec rec') (name xsd : Str) (dep : Tree) {a b : Shared} (h : Same a b) :
    SameOut (resolveInDep rec cfg name xsd dep a) (resolveInDep rec' cfg name xsd dep b) := by
  unfold resolveInDep
  dsimp only
  split
  · exact ⟨rfl, h⟩
  · have h1 := hrec (nestedCfg cfg xsd true) a b h
    revert h1
    cases rec (nestedCfg cfg xsd true) a <;> cases rec' (nestedCfg cfg xsd true) b <;> intro h1
    case ok.ok => exact ⟨by rw [h1.1], h1.2⟩
    case err.err => exact ⟨rfl, h1.2⟩
    case halt.halt => exact h1
    all_goals exact h1.elim

omit [Uni] [UniLaws] in
theorem resolveInFile_twins (cfg : Cfg) (hrec : Twins rec rec') (name vt xsd : Str) {a b : Shared} (h : Same a b) :
    SameOut (resolveInFile rec cfg name vt xsd a) (resolveInFile rec' cfg name vt xsd b) := by
  unfold resolveInFile
  rw [h.parseFileMap]
  cases b.parseFileMap.get? xsd with
  | some dep => exact resolveInDep_twins cfg hrec _ _ _ h
  | none =>
    dsimp only
    have h1 := hrec (nestedCfg cfg xsd false) a b h
    revert h1
    cases rec (nestedCfg cfg xsd false) a <;> cases rec' (nestedCfg cfg xsd false) b <;> intro h1
    case ok.ok t s t' s' =>
      obtain ⟨rfl, h2⟩ := h1
      exact resolveInDep_twins cfg hrec _ _ _ h2
    case err.err => exact ⟨rfl, h1.2⟩
    case halt.halt => exact h1
    all_goals exact h1.elim

omit [Uni] [UniLaws] in
theorem includeLoop_twins (cfg : Cfg) (hrec : Twins rec rec') (name : Str) (init : List Str) (n : Nat) :
    ∀ visited vt (a b : Shared), Same a b →
      SameOut (includeLoop W rec cfg name init n visited vt a) (includeLoop { W with fs := fs' } rec' cfg name init n visited vt b) := by
  induction n with
  | zero => exact fun _ _ a b h => ⟨rfl, h⟩
  | succ n ih =>
    intro visited vt a b h
    unfold includeLoop
    dsimp only
    have hk : nextKey { W with fs := fs' } init visited b = nextKey W init visited a := by
      unfold nextKey
      rw [h.includeMap, h.tick]
    have h1 : Same { a with tick := a.tick + 1 } { b with tick := b.tick + 1 } :=
      h.map (fun x => { x with tick := x.tick + 1 }) (fun _ => rfl) fun _ _ => rfl
    rw [hk]
    cases nextKey W init visited a with
    | none => exact ⟨rfl, h1⟩
    | some inc =>
      dsimp only
      have h2 := hrec (nestedCfg cfg (pathJoin cfg.fileDir inc) true) _ _ h1
      revert h2
      cases rec (nestedCfg cfg (pathJoin cfg.fileDir inc) true) { a with tick := a.tick + 1 } <;>
        cases rec' (nestedCfg cfg (pathJoin cfg.fileDir inc) true) { b with tick := b.tick + 1 } <;> intro h2
      case ok.ok t s t' s' =>
        obtain ⟨rfl, h3⟩ := h2
        exact ih _ _ _ _ h3
      case err.err => exact ⟨rfl, h2.2⟩
      case halt.halt => exact h2
      all_goals exact h2.elim

omit [UniLaws] in
theorem getValueType_twins (hf : Files W.fs fs') (cfg : Cfg) (hrec : Twins rec rec') (value : Str) (tree : Tree) {a b : Shared}
    (h : Same a b) : SameOut (getValueType W rec cfg value tree a) (getValueType { W with fs := fs' } rec' cfg value tree b) := by
  unfold getValueType
  dsimp only
  cases getBuildInTypeByLang (trimNSPrefix value) cfg.lang with
  | some x => exact ⟨rfl, h⟩
  | none =>
    dsimp only
    split
    · exact ⟨rfl, h⟩
    split
    · exact ⟨rfl, h⟩
    unfold resolveOutside
    dsimp only
    rw [h.nsLoc, h.prefixes]
    split
    · exact ⟨rfl, h⟩
    rcases hf.get? (pathJoin cfg.fileDir (b.nsLoc.getStr (b.localNS.getStr (getNSPrefix value)))) with h1 | ⟨ts, us, -, h1, h2⟩
    · rw [h1]
      cases fs'.get? (pathJoin cfg.fileDir (b.nsLoc.getStr (b.localNS.getStr (getNSPrefix value)))) with
      | none => exact ⟨rfl, h⟩
      | some e =>
        cases e with
        | dir =>
          dsimp only
          have hz : ({ W with fs := fs' } : World).size = W.size := hf.size
          rw [hz, h.includeMap]
          have hl := includeLoop_twins (W := W) (fs' := fs') cfg hrec (trimNSPrefix value) b.includeMap.keys
            (b.includeMap.length + W.size + 1) [] [] a b h
          revert hl
          cases includeLoop W rec cfg (trimNSPrefix value) b.includeMap.keys (b.includeMap.length + W.size + 1) [] [] a <;>
            cases includeLoop { W with fs := fs' } rec' cfg (trimNSPrefix value) b.includeMap.keys
              (b.includeMap.length + W.size + 1) [] [] b <;> intro hl
          case ok.ok => exact ⟨by rw [hl.1], hl.2⟩
          case err.err => exact hl
          case halt.halt => exact hl
          all_goals exact hl.elim
        | file _ => exact resolveInFile_twins cfg hrec _ _ _ h
        | noOpen => exact resolveInFile_twins cfg hrec _ _ _ h
    · rw [h1, h2]
      exact resolveInFile_twins cfg hrec _ _ _ h

omit [UniLaws] in
theorem gvtOf_twins (hf : Files W.fs fs') (cfg : Cfg) (hrec : Twins rec rec') (v : Str) :
    Resp (gvtOf W rec cfg v) (gvtOf { W with fs := fs' } rec' cfg v) := by
  refine resp_state fun p sh sh' hs => ?_
  have h1 := getValueType_twins hf cfg hrec v p.freeze hs
  unfold gvtOf
  dsimp only
  revert h1
  cases getValueType W rec cfg v p.freeze sh <;> cases getValueType { W with fs := fs' } rec' cfg v p.freeze sh' <;> intro h1
  case ok.ok => exact ⟨h1.1, rfl, h1.2⟩
  case err.err => exact ⟨h1.1, rfl, h1.2⟩
  case halt.halt => exact ⟨h1.1, rfl, h1.2⟩
  all_goals exact h1.elim

omit [UniLaws] in
theorem writeFile_twins (path content : Str) {a b : Shared} (h : Same a b) :
    SameOut (writeFile W path content a) (writeFile { W with fs := fs' } path content b) := by
  unfold writeFile
  dsimp only
  split
  · exact ⟨rfl, h.map (fun x => { x with outputs := x.outputs ++ [(path, content)] }) (fun _ => rfl) fun _ _ => rfl⟩
  · exact ⟨rfl, h⟩

omit [UniLaws] in
theorem generate_twins (lang pkg file : Str) (tree : Tree) {a b : Shared} (h : Same a b) :
    SameOut (generate W lang pkg file tree a) (generate { W with fs := fs' } lang pkg file tree b) := by
  unfold generate
  split
  · unfold writeGo
    dsimp only
    split
    · exact writeFile_twins _ _ h
    · have h1 := writeFile_twins (W := W) (fs' := fs') (fileWithExtension file c!".go") (goRawSource pkg tree) h
      revert h1
      cases writeFile W (fileWithExtension file c!".go") (goRawSource pkg tree) a <;>
        cases writeFile { W with fs := fs' } (fileWithExtension file c!".go") (goRawSource pkg tree) b <;> intro h1
      case ok.ok => exact ⟨rfl, h1.2⟩
      case err.err => exact h1
      case halt.halt => exact h1
      all_goals exact h1.elim
  split
  · exact writeFile_twins _ _ h
  split
  · exact writeFile_twins _ _ h
  split
  · exact writeFile_twins _ _ h
  split
  · exact writeFile_twins _ _ h
  · exact ⟨rfl, h⟩

omit [UniLaws] in
theorem finish_twins (cfg : Cfg) (tree : Tree) {a b : Shared} (h : Same a b) :
    SameOut (finish W cfg tree a) (finish { W with fs := fs' } cfg tree b) := by
  unfold finish
  dsimp only
  split
  · exact ⟨rfl, h⟩
  have hr : Same (register cfg.filePath tree a) (register cfg.filePath tree b) :=
    h.map (register cfg.filePath tree) (fun _ => rfl) fun _ _ => rfl
  split
  · have h1 := generate_twins (W := W) (fs' := fs') cfg.lang cfg.package (outputPath cfg) tree hr
    revert h1
    cases generate W cfg.lang cfg.package (outputPath cfg) tree (register cfg.filePath tree a) <;>
      cases generate { W with fs := fs' } cfg.lang cfg.package (outputPath cfg) tree (register cfg.filePath tree b) <;> intro h1
    case ok.ok => exact ⟨rfl, h1.2⟩
    case err.err => exact h1
    case halt.halt => exact h1
    all_goals exact h1.elim
  · exact ⟨rfl, hr⟩

omit [Uni] [UniLaws] in
theorem begin_twins (cfg : Cfg) {a b : Shared} (h : Same a b) : Same (beginParse cfg a) (beginParse cfg b) := by
  refine h.map (beginParse cfg) (fun x => ?_) fun x m => ?_
  · unfold beginParse; dsimp only; split <;> rfl
  · unfold beginParse; dsimp only; split <;> rfl

theorem parseWith_twins (hf : Files W.fs fs') (hrec : Twins rec rec') :
    Twins (parseWith W rec) (parseWith { W with fs := fs' } rec') := by
  intro cfg a b h
  have opened : ∀ ts us, Shuffled ts us → SameOut (parseOpen W rec cfg ts a) (parseOpen { W with fs := fs' } rec' cfg us b) := by
    intro ts us hs
    unfold parseOpen
    have hr := resp_at (resp_run (W := W) (fs' := fs') (gvtOf_twins hf cfg hrec) hs) {} (begin_twins cfg h)
    revert hr
    cases run W (gvtOf W rec cfg) ts { sh := beginParse cfg a, p := {} } <;>
      cases run { W with fs := fs' } (gvtOf { W with fs := fs' } rec' cfg) us { sh := beginParse cfg b, p := {} } <;> intro hr
    case ok.ok x s y t =>
      dsimp only
      rw [hr.2.1]
      exact finish_twins cfg _ hr.2.2
    case err.err => exact ⟨hr.1, hr.2.2⟩
    case halt.halt => exact ⟨hr.1, hr.2.2⟩
    all_goals exact hr.elim
  unfold parseWith
  rcases hf.get? cfg.filePath with h1 | ⟨ts, us, hs, h1, h2⟩
  · rw [h1]
    cases fs'.get? cfg.filePath with
    | none => exact ⟨rfl, h⟩
    | some e =>
      cases e with
      | dir => exact ⟨rfl, h⟩
      | noOpen => exact ⟨rfl, h⟩
      | file ts =>
        refine opened ts ts ?_
        induction ts with
        | nil => exact .nil
        | cons t ts ih => exact .same ih
  · rw [h1, h2]
    exact opened ts us hs

theorem parse_twins (hf : Files W.fs fs') (n : Nat) : Twins (parse W n) (parse { W with fs := fs' } n) := by
  induction n with
  | zero => exact fun cfg a b h => ⟨rfl, h⟩
  | succ n ih => exact parseWith_twins hf ih

/-- C69: in whatever order the attributes of the tags are written, in the schema and in all files it imports or includes, the
outcome is the same: the same tree or error, the same files with the same contents.  Missing: name space and location of an
import in the other order (see `import_order`). -/
theorem order_partial (hf : Files W.fs fs') (cfg : Cfg) (sh : Shared) :
    SameOut (Parse W cfg sh) (Parse { W with fs := fs' } cfg sh) := by
  unfold Parse
  have : ({ W with fs := fs' } : World).fs.length = W.fs.length := hf.length_eq
  rw [this]
  exact parse_twins hf _ cfg sh sh (Same.refl sh)

/-! ## Examples -/

open Ex

/-- A schema with the usual order of attributes. -/
def usual : List Token :=
  [on "schema" [("xmlns:t", "urn:o"), ("xmlns:s", "urn:s"), ("targetNamespace", "urn:t")]]
    ++ leaf "import" [("namespace", "urn:o"), ("schemaLocation", "o.xsd"), ("id", "i")]
    ++ [on "complexType" [("name", "T"), ("abstract", "true")], on "sequence"]
    ++ leaf "element" [("name", "len"), ("type", "t:len"), ("minOccurs", "0"), ("maxOccurs", "unbounded")]
    ++ [off "sequence"] ++ leaf "attribute" [("name", "a"), ("type", "s:int"), ("use", "optional")]
    ++ [off "complexType", off "schema"]

/-- The same with the attributes in another order. -/
def unusual : List Token :=
  [on "schema" [("targetNamespace", "urn:t"), ("xmlns:s", "urn:s"), ("xmlns:t", "urn:o")]]
    ++ leaf "import" [("id", "i"), ("namespace", "urn:o"), ("schemaLocation", "o.xsd")]
    ++ [on "complexType" [("abstract", "true"), ("name", "T")], on "sequence"]
    ++ leaf "element" [("maxOccurs", "unbounded"), ("type", "t:len"), ("minOccurs", "0"), ("name", "len")]
    ++ [off "sequence"] ++ leaf "attribute" [("use", "optional"), ("type", "s:int"), ("name", "a")]
    ++ [off "complexType", off "schema"]

/-- The imported file. -/
def other : List Token :=
  [on "schema"] ++ [on "simpleType" [("name", "len")]] ++ leaf "restriction" [("base", "string")]
    ++ [off "simpleType", off "schema"]

/-- The files that are written. -/
def files (ts : List Token) : Option (GoMap Str) :=
  match Ex.parse (world [("a.xsd", ts), ("o.xsd", other)]) "a.xsd" "Rust" with
  | .ok _ s => some s.outputs
  | _ => none

instance (as : List Attr) : Decidable (Distinct as) := by unfold Distinct; infer_instance
instance (as : List Attr) : Decidable (RefAlone as) := by unfold RefAlone; infer_instance
instance (as : List Attr) : Decidable (OccursOk as) := by unfold OccursOk; infer_instance

theorem shuffled : Shuffled usual unusual := by
  unfold usual unusual
  simp only [leaf, List.cons_append, List.nil_append]
  refine .tag ⟨.inl (by decide), by decide, by decide⟩ ⟨by decide, by decide⟩ ?_
  refine .tag ⟨.inl (by decide), by decide, by decide⟩ ⟨by decide, by decide⟩ (.same ?_)
  refine .tag ⟨.inl (by decide), by decide, by decide⟩ ⟨by decide, by decide⟩ (.same ?_)
  refine .tag ⟨.inl (by decide), by decide, by decide⟩ ⟨by decide, by decide⟩ (.same (.same ?_))
  refine .tag ⟨.inl (by decide), by decide, by decide⟩ ⟨by decide, by decide⟩ (.same (.same (.same ?_)))
  exact .nil

example : Files (world [("a.xsd", usual), ("o.xsd", other)]).fs (world [("a.xsd", unusual), ("o.xsd", other)]).fs :=
  .same (.file shuffled (.same .nil))

example : (files usual).map (·.map (·.1)) = some [c!"o.xsd.rs", c!"a.xsd.rs"] ∧ files unusual = files usual := by
  decide +kernel

/-- The schema with location and name space of its import swapped. -/
def swapped : List Token :=
  [on "schema" [("xmlns:t", "urn:o"), ("xmlns:s", "urn:s"), ("targetNamespace", "urn:t")]]
    ++ leaf "import" [("schemaLocation", "o.xsd"), ("namespace", "urn:o"), ("id", "i")]
    ++ usual.drop 3

/-- C69 is false without the exception: a location written before its name space is not found again; the imported file is not
read, and the member has no type. -/
theorem import_order :
    (∃ as bs rest, as.Perm bs ∧ Tidy c!"import" as ∧ usual = usual.take 1 ++ .start c!"import" as :: rest ∧
      swapped = usual.take 1 ++ .start c!"import" bs :: rest) ∧
    (files swapped).map (·.map (·.1)) = some [c!"a.xsd.rs"] ∧ (files usual).map (·.map (·.1)) = some [c!"o.xsd.rs", c!"a.xsd.rs"] := by
  refine ⟨⟨_, _, usual.drop 2, ?_, ?_, rfl, rfl⟩, by decide +kernel, by decide +kernel⟩
  · decide
  · exact ⟨.inl (by decide), by decide, by decide⟩

/-- An element with a reference and a name: the second one wins, so the hypothesis on references is needed. -/
theorem ref_order : files (leaf "element" [("name", "n"), ("ref", "r"), ("type", "t")]) ≠
    files (leaf "element" [("ref", "r"), ("name", "n"), ("type", "t")]) := by decide +kernel

/-- Of two names the last one is used, so the hypothesis on repeated attributes is needed. -/
theorem twice : files (leaf "complexType" [("name", "a"), ("name", "b")]) ≠ files (leaf "complexType" [("name", "b"), ("name", "a")]) := by
  decide +kernel

end Xgen.C69
