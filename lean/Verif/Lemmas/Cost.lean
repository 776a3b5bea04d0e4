import Verif.Lemmas.ParseRel
import Verif.Lemmas.Str

/-! # Counting what a handler asks for

`Costs G Φ c m`: from states with `G`, `m` raises `Φ` by at most `c` and keeps `G`, however it ends. -/

namespace Xgen

/-- An upper bound on the number of names looked up for a token: two for each attribute and one more for each space in its
value, one more for a start tag; two for an end tag. -/
def asks : Token → Nat
  | .start _ attrs => 1 + (attrs.map fun a => 2 + a.value.count ' ').sum
  | .stop _ => 2
  | _ => 0

/-- `m` costs at most `c`. -/
def Costs (G : Shared → Prop) (Φ : Shared → Nat) (c : Nat) {α : Type} (m : Go St α) : Prop :=
  ∀ s, G s.sh → G (m s).state.sh ∧ Φ (m s).state.sh ≤ Φ s.sh + c

namespace Costs
variable {G : Shared → Prop} {Φ : Shared → Nat} {α β : Type} {c d b : Nat}

theorem mono {m : Go St α} (h : Costs G Φ c m) (hc : c ≤ d) : Costs G Φ d m := fun s hg =>
  ⟨(h s hg).1, Nat.le_trans (h s hg).2 (by omega)⟩

theorem pure (a : α) : Costs G Φ 0 (Pure.pure a : Go St α) := fun _ hg => ⟨hg, Nat.le_refl _⟩

theorem throw (e : Err) : Costs G Φ 0 (Go.throw e : Go St α) := fun _ hg => ⟨hg, Nat.le_refl _⟩

theorem throwOpt (e : Option Err) : Costs G Φ 0 (Go.throwOpt e) := by
  cases e with
  | none => exact pure ()
  | some e => exact throw e

theorem onP (f : PState → PState) : Costs G Φ 0 (onP f) := fun _ hg => ⟨hg, Nat.le_refl _⟩

theorem bind {m : Go St α} {f : α → Go St β} (h : Costs G Φ c m) (k : ∀ a, Costs G Φ d (f a)) :
    Costs G Φ (c + d) (m >>= f) := by
  intro s hg
  rw [Go.bind_apply]
  obtain ⟨h1, h2⟩ := h s hg
  cases e : m s with
  | ok a s1 =>
    rw [e] at h1 h2
    obtain ⟨h3, h4⟩ := k a s1 h1
    exact ⟨h3, Nat.le_trans h4 (by simp only [Out.state] at h2 ⊢; omega)⟩
  | err x s1 => rw [e] at h1 h2; exact ⟨h1, Nat.le_trans h2 (by omega)⟩
  | halt x s1 => rw [e] at h1 h2; exact ⟨h1, Nat.le_trans h2 (by omega)⟩

theorem forAttrs {step : α → Attr → Go St α} {cost : Attr → Nat} (h : ∀ acc a, Costs G Φ (cost a) (step acc a))
    (as : List Attr) (acc : α) : Costs G Φ ((as.map cost).sum) (forAttrs step as acc) := by
  induction as generalizing acc with
  | nil => exact pure acc
  | cons a as ih => exact bind (h acc a) fun acc => ih acc

section
variable {gvt : Gvt} (hg : ∀ v, Costs G Φ b (gvt v))
include hg

theorem assignType (v : Str) (set : Str → PState → PState) : Costs G Φ b (assignType gvt v set) :=
  ((hg v).bind fun r => (onP (set r.1)).bind fun _ => throwOpt r.2).mono (by omega)

theorem resolve (v : Str) : Costs G Φ b (resolve gvt v) :=
  ((hg v).bind fun r => (throwOpt r.2).bind fun _ => pure r.1).mono (by omega)

theorem elementAttr (acc : Element) (a : Attr) : Costs G Φ b (onElementAttr gvt acc a) := by
  unfold onElementAttr
  split
  · exact ((resolve hg _).bind fun t => pure _).mono (by omega)
  split
  · exact (pure _).mono (Nat.zero_le _)
  split
  · exact ((resolve hg _).bind fun t => pure _).mono (by omega)
  split
  · split
    · exact (throw _).mono (Nat.zero_le _)
    · exact (pure _).mono (Nat.zero_le _)
  split <;> exact (pure _).mono (Nat.zero_le _)

theorem attributeAttr (acc : Attribute) (a : Attr) : Costs G Φ b (onAttributeAttr gvt acc a) := by
  unfold onAttributeAttr
  split
  · exact ((resolve hg _).bind fun t => pure _).mono (by omega)
  split
  · exact (pure _).mono (Nat.zero_le _)
  split
  · exact ((resolve hg _).bind fun t => pure _).mono (by omega)
  split <;> exact (pure _).mono (Nat.zero_le _)

theorem attributeGroupAttr (acc : AttributeGroup) (a : Attr) : Costs G Φ b (onAttributeGroupAttr gvt acc a) := by
  unfold onAttributeGroupAttr
  split
  · exact (pure _).mono (Nat.zero_le _)
  split
  · exact ((resolve hg _).bind fun t => pure _).mono (by omega)
  exact (pure _).mono (Nat.zero_le _)

theorem groupAttr (acc : GroupRef) (a : Attr) : Costs G Φ b (onGroupAttr gvt acc a) := by
  unfold onGroupAttr
  split
  · exact (pure _).mono (Nat.zero_le _)
  split
  · exact ((resolve hg _).bind fun t => pure _).mono (by omega)
  split <;> exact (pure _).mono (Nat.zero_le _)

theorem extensionAttr (acc : Unit) (a : Attr) : Costs G Φ (2 * b) (onExtensionAttr gvt acc a) := by
  unfold onExtensionAttr
  split
  · refine Costs.mono ((resolve hg a.value).bind (d := b) fun t s hs => ?_) (by omega)
    split
    · exact ⟨hs, by simp only [Out.state]; omega⟩
    · exact ((assignType hg t _).bind fun _ => onP _) s hs
  · exact (pure _).mono (Nat.zero_le _)

theorem restrictionAttr (acc : Unit) (a : Attr) : Costs G Φ (2 * b) (onRestrictionAttr gvt acc a) := by
  unfold onRestrictionAttr
  split
  · refine Costs.mono ((resolve hg a.value).bind (d := b) fun t s hs => ?_) (by omega)
    split
    · exact ⟨hs, by simp only [Out.state]; omega⟩
    · exact ((assignType hg t _).bind fun _ => onP _) s hs
  · exact (pure _).mono (Nat.zero_le _)

theorem listAttr (acc : Unit) (a : Attr) : Costs G Φ b (onListAttr gvt acc a) := by
  unfold onListAttr
  split
  · exact assignType hg _ _
  · exact (pure _).mono (Nat.zero_le _)

theorem addMembers (ms : List Str) : Costs G Φ (ms.length * b) (addMembers gvt ms) := by
  induction ms with
  | nil => exact (pure _).mono (Nat.zero_le _)
  | cons m ms ih =>
    exact ((assignType hg m _).bind fun _ => ih).mono (by rw [List.length_cons, Nat.add_mul]; omega)

theorem unionAttr (acc : Unit) (a : Attr) : Costs G Φ ((a.value.count ' ' + 1) * b) (onUnionAttr gvt acc a) := by
  unfold onUnionAttr
  split
  · have := addMembers hg (splitOn ' ' a.value)
    rwa [splitOn_length] at this
  · exact (pure _).mono (Nat.zero_le _)

theorem popToAttribute : Costs G Φ b (popToAttribute gvt) := by
  intro s hs
  unfold Xgen.popToAttribute
  split
  · exact ((onP _).bind fun _ => (assignType hg _ _).bind fun _ => onP _).mono (d := b) (by omega) s hs
  · exact ⟨hs, by simp only [Out.state]; omega⟩

theorem facetEnd : Costs G Φ b (facetEnd gvt) := by
  intro s hs
  unfold Xgen.facetEnd
  split
  · exact ((onP _).bind fun _ => (assignType hg _ _).bind fun _ => onP _).mono (d := b) (by omega) s hs
  · exact ⟨hs, by simp only [Out.state]; omega⟩

theorem enumAttribute : Costs G Φ b (enumAttribute gvt) := by
  intro s hs
  unfold Xgen.enumAttribute
  split
  · exact ((assignType hg _ _).bind fun _ => onP _).mono (d := b) (by omega) s hs
  · exact ⟨hs, by simp only [Out.state]; omega⟩

theorem enumElement : Costs G Φ b (enumElement gvt) := by
  intro s hs
  unfold Xgen.enumElement
  split
  · exact ((assignType hg _ _).bind fun _ => onP _).mono (d := b) (by omega) s hs
  · exact ⟨hs, by simp only [Out.state]; omega⟩

theorem callEnd (name : Str) (k : EndKind) : Costs G Φ (2 * b) (callEnd gvt name k) := by
  have hp : ∀ f, Costs G Φ (2 * b) (Xgen.onP f) := fun f => (onP f).mono (Nat.zero_le _)
  cases k with
  | enumeration => exact ((enumAttribute hg).bind fun _ => enumElement hg).mono (by omega)
  | extension => exact (popToAttribute hg).mono (by omega)
  | facet => exact (facetEnd hg).mono (by omega)
  | pattern => exact ((popToAttribute hg).bind fun _ => facetEnd hg).mono (by omega)
  | restriction => exact ((popToAttribute hg).bind fun _ => onP _).mono (by omega)
  | _ => exact hp _

omit hg in
theorem sum_le {f g : Attr → Nat} (h : ∀ a, f a ≤ g a) (as : List Attr) : (as.map f).sum ≤ (as.map g).sum := by
  induction as with
  | nil => exact Nat.le_refl _
  | cons a as ih => simp only [List.map_cons, List.sum_cons]; have := h a; omega

omit hg in
theorem sum_mul (f : Attr → Nat) (b : Nat) (as : List Attr) : (as.map fun a => f a * b).sum = (as.map f).sum * b := by
  induction as with
  | nil => simp
  | cons a as ih => simp only [List.map_cons, List.sum_cons, ih, Nat.add_mul]

theorem callOn (W : World) (name : Str) (as : List Attr)
    (hs : Costs G Φ 0 (onSh (onImport W.isURL as)) ∧ Costs G Φ 0 (onSh (onInclude as)) ∧ Costs G Φ 0 (onSh (onSchema as)))
    (k : OnKind) : Costs G Φ (asks (.start name as) * b) (callOn W gvt as k) := by
  have h0 : ∀ {α : Type} {m : Go St α}, Costs G Φ 0 m → Costs G Φ (asks (.start name as) * b) m :=
    fun h => h.mono (Nat.zero_le _)
  have hw : ∀ {f : Attr → Nat}, (∀ a, f a ≤ (2 + a.value.count ' ') * b) →
      (as.map f).sum + b ≤ asks (.start name as) * b := by
    intro f hf
    have h1 := sum_le hf as
    rw [sum_mul (fun a => 2 + a.value.count ' ')] at h1
    simp only [asks, Nat.add_mul, Nat.one_mul]
    omega
  have hb : ∀ a : Attr, b ≤ (2 + a.value.count ' ') * b := fun a => by rw [Nat.add_mul]; omega
  have hb2 : ∀ a : Attr, 2 * b ≤ (2 + a.value.count ' ') * b := fun a => by rw [Nat.add_mul]; omega
  cases k with
  | «attribute» =>
    exact ((forAttrs (attributeAttr hg) as _).bind fun _ => onP _).mono (by have := hw hb; omega)
  | attributeGroup =>
    exact ((forAttrs (attributeGroupAttr hg) as _).bind fun _ => onP _).mono (by have := hw hb; omega)
  | charData => exact h0 fun s h => ⟨h, Nat.le_refl _⟩
  | choice =>
    have h1 : ∀ acc a, Costs G Φ 0 (onChoiceAttr acc a) := by
      intro acc a
      unfold onChoiceAttr
      repeat' split
      all_goals first | exact pure _ | exact throw _
    exact ((forAttrs (cost := fun _ => 0) h1 as _).bind fun _ => onP _).mono (by
      have := hw (f := fun _ => 0) fun _ => Nat.zero_le _; omega)
  | complexType =>
    refine h0 fun s h => ?_
    simp only [Xgen.callOn, onComplexType]
    split <;> exact ⟨h, Nat.le_refl _⟩
  | element =>
    refine ((forAttrs (elementAttr hg) as _).bind (d := b) fun e => ?_).mono (by have := hw hb; omega)
    split
    · exact ((resolve hg _).bind fun _ => onP _).mono (by omega)
    · exact (onP _).mono (Nat.zero_le _)
  | enumeration => exact h0 (onP _)
  | extension => exact (forAttrs (extensionAttr hg) as _).mono (by have := hw hb2; omega)
  | group =>
    refine ((forAttrs (groupAttr hg) as _).bind (d := 0) fun g s h => ?_).mono (by have := hw hb; omega)
    split <;> exact ⟨h, Nat.le_refl _⟩
  | «import» => exact h0 hs.1
  | «include» => exact h0 hs.2.1
  | list =>
    intro s h
    simp only [Xgen.callOn, onList]
    split
    · exact ⟨h, by simp only [Out.state]; omega⟩
    · exact ((onP _).bind fun _ => forAttrs (listAttr hg) as _).mono (by have := hw hb; omega) s h
  | restriction => exact (forAttrs (restrictionAttr hg) as _).mono (by have := hw hb2; omega)
  | schema => exact h0 hs.2.2
  | simpleType => exact h0 (onP _)
  | union =>
    intro s h
    simp only [Xgen.callOn, onUnion]
    split
    · exact ⟨h, by simp only [Out.state]; omega⟩
    · exact ((onP _).bind fun _ => forAttrs (unionAttr hg) as _).mono (by
        have := hw (f := fun a => (a.value.count ' ' + 1) * b) fun a => Nat.mul_le_mul_right _ (by omega)
        omega) { s with p := { s.p with inUnion := true } } h

variable [Uni]

theorem run (W : World) (toks : List Token) (hs : ∀ name as, Token.start name as ∈ toks →
      Costs G Φ 0 (onSh (onImport W.isURL as)) ∧ Costs G Φ 0 (onSh (onInclude as)) ∧ Costs G Φ 0 (onSh (onSchema as))) :
    Costs G Φ ((toks.map asks).sum * b) (Xgen.run W gvt toks) := by
  induction toks with
  | nil => exact (pure _).mono (Nat.zero_le _)
  | cons t ts ih =>
    refine Costs.mono (Costs.bind (c := asks t * b) (d := (ts.map asks).sum * b) ?_ fun _ => ih fun n as h => hs n as (by simp [h])) ?_
    · cases t with
      | start name as =>
        refine ((onP _).bind (d := asks (.start name as) * b) fun _ => ?_).mono (by omega)
        split
        · exact (pure _).mono (Nat.zero_le _)
        · exact callOn hg W name as (hs name as (by simp)) _
      | stop name =>
        simp only [Xgen.step]
        split
        · exact (pure _).mono (Nat.zero_le _)
        · exact callEnd hg name _
      | text s => exact (onP _).mono (Nat.zero_le _)
      | other => exact (pure _).mono (Nat.zero_le _)
    · rw [List.map_cons, List.sum_cons, Nat.add_mul]; omega

end
end Costs
end Xgen
