import Verif.Lemmas.Rel

/-! # Invariants of the parser state -/

namespace Xgen

/-- `J` is kept, and abnormal ends satisfy `H`. -/
def KeepsP (J : PState → Prop) (H : Halt → Prop) {α : Type} (m m' : Go St α) : Prop :=
  m = m' ∧ ∀ s, J s.p → J (m s).state.p ∧ ∀ h s', m s = .halt h s' → H h

/-- A resolver that leaves the parser state alone and ends abnormally only as `H` allows. -/
def GvtOk (H : Halt → Prop) (gvt : Gvt) : Prop :=
  ∀ v s, (gvt v s).state.p = s.p ∧ ∀ h s', gvt v s = .halt h s' → H h

section
variable {J : PState → Prop} {H : Halt → Prop} {gvt : Gvt}

theorem keepsP_closed (hg : GvtOk H gvt) : Closed (KeepsP J H) gvt gvt := Closed.ofGvt {
  pure _ := ⟨rfl, fun s h => ⟨h, by intro h s' e; cases e⟩⟩
  bind := by
    rintro α β m m' f f' ⟨rfl, hm⟩ hf
    have hff : f = f' := funext fun a => (hf a).1
    subst hff
    refine ⟨rfl, fun s hq => ?_⟩
    obtain ⟨h1, h2⟩ := hm s hq
    simp only [Go.bind_apply]
    cases e : m s with
    | ok a s1 => rw [e] at h1; exact (hf a).2 s1 h1
    | err er s1 => rw [e] at h1; exact ⟨h1, by intro h s' e'; cases e'⟩
    | halt h s1 => rw [e] at h1; exact ⟨h1, by intro h' s' e'; cases e'; exact h2 _ _ e⟩
  throw e := ⟨rfl, fun s h => ⟨h, by intro h s' e; cases e⟩⟩
  read := by
    intro α m m' hk
    constructor
    · funext s
      obtain ⟨k, k', ⟨hkk, _⟩, he⟩ := hk (view s.p)
      rw [(he s rfl).1, (he s rfl).2, hkk]
    · intro s hq
      obtain ⟨k, k', ⟨_, h⟩, he⟩ := hk (view s.p)
      rw [(he s rfl).1]
      exact h s hq
  gvt v := ⟨rfl, fun s h => ⟨by rw [(hg v s).1]; exact h, (hg v s).2⟩⟩ }

theorem keepsP_onP {f : PState → PState} (h : ∀ p, J p → J (f p)) : KeepsP J H (onP f) (onP f) :=
  ⟨rfl, fun s hj => ⟨h s.p hj, by intro h s' e; cases e⟩⟩

theorem keepsP_onSh (f : Shared → Shared) : KeepsP J H (onSh f) (onSh f) :=
  ⟨rfl, fun _ hj => ⟨hj, by intro h s' e; cases e⟩⟩

theorem keepsP_onP? {f : PState → Option PState} (h : ∀ p, J p → (f p = none → H .panic) ∧ ∀ p', f p = some p' → J p') :
    KeepsP J H (onP? f) (onP? f) := by
  refine ⟨rfl, fun s hj => ?_⟩
  unfold onP?
  cases e : f s.p with
  | none => exact ⟨hj, by intro h' s' e'; cases e'; exact (h _ hj).1 e⟩
  | some p => exact ⟨(h _ hj).2 _ e, by intro h' s' e'; cases e'⟩

theorem callOn_keepsP (W : World) (hg : GvtOk H gvt) (attrs : List Attr) (k : OnKind)
    (panic : k = .charData → H .panic) (prim : ∀ f, OnPrim k f → ∀ p, J p → J (f p))
    (prim? : ∀ f, OnPrim? k f → ∀ p, J p → (f p = none → H .panic) ∧ ∀ p', f p = some p' → J p') :
    KeepsP J H (callOn W gvt attrs k) (callOn W gvt attrs k) :=
  callOn_rel {
    toClosed := keepsP_closed hg
    panic := fun h => ⟨rfl, fun _ hj => ⟨hj, by intro h' s' e; cases e; exact panic h⟩⟩
    prim := fun f hf => keepsP_onP (prim f hf)
    prim? := fun f hf => keepsP_onP? (prim? f hf)
    import' := fun _ => keepsP_onSh _
    include' := fun _ => keepsP_onSh _
    schema' := fun _ => keepsP_onSh _ }

theorem callEnd_keepsP (hg : GvtOk H gvt) (name : Str) (k : EndKind)
    (prim : ∀ f, EndPrim name k f → ∀ p, J p → J (f p)) :
    KeepsP J H (callEnd gvt name k) (callEnd gvt name k) :=
  callEnd_rel { toClosed := keepsP_closed hg, prim := fun f hf => keepsP_onP (prim f hf) }

end

/-! ## What the updates leave alone -/

theorem onEnumeration_frame (attrs : List Attr) (p : PState) :
    onEnumeration attrs p = { p with simpleType := (onEnumeration attrs p).simpleType } := by
  unfold onEnumeration
  induction attrs generalizing p with
  | nil => rfl
  | cons a as ih =>
    rw [List.foldl_cons]
    split
    · exact ih _
    · exact ih p

theorem onPrim_inElement {k : OnKind} {f : PState → PState} (h : OnPrim k f) (p : PState) :
    (f p).inElement = p.inElement := by
  cases h with
  | placeAttributeGroup x => unfold placeAttributeGroup; split <;> rfl
  | placeElement e b =>
    cases b
    all_goals
      simp only [placeElement, Bool.false_eq_true, if_true, if_false]
      split
      · rfl
      · split <;> rfl
  | enumeration attrs => rw [onEnumeration_frame]
  | _ => rfl

theorem onPrim?_inElement {k : OnKind} {f : PState → Option PState} (h : OnPrim? k f) {p p' : PState}
    (e : f p = some p') : p'.inElement = p.inElement := by
  cases h with
  | complexType attrs =>
    unfold onComplexType? at e
    split at e
    · split at e <;> cases e; rfl
    · dsimp only at e
      split at e
      · split at e <;> cases e; rfl
      · cases e; rfl
  | group g =>
    unfold placeGroup? at e
    dsimp only at e
    split at e
    · split at e <;> cases e <;> rfl
    · split at e
      · cases e; rfl
      · split at e
        · split at e <;> cases e; rfl
        · cases e; rfl

end Xgen
