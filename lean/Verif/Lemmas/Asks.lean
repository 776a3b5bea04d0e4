import Verif.Lemmas.Vals
import Verif.Lemmas.CoreRun

/-! # References that are certainly asked

If asking for `v` brings about a lasting fact `D`, then `D` holds after every run over a tag that refers to `v`. -/

namespace Xgen

/-- The references a tag certainly asks for. -/
def refers (n : Str) (as : List Attr) : List Str :=
  if n = c!"element" ∨ n = c!"attribute" then (as.filter fun a => a.local = c!"ref" ∨ a.local = c!"type").map (·.value)
  else if n = c!"group" ∨ n = c!"attributeGroup" then (as.filter fun a => a.local = c!"ref").map (·.value)
  else if n = c!"extension" ∨ n = c!"restriction" then (as.filter fun a => a.local = c!"base").map (·.value)
  else if n = c!"list" then (as.filter fun a => a.local = c!"itemType").map (·.value)
  else if n = c!"union" then (as.filter fun a => a.local = c!"memberTypes").flatMap fun a => splitOn ' ' a.value
  else []

/-- Afterwards `D` holds, provided the computation goes on. -/
def Reach (R N : Str → Prop) (I D : Shared → Prop) {α : Type} (m : Go St α) : Prop :=
  ∀ s, Vals R N s.p → I s.sh → ∀ r s', m s = .ok r s' → D s'.sh

/-- `D` is not lost. -/
def Lasting (D : Shared → Prop) {α : Type} (m : Go St α) : Prop := ∀ s r s', m s = .ok r s' → D s.sh → D s'.sh

variable {T R N : Str → Prop} {I D : Shared → Prop} {α β : Type}

theorem vals_true (p : PState) : Vals (fun _ => True) (fun _ => True) p := by constructor <;> intros <;> trivial

theorem Lasting.of_agree {m : Go St α} {Q : α → Prop} (h : Agree (fun _ => True) (fun _ => True) D Q m m) : Lasting D m :=
  fun s r s' e hd => ((h s (vals_true _) hd).2 r s' e).2.2

namespace Reach

theorem left {m : Go St α} {f : α → Go St β} (h : Reach R N I D m) (k : ∀ a, Lasting D (f a)) : Reach R N I D (m >>= f) := by
  intro s hv hi r s' e
  rw [Go.bind_apply] at e
  cases e1 : m s with
  | ok a s1 => rw [e1] at e; exact k a s1 r s' e (h s hv hi a s1 e1)
  | err x s1 => rw [e1] at e; cases e
  | halt x s1 => rw [e1] at e; cases e

theorem right {m : Go St α} {f : α → Go St β} {Q : α → Prop} (h : Agree R N I Q m m) (k : ∀ a, Reach R N I D (f a)) :
    Reach R N I D (m >>= f) := by
  intro s hv hi r s' e
  rw [Go.bind_apply] at e
  cases e1 : m s with
  | ok a s1 =>
    rw [e1] at e
    obtain ⟨-, h2, h3⟩ := (h s hv hi).2 a s1 e1
    exact k a s1 h2 h3 r s' e
  | err x s1 => rw [e1] at e; cases e
  | halt x s1 => rw [e1] at e; cases e

theorem forAttrs {step : α → Attr → Go St α} {as : List Attr} {a : Attr} (ha : a ∈ as)
    (h1 : ∀ acc, ∀ b ∈ as, Agree R N I (fun _ => True) (step acc b) (step acc b)) (h2 : ∀ acc b, Lasting D (step acc b))
    (h3 : ∀ acc, Reach R N I D (step acc a)) (acc : α) : Reach R N I D (forAttrs step as acc) := by
  induction as generalizing acc with
  | nil => cases ha
  | cons b as ih =>
    by_cases e : a = b
    · subst e
      refine left (h3 acc) fun acc' => ?_
      have : ∀ (bs : List Attr) acc, Lasting D (Xgen.forAttrs step bs acc) := by
        intro bs
        induction bs with
        | nil => intro acc s r s' e hd; cases e; exact hd
        | cons c bs ih =>
          intro acc s r s' e hd
          simp only [Xgen.forAttrs, Go.bind_apply] at e
          cases e1 : step acc c s with
          | ok x s1 => rw [e1] at e; exact ih x s1 r s' e (h2 acc c s x s1 e1 hd)
          | err x s1 => rw [e1] at e; cases e
          | halt x s1 => rw [e1] at e; cases e
      exact this as acc'
    · refine right (h1 acc b (by simp)) fun acc' => ih ?_ (fun acc c hc => h1 acc c (by simp [hc])) acc'
      rcases List.mem_cons.1 ha with h | h
      · exact absurd h e
      · exact h

end Reach

section
variable {gvt : Gvt}

section
variable (hg : ∀ v, T v → Agree R N I (fun r => R r.1) (gvt v) (gvt v))
include hg

theorem agree_elementAttr (acc : Element) (a : Attr) (h : a.local ∈ [c!"ref", c!"type"] → T a.value) :
    Agree R N I (fun _ => True) (onElementAttr gvt acc a) (onElementAttr gvt acc a) := by
  unfold onElementAttr
  split
  · rename_i e
    exact (agree_resolve hg (h (by rw [e]; decide))).bind fun t ht => Agree.pure trivial
  split
  · exact Agree.pure trivial
  split
  · rename_i e
    exact (agree_resolve hg (h (by rw [e]; decide))).bind fun t ht => Agree.pure trivial
  split
  · split
    · exact Agree.throw _
    · exact Agree.pure trivial
  split <;> exact Agree.pure trivial

theorem agree_attributeAttr (acc : Attribute) (a : Attr) (h : a.local ∈ [c!"ref", c!"type"] → T a.value) :
    Agree R N I (fun _ => True) (onAttributeAttr gvt acc a) (onAttributeAttr gvt acc a) := by
  unfold onAttributeAttr
  split
  · rename_i e
    exact (agree_resolve hg (h (by rw [e]; decide))).bind fun t ht => Agree.pure trivial
  split
  · exact Agree.pure trivial
  split
  · rename_i e
    exact (agree_resolve hg (h (by rw [e]; decide))).bind fun t ht => Agree.pure trivial
  split <;> exact Agree.pure trivial

theorem agree_attributeGroupAttr (acc : AttributeGroup) (a : Attr) (h : a.local = c!"ref" → T a.value) :
    Agree R N I (fun _ => True) (onAttributeGroupAttr gvt acc a) (onAttributeGroupAttr gvt acc a) := by
  unfold onAttributeGroupAttr
  split
  · exact Agree.pure trivial
  split
  · rename_i e
    exact (agree_resolve hg (h e)).bind fun t ht => Agree.pure trivial
  exact Agree.pure trivial

theorem agree_groupAttr (acc : GroupRef) (a : Attr) (h : a.local = c!"ref" → T a.value) :
    Agree R N I (fun _ => True) (onGroupAttr gvt acc a) (onGroupAttr gvt acc a) := by
  unfold onGroupAttr
  split
  · exact Agree.pure trivial
  split
  · rename_i e
    exact (agree_resolve hg (h e)).bind fun t ht => Agree.pure trivial
  split <;> exact Agree.pure trivial

variable (hRT : ∀ v, R v → T v)
include hRT

theorem agree_extensionAttr (acc : Unit) (a : Attr) (h : a.local = c!"base" → T a.value) :
    Agree R N I (fun _ => True) (onExtensionAttr gvt acc a) (onExtensionAttr gvt acc a) := by
  unfold onExtensionAttr
  split
  · rename_i e
    refine (agree_resolve hg (h e)).bind fun t ht => fun s hv hi => ?_
    split
    · exact ⟨rfl, fun r s' e => by cases e; exact ⟨trivial, hv, hi⟩⟩
    · exact ((agree_assign hg (hRT t ht) (set := setComplexBase)
        fun t p ht hp => ⟨hp.heap, hp.simple, hp.attr, hp.protoSimple, hp.protoAttr⟩).bind
        fun _ _ => Agree.onP (f := nameComplex a.value) fun p hp => ⟨hp.heap, hp.simple, hp.attr, hp.protoSimple, hp.protoAttr⟩) s hv hi
  · exact Agree.pure trivial

theorem agree_restrictionAttr (acc : Unit) (a : Attr) (h : a.local = c!"base" → T a.value) (hn : a.local = c!"base" → N a.value) :
    Agree R N I (fun _ => True) (onRestrictionAttr gvt acc a) (onRestrictionAttr gvt acc a) := by
  unfold onRestrictionAttr
  split
  · rename_i e
    refine (agree_resolve hg (h e)).bind fun t ht => fun s hv hi => ?_
    split
    · exact ⟨rfl, fun r s' e => by cases e; exact ⟨trivial, hv, hi⟩⟩
    · exact ((agree_assign hg (hRT t ht) fun t p ht hp => hp.setSimple (f := fun x => { x with base := t }) fun x hx => ⟨ht, hx.2⟩).bind
        fun _ _ => Agree.onP fun p hp => hp.setSimple (f := fun x => if x.name = [] then { x with name := a.value } else x) fun x hx => by
          split
          · exact ⟨hx.1, hn e⟩
          · exact hx) s hv hi
  · exact Agree.pure trivial

omit hRT in
theorem agree_listAttr (acc : Unit) (a : Attr) (h : a.local = c!"itemType" → T a.value) :
    Agree R N I (fun _ => True) (onListAttr gvt acc a) (onListAttr gvt acc a) := by
  unfold onListAttr
  split
  · rename_i e
    exact agree_assign hg (h e) fun t p ht hp => hp.setSimple (f := fun x => { x with base := t }) fun x hx => ⟨ht, hx.2⟩
  · exact Agree.pure trivial

omit hRT in
theorem agree_addMembers (ms : List Str) (h : ∀ m ∈ ms, T m) :
    Agree R N I (fun _ => True) (addMembers gvt ms) (addMembers gvt ms) := by
  induction ms with
  | nil => exact Agree.pure trivial
  | cons m ms ih =>
    exact (agree_assign hg (h m (by simp)) fun t p ht hp =>
      hp.setSimple (f := fun x => { x with memberTypes := x.memberTypes.set (trimNSPrefix m) t }) fun x hx => hx).bind fun _ _ =>
      ih fun x hx => h x (by simp [hx])

omit hRT in
theorem agree_unionAttr (acc : Unit) (a : Attr) (h : a.local = c!"memberTypes" → ∀ m ∈ splitOn ' ' a.value, T m) :
    Agree R N I (fun _ => True) (onUnionAttr gvt acc a) (onUnionAttr gvt acc a) := by
  unfold onUnionAttr
  split
  · rename_i e
    exact agree_addMembers hg _ (h e)
  · exact Agree.pure trivial

end

variable (hg : ∀ v, T v → Agree R N I (fun r => R r.1) (gvt v) (gvt v)) (hRT : ∀ v, R v → T v) (hR : R []) (hN : N []) (hT : T [])
variable (hD : ∀ v, Lasting D (gvt v))

/-- The resolver as a computation that keeps `D`. -/
theorem lasting_gvt (hD : ∀ v, Lasting D (gvt v)) (v : Str) (_ : True) :
    Agree (fun _ => True) (fun _ => True) D (fun _ => True) (gvt v) (gvt v) :=
  fun s _ hd => ⟨rfl, fun r s' e => ⟨trivial, vals_true _, hD v s r s' e hd⟩⟩

/-- A reference to `v` brings about `D`, if the handler goes on. -/
structure Settles (R N : Str → Prop) (I D : Shared → Prop) (gvt : Gvt) (v : Str) : Prop where
  resolve : Reach R N I D (resolve gvt v)
  assign : ∀ set, Reach R N I D (assignType gvt v set)

/-- It suffices that the resolver brings it about. -/
theorem Settles.of_reach {v : Str} (hv : Reach R N I D (gvt v)) : Settles R N I D gvt v where
  resolve := hv.left fun r => Lasting.of_agree ((Agree.throwOpt r.2).bind fun _ _ => Agree.pure (Q := fun _ => True) trivial)
  assign set := hv.left fun r => Lasting.of_agree (Agree.bind (Agree.onP (f := set r.1) fun p _ => vals_true _) fun _ _ => Agree.throwOpt r.2)

variable {v : Str} (hv : Settles R N I D gvt v)
include hv

theorem reach_members (hg : ∀ v, T v → Agree R N I (fun r => R r.1) (gvt v) (gvt v)) (hD : ∀ v, Lasting D (gvt v)) (ms : List Str)
    (hm : v ∈ ms) (h : ∀ m ∈ ms, T m) : Reach R N I D (addMembers gvt ms) := by
  induction ms with
  | nil => cases hm
  | cons m ms ih =>
    by_cases e : v = m
    · subst e
      exact (hv.assign _).left fun _ => Lasting.of_agree
        (agree_addMembers (T := fun _ => True) (R := fun _ => True) (N := fun _ => True) (lasting_gvt hD) ms fun _ _ => trivial)
    · refine Reach.right (agree_assign hg (h m (by simp)) fun t p ht hp =>
        hp.setSimple (f := fun x => { x with memberTypes := x.memberTypes.set (trimNSPrefix m) t }) fun x hx => hx)
        fun _ => ih ?_ fun x hx => h x (by simp [hx])
      rcases List.mem_cons.1 hm with h | h
      · exact absurd h e
      · exact h

include hg hRT hD

/-- A tag that refers to `v`; for lists and unions a simple type must be open. -/
theorem reach_on (W : World) (n : Str) (as : List Attr) (ha : TagVals T N as) (hr : v ∈ refers n as) (k : OnKind)
    (hk : (n = c!"element" → k = .element) ∧ (n = c!"attribute" → k = .attribute) ∧ (n = c!"group" → k = .group) ∧
      (n = c!"attributeGroup" → k = .attributeGroup) ∧ (n = c!"extension" → k = .extension) ∧
      (n = c!"restriction" → k = .restriction) ∧ (n = c!"list" → k = .list) ∧ (n = c!"union" → k = .union)) (s : St)
    (hs : k = .list ∨ k = .union → s.p.simpleType ≠ []) (hvs : Vals R N s.p) (hi : I s.sh) (r : Unit) (s' : St)
    (e : callOn W gvt as k s = .ok r s') : D s'.sh := by
  have tv : ∀ a ∈ as, ∀ l, a.local = l → l ∈ [c!"name", c!"ref", c!"type", c!"base", c!"itemType"] → T a.value :=
    fun a h l e hl => (ha a h).1 (e ▸ hl)
  have nv : ∀ a ∈ as, ∀ l, a.local = l → l ∈ [c!"name", c!"ref", c!"base"] → N a.value :=
    fun a h l e hl => (ha a h).2.2 (e ▸ hl)
  have rt : ∀ a ∈ as, a.local ∈ [c!"ref", c!"type"] → T a.value := fun a h hl => (ha a h).1 (by
    simp only [List.mem_cons, List.not_mem_nil, or_false] at hl ⊢
    rcases hl with h | h <;> simp [h])
  have hL := lasting_gvt hD
  unfold refers at hr
  split at hr
  · rename_i hn
    obtain ⟨a, hm, hav⟩ := List.mem_map.1 hr
    obtain ⟨hm, hl⟩ := List.mem_filter.1 hm
    rcases hn with hn | hn
    · rw [hk.1 hn] at e
      refine (Reach.left (Reach.forAttrs hm (fun acc b hb => agree_elementAttr hg acc b (rt b hb))
        (fun acc b => Lasting.of_agree (agree_elementAttr hL acc b fun _ => trivial)) (fun acc => ?_) _) fun x => ?_) s hvs hi r s' e
      · unfold onElementAttr
        rw [hav]
        by_cases h1 : a.local = c!"ref"
        · rw [if_pos h1]
          exact hv.resolve.left fun t => Lasting.of_agree (Agree.pure (Q := fun _ => True) trivial)
        · have h2 : a.local = c!"type" := by simpa [h1] using hl
          rw [if_neg h1, if_neg (by rw [h2]; decide), if_pos h2]
          exact hv.resolve.left fun t => Lasting.of_agree (Agree.pure (Q := fun _ => True) trivial)
      · split
        · exact Lasting.of_agree ((agree_resolve hL trivial).bind fun t _ => Agree.onP fun _ _ => vals_true _)
        · exact Lasting.of_agree (Agree.onP fun _ _ => vals_true _)
    · rw [hk.2.1 hn] at e
      refine (Reach.left (Reach.forAttrs hm (fun acc b hb => agree_attributeAttr hg acc b (rt b hb))
        (fun acc b => Lasting.of_agree (agree_attributeAttr hL acc b fun _ => trivial)) (fun acc => ?_) _) fun x => ?_) s hvs hi r s' e
      · unfold onAttributeAttr
        rw [hav]
        by_cases h1 : a.local = c!"ref"
        · rw [if_pos h1]
          exact hv.resolve.left fun t => Lasting.of_agree (Agree.pure (Q := fun _ => True) trivial)
        · have h2 : a.local = c!"type" := by simpa [h1] using hl
          rw [if_neg h1, if_neg (by rw [h2]; decide), if_pos h2]
          exact hv.resolve.left fun t => Lasting.of_agree (Agree.pure (Q := fun _ => True) trivial)
      · exact Lasting.of_agree (Agree.onP fun _ _ => vals_true _)
  split at hr
  · rename_i hn
    obtain ⟨a, hm, hav⟩ := List.mem_map.1 hr
    obtain ⟨hm, hl⟩ := List.mem_filter.1 hm
    have hl : a.local = c!"ref" := by simpa using hl
    rcases hn with hn | hn
    · rw [hk.2.2.1 hn] at e
      refine (Reach.left (Reach.forAttrs hm (fun acc b hb => agree_groupAttr hg acc b (fun h => tv b hb _ h (by decide)))
        (fun acc b => Lasting.of_agree (agree_groupAttr hL acc b fun _ => trivial)) (fun acc => ?_) _) fun x => ?_) s hvs hi r s' e
      · unfold onGroupAttr
        rw [hav, if_neg (by rw [hl]; decide), if_pos hl]
        exact hv.resolve.left fun t => Lasting.of_agree (Agree.pure (Q := fun _ => True) trivial)
      · intro s r s' e hd
        dsimp only at e
        cases h : placeGroup? x s.p with
        | none => rw [h] at e; cases e
        | some p => rw [h] at e; cases e; exact hd
    · rw [hk.2.2.2.1 hn] at e
      refine (Reach.left (Reach.forAttrs hm (fun acc b hb => agree_attributeGroupAttr hg acc b (fun h => tv b hb _ h (by decide)))
        (fun acc b => Lasting.of_agree (agree_attributeGroupAttr hL acc b fun _ => trivial)) (fun acc => ?_) _) fun x => ?_) s hvs hi r s' e
      · unfold onAttributeGroupAttr
        rw [hav, if_neg (by rw [hl]; decide), if_pos hl]
        exact hv.resolve.left fun t => Lasting.of_agree (Agree.pure (Q := fun _ => True) trivial)
      · exact Lasting.of_agree (Agree.onP fun _ _ => vals_true _)
  split at hr
  · rename_i hn
    obtain ⟨a, hm, hav⟩ := List.mem_map.1 hr
    obtain ⟨hm, hl⟩ := List.mem_filter.1 hm
    have hl : a.local = c!"base" := by simpa using hl
    rcases hn with hn | hn
    · rw [hk.2.2.2.2.1 hn] at e
      refine Reach.forAttrs hm (fun acc b hb => agree_extensionAttr hg hRT acc b (fun h => tv b hb _ h (by decide)))
        (fun acc b => Lasting.of_agree (agree_extensionAttr hL (fun _ _ => trivial) acc b fun _ => trivial)) (fun acc => ?_) _ s hvs hi r s' e
      unfold onExtensionAttr
      rw [hav, if_pos hl]
      refine hv.resolve.left fun t => fun s r s' e hd => ?_
      split at e
      · cases e; exact hd
      · exact Lasting.of_agree ((agree_assign hL trivial fun t p ht hp => vals_true _).bind fun _ _ => Agree.onP fun _ _ => vals_true _)
          s r s' e hd
    · rw [hk.2.2.2.2.2.1 hn] at e
      refine Reach.forAttrs hm (fun acc b hb => agree_restrictionAttr hg hRT acc b (fun h => tv b hb _ h (by decide))
          (fun h => nv b hb _ h (by decide)))
        (fun acc b => Lasting.of_agree (agree_restrictionAttr hL (fun _ _ => trivial) acc b (fun _ => trivial) fun _ => trivial))
        (fun acc => ?_) _ s hvs hi r s' e
      unfold onRestrictionAttr
      rw [hav, if_pos hl]
      refine hv.resolve.left fun t => fun s r s' e hd => ?_
      split at e
      · cases e; exact hd
      · exact Lasting.of_agree ((agree_assign hL trivial fun t p ht hp => vals_true _).bind fun _ _ => Agree.onP fun _ _ => vals_true _)
          s r s' e hd
  split at hr
  · rename_i hn
    obtain ⟨a, hm, hav⟩ := List.mem_map.1 hr
    obtain ⟨hm, hl⟩ := List.mem_filter.1 hm
    have hl : a.local = c!"itemType" := by simpa using hl
    have hkl := hk.2.2.2.2.2.2.1 hn
    rw [hkl] at e
    simp only [callOn, onList] at e
    split at e
    · rename_i h0; exact absurd h0 (hs (.inl hkl))
    · refine (Reach.right (Agree.onP (f := fun p => { p with simpleType := Stack.setTop (fun x => { x with list := true }) p.simpleType })
        fun p hp => hp.setSimple fun x hx => hx) fun _ =>
        Reach.forAttrs hm (fun acc b hb => agree_listAttr hg acc b (fun h => tv b hb _ h (by decide)))
        (fun acc b => Lasting.of_agree (agree_listAttr hL acc b fun _ => trivial)) (fun acc => ?_) _) s hvs hi r s' e
      unfold onListAttr
      rw [hav, if_pos hl]
      exact hv.assign _
  split at hr
  · rename_i hn
    obtain ⟨a, hm, hav⟩ := List.mem_flatMap.1 hr
    obtain ⟨hm, hl⟩ := List.mem_filter.1 hm
    have hl : a.local = c!"memberTypes" := by simpa using hl
    have hkl := hk.2.2.2.2.2.2.2 hn
    rw [hkl] at e
    simp only [callOn, onUnion] at e
    split at e
    · rename_i h0; exact absurd h0 (hs (.inr hkl))
    · refine (Reach.right (Agree.onP (f := fun p => { p with
          simpleType := Stack.setTop (fun x => { x with union := true, memberTypes := [] }) p.simpleType })
        fun p hp => hp.setSimple fun x hx => hx) fun _ =>
        Reach.forAttrs hm (fun acc b hb => agree_unionAttr hg acc b (ha b hb).2.1)
        (fun acc b => Lasting.of_agree (agree_unionAttr hL acc b fun _ _ _ => trivial)) (fun acc => ?_) _)
        { s with p := { s.p with inUnion := true } } ⟨hvs.heap, hvs.simple, hvs.attr, hvs.protoSimple, hvs.protoAttr⟩ hi r s' e
      unfold onUnionAttr
      rw [if_pos hl]
      exact reach_members hv hg hD _ hav ((ha a hm).2.1 hl)
  · cases hr

variable [Uni] [UniLaws]

/-- A tag that refers to `v`. -/
theorem reach_step (W : World) (n : Str) (as : List Attr) (ha : TagVals T N as) (hr : v ∈ refers n as) (s : St)
    (hs : n = c!"list" ∨ n = c!"union" → s.p.simpleType ≠ []) (hvs : Vals R N s.p) (hi : I s.sh) (r : Unit) (s' : St)
    (e : step W gvt (.start n as) s = .ok r s') : D s'.sh := by
  have hkind : ∃ k, onKind n = some k ∧ (n = c!"element" → k = .element) ∧ (n = c!"attribute" → k = .attribute) ∧ (n = c!"group" → k = .group) ∧
      (n = c!"attributeGroup" → k = .attributeGroup) ∧ (n = c!"extension" → k = .extension) ∧
      (n = c!"restriction" → k = .restriction) ∧ (n = c!"list" → k = .list) ∧ (n = c!"union" → k = .union) ∧
      (k = .list ∨ k = .union → n = c!"list" ∨ n = c!"union") := by
    by_cases h1 : n = c!"element"
    · subst h1; exact ⟨_, onKind_element, by decide⟩
    by_cases h2 : n = c!"attribute"
    · subst h2; exact ⟨_, onKind_attribute, by decide⟩
    by_cases h3 : n = c!"group"
    · subst h3; exact ⟨_, onKind_group, by decide⟩
    by_cases h4 : n = c!"attributeGroup"
    · subst h4; exact ⟨_, onKind_attributeGroup, by decide⟩
    by_cases h5 : n = c!"extension"
    · subst h5; exact ⟨_, onKind_extension, by decide⟩
    by_cases h6 : n = c!"restriction"
    · subst h6; exact ⟨_, onKind_restriction, by decide⟩
    by_cases h7 : n = c!"list"
    · subst h7; exact ⟨_, onKind_list, by decide⟩
    by_cases h8 : n = c!"union"
    · subst h8; exact ⟨_, onKind_union, by decide⟩
    simp [refers, h1, h2, h3, h4, h5, h6, h7, h8] at hr
  obtain ⟨k, hk, h1, h2, h3, h4, h5, h6, h7, h8, h9⟩ := hkind
  simp only [step, Go.bind_apply, onP, hk] at e
  exact reach_on hg hRT hD hv W n as ha hr k ⟨h1, h2, h3, h4, h5, h6, h7, h8⟩ { s with p := { s.p with inElement := n } }
    (fun h => hs (h9 h)) ⟨hvs.heap, hvs.simple, hvs.attr, hvs.protoSimple, hvs.protoAttr⟩ hi r s' e

include hR hN hT

/-- Runs over a tag that refers to `v`; lists and unions follow the start of their simple type. -/
theorem reach_run (W : World) (pre : List Token) (n : Str) (as : List Attr) (post : List Token)
    (ht : ∀ m bs, Token.start m bs ∈ pre ++ .start n as :: post → TagVals T N bs ∧
      ∀ k, onKind m = some k → k ≠ .import ∧ k ≠ .include ∧ k ≠ .schema) (hr : v ∈ refers n as)
    (hl : n = c!"list" ∨ n = c!"union" → ∃ pre' bs, pre = pre' ++ [.start c!"simpleType" bs]) :
    Reach R N I D (run W gvt (pre ++ .start n as :: post)) := by
  intro s hvs hi r s' e
  rw [Core.run_append, Go.bind_apply] at e
  have hpre := agree_run hg hRT hR hN hT W pre (fun m bs h => ht m bs (by simp [h])) s hvs hi
  cases e1 : run W gvt pre s with
  | err x s1 => rw [e1] at e; cases e
  | halt x s1 => rw [e1] at e; cases e
  | ok a s1 =>
    rw [e1] at e
    obtain ⟨-, hv1, hi1⟩ := hpre.2 a s1 e1
    have hs1 : n = c!"list" ∨ n = c!"union" → s1.p.simpleType ≠ [] := by
      intro h
      obtain ⟨pre', bs, rfl⟩ := hl h
      rw [Core.run_append, Go.bind_apply] at e1
      cases e2 : run W gvt pre' s with
      | err x s1 => rw [e2] at e1; cases e1
      | halt x s1 => rw [e2] at e1; cases e1
      | ok b s2 =>
        rw [e2] at e1
        simp only [run, step, onKind_simpleType, callOn, onP, Go.bind_apply, Go.pure_apply] at e1
        cases e1
        simp only [onSimpleType]
        cases s2.p.simpleType with
        | nil => simp [Stack.setTop]
        | cons x xs => simp [Stack.setTop]
    dsimp only at e
    rw [run, Go.bind_apply] at e
    cases e2 : step W gvt (.start n as) s1 with
    | err x s2 => rw [e2] at e; cases e
    | halt x s2 => rw [e2] at e; cases e
    | ok b s2 =>
      rw [e2] at e
      have hd := reach_step hg hRT hD hv W n as (ht n as (by simp)).1 hr s1 hs1 hv1 hi1 b s2 e2
      exact ((agree_run (T := fun _ => True) (lasting_gvt hD) (fun _ _ => trivial) trivial trivial trivial W post
        (fun m bs h => ⟨fun _ _ => ⟨fun _ => trivial, fun _ _ _ => trivial, fun _ => trivial⟩, (ht m bs (by simp [h])).2⟩)
        s2 (vals_true _) hd).2 r s' e).2.2

end
end Xgen
