import Verif.Lemmas.Str
import Verif.Lemmas.Map
import Verif.Lemmas.Congr

/-! # C08: union members are emitted in an order independent of map iteration -/

namespace Xgen.C08

theorem strLt_irrefl (a : Str) : strLt a a = false := by
  induction a with
  | nil => rfl
  | cons c cs ih => simp [strLt, ih]

theorem strLt_trans {a b c : Str} (h1 : strLt a b = true) (h2 : strLt b c = true) : strLt a c = true := by
  induction a generalizing b c with
  | nil =>
    cases c with
    | nil => cases b <;> simp_all [strLt]
    | cons z zs => rfl
  | cons x xs ih =>
    cases b with
    | nil => simp [strLt] at h1
    | cons y ys =>
      cases c with
      | nil => simp [strLt] at h2
      | cons z zs =>
        simp only [strLt] at *
        split at h1 <;> split at h2
        · subst_vars; simpa using ih h1 h2
        · subst_vars; simpa [*] using h2
        · subst_vars; simpa [*] using h1
        · simp only [decide_eq_true_eq] at h1 h2
          have : x.toNat < z.toNat := by omega
          have hne : x ≠ z := by rintro rfl; omega
          simp [hne, this]

theorem strLt_total {a b : Str} (h : a ≠ b) : strLt a b = true ∨ strLt b a = true := by
  induction a generalizing b with
  | nil => cases b with
    | nil => exact absurd rfl h
    | cons => exact .inl rfl
  | cons x xs ih =>
    cases b with
    | nil => exact .inr rfl
    | cons y ys =>
      by_cases hxy : x = y
      · subst hxy
        have : xs ≠ ys := fun e => h (by rw [e])
        simpa [strLt] using ih this
      · have hyx : y ≠ x := fun e => hxy e.symm
        simp only [strLt, hxy, hyx, if_false, decide_eq_true_eq]
        have : x.toNat ≠ y.toNat := fun e => hxy (Char.toNat_inj.1 e)
        omega

theorem strLt_asymm {a b : Str} (h : strLt a b = true) : strLt b a = false := by
  cases h' : strLt b a with
  | false => rfl
  | true => have := strLt_trans h h'; rw [strLt_irrefl] at this; exact absurd this (by simp)

/-- Specification of the order of C08: by resolved type, then by member name, descending. -/
def Before (a b : Str × Str) : Prop := strLt a.2 b.2 = true ∨ (a.2 = b.2 ∧ strLt b.1 a.1 = true)

theorem kvLess_iff (a b : Str × Str) : kvLess a b = true ↔ Before a b := by
  simp [kvLess, Before]

theorem before_trans {a b c : Str × Str} (h1 : Before a b) (h2 : Before b c) : Before a c := by
  rcases h1 with h1 | ⟨e1, h1⟩ <;> rcases h2 with h2 | ⟨e2, h2⟩
  · exact .inl (strLt_trans h1 h2)
  · exact .inl (e2 ▸ h1)
  · exact .inl (e1 ▸ h2)
  · exact .inr ⟨e1.trans e2, strLt_trans h2 h1⟩

theorem before_irrefl (a : Str × Str) : ¬ Before a a := by
  rintro (h | ⟨_, h⟩) <;> simp [strLt_irrefl] at h

theorem before_total {a b : Str × Str} (h : a ≠ b) : Before a b ∨ Before b a := by
  by_cases h2 : a.2 = b.2
  · have h1 : b.1 ≠ a.1 := fun e => h (Prod.ext e.symm h2)
    rcases strLt_total h1 with h' | h'
    · exact .inl (.inr ⟨h2, h'⟩)
    · exact .inr (.inr ⟨h2.symm, h'⟩)
  · rcases strLt_total h2 with h' | h'
    · exact .inl (.inl h')
    · exact .inr (.inl h')

theorem kvInsert_perm (x : Str × Str) (l : List (Str × Str)) : (kvInsert x l).Perm (x :: l) := by
  induction l with
  | nil => exact .refl _
  | cons y ys ih =>
    simp only [kvInsert]
    split
    · exact (ih.cons y).trans (List.Perm.swap x y ys)
    · exact .refl _

theorem toSortedPairs_perm (m : GoMap Str) : (toSortedPairs m).Perm m := by
  induction m with
  | nil => exact .refl _
  | cons x m ih => exact (kvInsert_perm x _).trans (ih.cons x)

/-- What `sort.Sort` promises about its result: no element is less than an earlier one. -/
def Sorted (l : List (Str × Str)) : Prop := l.Pairwise (fun a b => ¬ Before b a)

theorem kvInsert_sorted (x : Str × Str) (l : List (Str × Str)) (h : Sorted l) : Sorted (kvInsert x l) := by
  induction l with
  | nil => exact List.pairwise_singleton _ _
  | cons y ys ih =>
    have hy := List.pairwise_cons.1 h
    simp only [kvInsert]
    split
    · rename_i hyx
      rw [kvLess_iff] at hyx
      refine List.pairwise_cons.2 ⟨?_, ih hy.2⟩
      intro z hz
      rcases List.mem_cons.1 ((kvInsert_perm x ys).mem_iff.1 hz) with rfl | hz
      · exact fun h' => before_irrefl _ (before_trans h' hyx)
      · exact hy.1 z hz
    · rename_i hyx
      rw [kvLess_iff] at hyx
      refine List.pairwise_cons.2 ⟨?_, h⟩
      intro z hz
      rcases List.mem_cons.1 hz with rfl | hz
      · exact hyx
      · intro hzx
        by_cases e : y = z
        · subst e; exact hyx hzx
        · rcases before_total e with h' | h'
          · exact hyx (before_trans h' hzx)
          · exact hy.1 z hz h'

theorem toSortedPairs_sorted (m : GoMap Str) : Sorted (toSortedPairs m) := by
  induction m with
  | nil => exact List.Pairwise.nil
  | cons x m ih => exact kvInsert_sorted x _ ih

/-- C08: whatever order `it` the map iteration delivers and whatever correct sort is used, the emitted order `out` is
the model's. -/
theorem order_independent (m it out : List (Str × Str)) (hit : it.Perm m) (hout : out.Perm it) (hs : Sorted out) :
    out = toSortedPairs m := by
  refine List.Perm.eq_of_pairwise (le := fun a b => ¬ Before b a) ?_ hs (toSortedPairs_sorted m)
    ((hout.trans hit).trans (toSortedPairs_perm m).symm)
  intro a b _ _ h1 h2
  apply Decidable.byContradiction
  intro hne
  rcases before_total hne with h | h
  · exact h2 h
  · exact h1 h

/-- C08: with pairwise distinct keys the order is strict, by type and then by name descending -/
theorem strictly_ordered (m : GoMap Str) (hn : m.keys.Nodup) : (toSortedPairs m).Pairwise Before := by
  have hnd : (toSortedPairs m).Nodup := by
    rw [(toSortedPairs_perm m).nodup_iff]
    exact List.Pairwise.of_map Prod.fst (fun a b h e => h (congrArg Prod.fst e)) hn
  have := List.pairwise_and_iff.2 ⟨toSortedPairs_sorted m, hnd⟩
  refine this.imp ?_
  rintro a b ⟨h1, h2⟩
  rcases before_total h2 with h | h
  · exact h
  · exact absurd h h1

/-- three members, two of them of one type: independent of the order of entry -/
example : toSortedPairs [(c!"a", c!"string"), (c!"z", c!"int"), (c!"b", c!"string")] =
    [(c!"z", c!"int"), (c!"b", c!"string"), (c!"a", c!"string")] := by decide
example : toSortedPairs [(c!"b", c!"string"), (c!"a", c!"string"), (c!"z", c!"int")] =
    [(c!"z", c!"int"), (c!"b", c!"string"), (c!"a", c!"string")] := by decide

/-! ## Generated files -/

/-- Two components that are the same up to the order in which the members of a union are stored. -/
inductive SameNode : Option (Node Element) → Option (Node Element) → Prop where
  | refl (n : Option (Node Element)) : SameNode n n
  | members (v : SimpleType) (m : GoMap Str) : m.Perm v.memberTypes → SameNode (some (.simple v)) (some (.simple { v with memberTypes := m }))

/-- Two lists of such components. -/
inductive SameTree : Tree → Tree → Prop where
  | nil : SameTree [] []
  | cons {n n' : Option (Node Element)} {t t' : Tree} : SameNode n n' → SameTree t t' → SameTree (n :: t) (n' :: t')

theorem base_same {t t' : Tree} (h : SameTree t t') (x : Str) : getBasefromSimpleType x t = getBasefromSimpleType x t' := by
  induction h with
  | nil => rfl
  | cons hn _ ih =>
    cases hn with
    | members v m _ => simp only [getBasefromSimpleType, ih]
    | refl =>
      rename_i n _ _ _
      cases n with
      | none => simpa only [getBasefromSimpleType] using ih
      | some n =>
        cases n <;> simp only [getBasefromSimpleType, ih]

theorem pairs_same {m m' : GoMap Str} (h : m.Perm m') : toSortedPairs m = toSortedPairs m' :=
  order_independent m' m _ h (toSortedPairs_perm m) (toSortedPairs_sorted m)

theorem loop_same {step step' : Node Element → Gen → Gen} {t t' : Tree} (h : SameTree t t') (he : step = step')
    (hs : ∀ v m, m.Perm v.memberTypes → step (.simple v) = step (.simple { v with memberTypes := m })) :
    genLoop step t = genLoop step' t' := by
  subst he
  unfold genLoop genFrom
  generalize resetCount (newGen []) = g
  induction h generalizing g with
  | nil => rfl
  | cons hn _ ih =>
    cases hn with
    | refl => exact ih _
    | members v m hm =>
      simp only [List.foldl_cons]
      rw [← hs v m hm]
      exact ih _

/-- C08: in all languages the generated file is the same, in whichever order the members of unions are stored. -/
theorem same_source [Uni] {t t' : Tree} (h : SameTree t t') :
    (∀ pkg, goSource pkg t = goSource pkg t' ∧ goRawSource pkg t = goRawSource pkg t') ∧ cSource t = cSource t' ∧
    (∀ pkg, javaSource pkg t = javaSource pkg t') ∧ rustSource t = rustSource t' ∧ tsSource t = tsSource t' := by
  have h1 : resolveIn t = resolveIn t' := funext fun x => base_same h _
  have h2 : memberType t = memberType t' := funext fun m => by simp only [memberType, base_same h]
  have hl : ∀ {m m' : GoMap Str}, m.Perm m' → m.length = m'.length := List.Perm.length_eq
  have g1 : goGen t = goGen t' := loop_same h (goStep_congr h1 h2) fun v m hm => by
    funext g; simp only [goStep, goSimpleType, pairs_same hm, hl hm]
  have g2 : cGen t = cGen t' := loop_same h (cStep_congr h1 h2) fun v m hm => by
    funext g; simp only [cStep, cSimpleType, pairs_same hm, hl hm]
  have g3 : javaGen t = javaGen t' := loop_same h (javaStep_congr h1 h2) fun v m hm => by
    funext g; simp only [javaStep, javaSimpleType, pairs_same hm, hl hm]
  have g4 : rustGen t = rustGen t' := loop_same h (rustStep_congr h1 h2) fun v m hm => by
    funext g; simp only [rustStep, rustSimpleType, pairs_same hm, hl hm]
  have g5 : tsGen t = tsGen t' := loop_same h (tsStep_congr h1 h2) fun v m hm => by
    funext g; simp only [tsStep, tsSimpleType, pairs_same hm, hl hm]
  refine ⟨fun pkg => ⟨?_, ?_⟩, ?_, fun pkg => ?_, ?_, ?_⟩
  · simp only [goSource, g1]
  · simp only [goRawSource, g1]
  · simp only [cSource, g2]
  · simp only [javaSource, g3]
  · simp only [rustSource, g4]
  · simp only [tsSource, g5]

/-- two orders of the members of a union, one after another type -/
example : SameTree [none, some (.simple { name := c!"u", union := true, memberTypes := [(c!"a", c!"string"), (c!"z", c!"int")] })]
    [none, some (.simple { name := c!"u", union := true, memberTypes := [(c!"z", c!"int"), (c!"a", c!"string")] })] :=
  .cons (.refl _) (.cons (.members { name := c!"u", union := true, memberTypes := [(c!"a", c!"string"), (c!"z", c!"int")] } _ (List.Perm.swap _ _ _)) .nil)

end Xgen.C08
