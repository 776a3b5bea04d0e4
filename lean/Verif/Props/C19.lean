import Verif.Model.Parser
import Verif.Spec.Example

/-! # C19: repeated elements of a complex type are merged, never lost

That a repetition of the same name and type is always merged is false: the new declaration is compared with the first
entry of its name only (`not_merged`).  It is proved when all declarations of a name have the same type, which the XSD
rule "element declarations consistent" requires.  (`mergeElement` is the update of the open complex type by an element
tag: `C18.placed`.) -/

namespace Xgen.C19

/-- Whether two declarations are of the same name and type. -/
def Same (a b : Element) : Prop := a.name = b.name ∧ a.type = b.type

/-! ## One declaration -/

theorem find_none {n : Str} {es : List Element} : findElement n es = none ↔ ∀ x ∈ es, x.name ≠ n := by
  induction es with
  | nil => simp [findElement]
  | cons e es ih =>
    unfold findElement
    by_cases h : n = e.name
    · rw [if_pos h]; simp [h]
    · rw [if_neg h]
      simp only [Option.map_eq_none_iff, ih, List.mem_cons, forall_eq_or_imp]
      exact ⟨fun h' => ⟨fun hc => h hc.symm, h'⟩, fun h' => h'.2⟩

theorem find_some {n : Str} {es : List Element} {x : Element} {i : Nat} (h : findElement n es = some (x, i)) :
    ∃ l r, es = l ++ x :: r ∧ l.length = i ∧ x.name = n ∧ ∀ y ∈ l, y.name ≠ n := by
  induction es generalizing i with
  | nil => cases h
  | cons e es ih =>
    unfold findElement at h
    by_cases hn : n = e.name
    · rw [if_pos hn] at h
      cases h
      exact ⟨[], es, rfl, rfl, hn.symm, by simp⟩
    · rw [if_neg hn] at h
      cases h1 : findElement n es with
      | none => rw [h1] at h; cases h
      | some r =>
        rw [h1] at h
        obtain ⟨y, j⟩ := r
        cases h
        obtain ⟨l, r, h2, h3, h4, h5⟩ := ih h1
        refine ⟨e :: l, r, by rw [h2]; rfl, by simp [h3], h4, ?_⟩
        intro z hz
        rcases List.mem_cons.1 hz with rfl | hz
        · exact fun hc => hn hc.symm
        · exact h5 z hz

/-- C19, exactly what one declaration does: if the first entry of its name has its type, that entry becomes plural when
the declaration is, and nothing else changes; otherwise the declaration is appended. -/
theorem merge_iff (e : Element) (es es' : List Element) : mergeElement e es = es' ↔
    (∃ l x r, es = l ++ x :: r ∧ Same x e ∧ (∀ y ∈ l, y.name ≠ e.name) ∧
      es' = l ++ { x with plural := x.plural || e.plural } :: r) ∨
    ((∀ l x r, es = l ++ x :: r → Same x e → ∃ y ∈ l, y.name = e.name) ∧ es' = es ++ [e]) := by
  have key : ∀ l x r l' x' r', es = l ++ x :: r → es = l' ++ x' :: r' → x.name = e.name → x'.name = e.name →
      (∀ y ∈ l, y.name ≠ e.name) → (∀ y ∈ l', y.name ≠ e.name) → l = l' ∧ x = x' ∧ r = r' := by
    intro l
    induction l generalizing es with
    | nil =>
      intro x r l' x' r' h1 h2 h3 h4 h5 h6
      cases l' with
      | nil => rw [h1] at h2; cases h2; exact ⟨rfl, rfl, rfl⟩
      | cons y ys => rw [h1] at h2; cases h2; exact absurd h3 (h6 _ (by simp))
    | cons a as ih =>
      intro x r l' x' r' h1 h2 h3 h4 h5 h6
      cases l' with
      | nil => rw [h1] at h2; cases h2; exact absurd h4 (h5 _ (by simp))
      | cons y ys =>
        rw [h1, List.cons_append, List.cons_append] at h2
        injection h2 with e1 e2
        subst e1
        obtain ⟨k1, k2, k3⟩ := ih (as ++ x :: r) x r ys x' r' rfl e2 h3 h4
          (fun y hy => h5 y (by simp [hy])) (fun y hy => h6 y (by simp [hy]))
        exact ⟨by rw [k1], k2, k3⟩
  unfold mergeElement
  cases h : findElement e.name es with
  | none =>
    have hn := find_none.1 h
    constructor
    · rintro rfl
      exact Or.inr ⟨fun l x r hl hs => absurd hs.1 (hn x (by rw [hl]; simp)), rfl⟩
    · rintro (⟨l, x, r, h1, h2, -⟩ | ⟨-, rfl⟩)
      · exact absurd h2.1 (hn x (by rw [h1]; simp))
      · rfl
  | some p =>
    obtain ⟨x, i⟩ := p
    obtain ⟨l, r, h1, h2, h3, h4⟩ := find_some h
    dsimp only
    by_cases ht : x.type = e.type
    · rw [if_pos ht]
      have hset : es.set i { x with plural := x.plural || e.plural } =
          l ++ { x with plural := x.plural || e.plural } :: r := by
        rw [h1, ← h2]
        simp
      rw [hset]
      constructor
      · rintro rfl
        exact Or.inl ⟨l, x, r, h1, ⟨h3, ht⟩, h4, rfl⟩
      · rintro (⟨l', x', r', k1, k2, k3, k4⟩ | ⟨k1, -⟩)
        · obtain ⟨rfl, rfl, rfl⟩ := key l x r l' x' r' h1 k1 h3 k2.1 h4 k3
          exact k4.symm
        · obtain ⟨y, hy, hy'⟩ := k1 l x r h1 ⟨h3, ht⟩
          exact absurd hy' (h4 y hy)
    · rw [if_neg ht]
      constructor
      · rintro rfl
        refine Or.inr ⟨?_, rfl⟩
        intro l' x' r' k1 k2
        apply Classical.byContradiction
        intro hc
        have k3 : ∀ y ∈ l', y.name ≠ e.name := fun y hy hn => hc ⟨y, hy, hn⟩
        obtain ⟨rfl, rfl, rfl⟩ := key l x r l' x' r' h1 k1 h3 k2.1 h4 k3
        exact ht k2.2
      · rintro (⟨l', x', r', k1, k2, k3, k4⟩ | ⟨-, rfl⟩)
        · obtain ⟨rfl, rfl, rfl⟩ := key l x r l' x' r' h1 k1 h3 k2.1 h4 k3
          exact absurd k2.2 ht
        · rfl

/-- C19, nothing lost or reordered: the earlier entries stay at their positions with name, type and documentation, and
none goes from plural to singular. -/
theorem kept (e : Element) (es : List Element) (i : Nat) (x : Element) (h : es[i]? = some x) :
    ∃ y, (mergeElement e es)[i]? = some y ∧ y.name = x.name ∧ y.type = x.type ∧ y.doc = x.doc ∧
      (x.plural = true → y.plural = true) ∧ (y.plural = true → x.plural = true ∨ (Same x e ∧ e.plural = true)) := by
  rcases (merge_iff e es _).1 rfl with ⟨l, z, r, h1, h2, -, h4⟩ | ⟨-, h4⟩
  · rw [h4]
    rw [h1] at h
    rcases Nat.lt_trichotomy i l.length with hi | hi | hi
    · rw [List.getElem?_append_left hi] at h ⊢
      exact ⟨x, h, rfl, rfl, rfl, id, Or.inl⟩
    · subst hi
      rw [List.getElem?_append_right (Nat.le_refl _)] at h ⊢
      simp only [Nat.sub_self, List.getElem?_cons_zero, Option.some.injEq] at h ⊢
      subst h
      refine ⟨_, rfl, rfl, rfl, rfl, ?_, ?_⟩
      · intro hp; simp [hp]
      · intro hp
        simp only [Bool.or_eq_true] at hp
        exact hp.imp id fun he => ⟨h2, he⟩
    · rw [List.getElem?_append_right (by omega)] at h ⊢
      obtain ⟨j, hj⟩ : ∃ j, i - l.length = j + 1 := ⟨i - l.length - 1, by omega⟩
      rw [hj] at h ⊢
      simp only [List.getElem?_cons_succ] at h ⊢
      exact ⟨x, h, rfl, rfl, rfl, id, Or.inl⟩
  · rw [h4]
    refine ⟨x, ?_, rfl, rfl, rfl, id, Or.inl⟩
    rw [List.getElem?_append_left]
    · exact h
    · exact (List.getElem?_eq_some_iff.1 h).1

/-- C19, nothing lost: the declaration itself has an entry of its name and type, plural if it is. -/
theorem present (e : Element) (es : List Element) :
    ∃ y ∈ mergeElement e es, Same y e ∧ (e.plural = true → y.plural = true) := by
  rcases (merge_iff e es _).1 rfl with ⟨l, z, r, -, h2, -, h4⟩ | ⟨-, h4⟩
  · exact ⟨{ z with plural := z.plural || e.plural }, by rw [h4]; simp, ⟨h2.1, h2.2⟩, by intro h; simp [h]⟩
  · exact ⟨e, by rw [h4]; simp, ⟨rfl, rfl⟩, id⟩

/-! ## All declarations of a complex type -/

/-- The entries after declaring a list of elements in order. -/
def declareAll (ds : List Element) : List Element := ds.foldl (fun es e => mergeElement e es) []

/-- A repetition of name and type is not merged when a declaration of the same name but another type came first. -/
theorem not_merged : ¬ ∀ (ds : List Element) (e : Element), (∃ x ∈ declareAll ds, Same x e) →
    (declareAll (ds ++ [e])).length = (declareAll ds).length := by
  intro h
  have := h [{ name := c!"a", type := c!"int" }, { name := c!"a", type := c!"string" }]
    { name := c!"a", type := c!"string" } ⟨{ name := c!"a", type := c!"string" }, by decide, rfl, rfl⟩
  exact absurd this (by decide)

/-- All declarations of one name have one type (XSD 1.0 part 1, 3.8.6, "Element Declarations Consistent"). -/
def Consistent (ds : List Element) : Prop := ∀ a ∈ ds, ∀ b ∈ ds, a.name = b.name → a.type = b.type

/-- The first occurrences, in order. -/
def firsts : List Str → List Str
  | [] => []
  | n :: ns => n :: (firsts ns).filter (· ≠ n)

theorem firsts_snoc (ns : List Str) (n : Str) : firsts (ns ++ [n]) = if n ∈ ns then firsts ns else firsts ns ++ [n] := by
  induction ns with
  | nil => rfl
  | cons m ms ih =>
    simp only [List.cons_append, firsts, ih]
    by_cases h : n ∈ ms
    · simp [h]
    · by_cases h' : n = m
      · subst h'; simp [h]
      · simp [h, h', List.filter_append]

theorem mem_firsts (ns : List Str) (n : Str) : n ∈ firsts ns ↔ n ∈ ns := by
  induction ns with
  | nil => rfl
  | cons m ms ih =>
    simp only [firsts, List.mem_cons, List.mem_filter, ih, ne_eq, decide_eq_true_eq]
    by_cases h : n = m <;> simp [h]

theorem firsts_nodup (ns : List Str) : (firsts ns).Nodup := by
  induction ns with
  | nil => exact List.nodup_nil
  | cons m ms ih =>
    rw [firsts, List.nodup_cons]
    exact ⟨by simp, ih.filter _⟩

/-- C19 for consistent declarations: one entry per name, in the order of first declaration, with the type of the
declarations of that name, plural iff one of them is. -/
theorem merged_partial (ds : List Element) (hc : Consistent ds) :
    (declareAll ds).map (·.name) = firsts (ds.map (·.name)) ∧
    ∀ x ∈ declareAll ds, (∃ d ∈ ds, Same x d) ∧ (x.plural = true ↔ ∃ d ∈ ds, d.name = x.name ∧ d.plural = true) := by
  suffices ∀ r : List Element, Consistent r.reverse →
      (declareAll r.reverse).map (·.name) = firsts (r.reverse.map (·.name)) ∧
      ∀ x ∈ declareAll r.reverse, (∃ d ∈ r.reverse, Same x d) ∧
        (x.plural = true ↔ ∃ d ∈ r.reverse, d.name = x.name ∧ d.plural = true) by
    have h := this ds.reverse
    rw [List.reverse_reverse] at h
    exact h hc
  clear hc
  intro r
  induction r with
  | nil => intro _; exact ⟨rfl, by simp [declareAll]⟩
  | cons e r ih =>
    intro hc
    rw [List.reverse_cons] at hc ⊢
    generalize r.reverse = ds at ih hc
    obtain ⟨h1, h2⟩ := ih fun a ha b hb => hc a (by simp [ha]) b (by simp [hb])
    have hd : declareAll (ds ++ [e]) = mergeElement e (declareAll ds) := by
      unfold declareAll; rw [List.foldl_append]; rfl
    have hnd : ((declareAll ds).map (·.name)).Nodup := by rw [h1]; exact firsts_nodup _
    have hmem : e.name ∈ ds.map (·.name) ↔ e.name ∈ (declareAll ds).map (·.name) := by rw [h1, mem_firsts]
    rw [hd]
    rcases (merge_iff e (declareAll ds) _).1 rfl with ⟨l, z, r', k1, k2, k3, k4⟩ | ⟨k1, k4⟩
    · rw [k4]
      have hr' : ∀ y ∈ r', y.name ≠ e.name := by
        intro y hy hn
        rw [k1, List.map_append, List.map_cons] at hnd
        have := (List.nodup_cons.1 (List.nodup_append.1 hnd).2.1).1
        apply this
        rw [k2.1, ← hn]
        exact List.mem_map_of_mem hy
      constructor
      · rw [List.map_append, List.map_append, List.map_cons, List.map_cons, List.map_nil, firsts_snoc, if_pos, ← h1, k1,
          List.map_append, List.map_cons]
        rw [hmem, k1]
        simp [k2.1]
      · intro x hx
        have other : x ∈ declareAll ds → x.name ≠ e.name → (∃ d ∈ ds ++ [e], Same x d) ∧
            (x.plural = true ↔ ∃ d ∈ ds ++ [e], d.name = x.name ∧ d.plural = true) := by
          intro hx hn
          obtain ⟨⟨d, hd1, hd2⟩, hp⟩ := h2 x hx
          refine ⟨⟨d, by simp [hd1], hd2⟩, ?_⟩
          rw [hp]
          constructor
          · rintro ⟨d, hd, hh⟩; exact ⟨d, by simp [hd], hh⟩
          · rintro ⟨d, hd, hh⟩
            rcases List.mem_append.1 hd with hd | hd
            · exact ⟨d, hd, hh⟩
            · rw [List.mem_singleton] at hd
              subst hd
              exact absurd hh.1.symm hn
        rcases List.mem_append.1 hx with hx | hx
        · exact other (by rw [k1]; simp [hx]) (k3 x hx)
        · rcases List.mem_cons.1 hx with rfl | hx
          · have hz : z ∈ declareAll ds := by rw [k1]; simp
            obtain ⟨⟨d, hd1, hd2⟩, hp⟩ := h2 z hz
            refine ⟨⟨d, by simp [hd1], hd2⟩, ?_⟩
            simp only [Bool.or_eq_true, hp]
            constructor
            · rintro (⟨d, hd, hh⟩ | he)
              · exact ⟨d, by simp [hd], hh⟩
              · exact ⟨e, by simp, k2.1.symm, he⟩
            · rintro ⟨d, hd, hh⟩
              rcases List.mem_append.1 hd with hd | hd
              · exact Or.inl ⟨d, hd, hh⟩
              · rw [List.mem_singleton] at hd
                subst hd
                exact Or.inr hh.2
          · exact other (by rw [k1]; simp [hx]) (hr' x hx)
    · rw [k4]
      have hfresh : e.name ∉ (declareAll ds).map (·.name) := by
        intro hm
        obtain ⟨x, hx, hxn⟩ := List.mem_map.1 hm
        cases hf : findElement e.name (declareAll ds) with
        | none => exact find_none.1 hf x hx hxn
        | some q =>
          obtain ⟨y, i⟩ := q
          obtain ⟨l, r', j1, -, j3, j4⟩ := find_some hf
          have hy : y ∈ declareAll ds := by rw [j1]; simp
          obtain ⟨⟨d, hd1, hd2⟩, -⟩ := h2 y hy
          have : Same y e := ⟨j3, hd2.2.trans (hc d (by simp [hd1]) e (by simp) (hd2.1.symm.trans j3))⟩
          obtain ⟨w, hw, hwn⟩ := k1 l y r' j1 this
          exact j4 w hw hwn
      have hfresh' : ∀ d ∈ ds, d.name ≠ e.name := by
        intro d hd hn
        apply hfresh
        rw [← hmem, ← hn]
        exact List.mem_map_of_mem hd
      constructor
      · rw [List.map_append, List.map_append, List.map_cons, List.map_nil, firsts_snoc, if_neg (by rw [hmem]; exact hfresh),
          h1]
      · intro x hx
        rcases List.mem_append.1 hx with hx | hx
        · obtain ⟨⟨d, hd1, hd2⟩, hp⟩ := h2 x hx
          refine ⟨⟨d, by simp [hd1], hd2⟩, ?_⟩
          rw [hp]
          constructor
          · rintro ⟨d, hd, hh⟩; exact ⟨d, by simp [hd], hh⟩
          · rintro ⟨d, hd, hh⟩
            rcases List.mem_append.1 hd with hd | hd
            · exact ⟨d, hd, hh⟩
            · rw [List.mem_singleton] at hd
              subst hd
              exact absurd (List.mem_map.2 ⟨x, by assumption, hh.1.symm⟩) hfresh
        · rw [List.mem_singleton] at hx
          subst hx
          refine ⟨⟨x, by simp, rfl, rfl⟩, ?_⟩
          constructor
          · intro h; exact ⟨x, by simp, rfl, h⟩
          · rintro ⟨d, hd, hh⟩
            rcases List.mem_append.1 hd with hd | hd
            · exact absurd hh.1 (hfresh' d hd)
            · rw [List.mem_singleton] at hd
              subst hd
              exact hh.2

/-- Three declarations of two names. -/
example : declareAll [{ name := c!"a", type := c!"int" }, { name := c!"b", type := c!"int", plural := true },
    { name := c!"a", type := c!"int", plural := true }] =
    [{ name := c!"a", type := c!"int", plural := true }, { name := c!"b", type := c!"int", plural := true }] := by decide

end Xgen.C19
