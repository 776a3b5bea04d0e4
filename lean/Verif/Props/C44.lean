import Verif.Props.C43

/-! # C44: concurrent generators

False: the counter that makes names unique is a package-level variable (utils.go:30).  Witness: `interferes`.  What holds
is proved in `independent_partial`.

The interleavings considered here switch between the two generators only between two components.  Real executions may also
switch inside (and then race on the Go map), so the negation applies to them and the positive result is about this
granularity only. -/

namespace Xgen.C44
open Decl C43
variable [Uni]

/-- One action of a generator: resetting the counter or declaring a component. -/
inductive Ev where
  | reset
  | node (n : Node Element)

/-- Two generators and the shared counter. -/
structure Sys where
  gens : Bool → Gen
  count : GoMap Nat

/-- Generator `i` acts. -/
def act (step : Bool → Node Element → Gen → Gen) (s : Sys) : Bool × Ev → Sys
  | (_, .reset) => { s with count := [] }
  | (i, .node n) =>
    let g := step i n { s.gens i with count := s.count }
    { gens := fun j => if j = i then g else s.gens j, count := g.count }

/-- What generator `i` has to do for its tree. -/
def program (t : Tree) : List Ev := .reset :: (nodes t).map .node

/-- The actions of generator `i` in an execution. -/
def actsOf (i : Bool) (e : List (Bool × Ev)) : List Ev := (e.filter fun x => x.1 == i).map (·.2)

/-- An interleaving of the two programs. -/
def Interleaving (t : Bool → Tree) (e : List (Bool × Ev)) : Prop := ∀ i, actsOf i e = program (t i)

/-- The state before both start, in any process. -/
def start (count : GoMap Nat) : Sys := { gens := fun _ => {}, count := count }

/-- C44 is false: the same component in two schemas, the second generator resetting the counter too early. -/
theorem interferes : ¬ ∀ (t : Bool → Tree) (e : List (Bool × Ev)), Interleaving t e →
    ∀ i, ((e.foldl (act fun i => @goStep asciiUni (t i)) (start [])).gens i).field =
      (@goGen asciiUni (t i)).field := by
  intro h
  have := h (fun _ => [some (.complex { name := c!"A" })])
    [(true, .reset), (false, .reset), (true, .node (.complex { name := c!"A" })),
      (false, .node (.complex { name := c!"A" }))] (by intro i; cases i <;> rfl) false
  revert this
  decide +kernel

/-- Within one schema: a shared target name only comes from a repeated component, which is not declared again. -/
def NoClash (L : Lang) (m n : Node Element) : Prop :=
  L.unique m = true → L.unique n = true → L.base m = L.base n →
    nodeName m = nodeName n ∧ L.free m = false ∧ L.free n = false

/-- What remains to be declared finds the counter at zero. -/
def Fresh (L : Lang) (rem : List (Node Element)) (g : Gen) (count : GoMap Nat) : Prop :=
  ∀ n ∈ rem, L.unique n = true → (L.free n = true ∨ g.ast.has (nodeName n) = false) → count.getNat (L.base n) = 0

/-- A generator is where it would be alone. -/
structure Alone (L : Lang) (rem : List (Node Element)) (g : Gen) (count : GoMap Nat) (g' : Gen) : Prop where
  field : g.field = g'.field
  ast : ∀ k, g.ast.has k = g'.ast.has k
  fresh : Fresh L rem g count
  fresh' : Fresh L rem g' g'.count

omit [Uni] in
theorem fresh_step {L : Lang} {step : Node Element → Gen → Gen} {m : Node Element} {rem : List (Node Element)} {g : Gen}
    (hF : Follows L step m) (hc : ∀ n ∈ rem, NoClash L m n) (h : Fresh L (m :: rem) g g.count) :
    Fresh L rem (step m g) (step m g).count := by
  intro n hn hu hf
  have hb := h n (List.mem_cons_of_mem _ hn) hu
  by_cases hd : L.free m = true ∨ g.ast.has (nodeName m) = false
  · rw [hF.count g hd]
    rw [hF.ast g hd] at hf
    have hf' : L.free n = true ∨ g.ast.has (nodeName n) = false := by
      rcases hf with hf | hf
      · exact Or.inl hf
      · simp only [Bool.or_eq_false_iff] at hf; exact Or.inr hf.1
    split
    · rename_i e
      obtain ⟨e1, e2, e3⟩ := hc n hn e.1 hu e.2.symm
      exfalso
      rcases hf with hf | hf
      · rw [e3] at hf; cases hf
      · simp [e1, e2] at hf
    · exact hb hf'
  · simp only [not_or, Bool.not_eq_true, Bool.not_eq_false] at hd
    have := hF.skip g hd.1 hd.2
    rw [this] at hf ⊢
    exact hb hf

omit [Uni] in
theorem alone_step {L : Lang} {step : Node Element → Gen → Gen} {m : Node Element} {rem : List (Node Element)} {g g' : Gen}
    {count : GoMap Nat} (hF : Follows L step m) (hc : ∀ n ∈ rem, NoClash L m n) (h : Alone L (m :: rem) g count g') :
    Alone L rem (step m { g with count := count }) (step m { g with count := count }).count (step m g') := by
  have hf1 := fresh_step (g := { g with count := count }) hF hc h.fresh
  have hf2 := fresh_step hF hc h.fresh'
  by_cases hd : L.free m = true ∨ g.ast.has (nodeName m) = false
  · have hd' : L.free m = true ∨ g'.ast.has (nodeName m) = false := by rw [← h.ast]; exact hd
    refine ⟨?_, ?_, hf1, hf2⟩
    · rw [hF.field { g with count := count } hd, hF.field g' hd', h.field]
      by_cases hu : L.unique m = true
      · simp only [hu, if_true]
        rw [h.fresh m List.mem_cons_self hu hd, h.fresh' m List.mem_cons_self hu hd']
      · simp only [hu, Bool.false_eq_true, if_false]
    · intro k
      rw [hF.ast { g with count := count } hd, hF.ast g' hd', h.ast]
  · have hd' := hd
    simp only [not_or, Bool.not_eq_true, Bool.not_eq_false] at hd'
    refine ⟨?_, ?_, hf1, hf2⟩
    · rw [hF.skip { g with count := count } hd'.1 hd'.2, hF.skip g' hd'.1 (by rw [← h.ast]; exact hd'.2)]
      exact h.field
    · rw [hF.skip { g with count := count } hd'.1 hd'.2, hF.skip g' hd'.1 (by rw [← h.ast]; exact hd'.2)]
      exact h.ast

/-- The components declared by a list of actions. -/
def nodesOf (e : List Ev) : List (Node Element) := e.filterMap fun | .reset => none | .node n => some n

omit [Uni] in
theorem nodesOf_program (t : Tree) : nodesOf (program t) = nodes t := by
  unfold nodesOf program
  rw [List.filterMap_cons]
  simp only
  generalize nodes t = ns
  induction ns with
  | nil => rfl
  | cons n ns ih => rw [List.map_cons, List.filterMap_cons]; simp only [ih]

omit [Uni] in
theorem run_alone {L : Bool → Lang} {step : Bool → Node Element → Gen → Gen} (i : Bool) (e : List (Bool × Ev))
    (hF : ∀ j, ∀ n ∈ nodesOf (actsOf j e), Follows (L j) (step j) n)
    (hc : (nodesOf (actsOf i e)).Pairwise (NoClash (L i)))
    (hd : ∀ n ∈ nodesOf (actsOf i e), ∀ m ∈ nodesOf (actsOf (!i) e),
      (L i).unique n = true → (L (!i)).unique m = true → (L i).base n ≠ (L (!i)).base m)
    (s : Sys) (g' : Gen) (h : Alone (L i) (nodesOf (actsOf i e)) (s.gens i) s.count g') :
    ((e.foldl (act step) s).gens i).field = ((nodesOf (actsOf i e)).foldl (fun g n => step i n g) g').field := by
  induction e generalizing s g' with
  | nil => exact h.field
  | cons x e ih =>
    obtain ⟨j, ev⟩ := x
    have mono : ∀ k, ∀ n ∈ nodesOf (actsOf k e), n ∈ nodesOf (actsOf k ((j, ev) :: e)) := by
      intro k n hn
      unfold nodesOf actsOf at hn ⊢
      simp only [List.mem_filterMap, List.mem_map, List.mem_filter] at hn ⊢
      obtain ⟨a, ⟨b, ⟨hb, hb1⟩, hb2⟩, ha⟩ := hn
      exact ⟨a, ⟨b, ⟨List.mem_cons_of_mem _ hb, hb1⟩, hb2⟩, ha⟩
    have hF' : ∀ j, ∀ n ∈ nodesOf (actsOf j e), Follows (L j) (step j) n := fun k n hn => hF k n (mono k n hn)
    have hd' : ∀ n ∈ nodesOf (actsOf i e), ∀ m ∈ nodesOf (actsOf (!i) e),
      (L i).unique n = true → (L (!i)).unique m = true → (L i).base n ≠ (L (!i)).base m :=
      fun n hn m hm => hd n (mono _ n hn) m (mono _ m hm)
    rw [List.foldl_cons]
    cases ev with
    | reset =>
      have e1 : nodesOf (actsOf i ((j, Ev.reset) :: e)) = nodesOf (actsOf i e) := by
        unfold nodesOf actsOf
        rw [List.filter_cons]
        split <;> simp
      rw [e1] at hc h ⊢
      refine ih hF' hc hd' _ _ ⟨h.field, h.ast, ?_, h.fresh'⟩
      intro n _ _ _
      rfl
    | node m =>
      by_cases hj : j = i
      · subst hj
        have e1 : nodesOf (actsOf j ((j, Ev.node m) :: e)) = m :: nodesOf (actsOf j e) := by
          unfold nodesOf actsOf
          rw [List.filter_cons]
          simp
        rw [e1] at hc h ⊢
        rw [List.foldl_cons]
        have hFm : Follows (L j) (step j) m := hF j m (by rw [e1]; exact List.mem_cons_self)
        rw [List.pairwise_cons] at hc
        have := alone_step hFm hc.1 h
        refine ih hF' hc.2 hd' _ _ ?_
        simpa only [act, if_true] using this
      · have hj' : j = !i := by cases i <;> cases j <;> simp_all
        have e1 : nodesOf (actsOf i ((j, Ev.node m) :: e)) = nodesOf (actsOf i e) := by
          unfold nodesOf actsOf
          rw [List.filter_cons]
          simp [hj]
        have hm : m ∈ nodesOf (actsOf j ((j, Ev.node m) :: e)) := by
          unfold nodesOf actsOf
          rw [List.filter_cons]
          simp
        rw [e1] at hc h ⊢
        have hg : ((act step s (j, .node m)).gens i) = s.gens i := by
          simp only [act]
          rw [if_neg (fun h => hj h.symm)]
        refine ih hF' hc hd' _ _ ⟨by rw [hg]; exact h.field, by rw [hg]; exact h.ast, ?_, h.fresh'⟩
        rw [hg]
        intro n hn hu hf
        have hz := h.fresh n hn hu hf
        have hFm := hF j m hm
        simp only [act]
        by_cases hdm : (L j).free m = true ∨ (s.gens j).ast.has (nodeName m) = false
        · rw [hFm.count { s.gens j with count := s.count } hdm]
          split
          · rename_i e2
            subst hj'
            exact absurd e2.2 (hd n (by rw [e1]; exact hn) m hm hu e2.1)
          · exact hz
        · simp only [not_or, Bool.not_eq_true, Bool.not_eq_false] at hdm
          rw [hFm.skip { s.gens j with count := s.count } hdm.1 hdm.2]
          exact hz

/-- The languages follow their descriptions (TypeScript: without enumerated list types, see C15). -/
theorem target_follows (l : Target) (t : Tree) (h : l = .ts → ∀ n ∈ nodes t, C15.isEnumList n = false) :
    ∀ n ∈ nodes t, Follows (l.lang t) (l.step t) n := by
  intro n hn
  cases l with
  | go => exact C15.go_follows t n
  | c => exact C15.c_follows t n
  | java => exact C15.java_follows t n
  | rust => exact C15.rust_follows t n
  | ts => exact C15.ts_follows t n (h rfl n hn)

omit [Uni] in
theorem split_reset (i : Bool) (e : List (Bool × Ev)) (rest : List Ev) (h : actsOf i e = .reset :: rest) :
    ∃ e1 e2, e = e1 ++ (i, .reset) :: e2 ∧ (∀ x ∈ e1, x.1 ≠ i) ∧ actsOf i e2 = rest := by
  induction e with
  | nil => simp [actsOf] at h
  | cons x e ih =>
    obtain ⟨j, ev⟩ := x
    by_cases hj : j = i
    · subst hj
      have h' : ev :: actsOf j e = .reset :: rest := by
        rw [← h]; simp [actsOf]
      injection h' with h1 h2
      subst h1
      exact ⟨[], e, rfl, by simp, h2⟩
    · have h' : actsOf i e = .reset :: rest := by
        rw [← h]; simp [actsOf, List.filter_cons, hj]
      obtain ⟨e1, e2, h1, h2, h3⟩ := ih h'
      refine ⟨(j, ev) :: e1, e2, by rw [h1]; rfl, ?_, h3⟩
      intro x hx
      rcases List.mem_cons.1 hx with rfl | hx
      · exact hj
      · exact h2 x hx

omit [Uni] in
theorem gens_other (step : Bool → Node Element → Gen → Gen) (i : Bool) (e : List (Bool × Ev)) (h : ∀ x ∈ e, x.1 ≠ i)
    (s : Sys) : (e.foldl (act step) s).gens i = s.gens i := by
  induction e generalizing s with
  | nil => rfl
  | cons x e ih =>
    rw [List.foldl_cons, ih (fun y hy => h y (List.mem_cons_of_mem _ hy))]
    obtain ⟨j, ev⟩ := x
    have hj : j ≠ i := h (j, ev) List.mem_cons_self
    cases ev with
    | reset => rfl
    | node n => simp only [act]; rw [if_neg (fun e => hj e.symm)]

/-- C44, partially: two generators running concurrently write what they write alone, if within each schema components of
different names have different target names, and no target name occurs in both schemas.  Missing: shared target names
(false, `interferes`), and switches in the middle of a component (see above). -/
theorem independent_partial (l : Bool → Target) (t : Bool → Tree) (count : GoMap Nat) (e : List (Bool × Ev))
    (he : Interleaving t e)
    (hts : ∀ i, l i = .ts → ∀ n ∈ nodes (t i), C15.isEnumList n = false)
    (hin : ∀ i, (nodes (t i)).Pairwise (NoClash ((l i).lang (t i))))
    (hout : ∀ n ∈ nodes (t true), ∀ m ∈ nodes (t false),
      ((l true).lang (t true)).base n ≠ ((l false).lang (t false)).base m) (i : Bool) :
    ((e.foldl (act fun i => (l i).step (t i)) (start count)).gens i).field = ((l i).gen (t i)).field := by
  have hp : ∀ i, nodesOf (actsOf i e) = nodes (t i) := fun i => by rw [he i, nodesOf_program]
  obtain ⟨e1, e2, h1, h2, h3⟩ := split_reset i e _ (he i)
  have mono : ∀ k, ∀ n ∈ nodesOf (actsOf k e2), n ∈ nodes (t k) := by
    intro k n hn
    rw [← hp k, h1]
    unfold nodesOf actsOf at hn ⊢
    simp only [List.mem_filterMap, List.mem_map, List.mem_filter] at hn ⊢
    obtain ⟨a, ⟨b, ⟨hb, hb1⟩, hb2⟩, ha⟩ := hn
    exact ⟨a, ⟨b, ⟨List.mem_append_right _ (List.mem_cons_of_mem _ hb), hb1⟩, hb2⟩, ha⟩
  have h4 : nodesOf (actsOf i e2) = nodes (t i) := by
    rw [← nodesOf_program, program, h3]
    rfl
  have hb : ∀ n ∈ nodes (t i), ∀ m ∈ nodes (t (!i)), ((l i).lang (t i)).base n ≠ ((l (!i)).lang (t (!i))).base m := by
    cases i with
    | true => exact hout
    | false => exact fun n hn m hm e => hout m hm n hn e.symm
  have hrun := run_alone (L := fun i => (l i).lang (t i)) (step := fun i => (l i).step (t i)) i e2
    (fun k n hn => target_follows (l k) (t k) (hts k) n (mono k n hn))
    (by rw [h4]; exact hin i)
    (fun n hn m hm _ _ => hb n (mono _ n hn) m (mono _ m hm))
    (act (fun i => (l i).step (t i)) (e1.foldl (act fun i => (l i).step (t i)) (start count)) (i, .reset)) {}
    (by
      have hg : ((act (fun i => (l i).step (t i)) (e1.foldl (act fun i => (l i).step (t i)) (start count))
          (i, .reset)).gens i) = {} := gens_other _ i e1 h2 _
      rw [hg]
      exact ⟨rfl, fun _ => rfl, fun _ _ _ _ => rfl, fun _ _ _ _ => rfl⟩)
  rw [h1, List.foldl_append, List.foldl_cons, hrun, h4]
  have : (l i).gen (t i) = genLoop ((l i).step (t i)) (t i) := by cases l i <;> rfl
  rw [this, genLoop_nodes]

/-- Two schemas sharing no name, interleaved. -/
example : Interleaving (fun i => if i then [some (.complex { name := c!"A" })] else [some (.complex { name := c!"B" })])
    [(true, .reset), (false, .reset), (true, .node (.complex { name := c!"A" })),
      (false, .node (.complex { name := c!"B" }))] := by
  intro i; cases i <;> rfl

end Xgen.C44
