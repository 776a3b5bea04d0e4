import Verif.Props.C14
import Verif.Model.GenGo
import Verif.Model.GenC
import Verif.Model.GenJava
import Verif.Model.GenRust
import Verif.Model.GenTS

/-! # Which components are declared, under which names and with which text

A language is described by data that do not mention the generator state: the name a component would get, whether that
name is made unique, and the text of the declaration under a given name. -/

namespace Xgen.Decl

/-- The schema name of a component. -/
def nodeName : Node Element → Str
  | .simple v => v.name
  | .attr v => v.name
  | .elem v => v.name
  | .complex v => v.name
  | .group v => v.name
  | .attrGroup v => v.name

/-- A target language. -/
structure Lang where
  /-- the target name, before a number is added -/
  base : Node Element → Str
  /-- whether a number is added from the second use of a target name on -/
  unique : Node Element → Bool
  /-- whether the component is declared regardless of earlier ones of its name (and without hiding later ones) -/
  free : Node Element → Bool
  /-- the declaration, given the final target name -/
  text : Node Element → Str → Str

/-- The components to declare: all but those whose schema name was declared before. -/
def declared (L : Lang) : List (Node Element) → List (Node Element)
  | [] => []
  | n :: ns => n :: if L.free n then declared L ns else (declared L ns).filter fun m => L.free m || nodeName m ≠ nodeName n

/-- The final name of a component when the target names `used` have been taken before. -/
def finalName (L : Lang) (used : List Str) (n : Node Element) : Str :=
  if L.unique n then C14.numbered (L.base n) (used.count (L.base n) + 1) else L.base n

/-- The declarations one after the other. -/
def render (L : Lang) : List Str → List (Node Element) → Str
  | _, [] => []
  | used, n :: ns =>
    L.text n (finalName L used n) ++ render L (if L.unique n then L.base n :: used else used) ns

/-! ## A generator step that follows the description -/

/-- What a step does with one component. -/
structure Follows (L : Lang) (step : Node Element → Gen → Gen) (n : Node Element) : Prop where
  skip : ∀ g, L.free n = false → g.ast.has (nodeName n) = true → step n g = g
  field : ∀ g, (L.free n = true ∨ g.ast.has (nodeName n) = false) → (step n g).field = g.field ++
    L.text n (if L.unique n then C14.numbered (L.base n) (g.count.getNat (L.base n) + 1) else L.base n)
  count : ∀ g, (L.free n = true ∨ g.ast.has (nodeName n) = false) → ∀ k, (step n g).count.getNat k =
    if L.unique n = true ∧ k = L.base n then g.count.getNat k + 1 else g.count.getNat k
  ast : ∀ g, (L.free n = true ∨ g.ast.has (nodeName n) = false) → ∀ k, (step n g).ast.has k =
    (g.ast.has k || (!L.free n && decide (k = nodeName n)))

/-- The nodes of a tree, without nil entries. -/
def nodes (t : Tree) : List (Node Element) := t.filterMap id

theorem genLoop_nodes (step : Node Element → Gen → Gen) (t : Tree) :
    genLoop step t = (nodes t).foldl (fun g n => step n g) {} := by
  unfold genLoop genFrom nodes
  rw [show resetCount (newGen []) = ({} : Gen) from rfl]
  generalize ({} : Gen) = g
  induction t generalizing g with
  | nil => rfl
  | cons n ns ih =>
    cases n with
    | none => exact ih g
    | some n => exact ih (step n g)

theorem declared_filter (L : Lang) (p : Str → Bool) (ns : List (Node Element)) :
    declared L (ns.filter fun m => L.free m || p (nodeName m)) =
      (declared L ns).filter fun m => L.free m || p (nodeName m) := by
  induction ns with
  | nil => rfl
  | cons n ns ih =>
    by_cases h : (L.free n || p (nodeName n)) = true
    · rw [List.filter_cons_of_pos (by simpa using h), declared, declared, List.filter_cons_of_pos (by simpa using h)]
      congr 1
      rw [ih]
      split
      · rfl
      · rw [List.filter_filter, List.filter_filter]
        congr 1
        funext m
        exact Bool.and_comm _ _
    · rw [List.filter_cons_of_neg (by simpa using h), ih, declared, List.filter_cons_of_neg (by simpa using h)]
      simp only [Bool.or_eq_true, not_or, Bool.not_eq_true] at h
      rw [if_neg (by simp [h.1]), List.filter_filter]
      apply List.filter_congr
      intro m _
      by_cases h1 : L.free m = true
      · simp [h1]
      · by_cases h2 : nodeName m = nodeName n
        · rw [h2]; simp [h1, h.2]
        · simp [h1, h2]

/-- The components with their final names. -/
def named (L : Lang) : List Str → List (Node Element) → List (Node Element × Str)
  | _, [] => []
  | used, n :: ns => (n, finalName L used n) :: named L (if L.unique n then L.base n :: used else used) ns

theorem render_named (L : Lang) (used : List Str) (ns : List (Node Element)) :
    render L used ns = (named L used ns).flatMap fun x => L.text x.1 x.2 := by
  induction ns generalizing used with
  | nil => rfl
  | cons n ns ih => rw [render, named, List.flatMap_cons, ih]

theorem map_fst_named (L : Lang) (used : List Str) (ns : List (Node Element)) : (named L used ns).map (·.1) = ns := by
  induction ns generalizing used with
  | nil => rfl
  | cons n ns ih => rw [named, List.map_cons, ih]

/-- What the generator accumulates, if it follows the description and `f` says how one component changes the accumulated
value. -/
theorem obs_eq {α : Type} (L : Lang) (step : Node Element → Gen → Gen) (t : Tree) (h : ∀ n ∈ nodes t, Follows L step n)
    (obs : Gen → α) (f : α → Node Element × Str → α)
    (ho : ∀ n ∈ nodes t, ∀ g, (L.free n = true ∨ g.ast.has (nodeName n) = false) → obs (step n g) = f (obs g)
      (n, if L.unique n then C14.numbered (L.base n) (g.count.getNat (L.base n) + 1) else L.base n)) :
    obs (genLoop step t) = (named L [] (declared L (nodes t))).foldl f (obs {}) := by
  rw [genLoop_nodes]
  suffices ∀ (ns : List (Node Element)) (g : Gen) (used : List Str), (∀ n ∈ ns, n ∈ nodes t) →
      (∀ k, g.count.getNat k = used.count k) →
      obs (ns.foldl (fun g n => step n g) g) =
        (named L used (declared L (ns.filter fun m => L.free m || !g.ast.has (nodeName m)))).foldl f (obs g) by
    have := this (nodes t) {} [] (fun _ h => h) (fun k => rfl)
    rw [this]
    have : (nodes t).filter (fun m => L.free m || !({} : Gen).ast.has (nodeName m)) = nodes t := by
      rw [List.filter_eq_self]
      intro m _
      simp [GoMap.has, GoMap.get?]
    rw [this]
  intro ns
  induction ns with
  | nil => intro g used _ _; simp [declared, named]
  | cons n ns ih =>
    intro g used hf hu
    have F := h n (hf n (by simp))
    rw [List.foldl_cons]
    by_cases hd : L.free n = true ∨ g.ast.has (nodeName n) = false
    · have hfl : (L.free n || !g.ast.has (nodeName n)) = true := by
        rcases hd with hd | hd <;> simp [hd]
      rw [List.filter_cons_of_pos (by simpa using hfl), declared, named, List.foldl_cons,
        ih (step n g) (if L.unique n then L.base n :: used else used) (fun m hm => hf m (by simp [hm])),
        ho n (hf n (by simp)) g hd]
      · unfold finalName
        rw [hu]
        congr 2
        by_cases hfr : L.free n = true
        · rw [if_pos hfr]
          congr 1
          apply List.filter_congr
          intro m _
          rw [F.ast g hd]
          simp [hfr]
        · rw [if_neg hfr, ← declared_filter L (fun s => decide (s ≠ nodeName n)), List.filter_filter]
          congr 1
          apply List.filter_congr
          intro m _
          rw [F.ast g hd]
          by_cases h1 : L.free m = true
          · simp [h1]
          · by_cases h2 : nodeName m = nodeName n
            · simp [h1, hfr, h2]
            · simp [h1, hfr, h2]
      · intro k
        rw [F.count g hd, hu]
        by_cases hun : L.unique n = true
        · simp only [hun, true_and, if_true, List.count_cons]
          by_cases hk : k = L.base n
          · simp [hk]
          · have : ¬ L.base n = k := fun e => hk e.symm
            simp [hk, this]
        · simp [hun]
    · have hd' : L.free n = false ∧ g.ast.has (nodeName n) = true := by
        constructor
        · cases h : L.free n with
          | true => exact absurd (Or.inl h) hd
          | false => rfl
        · cases h : g.ast.has (nodeName n) with
          | true => rfl
          | false => exact absurd (Or.inr h) hd
      rw [F.skip g hd'.1 hd'.2, List.filter_cons_of_neg (by simp [hd'.1, hd'.2]),
        ih g used (fun m hm => hf m (by simp [hm])) hu]

/-- The generator follows the description for all components of the tree: its output is the description's. -/
theorem field_eq (L : Lang) (step : Node Element → Gen → Gen) (t : Tree) (h : ∀ n ∈ nodes t, Follows L step n) :
    (genLoop step t).field = render L [] (declared L (nodes t)) := by
  rw [obs_eq L step t h (fun g => g.field) (fun s x => s ++ L.text x.1 x.2) (fun n hn g hd => (h n hn).field g hd),
    render_named]
  suffices ∀ (l : List (Node Element × Str)) (s : Str), l.foldl (fun s x => s ++ L.text x.1 x.2) s =
      s ++ l.flatMap fun x => L.text x.1 x.2 from this _ []
  intro l
  induction l with
  | nil => simp
  | cons x l ih => intro s; rw [List.foldl_cons, ih, List.flatMap_cons, List.append_assoc]

/-! ## What `declared` keeps -/

/-- Every name is declared. -/
theorem declared_complete (L : Lang) (ns : List (Node Element)) (n : Node Element) (h : n ∈ ns) :
    ∃ m ∈ declared L ns, nodeName m = nodeName n := by
  induction ns with
  | nil => cases h
  | cons x xs ih =>
    rw [declared]
    rcases List.mem_cons.1 h with rfl | h
    · exact ⟨n, by simp, rfl⟩
    · obtain ⟨m, hm, he⟩ := ih h
      by_cases hx : nodeName m = nodeName x
      · exact ⟨x, by simp, by rw [← hx, he]⟩
      · refine ⟨m, ?_, he⟩
        split
        · simp [hm]
        · simp [hm, hx]

/-- Nothing else is declared, and the order is kept. -/
theorem declared_sublist (L : Lang) (ns : List (Node Element)) : (declared L ns).Sublist ns := by
  induction ns with
  | nil => exact List.Sublist.slnil
  | cons x xs ih =>
    rw [declared]
    refine List.Sublist.cons_cons x ?_
    split
    · exact ih
    · exact List.filter_sublist.trans ih

/-- In a language without exceptions each name is declared once. -/
theorem declared_once (L : Lang) (hL : ∀ n, L.free n = false) (ns : List (Node Element)) :
    ((declared L ns).map nodeName).Nodup := by
  induction ns with
  | nil => exact List.nodup_nil
  | cons x xs ih =>
    rw [declared, if_neg (by simp [hL]), List.map_cons, List.nodup_cons]
    constructor
    · simp [hL]
    · exact ih.sublist (List.filter_sublist.map nodeName)

/-- ... by the first component of that name. -/
theorem declared_first (L : Lang) (hL : ∀ n, L.free n = false) (ns : List (Node Element)) (n : Node Element) :
    n ∈ declared L ns ↔ ∃ l r, ns = l ++ n :: r ∧ ∀ m ∈ l, nodeName m ≠ nodeName n := by
  induction ns with
  | nil => simp [declared]
  | cons x xs ih =>
    rw [declared, if_neg (by simp [hL])]
    simp only [List.mem_cons, List.mem_filter, hL, Bool.false_or, decide_eq_true_eq, ih]
    constructor
    · rintro (rfl | ⟨⟨l, r, h1, h2⟩, h3⟩)
      · exact ⟨[], xs, rfl, by simp⟩
      · refine ⟨x :: l, r, by rw [h1]; rfl, ?_⟩
        intro m hm
        rcases List.mem_cons.1 hm with rfl | hm
        · exact fun e => h3 e.symm
        · exact h2 m hm
    · rintro ⟨l, r, h1, h2⟩
      cases l with
      | nil => cases h1; exact Or.inl rfl
      | cons y ys =>
        cases h1
        exact Or.inr ⟨⟨ys, r, rfl, fun m hm => h2 m (by simp [hm])⟩, fun e => h2 _ (by simp) e.symm⟩

end Xgen.Decl
