import Verif.Lemmas.Clean
import Verif.Props.C15

/-! # What must hold of a complex type for its declaration to be readable -/

namespace Xgen

/-- Characters that may not occur in names. -/
def notInNames : List Char := ['\n', '\t', ' ', '"', '`', ',', ';', '[', ']']

/-- Characters that may not occur in types. -/
def notInTypes : List Char := ['\n', '\t', '"', ';']

/-- The names in a complex type contain no quotes, brackets, separators or white space (true of all XML names), its types
and those of the tree no line or field separators (true of XML names and of the built-in target types). -/
structure Readable (tree : Tree) (v : ComplexType) : Prop where
  name : Clean notInNames v.name
  base : Clean notInTypes v.base
  agName : ∀ a ∈ v.attributeGroup, Clean notInNames a.name
  agType : ∀ a ∈ v.attributeGroup, Clean notInTypes a.ref
  atName : ∀ a ∈ v.attributes, Clean notInNames a.name
  atType : ∀ a ∈ v.attributes, Clean notInTypes a.type
  grName : ∀ g ∈ v.groups, Clean notInNames g.name
  grType : ∀ g ∈ v.groups, Clean notInTypes g.ref
  elName : ∀ e ∈ v.elements, Clean notInNames e.name
  elType : ∀ e ∈ v.elements, Clean notInTypes e.type
  tree : ∀ t ∈ treeTypes tree, Clean notInTypes t

theorem resolveIn_clean {tree : Tree} {s : Str} (hs : Clean notInTypes s)
    (ht : ∀ t ∈ treeTypes tree, Clean notInTypes t) : Clean notInTypes (resolveIn tree s) :=
  fun x hx => resolveIn_absent (hs x hx) (fun r hr => ht r hr x hx)

/-- Reading line by line: one line per item. -/
theorem filterMap_flatMap {α β : Type} {rd : Str → Option β} {l : List α} {g : α → Str} {r : α → β}
    (h : ∀ a ∈ l, rd (g a) = some (r a)) : (l.flatMap fun a => [g a]).filterMap rd = l.map r := by
  induction l with
  | nil => rfl
  | cons a l ih =>
    rw [List.flatMap_cons, List.singleton_append, List.filterMap_cons, h a (by simp), List.map_cons,
      ih fun b hb => h b (by simp [hb])]

/-! ## Splitting a line -/

/-- Before and after the first separator. -/
def splitFirst (sep : Char) (s : Str) : Str × Str := (s.takeWhile (· ≠ sep), (s.dropWhile (· ≠ sep)).drop 1)

/-- Before and after the last separator. -/
def splitLast (sep : Char) (s : Str) : Str × Str :=
  (((s.reverse.dropWhile (· ≠ sep)).drop 1).reverse, (s.reverse.takeWhile (· ≠ sep)).reverse)

theorem splitFirst_eq {sep : Char} {a : Str} (h : sep ∉ a) (b : Str) : splitFirst sep (a ++ sep :: b) = (a, b) := by
  have h1 : ∀ x ∈ a, decide (x ≠ sep) = true := fun x hx => by
    simp only [decide_eq_true_eq]; rintro rfl; exact h hx
  unfold splitFirst
  rw [List.takeWhile_append_of_pos h1, List.dropWhile_append_of_pos h1]
  simp

theorem splitLast_eq {sep : Char} {n : Str} (h : sep ∉ n) (t : Str) : splitLast sep (t ++ sep :: n) = (t, n) := by
  have h1 : ∀ x ∈ n.reverse, decide (x ≠ sep) = true := fun x hx => by
    simp only [decide_eq_true_eq]; rintro rfl; exact h (List.mem_reverse.1 hx)
  have e : (t ++ sep :: n).reverse = n.reverse ++ sep :: t.reverse := by simp
  unfold splitLast
  rw [e, List.takeWhile_append_of_pos h1, List.dropWhile_append_of_pos h1]
  simp

/-! ## Reading members that consist of an annotation line and a member line -/

/-- Reads tabbed lines: `field` reads a member line, given the annotation line before it; any other tabbed line is an
annotation; other lines are skipped. -/
def scan {β : Type} (field : Option Str → Str → Option β) : Option Str → List Str → List β
  | _, [] => []
  | p, ('\t' :: r) :: ls =>
    match field p r with
    | some b => b :: scan field none ls
    | none => scan field (some r) ls
  | _, _ :: ls => scan field none ls

/-- The lines `ls` are exactly the members `bs`. -/
def Block {β : Type} (field : Option Str → Str → Option β) (ls : List Str) (bs : List β) : Prop :=
  ∀ rest, scan field none (ls ++ rest) = bs ++ scan field none rest

namespace Block
variable {α β : Type} {field : Option Str → Str → Option β}

theorem nil : Block field [] [] := fun _ => rfl

theorem append {as bs : List Str} {xs ys : List β} (ha : Block field as xs) (hb : Block field bs ys) :
    Block field (as ++ bs) (xs ++ ys) := by
  intro rest
  rw [List.append_assoc, ha, hb, List.append_assoc]

theorem flatMap {l : List α} {g : α → List Str} {r : α → β} (h : ∀ a ∈ l, Block field (g a) [r a]) :
    Block field (l.flatMap g) (l.map r) := by
  induction l with
  | nil => exact nil
  | cons a l ih =>
    rw [List.flatMap_cons, List.map_cons]
    exact (h a (by simp)).append (ih fun b hb => h b (by simp [hb]))

theorem untabbed {ls : List Str} (h : ∀ l ∈ ls, ∀ r, l ≠ '\t' :: r) : Block field ls [] := by
  intro rest
  induction ls with
  | nil => rfl
  | cons l ls ih =>
    rw [List.cons_append, scan]
    · exact ih fun m hm => h m (by simp [hm])
    · exact fun r e => h l (by simp) r e

theorem one {r : Str} {b : β} (h : field none r = some b) : Block field ['\t' :: r] [b] := by
  intro rest
  rw [List.singleton_append, scan, h]; rfl

theorem two {a r : Str} {b : β} (ha : field none a = none) (h : field (some a) r = some b) :
    Block field ['\t' :: a, '\t' :: r] [b] := by
  intro rest
  rw [List.cons_append, scan, ha]
  simp only
  rw [List.singleton_append, scan, h]; rfl

end Block

namespace Decl

theorem numbered_absent {x : Char} {b : Str} {k : Nat} (hd : x.isDigit = false) (h : x ∉ b) : x ∉ C14.numbered b k := by
  unfold C14.numbered
  split
  · exact h
  · intro hm
    rcases List.mem_append.1 hm with hm | hm
    · exact h hm
    · have := C14.decimal_digits _ x hm
      rw [hd] at this; cases this

/-- Final names contain no newline if the names they are made from do not. -/
theorem named_absent {x : Char} {L : Lang} (hd : x.isDigit = false) {used : List Str} {ns : List (Node Element)}
    {y : Node Element × Str} (hy : y ∈ named L used ns) (h : x ∉ L.base y.1) : x ∉ y.2 := by
  induction ns generalizing used with
  | nil => cases hy
  | cons n ns ih =>
    rw [named] at hy
    rcases List.mem_cons.1 hy with rfl | hy
    · simp only [finalName]
      split
      · exact numbered_absent hd h
      · exact h
    · exact ih hy

end Decl

end Xgen
