import Verif.Model.Parser
import Verif.Spec.Example

/-! # C31: character data never changes the structure -/

namespace Xgen.C31

/-! ## Specification: forget all documentation -/

/-- An element without documentation. -/
def noDocE (e : Element) : Element := { e with doc := [] }
/-- An attribute without documentation. -/
def noDocA (a : Attribute) : Attribute := { a with doc := [] }
/-- A simple type without documentation. -/
def noDocS (x : SimpleType) : SimpleType := { x with doc := [] }
/-- An attribute group without documentation. -/
def noDocAG (g : AttributeGroup) : AttributeGroup := { g with doc := [], attributes := g.attributes.map noDocA }
/-- A group without documentation. -/
def noDocG (g : Group) : Group := { g with doc := [], elements := g.elements.map noDocE }
/-- A complex type without documentation. -/
def noDocC (c : ComplexType) : ComplexType :=
  { c with doc := [], elements := c.elements.map noDocE, attributes := c.attributes.map noDocA,
           attributeGroup := c.attributeGroup.map noDocAG }

/-- The parser state without documentation on the stacks and in the heap.  The entries of the tree itself are kept as
they are: text does not touch them at all, except elements, which the tree refers to by address. -/
def noDoc (p : PState) : PState :=
  { p with
    heap := p.heap.map noDocE
    simpleType := p.simpleType.map noDocS
    complexType := p.complexType.map noDocC
    attrSt := p.attrSt.map noDocA
    group := p.group.map noDocG
    attributeGroup := p.attributeGroup.map noDocAG }

/-! ## Theorems -/

theorem map_setTop {α : Type} (g : α → α) (f : α → α) (h : ∀ x, g (f x) = g x) (s : Stack α) :
    (Stack.setTop f s).map g = s.map g := by
  cases s with
  | nil => rfl
  | cons x xs => simp [Stack.setTop, h]

theorem map_modify {α : Type} (g f : α → α) (h : ∀ x, g (f x) = g x) (l : List α) (a : Nat) :
    (l.modify a f).map g = l.map g := by
  induction l generalizing a with
  | nil => simp
  | cons x xs ih => cases a <;> simp [h, ih]

theorem map_setLastDoc (d : Str) (l : List Attribute) : (setLastDoc d l).map noDocA = l.map noDocA := by
  induction l with
  | nil => rfl
  | cons x xs ih =>
    cases xs with
    | nil => rfl
    | cons y ys => simp only [setLastDoc, List.map_cons] at ih ⊢; rw [ih]

/-- C31: forgetting documentation, text changes nothing: no component, name, type or multiplicity, no stack, no flag. -/
theorem structure_kept (x : Str) (p : PState) : noDoc (onCharData x p) = noDoc p := by
  unfold onCharData
  split
  · rfl
  · split
    · rename_i h1 h2
      simp only [noDoc, h2, List.map_cons]
      rfl
    · unfold charDataBelow
      split
      · unfold PState.modTopElement
        split
        · rfl
        · simp only [noDoc]
          rw [map_modify noDocE (fun e => { e with doc := trimSpace x }) (fun _ => rfl)]
      · split
        · rename_i h; simp only [noDoc, h, List.map_cons]; rfl
        · split
          · simp only [noDoc]
            rw [map_setTop noDocS (fun y => { y with doc := trimSpace x }) (fun _ => rfl)]
          · split
            · split
              · rfl
              · rename_i h
                split
                · simp only [noDoc, h, List.map_cons]; rfl
                · simp only [noDoc, h, List.map_cons, noDocC, map_setLastDoc]
            · rfl

/-- The entries of the tree itself are untouched. -/
theorem tree_kept (x : Str) (p : PState) : (onCharData x p).proto = p.proto := by
  have h := congrArg PState.proto (structure_kept x p)
  exact h

/-- White-space-only text (in the sense of unicode.IsSpace) changes nothing. -/
theorem space (x : Str) (hx : ∀ c ∈ x, isSpace c = true) (p : PState) : onCharData x p = p := by
  have h1 : x.dropWhile isSpace = [] := by
    induction x with
    | nil => rfl
    | cons c cs ih =>
      rw [List.dropWhile_cons_of_pos (hx c (by simp))]
      exact ih fun d hd => hx d (by simp [hd])
  have h2 : trimSpace x = [] := by unfold trimSpace; rw [h1]; rfl
  unfold onCharData
  rw [if_pos h2]

/-- Text never fails and leaves the shared maps alone. -/
theorem total [Uni] (W : World) (gvt : Gvt) (x : Str) (s : St) :
    step W gvt (.text x) s = .ok () { s with p := onCharData x s.p } := rfl

/-- A tree without the documentation of its element declarations. -/
def noDocTree (t : Tree) : Tree := t.map (Option.map fun n => match n with
  | .elem e => .elem (noDocE e)
  | n => n)

/-- The tree a reader sees keeps its entries, except for the documentation of element declarations. -/
theorem freeze_kept (x : Str) (p : PState) : noDocTree (onCharData x p).freeze = noDocTree p.freeze := by
  have hh : (onCharData x p).heap.map noDocE = p.heap.map noDocE := congrArg PState.heap (structure_kept x p)
  have hd : ∀ a, noDocE ((onCharData x p).deref a) = noDocE (p.deref a) := by
    intro a
    have h1 : ∀ l : List Element, noDocE ((l[a]?).getD {}) = ((l.map noDocE)[a]?).getD {} := by
      intro l
      rw [List.getElem?_map]
      cases l[a]? <;> rfl
    unfold PState.deref
    rw [h1, h1, hh]
  unfold noDocTree PState.freeze
  rw [tree_kept, List.map_map, List.map_map]
  apply List.map_congr_left
  intro n _
  cases n with
  | none => rfl
  | some n =>
    cases n with
    | elem a => simp only [Function.comp, Option.map_some, Node.deref, hd]
    | _ => rfl

/-- A type with one documented attribute: the text goes to the attribute, not to the type. -/
example : onCharData c!" hi " { inElement := [], currentEle := c!"complexType", complexType := [{ name := c!"T", attributes := [{ name := c!"a" }] }] }
    = { inElement := [], currentEle := c!"complexType", complexType := [{ name := c!"T", attributes := [{ name := c!"a", doc := c!"hi" }] }] } := by decide

end Xgen.C31
