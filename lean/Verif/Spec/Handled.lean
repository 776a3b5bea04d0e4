import Verif.Lemmas.Map
import Verif.Model.Parser

/-! # The element names that have handlers, as read off the method names in xml*.go -/

namespace Xgen.Handled

/-- Element names (first letter capitalised) with a start handler. -/
def startHandled : List Str :=
  [c!"Attribute", c!"AttributeGroup", c!"CharData", c!"Choice", c!"ComplexType", c!"Element", c!"Enumeration",
   c!"Extension", c!"Group", c!"Import", c!"Include", c!"List", c!"Restriction", c!"Schema", c!"SimpleType", c!"Union"]

/-- Element names (first letter capitalised) with an end handler. -/
def endHandled : List Str :=
  [c!"Attribute", c!"AttributeGroup", c!"Choice", c!"ComplexType", c!"Element", c!"Enumeration", c!"Extension",
   c!"FractionDigits", c!"Group", c!"Length", c!"MaxExclusive", c!"MaxInclusive", c!"MaxLength", c!"MinExclusive",
   c!"MinInclusive", c!"MinLength", c!"Pattern", c!"Restriction", c!"SimpleType", c!"TotalDigits", c!"Union",
   c!"WhiteSpace"]

variable [Uni]

theorem onKind_none {n : Str} (h : makeFirstUpperCase n ∉ startHandled) : onKind n = none := by
  unfold onKind
  rw [GoMap.get?_eq_none]
  exact fun hm => h hm

theorem endKind_none {n : Str} (h : makeFirstUpperCase n ∉ endHandled) : endKind n = none := by
  unfold endKind
  rw [GoMap.get?_eq_none]
  intro hm
  apply h
  have : ∀ x ∈ endTable.keys, x ∈ endHandled := by decide
  exact this _ hm

end Xgen.Handled
