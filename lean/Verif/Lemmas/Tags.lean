import Verif.Model.Parser

/-! # The handlers of the XSD tags -/

namespace Xgen
variable [Uni] [UniLaws]

theorem title_ascii (c : Char) (cs : Str) (h : c.toNat < 128) : makeFirstUpperCase (c :: cs) = asciiUpper c :: cs := by
  rw [← UniLaws.upper_ascii c h]
  rfl

theorem onKind_eq (c : Char) (cs : Str) (h : c.toNat < 128) : onKind (c :: cs) = onTable.get? (asciiUpper c :: cs) := by
  rw [onKind, title_ascii c cs h]

theorem endKind_eq (c : Char) (cs : Str) (h : c.toNat < 128) : endKind (c :: cs) = endTable.get? (asciiUpper c :: cs) := by
  rw [endKind, title_ascii c cs h]

theorem onKind_attribute : onKind c!"attribute" = some .attribute := by rw [onKind_eq _ _ (by decide)]; decide
theorem onKind_attributeGroup : onKind c!"attributeGroup" = some .attributeGroup := by rw [onKind_eq _ _ (by decide)]; decide
theorem onKind_choice : onKind c!"choice" = some .choice := by rw [onKind_eq _ _ (by decide)]; decide
theorem onKind_complexType : onKind c!"complexType" = some .complexType := by rw [onKind_eq _ _ (by decide)]; decide
theorem onKind_element : onKind c!"element" = some .element := by rw [onKind_eq _ _ (by decide)]; decide
theorem onKind_enumeration : onKind c!"enumeration" = some .enumeration := by rw [onKind_eq _ _ (by decide)]; decide
theorem onKind_extension : onKind c!"extension" = some .extension := by rw [onKind_eq _ _ (by decide)]; decide
theorem onKind_group : onKind c!"group" = some .group := by rw [onKind_eq _ _ (by decide)]; decide
theorem onKind_include : onKind c!"include" = some .include := by rw [onKind_eq _ _ (by decide)]; decide
theorem onKind_import : onKind c!"import" = some .import := by rw [onKind_eq _ _ (by decide)]; decide
theorem onKind_list : onKind c!"list" = some .list := by rw [onKind_eq _ _ (by decide)]; decide
theorem onKind_restriction : onKind c!"restriction" = some .restriction := by rw [onKind_eq _ _ (by decide)]; decide
theorem onKind_schema : onKind c!"schema" = some .schema := by rw [onKind_eq _ _ (by decide)]; decide
theorem onKind_simpleType : onKind c!"simpleType" = some .simpleType := by rw [onKind_eq _ _ (by decide)]; decide
theorem onKind_union : onKind c!"union" = some .union := by rw [onKind_eq _ _ (by decide)]; decide

theorem endKind_attribute : endKind c!"attribute" = some .attribute := by rw [endKind_eq _ _ (by decide)]; decide
theorem endKind_attributeGroup : endKind c!"attributeGroup" = some .attributeGroup := by rw [endKind_eq _ _ (by decide)]; decide
theorem endKind_choice : endKind c!"choice" = some .choice := by rw [endKind_eq _ _ (by decide)]; decide
theorem endKind_complexType : endKind c!"complexType" = some .complexType := by rw [endKind_eq _ _ (by decide)]; decide
theorem endKind_element : endKind c!"element" = some .element := by rw [endKind_eq _ _ (by decide)]; decide
theorem endKind_enumeration : endKind c!"enumeration" = some .enumeration := by rw [endKind_eq _ _ (by decide)]; decide
theorem endKind_extension : endKind c!"extension" = some .extension := by rw [endKind_eq _ _ (by decide)]; decide
theorem endKind_group : endKind c!"group" = some .group := by rw [endKind_eq _ _ (by decide)]; decide
theorem endKind_include : endKind c!"include" = none := by rw [endKind_eq _ _ (by decide)]; decide
theorem endKind_import : endKind c!"import" = none := by rw [endKind_eq _ _ (by decide)]; decide
theorem endKind_list : endKind c!"list" = none := by rw [endKind_eq _ _ (by decide)]; decide
theorem endKind_pattern : endKind c!"pattern" = some .pattern := by rw [endKind_eq _ _ (by decide)]; decide
theorem endKind_restriction : endKind c!"restriction" = some .restriction := by rw [endKind_eq _ _ (by decide)]; decide
theorem endKind_schema : endKind c!"schema" = none := by rw [endKind_eq _ _ (by decide)]; decide
theorem endKind_simpleType : endKind c!"simpleType" = some .simpleType := by rw [endKind_eq _ _ (by decide)]; decide
theorem endKind_union : endKind c!"union" = some .union := by rw [endKind_eq _ _ (by decide)]; decide

end Xgen
