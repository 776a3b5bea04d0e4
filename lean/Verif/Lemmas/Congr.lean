import Verif.Model.GenGo
import Verif.Model.GenC
import Verif.Model.GenJava
import Verif.Model.GenRust
import Verif.Model.GenTS

/-! # The generators look into the tree only by `resolveIn` and `memberType` -/

namespace Xgen
variable [Uni]

theorem goStep_congr {t t' : Tree} (h : resolveIn t = resolveIn t') (hm : memberType t = memberType t') : goStep t = goStep t' := by
  have h1 : goMemberLine t = goMemberLine t' := by funext _; simp only [goMemberLine, h, hm]
  have h2 : goSimpleType t = goSimpleType t' := by funext _ _; simp only [goSimpleType, h, hm, h1]
  have h3 : goAttrGroupLine t = goAttrGroupLine t' := by funext _; simp only [goAttrGroupLine, h, hm, h1, h2]
  have h4 : goAttrLine t = goAttrLine t' := by funext _; simp only [goAttrLine, h, hm, h1, h2, h3]
  have h5 : goGroupLine t = goGroupLine t' := by funext _; simp only [goGroupLine, h, hm, h1, h2, h3, h4]
  have h6 : goElemLine t = goElemLine t' := by funext _; simp only [goElemLine, h, hm, h1, h2, h3, h4, h5]
  have h7 : goComplexUsesTime t = goComplexUsesTime t' := by funext _; simp only [goComplexUsesTime, h, hm, h1, h2, h3, h4, h5, h6]
  have h8 : goComplexContent t = goComplexContent t' := by funext _ _; simp only [goComplexContent, h, hm, h1, h2, h3, h4, h5, h6, h7]
  have h9 : goComplexType t = goComplexType t' := by funext _ _; simp only [goComplexType, h, hm, h1, h2, h3, h4, h5, h6, h7, h8]
  have h10 : goGroupElemLine t = goGroupElemLine t' := by funext _; simp only [goGroupElemLine, h, hm, h1, h2, h3, h4, h5, h6, h7, h8, h9]
  have h11 : goGroup t = goGroup t' := by funext _ _; simp only [goGroup, h, hm, h1, h2, h3, h4, h5, h6, h7, h8, h9, h10]
  have h12 : goAttributeGroup t = goAttributeGroup t' := by funext _ _; simp only [goAttributeGroup, h, hm, h1, h2, h3, h4, h5, h6, h7, h8, h9, h10, h11]
  have h13 : goElement t = goElement t' := by funext _ _; simp only [goElement, h, hm, h1, h2, h3, h4, h5, h6, h7, h8, h9, h10, h11, h12]
  have h14 : goAttribute t = goAttribute t' := by funext _ _; simp only [goAttribute, h, hm, h1, h2, h3, h4, h5, h6, h7, h8, h9, h10, h11, h12, h13]
  funext n
  cases n <;> simp only [goStep, h1, h2, h3, h4, h5, h6, h7, h8, h9, h10, h11, h12, h13, h14]

theorem cStep_congr {t t' : Tree} (h : resolveIn t = resolveIn t') (hm : memberType t = memberType t') : cStep t = cStep t' := by
  have h1 : cMemberLine t = cMemberLine t' := by funext _; simp only [cMemberLine, h, hm]
  have h2 : cSimpleType t = cSimpleType t' := by funext _ _; simp only [cSimpleType, h, hm, h1]
  have h3 : cAttrGroupLine t = cAttrGroupLine t' := by funext _; simp only [cAttrGroupLine, h, hm, h1, h2]
  have h4 : cAttrLine t = cAttrLine t' := by funext _; simp only [cAttrLine, h, hm, h1, h2, h3]
  have h5 : cGroupLine t = cGroupLine t' := by funext _; simp only [cGroupLine, h, hm, h1, h2, h3, h4]
  have h6 : cElemLine t = cElemLine t' := by funext _; simp only [cElemLine, h, hm, h1, h2, h3, h4, h5]
  have h7 : cComplexContent t = cComplexContent t' := by funext _; simp only [cComplexContent, h, hm, h1, h2, h3, h4, h5, h6]
  have h8 : cComplexType t = cComplexType t' := by funext _ _; simp only [cComplexType, h, hm, h1, h2, h3, h4, h5, h6, h7]
  have h9 : cGroupElemLine t = cGroupElemLine t' := by funext _; simp only [cGroupElemLine, h, hm, h1, h2, h3, h4, h5, h6, h7, h8]
  have h10 : cGroup t = cGroup t' := by funext _ _; simp only [cGroup, h, hm, h1, h2, h3, h4, h5, h6, h7, h8, h9]
  have h11 : cAttributeGroup t = cAttributeGroup t' := by funext _ _; simp only [cAttributeGroup, h, hm, h1, h2, h3, h4, h5, h6, h7, h8, h9, h10]
  have h12 : cElement t = cElement t' := by funext _ _; simp only [cElement, h, hm, h1, h2, h3, h4, h5, h6, h7, h8, h9, h10, h11]
  have h13 : cAttribute t = cAttribute t' := by funext _ _; simp only [cAttribute, h, hm, h1, h2, h3, h4, h5, h6, h7, h8, h9, h10, h11, h12]
  funext n
  cases n <;> simp only [cStep, h1, h2, h3, h4, h5, h6, h7, h8, h9, h10, h11, h12, h13]

theorem javaStep_congr {t t' : Tree} (h : resolveIn t = resolveIn t') (hm : memberType t = memberType t') : javaStep t = javaStep t' := by
  have h1 : javaMemberLine t = javaMemberLine t' := by funext _; simp only [javaMemberLine, h, hm]
  have h2 : javaSimpleType t = javaSimpleType t' := by funext _ _; simp only [javaSimpleType, h, hm, h1]
  have h3 : javaAttrGroupLine t = javaAttrGroupLine t' := by funext _; simp only [javaAttrGroupLine, h, hm, h1, h2]
  have h4 : javaAttrLine t = javaAttrLine t' := by funext _; simp only [javaAttrLine, h, hm, h1, h2, h3]
  have h5 : javaGroupLine t = javaGroupLine t' := by funext _; simp only [javaGroupLine, h, hm, h1, h2, h3, h4]
  have h6 : javaElemLine t = javaElemLine t' := by funext _; simp only [javaElemLine, h, hm, h1, h2, h3, h4, h5]
  have h7 : javaValueLine t = javaValueLine t' := by funext _; simp only [javaValueLine, h, hm, h1, h2, h3, h4, h5, h6]
  have h8 : javaExtends t = javaExtends t' := by funext _; simp only [javaExtends, h, hm, h1, h2, h3, h4, h5, h6, h7]
  have h9 : javaComplexContent t = javaComplexContent t' := by funext _; simp only [javaComplexContent, h, hm, h1, h2, h3, h4, h5, h6, h7, h8]
  have h10 : javaComplexType t = javaComplexType t' := by funext _ _; simp only [javaComplexType, h, hm, h1, h2, h3, h4, h5, h6, h7, h8, h9]
  have h11 : javaGroup t = javaGroup t' := by funext _ _; simp only [javaGroup, h, hm, h1, h2, h3, h4, h5, h6, h7, h8, h9, h10]
  have h12 : javaAttrGroupAttrLine t = javaAttrGroupAttrLine t' := by funext _; simp only [javaAttrGroupAttrLine, h, hm, h1, h2, h3, h4, h5, h6, h7, h8, h9, h10, h11]
  have h13 : javaAttributeGroup t = javaAttributeGroup t' := by funext _ _; simp only [javaAttributeGroup, h, hm, h1, h2, h3, h4, h5, h6, h7, h8, h9, h10, h11, h12]
  have h14 : javaElement t = javaElement t' := by funext _ _; simp only [javaElement, h, hm, h1, h2, h3, h4, h5, h6, h7, h8, h9, h10, h11, h12, h13]
  have h15 : javaAttribute t = javaAttribute t' := by funext _ _; simp only [javaAttribute, h, hm, h1, h2, h3, h4, h5, h6, h7, h8, h9, h10, h11, h12, h13, h14]
  funext n
  cases n <;> simp only [javaStep, h1, h2, h3, h4, h5, h6, h7, h8, h9, h10, h11, h12, h13, h14, h15]

theorem rustStep_congr {t t' : Tree} (h : resolveIn t = resolveIn t') (hm : memberType t = memberType t') : rustStep t = rustStep t' := by
  have h1 : rustMemberLine t = rustMemberLine t' := by funext _ _; simp only [rustMemberLine, h, hm]
  have h2 : rustSimpleType t = rustSimpleType t' := by funext _ _; simp only [rustSimpleType, h, hm, h1]
  have h3 : rustAttrGroupLine t = rustAttrGroupLine t' := by funext _; simp only [rustAttrGroupLine, h, hm, h1, h2]
  have h4 : rustAttrLine t = rustAttrLine t' := by funext _; simp only [rustAttrLine, h, hm, h1, h2, h3]
  have h5 : rustGroupLine t = rustGroupLine t' := by funext _; simp only [rustGroupLine, h, hm, h1, h2, h3, h4]
  have h6 : rustElemLine t = rustElemLine t' := by funext _; simp only [rustElemLine, h, hm, h1, h2, h3, h4, h5]
  have h7 : rustBaseLine t = rustBaseLine t' := by funext _; simp only [rustBaseLine, h, hm, h1, h2, h3, h4, h5, h6]
  have h8 : rustComplexContent t = rustComplexContent t' := by funext _; simp only [rustComplexContent, h, hm, h1, h2, h3, h4, h5, h6, h7]
  have h9 : rustComplexType t = rustComplexType t' := by funext _ _; simp only [rustComplexType, h, hm, h1, h2, h3, h4, h5, h6, h7, h8]
  have h10 : rustGroupMember t = rustGroupMember t' := by funext _ _ _; simp only [rustGroupMember, h, hm, h1, h2, h3, h4, h5, h6, h7, h8, h9]
  have h11 : rustGroup t = rustGroup t' := by funext _ _; simp only [rustGroup, h, hm, h1, h2, h3, h4, h5, h6, h7, h8, h9, h10]
  have h12 : rustAttrGroupAttrLine t = rustAttrGroupAttrLine t' := by funext _; simp only [rustAttrGroupAttrLine, h, hm, h1, h2, h3, h4, h5, h6, h7, h8, h9, h10, h11]
  have h13 : rustAttributeGroup t = rustAttributeGroup t' := by funext _ _; simp only [rustAttributeGroup, h, hm, h1, h2, h3, h4, h5, h6, h7, h8, h9, h10, h11, h12]
  have h14 : rustElement t = rustElement t' := by funext _ _; simp only [rustElement, h, hm, h1, h2, h3, h4, h5, h6, h7, h8, h9, h10, h11, h12, h13]
  have h15 : rustAttribute t = rustAttribute t' := by funext _ _; simp only [rustAttribute, h, hm, h1, h2, h3, h4, h5, h6, h7, h8, h9, h10, h11, h12, h13, h14]
  funext n
  cases n <;> simp only [rustStep, h1, h2, h3, h4, h5, h6, h7, h8, h9, h10, h11, h12, h13, h14, h15]

theorem tsStep_congr {t t' : Tree} (h : resolveIn t = resolveIn t') (hm : memberType t = memberType t') : tsStep t = tsStep t' := by
  have h1 : tsMemberLine t = tsMemberLine t' := by funext _; simp only [tsMemberLine, h, hm]
  have h2 : tsSimpleType t = tsSimpleType t' := by funext _ _; simp only [tsSimpleType, h, hm, h1]
  have h3 : tsAttrGroupLine t = tsAttrGroupLine t' := by funext _; simp only [tsAttrGroupLine, h, hm, h1, h2]
  have h4 : tsAttrLine t = tsAttrLine t' := by funext _; simp only [tsAttrLine, h, hm, h1, h2, h3]
  have h5 : tsGroupLine t = tsGroupLine t' := by funext _; simp only [tsGroupLine, h, hm, h1, h2, h3, h4]
  have h6 : tsElemLine t = tsElemLine t' := by funext _; simp only [tsElemLine, h, hm, h1, h2, h3, h4, h5]
  have h7 : tsValueLine t = tsValueLine t' := by funext _; simp only [tsValueLine, h, hm, h1, h2, h3, h4, h5, h6]
  have h8 : tsExtends t = tsExtends t' := by funext _; simp only [tsExtends, h, hm, h1, h2, h3, h4, h5, h6, h7]
  have h9 : tsComplexContent t = tsComplexContent t' := by funext _; simp only [tsComplexContent, h, hm, h1, h2, h3, h4, h5, h6, h7, h8]
  have h10 : tsComplexType t = tsComplexType t' := by funext _ _; simp only [tsComplexType, h, hm, h1, h2, h3, h4, h5, h6, h7, h8, h9]
  have h11 : tsGroup t = tsGroup t' := by funext _ _; simp only [tsGroup, h, hm, h1, h2, h3, h4, h5, h6, h7, h8, h9, h10]
  have h12 : tsAttributeGroup t = tsAttributeGroup t' := by funext _ _; simp only [tsAttributeGroup, h, hm, h1, h2, h3, h4, h5, h6, h7, h8, h9, h10, h11]
  have h13 : tsElement t = tsElement t' := by funext _ _; simp only [tsElement, h, hm, h1, h2, h3, h4, h5, h6, h7, h8, h9, h10, h11, h12]
  have h14 : tsAttribute t = tsAttribute t' := by funext _ _; simp only [tsAttribute, h, hm, h1, h2, h3, h4, h5, h6, h7, h8, h9, h10, h11, h12, h13]
  funext n
  cases n <;> simp only [tsStep, h1, h2, h3, h4, h5, h6, h7, h8, h9, h10, h11, h12, h13, h14]

end Xgen
