import Verif.Model.State

/-!
# The event handlers, xml*.go and schema.go

Handlers that resolve type names take `gvt`, the call `opt.GetValueType(value, opt.ProtoTree)`.  It returns the value
type together with the error, because the callers assign the value before testing the error.  (The `protoTree`
argument of every handler is `opt.ProtoTree` at the time of the call, parser.go:113,119,123, and no handler appends to
the tree before it resolves a name.)
-/

namespace Xgen

/-- The type of `opt.GetValueType(·, opt.ProtoTree)`, parser.go:156. -/
abbrev Gvt := Str → Go St (Str × Option Err)

/-- `x, err = opt.GetValueType(value, …); if err != nil { return }` where `set` is the assignment to `x`
(e.g. xmlList.go:23-25, xmlUnion.go:30-33). -/
def assignType (gvt : Gvt) (value : Str) (set : Str → PState → PState) : Go St Unit := do
  let r ← gvt value
  onP (set r.1)
  Go.throwOpt r.2

/-- The same into a local variable, whose value is lost if the handler returns an error (e.g. xmlAttribute.go:22-25,
xmlElement.go:22-25). -/
def resolve (gvt : Gvt) (value : Str) : Go St Str := do
  let r ← gvt value
  Go.throwOpt r.2
  return r.1

/-- `for _, attr := range ele.Attr { … }` with loop-carried value `acc` (e.g. xmlAttribute.go:19,
xmlElement.go:19). -/
def forAttrs {α : Type} (step : α → Attr → Go St α) : List Attr → α → Go St α
  | [], acc => pure acc
  | a :: as, acc => do
    let acc ← step acc a
    forAttrs step as acc

/-! ## schema.go, xmlSchema.go, xmlImport.go, xmlInclude.go -/

/-- `prepareLocalNameNSMap`, schema.go:13-19, called by `OnSchema`, xmlSchema.go:15-18 -/
def onSchema (attrs : List Attr) (sh : Shared) : Shared :=
  attrs.foldl (fun sh a =>
    if a.space = c!"xmlns" then { sh with localNS := sh.localNS.set a.local a.value } else sh) sh

/-- One iteration of `prepareNSSchemaLocationMap`, schema.go:23-41; the pair is (`currentNS`, state).
(One attribute cannot be both `namespace` and `schemaLocation`.) -/
def onImportAttr (isURL : Str → Bool) (acc : Str × Shared) (a : Attr) : Str × Shared :=
  if a.local = c!"namespace" then (a.value, acc.2)
  else if a.local = c!"schemaLocation" then
    if acc.2.nsLoc.has acc.1 then acc
    else if isURL a.value then acc
    else (acc.1, { acc.2 with nsLoc := acc.2.nsLoc.set acc.1 a.value })
  else acc

/-- `OnImport`, xmlImport.go:16-19 with schema.go:21-42 -/
def onImport (isURL : Str → Bool) (attrs : List Attr) (sh : Shared) : Shared :=
  (attrs.foldl (onImportAttr isURL) ([], sh)).2

/-- `OnInclude`, xmlInclude.go:16-26 -/
def onInclude (attrs : List Attr) (sh : Shared) : Shared :=
  attrs.foldl (fun sh a =>
    if a.local = c!"schemaLocation" then
      if sh.includeMap.has a.value then sh else { sh with includeMap := sh.includeMap.set a.value true }
    else sh) sh

/-! ## xmlAttribute.go -/

/-- Loop body of `OnAttribute`, xmlAttribute.go:20-40 -/
def onAttributeAttr (gvt : Gvt) (x : Attribute) (a : Attr) : Go St Attribute :=
  if a.local = c!"ref" then do
    let t ← resolve gvt a.value
    return { x with name := a.value, type := t }
  else if a.local = c!"name" then return { x with name := a.value }
  else if a.local = c!"type" then do
    let t ← resolve gvt a.value
    return { x with type := t }
  else if a.local = c!"use" then
    return if a.value = c!"required" then { x with optional := false } else x
  else return x

/-- `OnAttribute`, xmlAttribute.go:15-44 -/
def onAttribute (gvt : Gvt) (attrs : List Attr) : Go St Unit := do
  let x ← forAttrs (onAttributeAttr gvt) attrs { optional := true }
  onP fun p => { p with attrSt := x :: p.attrSt }

/-- `EndAttribute`, xmlAttribute.go:47-63 -/
def endAttribute (p : PState) : PState :=
  match p.attrSt with
  | [] => p
  | x :: rest =>
    let p := { p with attrSt := rest }
    match p.attributeGroup with
    | ag :: ags => { p with attributeGroup := { ag with attributes := ag.attributes ++ [x] } :: ags }
    | [] =>
      match p.complexType with
      | c :: cs => { p with complexType := { c with attributes := c.attributes ++ [x] } :: cs }
      | [] => p.append (some (.attr x))

/-! ## xmlAttributeGroup.go -/

/-- Loop body of `OnAttributeGroup`, xmlAttributeGroup.go:20-29 -/
def onAttributeGroupAttr (gvt : Gvt) (x : AttributeGroup) (a : Attr) : Go St AttributeGroup :=
  if a.local = c!"name" then return { x with name := a.value }
  else if a.local = c!"ref" then do
    let t ← resolve gvt a.value
    return { x with name := a.value, ref := t }
  else return x

/-- xmlAttributeGroup.go:31-42 -/
def placeAttributeGroup (x : AttributeGroup) (p : PState) : PState :=
  match p.complexType with
  | [] => { p with inAttributeGroup := true, currentEle := p.inElement, attributeGroup := x :: p.attributeGroup }
  | c :: cs => { p with complexType := { c with attributeGroup := c.attributeGroup ++ [x] } :: cs }

/-- `OnAttributeGroup`, xmlAttributeGroup.go:17-43 -/
def onAttributeGroup (gvt : Gvt) (attrs : List Attr) : Go St Unit := do
  let x ← forAttrs (onAttributeGroupAttr gvt) attrs {}
  onP (placeAttributeGroup x)

/-- `EndAttributeGroup`, xmlAttributeGroup.go:46-53 -/
def endAttributeGroup (p : PState) : PState :=
  match p.attributeGroup with
  | [] => p
  | x :: rest =>
    { p.append (some (.attrGroup x)) with attributeGroup := rest, currentEle := [], inAttributeGroup := false }

/-! ## xmlCharData.go -/

/-- Assign the documentation of the last attribute, xmlCharData.go:49-51 -/
def setLastDoc (doc : Str) : List Attribute → List Attribute
  | [] => []
  | [x] => [{ x with doc := doc }]
  | x :: y :: rest => x :: setLastDoc doc (y :: rest)

/-- Assignment through an `*Element`: `opt.Element.Peek().(*Element).f = …` (no-op on the empty stack, which the
callers exclude); xmlCharData.go:29, xmlEnumeration.go:35, xmlPattern.go:24 and the facet handlers. -/
def PState.modTopElement (p : PState) (f : Element → Element) : PState :=
  match p.element with
  | [] => p
  | a :: _ => { p with heap := p.heap.modify a f }

/-- xmlCharData.go:27-59, the part after the attribute-group test, for a trimmed non-empty text -/
def charDataBelow (ele : Str) (p : PState) : PState :=
  if p.inElement ≠ [] && !p.element.isEmpty then p.modTopElement fun e => { e with doc := ele }
  else
    match p.attrSt with
    | x :: rest => { p with attrSt := { x with doc := ele } :: rest }
    | [] =>
      if p.currentEle = c!"simpleType" then
        { p with simpleType := Stack.setTop (fun x => { x with doc := ele }) p.simpleType }
      else if p.currentEle = c!"complexType" then
        match p.complexType with
        | [] => p
        | c :: cs =>
          if c.attributes.isEmpty then { p with complexType := { c with doc := ele } :: cs }
          else { p with complexType := { c with attributes := setLastDoc ele c.attributes } :: cs }
      else p

/-- `OnCharData`, xmlCharData.go:16-60.  (The test `opt.Attribute.Len() > 0` at line 44 repeats line 33 and cannot
succeed.) -/
def onCharData (ele : Str) (p : PState) : PState :=
  if trimSpace ele = [] then p
  else
    match p.inAttributeGroup, p.attributeGroup with
    | true, ag :: ags => { p with attributeGroup := { ag with doc := trimSpace ele } :: ags }
    | _, _ => charDataBelow (trimSpace ele) p

/-! ## xmlChoice.go -/

/-- `maxOccurs, err = strconv.Atoi(v)` with the tests at xmlChoice.go:24-31 and xmlElement.go:39-44: `none` is an
error, otherwise whether more than one occurrence is allowed. -/
def maxOccursPlural (v : Str) : Option Bool :=
  if v = c!"unbounded" then some true
  else match atoi v with
    | none => none
    | some n => some (decide (1 < n))

/-- Loop body of `OnChoice`, xmlChoice.go:22-32 (a later maxOccurs overrides an earlier one) -/
def onChoiceAttr (x : Choice) (a : Attr) : Go St Choice :=
  if a.local = c!"maxOccurs" then
    match maxOccursPlural a.value with
    | none => Go.throw (.atoi a.value)
    | some b => return { x with plural := b }
  else return x

/-- `opt.Choice.Len() > 0 && opt.Choice.Peek().(*Choice).Plural` (xmlChoice.go:35-37, xmlElement.go:61-63,
xmlGroup.go:35-37) -/
def PState.choicePlural (p : PState) : Bool :=
  match p.choice with
  | [] => false
  | c :: _ => c.plural

/-- `OnChoice`, xmlChoice.go:19-42 -/
def onChoice (attrs : List Attr) : Go St Unit := do
  let x ← forAttrs onChoiceAttr attrs {}
  onP fun p => { p with choice := { plural := x.plural || p.choicePlural } :: p.choice }

/-- `EndChoice`, xmlChoice.go:45-49 -/
def endChoice (p : PState) : PState := { p with choice := p.choice.tail }

/-! ## xmlComplexType.go -/

/-- `c.Name` of the last `name` attribute, xmlComplexType.go:26-30 -/
def lastNamed (n : Str) (attrs : List Attr) (init : Str) : Str :=
  attrs.foldl (fun acc a => if a.local = n then a.value else acc) init

/-- `OnComplexType`, xmlComplexType.go:15-38; `none` is the failed type assertion `opt.Element.Pop().(*Element)` on an
empty stack (lines 17 and 32).  (After lines 16-21 the stack is not empty, so lines 23-36 are the other case.) -/
def onComplexType? (attrs : List Attr) (p : PState) : Option PState :=
  match p.complexType with
  | _ :: _ =>
    match p.element with
    | [] => none
    | a :: rest => some { p with element := rest, complexType := { name := (p.deref a).name } :: p.complexType }
  | [] =>
    let p := { p with currentEle := p.inElement }
    let name := lastNamed c!"name" attrs []
    if name = [] then
      match p.element with
      | [] => none
      | a :: rest => some { p with element := rest, complexType := [{ name := (p.deref a).name }] }
    else some { p with complexType := [{ name := name }] }

/-- `OnComplexType`, xmlComplexType.go:15-38, as a computation. -/
def onComplexType (attrs : List Attr) : Go St Unit := fun s =>
  match onComplexType? attrs s.p with
  | none => .halt .panic s
  | some p => .ok () { s with p := p }

/-- `EndComplexType`, xmlComplexType.go:41-45; popping the empty stack appends nil -/
def endComplexType (p : PState) : PState :=
  { p.append (p.complexType.head?.map .complex) with complexType := p.complexType.tail, currentEle := [] }

/-! ## xmlElement.go -/

/-- `findElement`, xmlElement.go:102-109 -/
def findElement (name : Str) : List Element → Option (Element × Nat)
  | [] => none
  | e :: es => if name = e.name then some (e, 0) else (findElement name es).map fun r => (r.1, r.2 + 1)

/-- xmlElement.go:66-79 -/
def mergeElement (e : Element) (es : List Element) : List Element :=
  match findElement e.name es with
  | some (x, i) =>
    if x.type = e.type then es.set i { x with plural := x.plural || e.plural } else es ++ [e]
  | none => es ++ [e]

/-- Loop body of `OnElement`, xmlElement.go:20-50 -/
def onElementAttr (gvt : Gvt) (e : Element) (a : Attr) : Go St Element :=
  if a.local = c!"ref" then do
    let t ← resolve gvt a.value
    return { e with name := a.value, type := t }
  else if a.local = c!"name" then return { e with name := a.value }
  else if a.local = c!"type" then do
    let t ← resolve gvt a.value
    return { e with type := t }
  else if a.local = c!"maxOccurs" then
    match maxOccursPlural a.value with
    | none => Go.throw (.atoi a.value)
    | some b => return if b then { e with plural := true } else e
  else if a.local = c!"unbounded" then
    return if a.value ≠ c!"0" then { e with plural := true } else e
  else return e

/-- xmlElement.go:58-91 after type resolution.  `untyped`: the branch at line 53 was taken.  The variable `e` gets one
heap cell (unused if no pointer to it is kept); its `Plural` is final before anything can read it. -/
def placeElement (e : Element) (untyped : Bool) (p : PState) : PState :=
  let e := { e with plural := e.plural || p.choicePlural }
  let a := p.heap.length
  let p := { p with heap := p.heap ++ [e] }
  let p := if untyped then { p with element := a :: p.element } else p
  match p.complexType with
  | c :: cs => { p with complexType := { c with elements := mergeElement e c.elements } :: cs }
  | [] =>
    if p.inGroup > 0 then
      { p with group := Stack.setTop (fun g => { g with elements := g.elements ++ [e] }) p.group }
    else { p with element := a :: p.element }

/-- `OnElement`, xmlElement.go:17-92 -/
def onElement (gvt : Gvt) (attrs : List Attr) : Go St Unit := do
  let e ← forAttrs (onElementAttr gvt) attrs {}
  if e.type = [] then
    let t ← resolve gvt e.name
    onP (placeElement { e with type := t } true)
  else onP (placeElement e false)

/-- `EndElement`, xmlElement.go:95-100 -/
def endElement (p : PState) : PState :=
  match p.element, p.complexType with
  | a :: rest, [] => { p.append (some (.elem a)) with element := rest }
  | _, _ => p

/-! ## xmlEnumeration.go -/

/-- `OnEnumeration`, xmlEnumeration.go:14-23 -/
def onEnumeration (attrs : List Attr) (p : PState) : PState :=
  attrs.foldl (fun p a =>
    if a.local = c!"value" then
      { p with simpleType := Stack.setTop (fun x => { x with enum := x.enum ++ [a.value] }) p.simpleType }
    else p) p

/-- Assignment `opt.Attribute.Peek().(*Attribute).Type = t`, xmlEnumeration.go:29, xmlExtension.go:41, xmlPattern.go:17,
xmlRestriction.go:41, xmlSimpleType.go:35 -/
def setAttributeType (t : Str) (p : PState) : PState :=
  { p with attrSt := Stack.setTop (fun x => { x with type := t }) p.attrSt }

/-- Assignment `opt.Element.Peek().(*Element).Type = t`, xmlEnumeration.go:35, xmlPattern.go:24, xmlLength.go:18 etc. -/
def setElementType (t : Str) (p : PState) : PState := p.modTopElement fun e => { e with type := t }

/-- `opt.CurrentEle = ""`, xmlEnumeration.go:32, 38, xmlExtension.go:45, xmlPattern.go:21, 27, xmlRestriction.go:45,
xmlLength.go:21 etc. -/
def clearCurrent (p : PState) : PState := { p with currentEle := [] }

/-- `opt.SimpleType.Pop()`, xmlExtension.go:41, xmlPattern.go:17, 24, xmlRestriction.go:41, xmlSimpleType.go:35,
xmlLength.go:18 etc. -/
def popSimpleType (p : PState) : PState := { p with simpleType := p.simpleType.tail }

/-- xmlEnumeration.go:28-33 -/
def enumAttribute (gvt : Gvt) : Go St Unit := fun s =>
  match s.p.attrSt, s.p.simpleType with
  | _ :: _, x :: _ => (do assignType gvt x.base setAttributeType; onP clearCurrent) s
  | _, _ => .ok () s

/-- xmlEnumeration.go:34-39 -/
def enumElement (gvt : Gvt) : Go St Unit := fun s =>
  match s.p.element, s.p.simpleType with
  | _ :: _, x :: _ => (do assignType gvt x.base setElementType; onP clearCurrent) s
  | _, _ => .ok () s

/-- `EndEnumeration`, xmlEnumeration.go:27-41 -/
def endEnumeration (gvt : Gvt) : Go St Unit := do
  enumAttribute gvt
  enumElement gvt

/-! ## Facets -/

/-- The attribute half shared by xmlExtension.go:40-46, xmlPattern.go:16-22 and xmlRestriction.go:40-46: the simple
type is popped and its base becomes the attribute's type. -/
def popToAttribute (gvt : Gvt) : Go St Unit := fun s =>
  match s.p.attrSt, s.p.simpleType with
  | _ :: _, x :: _ =>
    (do onP popSimpleType; assignType gvt x.base setAttributeType; onP clearCurrent) s
  | _, _ => .ok () s

/-- The element half of xmlPattern.go:23-28 and the whole of the ten facet handlers: `EndFractionDigits`
(xmlFractionDigits.go:17-25), `EndLength` (xmlLength.go:16-24), `EndMaxExclusive` (xmlMaxExclusive.go:16-24),
`EndMaxInclusive` (xmlMaxInclusive.go:16-24), `EndMaxLength` (xmlMaxLength.go:16-24), `EndMinExclusive`
(xmlMinExclusive.go:16-24), `EndMinInclusive` (xmlMinInclusive.go:16-24), `EndMinLength` (xmlMinLength.go:16-24),
`EndTotalDigits` (xmlTotalDigits.go:16-24), `EndWhiteSpace` (xmlWhiteSpace.go:16-24), which are textually equal. -/
def facetEnd (gvt : Gvt) : Go St Unit := fun s =>
  match s.p.element, s.p.simpleType with
  | _ :: _, x :: _ =>
    (do onP popSimpleType; assignType gvt x.base setElementType; onP clearCurrent) s
  | _, _ => .ok () s

/-- `EndPattern`, xmlPattern.go:15-30 -/
def endPattern (gvt : Gvt) : Go St Unit := do
  popToAttribute gvt
  facetEnd gvt

/-! ## xmlExtension.go -/

/-- Assignment to `complexType.Base`, xmlExtension.go:25 -/
def setComplexBase (t : Str) (p : PState) : PState :=
  { p with complexType := Stack.setTop (fun c => { c with base := t }) p.complexType }

/-- xmlExtension.go:29-31 -/
def nameComplex (v : Str) (p : PState) : PState :=
  { p with complexType := Stack.setTop (fun c => if c.name = [] then { c with name := v } else c) p.complexType }

/-- Loop body of `OnExtension`, xmlExtension.go:17-33: the base is resolved twice -/
def onExtensionAttr (gvt : Gvt) (_ : Unit) (a : Attr) : Go St Unit :=
  if a.local = c!"base" then do
    let t ← resolve gvt a.value
    fun s =>
      match s.p.complexType with
      | [] => .ok () s
      | _ :: _ => (do assignType gvt t setComplexBase; onP (nameComplex a.value)) s
  else return ()

/-- `OnExtension`, xmlExtension.go:15-36 -/
def onExtension (gvt : Gvt) (attrs : List Attr) : Go St Unit := forAttrs (onExtensionAttr gvt) attrs ()

/-- `EndExtension`, xmlExtension.go:39-48 -/
def endExtension (gvt : Gvt) : Go St Unit := popToAttribute gvt

/-! ## xmlGroup.go -/

/-- `inGroups`, xmlGroup.go:75-82 -/
def inGroups (name : Str) (gs : List GroupRef) : Bool := gs.any (fun g => g.name = name)

/-- Loop body of `OnGroup`, xmlGroup.go:19-33 -/
def onGroupAttr (gvt : Gvt) (g : GroupRef) (a : Attr) : Go St GroupRef :=
  if a.local = c!"name" then return { g with name := a.value }
  else if a.local = c!"ref" then do
    let t ← resolve gvt a.value
    return { g with name := a.value, ref := t }
  else if a.local = c!"maxOccurs" then
    return if a.value ≠ c!"0" then { g with plural := true } else g
  else return g

/-- xmlGroup.go:35-59; `none` is the failed type assertion at line 48 (counter positive, stack empty).  A negative
counter without complex type falls through both tests and does nothing. -/
def placeGroup? (g : GroupRef) (p : PState) : Option PState :=
  let g := { g with plural := g.plural || p.choicePlural }
  match p.complexType with
  | c :: cs =>
    if inGroups g.name c.groups then some p
    else some { p with complexType := { c with groups := c.groups ++ [g] } :: cs }
  | [] =>
    if p.inGroup = 0 then
      some { p with inGroup := p.inGroup + 1, currentEle := p.inElement,
                    group := { name := g.name, plural := g.plural, ref := g.ref } :: p.group }
    else if p.inGroup > 0 then
      match p.group with
      | [] => none
      | x :: xs => some { p with inGroup := p.inGroup + 1, group := { x with groups := x.groups ++ [g] } :: xs }
    else some p

/-- `OnGroup`, xmlGroup.go:16-60 -/
def onGroup (gvt : Gvt) (attrs : List Attr) : Go St Unit := do
  let g ← forAttrs (onGroupAttr gvt) attrs {}
  fun s => match placeGroup? g s.p with
    | none => .halt .panic s
    | some p => .ok () { s with p := p }

/-- `EndGroup`, xmlGroup.go:63-73; `name` is `ele.Name.Local` -/
def endGroup (name : Str) (p : PState) : PState :=
  let p :=
    if name = p.currentEle && p.inGroup = 1 then
      { p.append (p.group.head?.map .group) with
        group := p.group.tail, currentEle := [], inGroup := p.inGroup - 1 }
    else p
  if name = p.currentEle then { p with inGroup := p.inGroup - 1 } else p

/-! ## xmlList.go -/

/-- Assignment to `opt.SimpleType.Peek().(*SimpleType).Base`, xmlList.go:23, xmlRestriction.go:25 -/
def setSimpleBase (t : Str) (p : PState) : PState :=
  { p with simpleType := Stack.setTop (fun x => { x with base := t }) p.simpleType }

/-- Loop body of `OnList`, xmlList.go:22-26 -/
def onListAttr (gvt : Gvt) (_ : Unit) (a : Attr) : Go St Unit :=
  if a.local = c!"itemType" then assignType gvt a.value setSimpleBase else return ()

/-- `OnList`, xmlList.go:16-29 -/
def onList (gvt : Gvt) (attrs : List Attr) : Go St Unit := fun s =>
  match s.p.simpleType with
  | [] => .ok () s
  | _ :: _ =>
    (do onP fun p => { p with simpleType := Stack.setTop (fun x => { x with list := true }) p.simpleType }
        forAttrs (onListAttr gvt) attrs ()) s

/-! ## xmlRestriction.go -/

/-- xmlRestriction.go:29-31 -/
def nameSimple (v : Str) (p : PState) : PState :=
  { p with simpleType := Stack.setTop (fun x => if x.name = [] then { x with name := v } else x) p.simpleType }

/-- Loop body of `OnRestriction`, xmlRestriction.go:18-33: the base is resolved twice -/
def onRestrictionAttr (gvt : Gvt) (_ : Unit) (a : Attr) : Go St Unit :=
  if a.local = c!"base" then do
    let t ← resolve gvt a.value
    fun s =>
      match s.p.simpleType with
      | [] => .ok () s
      | _ :: _ => (do assignType gvt t setSimpleBase; onP (nameSimple a.value)) s
  else return ()

/-- `OnRestriction`, xmlRestriction.go:16-36 -/
def onRestriction (gvt : Gvt) (attrs : List Attr) : Go St Unit := forAttrs (onRestrictionAttr gvt) attrs ()

/-- `xs[len(xs)-1] = x`, xmlRestriction.go:49 -/
def setLast (x : Element) : List Element → List Element
  | [] => []
  | [_] => [x]
  | y :: z :: rest => y :: setLast x (z :: rest)

/-- xmlRestriction.go:47-51 -/
def restrictionElement (p : PState) : PState :=
  match p.element, p.complexType with
  | a :: _, c :: cs => { p with complexType := { c with elements := setLast (p.deref a) c.elements } :: cs }
  | _, _ => p

/-- `EndRestriction`, xmlRestriction.go:39-53 -/
def endRestriction (gvt : Gvt) : Go St Unit := do
  popToAttribute gvt
  onP restrictionElement

/-! ## xmlSimpleType.go -/

/-- `OnSimpleType`, xmlSimpleType.go:16-30 (a nested simple type reuses the pushed one) -/
def onSimpleType (attrs : List Attr) (p : PState) : PState :=
  let st := if p.simpleType.isEmpty then [{}] else p.simpleType
  { p with
    currentEle := p.inElement
    simpleType := Stack.setTop (fun x => { x with name := lastNamed c!"name" attrs x.name }) st }

/-- xmlSimpleType.go:38-41 -/
def endSimpleTypeComplex (name : Str) (p : PState) : PState :=
  if name = p.currentEle && p.complexType.length = 1 then
    { p.append (p.complexType.head?.map .complex) with complexType := p.complexType.tail, currentEle := [] }
  else p

/-- xmlSimpleType.go:43-46 -/
def endSimpleTypeSimple (name : Str) (p : PState) : PState :=
  if name = p.currentEle && !p.inUnion then
    { p.append (p.simpleType.head?.map .simple) with simpleType := p.simpleType.tail, currentEle := [] }
  else p

/-- `EndSimpleType`, xmlSimpleType.go:33-48; `name` is `ele.Name.Local` -/
def endSimpleType (name : Str) (p : PState) : PState :=
  match p.simpleType, p.attrSt with
  | x :: _, _ :: _ => setAttributeType x.base (popSimpleType p)
  | _, _ => endSimpleTypeSimple name (endSimpleTypeComplex name p)

/-! ## xmlUnion.go -/

/-- Assignment to `MemberTypes[k]`, xmlUnion.go:30 -/
def setMember (k t : Str) (p : PState) : PState :=
  { p with simpleType := Stack.setTop (fun x => { x with memberTypes := x.memberTypes.set k t }) p.simpleType }

/-- xmlUnion.go:29-34 -/
def addMembers (gvt : Gvt) : List Str → Go St Unit
  | [] => return ()
  | m :: ms => do
    assignType gvt m (setMember (trimNSPrefix m))
    addMembers gvt ms

/-- Loop body of `OnUnion`, xmlUnion.go:27-36 -/
def onUnionAttr (gvt : Gvt) (_ : Unit) (a : Attr) : Go St Unit :=
  if a.local = c!"memberTypes" then addMembers gvt (splitOn ' ' a.value) else return ()

/-- `OnUnion`, xmlUnion.go:19-39 -/
def onUnion (gvt : Gvt) (attrs : List Attr) : Go St Unit := fun s =>
  let s := { s with p := { s.p with inUnion := true } }
  match s.p.simpleType with
  | [] => .ok () s
  | _ :: _ =>
    (do onP fun p => { p with
          simpleType := Stack.setTop (fun x => { x with union := true, memberTypes := [] }) p.simpleType }
        forAttrs (onUnionAttr gvt) attrs ()) s

/-- `EndUnion`, xmlUnion.go:42-47 -/
def endUnion (p : PState) : PState := if p.simpleType.isEmpty then p else { p with inUnion := false }

end Xgen
