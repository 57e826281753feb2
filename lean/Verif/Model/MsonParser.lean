import Verif.Model.Recognise
import Verif.Model.DataStructure

/-!
# The sections of MSON (`MSONValueMemberParser`, `MSONPropertyMemberParser.h`, `MSONTypeSectionParser`,
`MSONOneOfParser`, `MSONMixinParser.h`, `MSONNamedTypeParser.h`, `AttributesParser.h`)

S = packages/apib-parser/src/snowcrash.

The processors are run by the section parser of `Model/Section.lean`.  They call each other, on blocks that are nested ever deeper:
`parsers` is built by recursion on a bound of that depth.  Simplifications: no source maps (`pd.exportSourceMap()` is false); a warning
is its kind and what its text depends on, without its location; a parser gets a copy of the stack of section types, since
what it pushes it also pops.
-/

namespace Verif.MsonParser
open Verif Verif.Text Verif.Regex Verif.Section Verif.Recognition Verif.Signature
open Verif.NamedTypes (TypeName)
open Verif.Mson (Base TypeDef ValueDef PropertyName Context)
open Verif.DataStructure (Klass Element Member NamedType)

/-- `mson::TypeSection`. -/
abbrev TypeSection := DataStructure.Section

/-- The warnings of these parsers. -/
inductive Warning
  /-- S/SignatureSectionProcessor.h:93-97 -/
  | noIdentifier
  /-- S/SignatureSectionProcessor.h:116-120 -/
  | noValues
  /-- of `parseTypeDefinition` -/
  | type (w : Mson.Warning)
  /-- S/MSONTypeSectionParser.h:65-76, 82-93 -/
  | notAllowed (identifier : Bytes)
  /-- S/MSONTypeSectionParser.h:135-143 -/
  | objectValues
  /-- S/MSONMixinParser.h:62-68 -/
  | primitiveMixin
  /-- S/MSONValueMemberParser.cc:89-97 -/
  | mixinMismatch
  /-- S/MSONValueMemberParser.cc:109-115, S/MSONTypeSectionParser.cc:49-57 -/
  | misplacedOneOf
  /-- S/MSONOneOfParser.h:45-50 -/
  | emptyOneOf
  /-- S/MSONTypeSectionParser.cc:105-114 -/
  | notInSample (type : SectionType)
  /-- S/MSONValueMemberParser.cc:138-150 -/
  | valueOfObjectItem
  /-- S/MSONValueMemberParser.cc:163-175 -/
  | valueOfObject
  /-- S/MSONValueMemberParser.cc:180-186 -/
  | membersOfPrimitive
  /-- S/MSONNamedTypeParser.h:51-60 -/
  | reservedCharacters
  /-- S/SectionProcessor.h:222-224 -/
  | unexpectedHeader
  /-- S/SectionProcessor.h:226, S/MSONValueMemberParser.cc:188-193 -/
  | unrecognised
  deriving DecidableEq, Repr

/-- What the parsers read: the source, and what `ReconstructMarkdownHeader`, S/StringUtility.h:317-336, makes of a header. -/
structure World where
  source : Bytes
  header : Node → Bytes

/-- `out.node`, what is known of the named types, and `out.report.warnings`. -/
structure Out (α : Type) where
  node : α
  types : Context
  warnings : List Warning := []

/-- `warnings.push_back` -/
def Out.warn {α : Type} (o : Out α) (ws : List Warning) : Out α := { o with warnings := o.warnings ++ ws }

/-! ## Signatures -/

/-- S/MSONTypeSectionParser.h:41 -/
abbrev typeSectionTraits : Traits := { identifier := true, values := true, attributes := false, content := false }
/-- S/MSONMixinParser.h:32, S/MSONNamedTypeParser.h:32, S/AttributesParser.h:32 -/
abbrev typeTraits : Traits := { identifier := true, values := false, attributes := true, content := false }
/-- S/MSONOneOfParser.h:31 -/
abbrev oneOfTraits : Traits := { identifier := true, values := false, attributes := false, content := false }
/-- S/MSONValueMemberParser.h:48-49 -/
abbrev valueTraits : Traits := { identifier := false, values := true, attributes := true, content := true }
/-- S/MSONPropertyMemberParser.h:47-48 -/
abbrev propertyTraits : Traits := { identifier := true, values := true, attributes := true, content := true }

/-- The warnings of `parseSignature`, S/SignatureSectionProcessor.h:88-122, given what it returns. -/
def signatureWarnings (t : Traits) (subject : Bytes) (sig : Signature) : List Warning :=
  let s := if t.identifier && !subject.isEmpty then (parseIdentifier t subject).2 else subject
  (if t.identifier && !subject.isEmpty && sig.identifier.isEmpty then [.noIdentifier] else []) ++
  (if t.values && !s.isEmpty && s.head? ≠ some (asc '(') && (!t.identifier || s.head? = some t.valuesDelimiter)
      && sig.values.isEmpty then [.noValues] else [])

/-- `parseSignature` of a subject that may not return. -/
def signatureOf (t : Traits) (subject rest : Bytes) : Except Stop (Signature × List Warning) :=
  match parseSignature t subject with
  | .error .fuel => .error .diverges
  | .error .outOfBounds => .error .outOfRange
  | .ok sig => .ok ({ sig with remainingContent := rest }, signatureWarnings t subject sig)

/-- `parseSignature`, S/SignatureSectionProcessor.h:72-86, of a node: the first line of its text. -/
def readSignature (t : Traits) (n : Node) : Except Stop (Signature × List Warning) :=
  signatureOf t (trim (getFirstLine n.text).1) (getFirstLine n.text).2

/-- `parseSignature` of a member, S/MSONValueMemberParser.h:30-44, S/MSONPropertyMemberParser.h:26-41. -/
def readMember (w : World) (t : Traits) (n : Node) : Except Stop (Signature × List Warning) :=
  if n.kind = .header ∧ w.header n ≠ [] then signatureOf t (w.header n) [] else readSignature t n

/-! ## Parts that several processors use -/

/-- `mdp::MapBytesRangeSet(node->sourceMap, pd.sourceData)` -/
def sourceOf (w : World) (n : Node) : Bytes := ByteBuffer.mapBytesRangeSet n.sourceMap w.source

/-- A section of the given class. -/
def sectionOf (klass : Klass) (description value : Bytes) (elements : List Element) : TypeSection :=
  .mk klass description value elements [] []

/-- `parseRemainingContent`, S/MSONValueMemberParser.h:206-230. -/
def remaining (rest : Bytes) (ss : List TypeSection) : List TypeSection :=
  if rest.isEmpty then ss else ss ++ [sectionOf .description rest [] []]

/-- What stands before the block that is added to a text. -/
def separated (s : Bytes) : Except Stop Bytes :=
  if s.isEmpty then .ok [] else
    match twoNewLines s with
    | none => .error .outOfRange
    | some s => .ok s

/-- `blockDescription`, S/MSONValueMemberParser.h:240-279; `none` if the node is returned. -/
def blockDescription (w : World) (n : Node) (ss : List TypeSection) : Except Stop (Option (List TypeSection)) :=
  match ss with
  | [] => .ok (some [sectionOf .description (trim (sourceOf w n)) [] []])
  | [s] =>
    if s.klass = .description then
      match separated s.description with
      | .error e => .error e
      | .ok d => .ok (some [sectionOf .description (d ++ trim (sourceOf w n)) s.value s.elements])
    else .ok none
  | _ => .ok none

/-- `resolveImplicitBaseType`, S/MSONValueMemberParser.h:360-395. -/
def resolveBase (n : Node) (t : SectionType) (b : Base) : Base :=
  if b ≠ .undefined then b
  else match t with
    | .mson | .msonOneOf | .msonMixin => if n.kind = .listItem then .implicitObject else .undefined
    | .msonPropertyMembers => .implicitObject
    | .msonSampleDefault => .implicitPrimitive
    | _ => .undefined

/-- `finalizeImplicitBaseType`, S/MSONValueMemberParser.h:344-350. -/
def finalBase (b : Base) : Base := if b = .undefined then .implicitPrimitive else b

/-- `b == ObjectBaseType || b == ImplicitObjectBaseType` -/
def isObject (b : Base) : Bool := b = .object || b = .implicitObject
/-- `b == ValueBaseType || b == ImplicitValueBaseType` -/
def isValue (b : Base) : Bool := b = .value || b = .implicitValue
/-- `b == PrimitiveBaseType || b == ImplicitPrimitiveBaseType` -/
def isPrimitive (b : Base) : Bool := b = .primitive || b = .implicitPrimitive

/-- `isSameBaseType`, S/MSONUtility.h:465-479. -/
def sameBase (l r : Base) : Bool :=
  l = r || (l = .implicitObject && r = .object) || (l = .object && r = .implicitObject)
    || (l = .implicitValue && r = .value) || (l = .value && r = .implicitValue)
    || (l = .implicitPrimitive && r = .primitive) || (l = .primitive && r = .implicitPrimitive)

/-- `nestedSectionType` of a member, S/MSONValueMemberParser.cc:16-44. -/
def memberNested (n : Node) : SectionType :=
  let t := Recognise.first [recognise.typeSectionType n, recognise.mixinType n, recognise.oneOfType n]
  if t ≠ .undefined then t else .mson

/-- `nestedSectionType` of a type section, S/MSONTypeSectionParser.cc:181-203. -/
def typeSectionNested (n : Node) : SectionType :=
  let t := Recognise.first [recognise.mixinType n, recognise.oneOfType n]
  if t ≠ .undefined then t else .mson

/-- `nestedSectionType` of `One Of`, S/MSONOneOfParser.cc:98-130. -/
def oneOfNested (n : Node) : SectionType :=
  Recognise.first [recognise.mixinType n, recognise.oneOfType n, recognise.typeSectionType n,
    if n.kind = .listItem then .msonPropertyMember else .undefined]

/-- `isDescriptionNode` of a member, S/MSONValueMemberParser.h:83-97: the last test is never met, since there is always a nested type. -/
def memberDescription (n : Node) : Bool :=
  if memberNested n ≠ .mson ∨ n.kind = .header then false
  else if n.kind ≠ .listItem then true
  else recognise.isDescription memberNested [] n

/-- `processUnexpectedNode`, S/SectionProcessor.h:210-233. -/
def unexpected {α : Type} (ns : List Node) (i : Nat) (pd : PD (Out α)) : Except Stop (Nat × PD (Out α)) :=
  match ns[i]? with
  | none => .error .outOfRange
  | some n => .ok (i + 1, pd.set (pd.data.warn [if n.kind = .header then .unexpectedHeader else .unrecognised]))

/-- A signature that is one node. -/
def oneSignature {α : Type} (f : Node → PD (Out α) → Except Stop (Out α)) (ns : List Node) (i : Nat) (pd : PD (Out α)) :
    Except Stop (Reply (Out α) Layout) :=
  match ns[i]? with
  | none => .error .outOfRange
  | some n =>
    match f n pd with
    | .error e => .error e
    | .ok o => .ok (.done (i + 1) .default (pd.set o))

/-! ## The parsers that are called -/

/-- `IntermediateParseResult<mson::TypeSection>`: the section and its base type. -/
structure Draft where
  base : Base := .undefined
  klass : Klass := .undefined
  value : Bytes := []
  elements : List Element := []

/-- The section in the syntax tree. -/
def Draft.made (d : Draft) : TypeSection := sectionOf d.klass [] d.value d.elements

/-- `ValueMember`, S/MSON.h:290-303, while it is parsed. -/
structure ValueNode where
  description : Bytes := []
  definition : ValueDef := {}
  sections : List TypeSection := []

/-- The member in the syntax tree. -/
def ValueNode.made (v : ValueNode) : Member := .mk v.description v.definition v.sections [] [] []

/-- `PropertyMember`, S/MSON.h:319-326, while it is parsed. -/
structure PropertyNode extends ValueNode where
  name : PropertyName := {}

/-- The parsers that these processors call. -/
structure Parsers where
  typeSection : Adapter → Parse (Out Draft)
  mixin : Parse (Out TypeDef)
  oneOf : Parse (Out (List Element))
  value : Parse (Out ValueNode)
  property : Parse (Out PropertyNode)

/-- A parser is called with a new result that shares the report. -/
def call {α β : Type} (p : Parse (Out β)) (new : β) (ns : List Node) (i : Nat) (pd : PD (Out α)) :
    Except Stop (Nat × β × Out α) :=
  match p ns i ⟨pd.context, { pd.data with node := new }⟩ with
  | .error e => .error e
  | .ok (j, pd') => .ok (j, pd'.data.node, { pd'.data with node := pd.data.node })

/-! ## Type sections -/

/-- `finalizeSignature` of a type section, S/MSONTypeSectionParser.h:46-162; `none` if the node is returned. -/
def typeSectionFinal (sig : Signature) (o : Out Draft) : Out Draft × Bool :=
  let d := o.node
  let assign (k : Klass) : Out Draft :=
    let given := !sig.values.isEmpty || !sig.value.isEmpty
    let value := if given && isPrimitive d.base then sig.value else d.value
    let elements := if given && isValue d.base then
        sig.values.map fun v => .value (ValueNode.made { definition := { values := [Mson.parseValue v] } })
      else []
    let rest := if isPrimitive d.base then sig.remainingContent else []
    { o with
      node := { d with klass := k, value := value ++ rest, elements := d.elements ++ elements }
      warnings := o.warnings ++ if given && isObject d.base then [.objectValues] else [] }
  if iEqual sig.identifier (str "Default") then (assign .default, true)
  else if iEqual sig.identifier (str "Sample") then (assign .sample, true)
  else if iEqual sig.identifier (str "Items") || iEqual sig.identifier (str "Members") then
    if !isValue d.base then (o.warn [.notAllowed sig.identifier], false)
    else ({ o with node := { d with klass := .members } }, true)
  else if iEqual sig.identifier (str "Properties") then
    if !isObject d.base then (o.warn [.notAllowed sig.identifier], false)
    else ({ o with node := { d with klass := .members } }, true)
  else (o, true)

/-- `processSignature` of a type section, S/SignatureSectionProcessor.h:46-61. -/
def typeSectionSignature (ns : List Node) (i : Nat) (pd : PD (Out Draft)) : Except Stop (Reply (Out Draft) Layout) :=
  match ns[i]? with
  | none => .error .outOfRange
  | some n =>
    match readSignature typeSectionTraits n with
    | .error e => .error e
    | .ok (sig, ws) =>
      let r := typeSectionFinal sig (pd.data.warn ws)
      .ok (.done (if r.2 then i + 1 else i) .default (pd.set r.1))

/-- `elements().push_back(element)` -/
def Out.push (o : Out Draft) (e : Element) : Out Draft := { o with node := { o.node with elements := o.node.elements ++ [e] } }

/-- A nested section that becomes an element. -/
def element {α β : Type} (p : Parse (Out β)) (new : β) (add : Out α → β → Out α) (ns : List Node) (i : Nat) (pd : PD (Out α)) :
    Except Stop (Reply (Out α) Unit) :=
  match call p new ns i pd with
  | .error e => .error e
  | .ok (j, b, o) => .ok (.done j () (pd.set (add o b)))

/-- The element made of a property. -/
def PropertyNode.made (p : PropertyNode) : Element := .property p.name [] p.toValueNode.made

/-- `processNestedSection` of a type section, S/MSONTypeSectionParser.cc:16-178. -/
def typeSectionNestedSection (w : World) (P : Parsers) (ns : List Node) (i : Nat) (pd : PD (Out Draft)) :
    Except Stop (Reply (Out Draft) Unit) :=
  let stay := Except.ok (Reply.done i () pd)
  match ns[i]? with
  | none => .error .outOfRange
  | some n =>
    if n.kind = .header then stay
    else if pd.parent = .msonPropertyMembers ∨ pd.parent = .msonValueMembers then
      match pd.top with
      | .msonMixin => element P.mixin {} (fun o m => o.push (.mixin m)) ns i pd
      | .msonOneOf =>
        if pd.parent ≠ .msonPropertyMembers then .ok (.done i () (pd.set (pd.data.warn [.misplacedOneOf])))
        else element P.oneOf [] (fun o es => o.push (.oneOf es)) ns i pd
      | .mson =>
        if pd.parent = .msonPropertyMembers then element P.property {} (fun o m => o.push m.made) ns i pd
        else element P.value {} (fun o m => o.push (.value m.made)) ns i pd
      | _ => stay
    else if pd.parent = .msonSampleDefault then
      match pd.top with
      | .msonMixin => .ok (.done i () (pd.set (pd.data.warn [.notInSample .msonMixin])))
      | .msonOneOf => .ok (.done i () (pd.set (pd.data.warn [.notInSample .msonOneOf])))
      | .mson =>
        let d := pd.data.node
        if isValue d.base ∧ n.kind = .listItem then element P.value {} (fun o m => o.push (.value m.made)) ns i pd
        else if isObject d.base ∧ n.kind = .listItem then element P.property {} (fun o m => o.push m.made) ns i pd
        else if isPrimitive d.base then
          match separated d.value with
          | .error e => .error e
          | .ok s => .ok (.done (i + 1) () (pd.set { pd.data with node := { d with value := s ++ sourceOf w n } }))
        else stay
      | _ => stay
    else stay

/-- S/MSONTypeSectionParser.h:36-201 `SectionProcessor<mson::TypeSection>`. -/
def typeSectionOwn (w : World) (P : Parsers) : Own (Out Draft) where
  signature := typeSectionSignature
  isDescription _ _ := false
  description _ i pd := .ok (i, pd)
  isContent _ _ := false
  content _ i pd := .ok (i + 1, pd)
  preprocess _ _ pd := .ok pd
  nestedType := typeSectionNested
  nested := typeSectionNestedSection w P
  entered _ _ _ pd := .ok pd
  isUnexpected n _ := recognise.isUnexpected [] n
  unexpected ns i _ := unexpected ns i
  finalize _ _ pd := .ok pd

/-! ## Include -/

/-- `finalizeSignature` of a mixin, S/MSONMixinParser.h:37-79. -/
def mixinFinal (sig : Signature) (o : Out TypeDef) : Out TypeDef :=
  let attributes := match regexCapture sig.identifier mixinRegex 2 with
    | some groups => if (groups.getD 1 []).isEmpty then sig.attributes
        else sig.identifier.drop (groups.getD 1 []).length :: sig.attributes
    | none => sig.attributes
  let r := Mson.parseTypeDefinition o.types attributes
  let name := r.1.spec.name
  { node := r.1
    types := if name.base = none ∧ name.literal ≠ [] ∧ name.isVariable = false then r.2.1.refer name.literal true else r.2.1
    warnings := o.warnings ++ r.2.2.map .type ++ if r.1.base = .primitive ∨ r.1.base = .undefined then [.primitiveMixin] else [] }

/-- S/MSONMixinParser.h:27-98 `SectionProcessor<mson::Mixin>`. -/
def mixinOwn : Own (Out TypeDef) where
  signature := oneSignature fun n pd =>
    match readSignature typeTraits n with
    | .error e => .error e
    | .ok (sig, ws) => .ok (mixinFinal sig (pd.data.warn ws))
  isDescription _ _ := false
  description _ i pd := .ok (i, pd)
  isContent _ _ := false
  content _ i pd := .ok (i + 1, pd)
  preprocess _ _ pd := .ok pd
  nestedType _ := .undefined
  nested _ i pd := .ok (.done i () pd)
  entered _ _ _ pd := .ok pd
  isUnexpected n _ := recognise.isUnexpected [] n
  unexpected ns i _ := unexpected ns i
  finalize _ _ pd := .ok pd

/-! ## One Of -/

/-- `out.node.push_back(element)` -/
def pushElement (o : Out (List Element)) (e : Element) : Out (List Element) := { o with node := o.node ++ [e] }

/-- `processNestedSection` of `One Of`, S/MSONOneOfParser.cc:17-95. -/
def oneOfNestedSection (P : Parsers) (ns : List Node) (i : Nat) (pd : PD (Out (List Element))) :
    Except Stop (Reply (Out (List Element)) Unit) :=
  match pd.top with
  | .msonMixin => element P.mixin {} (fun o m => pushElement o (.mixin m)) ns i pd
  | .msonOneOf => element P.oneOf [] (fun o es => pushElement o (.oneOf es)) ns i pd
  | .msonPropertyMembers => element (P.typeSection .list) { base := .object } (fun o d => pushElement o (.group d.elements)) ns i pd
  | .msonPropertyMember => element P.property {} (fun o m => pushElement o m.made) ns i pd
  | _ => .ok (.done i () pd)

/-- S/MSONOneOfParser.h:26-73 `SectionProcessor<mson::OneOf>`. -/
def oneOfOwn (P : Parsers) : Own (Out (List Element)) where
  signature := oneSignature fun n pd =>
    match readSignature oneOfTraits n with
    | .error e => .error e
    | .ok (_, ws) => .ok (pd.data.warn ws)
  isDescription _ _ := false
  description _ i pd := .ok (i, pd)
  isContent _ _ := false
  content _ i pd := .ok (i + 1, pd)
  preprocess _ _ pd := .ok pd
  nestedType := oneOfNested
  nested := oneOfNestedSection P
  entered _ _ _ pd := .ok pd
  isUnexpected n _ := recognise.isUnexpected [] n
  unexpected ns i _ := unexpected ns i
  finalize _ _ pd := .ok (pd.set (pd.data.warn (if pd.data.node.isEmpty then [.emptyOneOf] else [])))

/-! ## Members -/

/-- The sections of a member, named type or `Attributes`, and its base type. -/
structure Body where
  sections : List TypeSection := []
  base : Base := .undefined

/-- The section to which members are added, S/MSONValueMemberParser.cc:71-84. -/
def openSection (ss : List TypeSection) : List TypeSection :=
  match ss.getLast? with
  | some s => if s.klass = .members then ss else ss ++ [sectionOf .members [] [] []]
  | none => [sectionOf .members [] [] []]

/-- `sections.node.back().content.elements().push_back(element)` -/
def pushLast (ss : List TypeSection) (e : Element) : List TypeSection :=
  match ss.getLast? with
  | some s => ss.dropLast ++ [sectionOf s.klass s.description s.value (s.elements ++ [e])]
  | none => []

/-- The element is pushed. -/
def addElement (o : Out Body) (e : Element) : Out Body := { o with node := { o.node with sections := pushLast o.node.sections e } }

/-- The result and the warning about a value beside an object, S/MSONValueMemberParser.cc:136-150, 161-175. -/
def checked (v : ValueNode) (x : Warning) : List Warning :=
  if isObject v.definition.type.base ∧ v.definition.values ≠ [] then [x] else []

/-- `processMSONSection`, S/MSONValueMemberParser.cc:47-214. -/
def msonSection (w : World) (P : Parsers) (ns : List Node) (i : Nat) (pd : PD (Out Body)) : Except Stop (Reply (Out Body) Unit) :=
  match ns[i]? with
  | none => .error .outOfRange
  | some n =>
    let b := pd.data.node
    if n.kind = .header then .ok (.done i () pd)
    else if (b.sections.getLast?.map DataStructure.Section.klass) = some .description then
      match blockDescription w n b.sections with
      | .error e => .error e
      | .ok none => .ok (.done i () pd)
      | .ok (some ss) => .ok (.done (i + 1) () (pd.set { pd.data with node := { b with sections := ss } }))
    else
      let base := resolveBase n pd.top b.base
      let pd := pd.set { pd.data with node := { sections := openSection b.sections, base := base } }
      match pd.top with
      | .msonMixin =>
        element P.mixin {} (fun o m => if !sameBase base m.base then o.warn [.mixinMismatch] else addElement o (.mixin m)) ns i pd
      | .msonOneOf =>
        if !isObject base then .ok (.done i () (pd.set (pd.data.warn [.misplacedOneOf])))
        else element P.oneOf [] (fun o es => addElement o (.oneOf es)) ns i pd
      | _ =>
        if isValue base ∧ n.kind = .listItem then
          element P.value {} (fun o m => (addElement o (.value m.made)).warn (checked m .valueOfObjectItem)) ns i pd
        else if isObject base ∧ n.kind = .listItem then
          element P.property {} (fun o m => (addElement o m.made).warn (checked m.toValueNode .valueOfObject)) ns i pd
        else if isPrimitive base then .ok (.done i () (pd.set (pd.data.warn [.membersOfPrimitive])))
        else .ok (.done (i + 1) () (pd.set (pd.data.warn [.unrecognised])))

/-- A type section that has got a class is added, S/MSONValueMemberParser.h:310-323. -/
def addSection (o : Out Body) (d : Draft) : Out Body :=
  if d.klass ≠ .undefined then { o with node := { o.node with sections := o.node.sections ++ [d.made] } } else o

/-- `processNestedMembers`, S/MSONValueMemberParser.h:291-327. -/
def nestedMembers (w : World) (P : Parsers) (a : Adapter) (ns : List Node) (i : Nat) (pd : PD (Out Body)) :
    Except Stop (Reply (Out Body) Unit) :=
  match pd.top with
  | .mson | .msonMixin | .msonOneOf => msonSection w P ns i pd
  | t =>
    match ns[i]? with
    | none => .error .outOfRange
    | some n =>
      let base := resolveBase n t pd.data.node.base
      let pd := pd.set { pd.data with node := { pd.data.node with base := base } }
      element (P.typeSection a) { base := base } addSection ns i pd

/-- A processor whose result has sections and a base type. -/
structure Lens (α : Type) where
  get : α → Body
  set : Body → α → α

/-- A reply about the body, put in its place. -/
def Lens.reply {α : Type} (l : Lens α) (a : α) : Reply (Out Body) Unit → Reply (Out α) Unit
  | .done i u pd => .done i u ⟨pd.context, { pd.data with node := l.set pd.data.node a }⟩
  | .enter t pd => .enter t ⟨pd.context, { pd.data with node := l.set pd.data.node a }⟩

/-- `processNestedSection` of a member, named type or `Attributes`: S/MSONValueMemberParser.h:71-81, S/MSONPropertyMemberParser.h:77-87,
    S/MSONNamedTypeParser.h:92-102, S/AttributesParser.h:75-85. -/
def Lens.nested {α : Type} (l : Lens α) (w : World) (P : Parsers) (a : Adapter) (ns : List Node) (i : Nat) (pd : PD (Out α)) :
    Except Stop (Reply (Out α) Unit) :=
  match nestedMembers w P a ns i ⟨pd.context, { pd.data with node := l.get pd.data.node }⟩ with
  | .error e => .error e
  | .ok r => .ok (l.reply pd.data.node r)

/-- `processDescription` of these: S/MSONValueMemberParser.h:61-69, S/MSONPropertyMemberParser.h:67-75, S/MSONNamedTypeParser.h:82-90,
    S/AttributesParser.h:65-73. -/
def Lens.description {α : Type} (l : Lens α) (w : World) (ns : List Node) (i : Nat) (pd : PD (Out α)) :
    Except Stop (Nat × PD (Out α)) :=
  match ns[i]? with
  | none => .error .outOfRange
  | some n =>
    let b := l.get pd.data.node
    match blockDescription w n b.sections with
    | .error e => .error e
    | .ok none => .ok (i, pd)
    | .ok (some ss) => .ok (i + 1, pd.set { pd.data with node := l.set { b with sections := ss } pd.data.node })

/-- The processors of these. -/
def Lens.own {α : Type} (l : Lens α) (w : World) (P : Parsers) (a : Adapter) (signature : Node → PD (Out α) → Except Stop (Out α))
    (finalize : Out α → Out α) : Own (Out α) where
  signature := oneSignature signature
  isDescription n _ := memberDescription n
  description := l.description w
  isContent _ _ := false
  content _ i pd := .ok (i + 1, pd)
  preprocess _ _ pd := .ok pd
  nestedType := memberNested
  nested := l.nested w P a
  entered _ _ _ pd := .ok pd
  isUnexpected n _ := recognise.isUnexpected [] n
  unexpected ns i _ := unexpected ns i
  finalize _ _ pd := .ok (pd.set (finalize pd.data))

/-- The sections and the base type of a value. -/
def valueLens : Lens ValueNode where
  get v := ⟨v.sections, v.definition.type.base⟩
  set b v := { v with sections := b.sections, definition := { v.definition with type := { v.definition.type with base := b.base } } }

/-- The sections and the base type of a property. -/
def propertyLens : Lens PropertyNode where
  get v := valueLens.get v.toValueNode
  set b v := { v with toValueNode := valueLens.set b v.toValueNode }

/-- `useSignatureData`, S/MSONValueMemberParser.h:121-195, into a member that is new. -/
def memberSignature (sig : Signature) (types : Context) : ValueNode × Context × List Warning :=
  let r := Mson.useSignature types sig
  (⟨sig.content, r.1, remaining sig.remainingContent []⟩, r.2.1, r.2.2.map .type)

/-- `finalizeSignature` of a value, S/MSONValueMemberParser.h:53-59. -/
def valueSignature (w : World) (n : Node) (pd : PD (Out ValueNode)) : Except Stop (Out ValueNode) :=
  match readMember w valueTraits n with
  | .error e => .error e
  | .ok (sig, ws) =>
    let r := memberSignature sig pd.data.types
    .ok ⟨r.1, r.2.1, pd.data.warnings ++ ws ++ r.2.2⟩

/-- The warnings of the signature that is parsed for a variable name, S/MSONUtility.h:440-450. -/
def nameWarnings (line s : Bytes) : List Warning :=
  if Mson.checkVariable s then
    let escaped := (retrieveEscaped s 0 true).1
    let subject := if escaped.isEmpty then line else escaped
    let t : Traits := { identifier := false, values := true, attributes := true, content := false }
    match parseSignature t subject with
    | .error _ => []
    | .ok sig => signatureWarnings t subject sig
  else []

/-- `finalizeSignature` of a property, S/MSONPropertyMemberParser.h:52-65. -/
def propertySignature (w : World) (n : Node) (pd : PD (Out PropertyNode)) : Except Stop (Out PropertyNode) :=
  match readMember w propertyTraits n with
  | .error e => .error e
  | .ok (sig, ws) =>
    let line := trim (getFirstLine n.text).1
    match Mson.parsePropertyName pd.data.types line sig.identifier with
    | .error .fuel => .error .diverges
    | .error .outOfBounds => .error .outOfRange
    | .ok (name, types, ws') =>
      let r := memberSignature sig types
      .ok ⟨{ toValueNode := r.1, name := name }, r.2.1,
        pd.data.warnings ++ ws ++ nameWarnings line sig.identifier ++ ws'.map .type ++ r.2.2⟩

/-- `finalize` of a value, S/MSONValueMemberParser.h:101-107. -/
def valueFinalize (o : Out ValueNode) : Out ValueNode :=
  let b := valueLens.get o.node
  { o with node := valueLens.set { b with base := finalBase b.base } o.node }

/-- `finalize` of a property, S/MSONPropertyMemberParser.h:101-107. -/
def propertyFinalize (o : Out PropertyNode) : Out PropertyNode :=
  let b := propertyLens.get o.node
  { o with node := propertyLens.set { b with base := finalBase b.base } o.node }

/-- S/MSONValueMemberParser.h:27-396 `SectionProcessor<mson::ValueMember>`. -/
def valueOwn (w : World) (P : Parsers) : Own (Out ValueNode) := valueLens.own w P .list (valueSignature w) valueFinalize

/-- S/MSONPropertyMemberParser.h:23-108 `SectionProcessor<mson::PropertyMember>`. -/
def propertyOwn (w : World) (P : Parsers) : Own (Out PropertyNode) :=
  propertyLens.own w P .list (propertySignature w) propertyFinalize

/-- Nothing is run by way of `Reply.enter`. -/
def noChild {σ : Type} : SectionType → Parse σ := fun _ _ i pd => .ok (i, pd)

/-- `MSONTypeSectionHeaderParser` and `MSONTypeSectionListParser`, `MSONMixinParser`, `MSONOneOfParser`, `MSONValueMemberParser` and
    `MSONPropertyMemberParser`, for blocks that are nested less deep than the bound. -/
def parsers (w : World) : Nat → Parsers
  | 0 => ⟨fun _ _ _ _ => .error .diverges, fun _ _ _ => .error .diverges, fun _ _ _ => .error .diverges,
      fun _ _ _ => .error .diverges, fun _ _ _ => .error .diverges⟩
  | d + 1 =>
    { typeSection := fun a => parseSection (typeSectionOwn w (parsers w d)) a noChild
      mixin := parseSection mixinOwn .list noChild
      oneOf := parseSection (oneOfOwn (parsers w d)) .list noChild
      value := parseSection (valueOwn w (parsers w d)) .list noChild
      property := parseSection (propertyOwn w (parsers w d)) .list noChild }

/-! ## Attributes and named types -/

/-- The sections and the base type of a named type. -/
def namedLens : Lens NamedType where
  get t := ⟨t.sections, t.type.base⟩
  set b t := { t with sections := b.sections, type := { t.type with base := b.base } }

/-- The base type when none is given, S/MSONNamedTypeParser.h:73-75, S/AttributesParser.h:54-56. -/
def objectBase (t : TypeDef) : TypeDef := if t.base = .undefined then { t with base := .implicitObject } else t

/-- `finalizeSignature` of `Attributes`, S/AttributesParser.h:37-63. -/
def attributesSignature (n : Node) (pd : PD (Out NamedType)) : Except Stop (Out NamedType) :=
  match readSignature typeTraits n with
  | .error e => .error e
  | .ok (sig, ws) =>
    let r := Mson.parseTypeDefinition pd.data.types sig.attributes
    .ok ⟨{ type := objectBase r.1, sections := remaining sig.remainingContent [] }, r.2.1,
      pd.data.warnings ++ ws ++ r.2.2.map .type⟩

/-- S/AttributesParser.h:27-116 `SectionProcessor<Attributes>`. -/
def attributesOwn (w : World) (P : Parsers) : Own (Out NamedType) := namedLens.own w P .list attributesSignature id

/-- `MSONReservedCharsRegex`, S/MSONNamedTypeParser.h:20: the C++ escapes before `(` and `{` stand for the characters themselves. -/
def isReserved (c : UInt8) : Bool := c ∈ str "]:()<>{}[_*+`-"

/-- `finalizeSignature` of a named type, S/MSONNamedTypeParser.h:37-80. -/
def namedSignature (n : Node) (pd : PD (Out NamedType)) : Except Stop (Out NamedType) :=
  match readSignature typeTraits n with
  | .error e => .error e
  | .ok (sig, ws) =>
    let v := Mson.parseValue sig.identifier
    let r := Mson.parseTypeDefinition pd.data.types sig.attributes
    .ok ⟨{ name := ⟨none, v.literal, v.isVariable⟩, type := objectBase r.1 }, { r.2.1 with context := v.literal },
      pd.data.warnings ++ ws ++ r.2.2.map .type ++
        if (trim n.text).head? ≠ some (asc '`') && (v.literal.takeWhile (· ≠ 0)).any isReserved then [.reservedCharacters] else []⟩

/-- `finalize` of a named type, S/MSONNamedTypeParser.h:130-136. -/
def namedFinalize (o : Out NamedType) : Out NamedType := { o with types := { o.types with context := [] } }

/-- S/MSONNamedTypeParser.h:26-137 `SectionProcessor<mson::NamedType>`. -/
def namedOwn (w : World) (P : Parsers) : Own (Out NamedType) := namedLens.own w P .header namedSignature namedFinalize

/-- How deep blocks are nested. -/
def depth : Node → Nat
  | .mk _ _ _ cs => depths cs + 1
where
  depths : List Node → Nat
    | [] => 0
    | n :: ns => max (depth n) (depths ns)

/-- `MSONTypeSectionListParser`, S/MSONTypeSectionParser.h:208. -/
def parseTypeSection (w : World) : Parse (Out Draft) := fun ns i pd => (parsers w (depth.depths ns)).typeSection .list ns i pd

/-- `MSONMixinParser`, S/MSONMixinParser.h:101. -/
def parseMixin (w : World) : Parse (Out TypeDef) := fun ns i pd => (parsers w (depth.depths ns)).mixin ns i pd

/-- `MSONOneOfParser`, S/MSONOneOfParser.h:77. -/
def parseOneOf (w : World) : Parse (Out (List Element)) := fun ns i pd => (parsers w (depth.depths ns)).oneOf ns i pd

/-- `MSONValueMemberParser`, S/MSONValueMemberParser.h:399. -/
def parseValue (w : World) : Parse (Out ValueNode) := fun ns i pd => (parsers w (depth.depths ns)).value ns i pd

/-- `MSONPropertyMemberParser`, S/MSONPropertyMemberParser.h:111. -/
def parseProperty (w : World) : Parse (Out PropertyNode) := fun ns i pd => (parsers w (depth.depths ns)).property ns i pd

/-- `AttributesParser`, S/AttributesParser.h:119. -/
def parseAttributes (w : World) : Parse (Out NamedType) := fun ns i pd =>
  parseSection (attributesOwn w (parsers w (depth.depths ns))) .list noChild ns i pd

/-- `MSONNamedTypeParser`, S/MSONNamedTypeParser.h:139. -/
def parseNamed (w : World) : Parse (Out NamedType) := fun ns i pd =>
  parseSection (namedOwn w (parsers w (depth.depths ns + 1))) .header noChild ns i pd

end Verif.MsonParser
