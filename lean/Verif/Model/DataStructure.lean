import Verif.Model.Mson
import Verif.Model.Registry
import Verif.Model.ElementUtils
import Verif.Model.Number
import Verif.Model.ByteBuffer
/-!
# From MSON to API Elements: packages/drafter/src/RefractDataStructure.cc

`D` below is packages/drafter/src/RefractDataStructure.cc, `S` is packages/apib-parser/src/snowcrash.  Not modelled: the text and the
place of the warnings, and that `ConversionContext::warn` (Model/Api.lean) drops a warning it has already got at the same place.
-/
namespace Verif.DataStructure
open Verif Verif.Refract Verif.Registry
open Verif.NamedTypes (BaseName TypeName)
open Verif.Mson (Base TypeSpec TypeDef ValueDef PropertyName)

/-! ## The syntax tree, S/MSON.h and S/MSONSourcemap.h -/

/-- `mdp::CharactersRangeSet`, the source map of a node. -/
abbrev SourceMap := List ByteBuffer.Range

/-- `TypeSection::Class`, S/MSON.h:209-216. -/
inductive Klass where
  | undefined | description | members | sample | default
deriving Repr, DecidableEq

mutual
/-- `TypeSection`, S/MSON.h:204-270: class, content, and the source maps of its description and of its value. -/
inductive Section where
  | mk (klass : Klass) (description value : Bytes) (elements : List Element) (descriptionMap valueMap : SourceMap)
/-- `ValueMember`, S/MSON.h:290-303: inline description, value definition, sections, and the source maps of the member itself, of the
    value definition and of the description. -/
inductive Member where
  | mk (description : Bytes) (definition : ValueDef) (sections : List Section) (map definitionMap descriptionMap : SourceMap)
/-- `Element`, S/MSON.h:330-437; a property member is a value member with a name, S/MSON.h:319-326. -/
inductive Element where
  | empty
  | property (name : PropertyName) (nameMap : SourceMap) (member : Member)
  | value (member : Member)
  | mixin (type : TypeDef)
  | oneOf (elements : List Element)
  | group (elements : List Element)
end

namespace Section
def klass : Section → Klass | mk k _ _ _ _ _ => k
def description : Section → Bytes | mk _ d _ _ _ _ => d
def value : Section → Bytes | mk _ _ v _ _ _ => v
def elements : Section → List Element | mk _ _ _ es _ _ => es
def descriptionMap : Section → SourceMap | mk _ _ _ _ dm _ => dm
def valueMap : Section → SourceMap | mk _ _ _ _ _ vm => vm
end Section

namespace Member
def description : Member → Bytes | mk d _ _ _ _ _ => d
def definition : Member → ValueDef | mk _ v _ _ _ _ => v
def sections : Member → List Section | mk _ _ ss _ _ _ => ss
def map : Member → SourceMap | mk _ _ _ m _ _ => m
def definitionMap : Member → SourceMap | mk _ _ _ _ m _ => m
def descriptionMap : Member → SourceMap | mk _ _ _ _ _ m => m
end Member

/-- `NamedType`, S/MSON.h:276-288, with the source maps of its name and of itself. -/
structure NamedType where
  name : TypeName := ⟨none, [], false⟩
  type : TypeDef := {}
  sections : List Section := []
  nameMap : SourceMap := []
  map : SourceMap := []

/-! ## Results -/

/-- The warnings of this file. -/
inductive Warning where
  | numberFormat | booleanFormat | undefinedNamed (name : Bytes) | noDefault | noSample | duplicate | multipleDefaults
  | multipleVariables | fixedOptional | requiredOptional | defaultSample | fixedFixedType
deriving Repr, DecidableEq

/-- How a conversion ends without a result: one of the errors thrown by this file, undefined behaviour (a null pointer is dereferenced),
    or a loop without end (`FindRootAncestor`). -/
inductive Stop where
  | unknownElement | group | unknownSection | oneValue | variableKey | undefined | endless
deriving Repr, DecidableEq

/-- A computation that reports warnings to `context.warn` and may stop. -/
structure W (α : Type) where
  warnings : List Warning
  result : Except Stop α

namespace W
def pure {α : Type} (a : α) : W α := ⟨[], .ok a⟩
def stop {α : Type} (s : Stop) : W α := ⟨[], .error s⟩
def warn (ws : List Warning) : W Unit := ⟨ws, .ok ()⟩
def bind {α β : Type} (x : W α) (f : α → W β) : W β :=
  match x.result with
  | .ok a => ⟨x.warnings ++ (f a).warnings, (f a).result⟩
  | .error s => ⟨x.warnings, .error s⟩
instance : Monad W := { pure := W.pure, bind := W.bind }
/-- A value that may be undefined behaviour. -/
def defined {α : Type} : Option α → W α
  | some a => W.pure a
  | none => W.stop .undefined
/-- A look-up that may not end. -/
def ends {α : Type} : Option α → W α
  | some a => W.pure a
  | none => W.stop .endless
/-- A loop over a list. -/
def each {α β : Type} (f : α → W β) : List α → W (List β)
  | [] => W.pure []
  | a :: r => (f a).bind fun b => (each f r).bind fun bs => W.pure (b :: bs)
end W

/-! ## Small helpers -/

/-- `from_primitive` of a string, refract/Element.h:181. -/
def strE (s : Bytes) : Elem := makeElement (.string s)
/-- `attributes().set(key, value)`. -/
def setAttr (k : Bytes) (v e : Elem) : Elem := e.setAttributes (Infos.set e.attributes k v)
/-- `meta().set(key, value)`. -/
def setMeta (k : Bytes) (v e : Elem) : Elem := e.setMetas (Infos.set e.metas k v)

/-- The number of an integer, refract/dsd/Number.h:47-50. -/
def natE (n : Nat) : Elem := makeElement (.number (str (toString n)))

/-- `SourceMapToRefract`, packages/drafter/src/RefractSourceMap.cc:17-39. -/
def sourceMapE (m : SourceMap) : Elem :=
  makeElement (.array [(makeElement (.array (m.map fun r => makeElement (.array [natE r.location, natE r.length])))).setName (str "sourceMap")])

/-- `AttachSourceMap`, packages/drafter/src/RefractSourceMap.h:25-31. -/
def attach (m : SourceMap) (e : Elem) : Elem := if m.isEmpty then e else setAttr (str "sourceMap") (sourceMapE m) e

/-- `mson::…TypeAttribute`, S/MSON.h:134-143. -/
def bitRequired : Nat := 0
def bitOptional : Nat := 1
def bitFixed : Nat := 2
def bitSample : Nat := 3
def bitDefault : Nat := 4
def bitNullable : Nat := 5
def bitFixedType : Nat := 6

/-- The element type of a base type name: the `case`s of D:1220-1237 and D:1310-1323. -/
def kindOf : BaseName → Kind
  | .boolean => .boolean | .string => .string | .number => .number | .array => .array | .enum => .enum | .object => .object

/-- `is_primitive`, packages/drafter/src/ElementData.h:16-37. -/
def isPrimitive : BaseName → Bool
  | .boolean | .string | .number => true
  | _ => false

/-- `RefractElementTypeToMsonType`, D:342-372, and `NamedTypeFromElement`, packages/drafter/src/MsonTypeSectionToApie.cc:25-53. -/
def baseOfKind : Kind → Option BaseName
  | .string => some .string | .number => some .number | .boolean => some .boolean | .array => some .array
  | .object => some .object | .enum => some .enum
  | _ => none

/-- `GetMsonTypeFromName`, D:374-384. -/
def typeOfName (r : Reg) (name : Bytes) : W (Option BaseName) :=
  (W.ends (rootFrom r name)).bind fun e => W.pure (e.bind fun e => baseOfKind e.kind)

/-- `ResolveType`, packages/drafter/src/MsonTypeSectionToApie.cc:56-70. -/
def resolveType (r : Reg) (spec : TypeSpec) : W (Option BaseName) :=
  match spec.name.base with
  | some b => W.pure (some b)
  | none => if spec.name.literal.isEmpty then W.pure none else typeOfName r spec.name.literal

/-- `TypeName::empty`, S/MSON.cc:18-26. -/
def nameEmpty (n : TypeName) : Bool := n.base.isNone && (n.literal.isEmpty && !n.isVariable)
/-- `TypeDefinition::empty`, S/MSON.cc:28-36. -/
def typeEmpty (t : TypeDef) : Bool := t.attributes == 0 && (t.spec.nested.isEmpty && nameEmpty t.spec.name)
/-- `ValueDefinition::empty`, S/MSON.cc:38-41. -/
def definitionEmpty (d : ValueDef) : Bool := d.values.isEmpty && typeEmpty d.type

/-- `SetElementType`, D:118-123. -/
def setType (t : TypeDef) (e : Elem) : Elem := if t.spec.name.literal.isEmpty then e else e.setName t.spec.name.literal

/-- `MsonTypeAttributesToRefract`, D:125-155. -/
def typeAttributes (bits : Nat) : Option Elem :=
  if bits = 0 then none
  else
    let content := (if bits.testBit bitRequired then [strE (str "required")] else [])
      ++ (if bits.testBit bitOptional then [strE (str "optional")] else [])
      ++ (if bits.testBit bitFixed then [strE (str "fixed")] else [])
      ++ (if bits.testBit bitFixedType then [strE (str "fixedType")] else [])
      ++ (if bits.testBit bitNullable then [strE (str "nullable")] else [])
    if content.isEmpty then none else some (makeElement (.array content))

/-- `SelectNestedTypeSpecification`, D:157-175. -/
def nestedType (nested : List TypeName) : BaseName :=
  match nested with
  | [n] => match n.base with
    | some .boolean => .boolean
    | some .number => .number
    | _ => .string
  | _ => .string

/-! ## packages/drafter/src/RefractElementFactory.cc -/

/-- `LiteralTo<ValueType>`, packages/drafter/src/Serialize.cc:17-24 and 133-158: whether the text is one of the type, and the data that
    is returned in either case. -/
def literalTo (t : BaseName) (s : Bytes) : Bool × Data :=
  match t with
  | .number => match Number.literalToNumber s with
    | some n => (true, .number n)
    | none => (false, .number (str "0"))
  | .boolean => match Number.literalToBoolean s with
    | some b => (true, .boolean b)
    | none => (false, .boolean false)
  | _ => ((Number.literalToString s).1, .string (Number.literalToString s).2)

/-- `FactoryCreateMethod`, RefractElementFactory.h:50-55. -/
inductive Method where
  | value | sample | element
deriving Repr, DecidableEq

/-- `FactoryFromType(typeName).Create(literal, method)`, RefractElementFactory.cc:18-112. -/
def create (t : Option BaseName) (literal : Bytes) (method : Method) : Elem :=
  let t := t.getD .object
  if isPrimitive t then
    if literal.isEmpty then makeEmpty (kindOf t)
    else
      let v := literalTo t literal
      match method with
      | .sample => setAttr (str "samples") (if v.1 then makeElement (.array [makeElement v.2]) else makeEmpty .array) (makeEmpty (kindOf t))
      | .value => if v.1 then makeElement v.2 else makeEmpty (kindOf t)
      | .element => (makeEmpty (kindOf t)).setName literal
  else match method with
    | .sample => (strE literal).setName (str "generic")
    | _ => if literal.isEmpty then makeEmpty (kindOf t) else (makeEmpty (kindOf t)).setName literal

/-! ## Attributes of elements -/

/-- Whether one of the elements is the text `word`, as the loops in the two functions below look for it. -/
def holdsWord (word : Bytes) (es : List Elem) : Bool :=
  es.any fun x => match x.data with | .string s => x.has && s == word | _ => false

/-- `setFixedTypeAttribute`, packages/drafter/src/refract/ElementUtils.cc:196-219. -/
def setFixed (e : Elem) : Elem :=
  match Infos.find e.attributes (str "typeAttributes") with
  | none => setAttr (str "typeAttributes") (makeElement (.array [strE (str "fixed")])) e
  | some t => match t with
    | .mk n m a h (.array es) =>
      if holdsWord (str "fixed") es then e else setAttr (str "typeAttributes") (.mk n m a h (.array (es ++ [strE (str "fixed")]))) e
    | _ => e

/-- `AppendInfoElement<ArrayElement>(attributes, "typeAttributes", "fixed")`, packages/drafter/src/refract/InfoElementsUtils.h:48-80;
    `none` if the attribute is no array (an assertion, then a null pointer). -/
def appendFixed (e : Elem) : Option Elem :=
  match Infos.find e.attributes (str "typeAttributes") with
  | none => some (setAttr (str "typeAttributes") (makeElement (.array [strE (str "fixed")])) e)
  | some t => match t with
    | .mk n m a h (.array es) =>
      if h = false then some (setAttr (str "typeAttributes") (.mk n m a true (.array [strE (str "fixed")])) e)
      else if holdsWord (str "fixed") es then some e
      else some (setAttr (str "typeAttributes") (.mk n m a h (.array (es ++ [strE (str "fixed")]))) e)
    | _ => none

/-- `IsLiteral`, packages/drafter/src/refract/VisitorUtils.cc:74-90; `HasTypeAttribute`, VisitorUtils.h:22-48, finds what `hasTypeAttr`
    finds, since an empty element of a string holds the empty text. -/
def isLiteral (e : Elem) : Bool :=
  match e.kind with
  | .null => false
  | .string | .number | .boolean => e.has || hasTypeAttr e (str "fixed")
  | _ => hasTypeAttr e (str "fixed")

/-! ## packages/drafter/src/ElementComparator.h -/

/-- Insertion of an entry before the first one with a greater key. -/
def insertInfo (p : Bytes × Elem) : Infos → Infos
  | [] => [p]
  | q :: r => if bytesLt p.1 q.1 then p :: q :: r else q :: insertInfo p r

/-- `SortedRef`, ElementComparator.h:24-53, without the entry `ignored`; the keys of an `InfoElements` are distinct, so their order
    does not depend on the way `std::sort` works. -/
def sortedInfos (ignored : Bytes) (m : Infos) : Infos := (Infos.erase m ignored).foldr insertInfo []

/-- `Equal<IgnoreKeys>(lhs, rhs, {"sourceMap"}, {"description"})`, ElementComparator.h:112-147; `none` is the dereference of a null
    pointer, when elements of the same name are of different types. -/
def alike (l r : Elem) : Option Bool :=
  andThen (some (l.empty == r.empty)) <| andThen (some (l.name == r.name)) <|
    andThen (eqInfos (sortedInfos (str "description") l.metas) (sortedInfos (str "description") r.metas)) <|
      andThen (eqInfos (sortedInfos (str "sourceMap") l.attributes) (sortedInfos (str "sourceMap") r.attributes)) <|
        if l.empty then some true else if l.kind = r.kind then eqData l.data r.data else none

/-- `std::find_if` with `Equal(x, y)` for the elements `y` of a list: whether one is found. -/
def findAlike (equal : Elem → Option Bool) : List Elem → Option Bool
  | [] => some false
  | y :: r => match equal y with
    | none => none
    | some true => some true
    | some false => findAlike equal r

/-! ## packages/drafter/src/ElementData.h -/

/-- `ElementInfo<T>`, ElementData.h:54-83: `text` is the value for primitive types, `elements` for the others. -/
structure Info where
  text : Bytes := []
  elements : List Elem := []
  map : SourceMap := []

/-- `ElementData<T>`, ElementData.h:95-106. -/
structure Parts where
  inlines : List Info := []
  values : List Info := []
  defaults : List Info := []
  samples : List Info := []
  hints : List Info := []
  descriptions : List (Bytes × SourceMap) := []

/-- `Merge<T, false>`, packages/drafter/src/ElementInfoUtils.h:37-55, without the source map, which is used for warnings only. -/
def merged (l : List Info) : List Elem := l.flatMap (·.elements)

/-! ## The parts of a type -/

/-- The loop of `ExtractTypeDefinition::Fetch`, D:410-430. -/
def hintOf (r : Reg) (n : TypeName) : W (List Elem) :=
  if n.base.isNone && !n.literal.isEmpty then
    (typeOfName r n.literal).bind fun t =>
      if t.isNone && !n.isVariable then (W.warn [.undefinedNamed n.literal]).bind fun _ => W.pure []
      else W.pure [create t n.literal (if n.isVariable then .sample else .element)]
  else W.pure [create n.base n.literal .value]

/-- `ExtractTypeDefinition`, D:391-463. -/
def addHints (r : Reg) (t : BaseName) (type : TypeDef) (d : Parts) : W Parts :=
  if isPrimitive t then W.pure d
  else (W.each (hintOf r) type.spec.nested).bind fun l => W.pure { d with hints := d.hints ++ [{ elements := l.flatten }] }

/-- `ExtractValueMember::Fetch`, D:475-542. -/
def fetchValues (t : BaseName) (v : ValueDef) (map : SourceMap) : W Info :=
  if isPrimitive t then
    if v.values.length > 1 then W.stop .oneValue
    else W.pure { text := (v.values.head?.getD {}).literal, map := map }
  else
    let n := some (nestedType v.type.spec.nested)
    W.pure {
      elements := v.values.map fun x =>
        if t = .enum then
          (if isLiteral (create n x.literal .value) then setFixed (create n x.literal .value) else create n x.literal .value)
        else create n x.literal (if x.isVariable then .sample else .value)
      map := map }

/-- `IsValueVariable`, D:544-558; `dsd::is_iterable` holds for arrays and objects. -/
def variableValue (t : BaseName) (v : ValueDef) : Bool :=
  t != .array && t != .object && (v.values.head?.getD {}).isVariable

/-- The values in `ExtractValueMember::operator()`, D:583-607. -/
def addValues (t : BaseName) (v : ValueDef) (map : SourceMap) (d : Parts) : W Parts :=
  if v.values.isEmpty then
    (W.warn ((if v.type.attributes.testBit bitDefault then [.noDefault] else [])
      ++ (if v.type.attributes.testBit bitSample then [.noSample] else []))).bind fun _ => W.pure d
  else (fetchValues t v map).bind fun i =>
    if v.type.attributes.testBit bitDefault then W.pure { d with defaults := d.defaults ++ [i] }
    else if v.type.attributes.testBit bitSample || variableValue t v then W.pure { d with samples := d.samples ++ [i] }
    else W.pure { d with inlines := d.inlines ++ [i] }

/-- `ExtractValueMember::operator()`, D:565-622. -/
def extractValue (r : Reg) (t : BaseName) (description : Bytes) (v : ValueDef) (definitionMap descriptionMap : SourceMap) : W Parts :=
  if v.type.base = .object ∨ v.type.base = .implicitObject then W.pure {}
  else (addValues t v definitionMap {}).bind fun d =>
    let d := if description.isEmpty then d else { d with descriptions := d.descriptions ++ [(description, descriptionMap)] }
    if v.values.isEmpty ∨ v.type.spec.nested.length > 1 then addHints r t v.type d else W.pure d

/-- `Fetch` of `ExtractTypeSection`, D:196-246; `content` is what `MsonTypeSectionsToApie` makes of the elements of the section. -/
def fetchSection (t : BaseName) (value : Bytes) (valueMap : SourceMap) (content : W (List Elem)) : W Info :=
  if isPrimitive t then W.pure { text := value, map := valueMap }
  else content.bind fun l =>
    W.pure { elements := if t = .enum then l.map (fun e => if isLiteral e then setFixed e else e) else l, map := valueMap }

/-- `ExtractTypeSection::operator()`, D:305-339, with `Store`, D:248-276, and `hasContent`, D:44-47. -/
def addSection (t : BaseName) (klass : Klass) (description value : Bytes) (noElements : Bool) (descriptionMap valueMap : SourceMap)
    (content : W (List Elem)) (d : Parts) : W Parts :=
  match klass with
  | .members => if isPrimitive t then W.pure d
    else (fetchSection t value valueMap content).bind fun i => W.pure { d with values := d.values ++ [i] }
  | .sample => if value.isEmpty && noElements then W.pure d
    else (fetchSection t value valueMap content).bind fun i => W.pure { d with samples := d.samples ++ [i] }
  | .default => if value.isEmpty && noElements then W.pure d
    else (fetchSection t value valueMap content).bind fun i => W.pure { d with defaults := d.defaults ++ [i] }
  | .description => W.pure { d with descriptions := d.descriptions ++ [(description, descriptionMap)] }
  | .undefined => W.stop .unknownSection

/-! ## The element of a type -/

/-- The container of the data type `t`, filled with `push_back`. -/
def container (t : BaseName) (es : List Elem) : Data := if t = .object then .object (es.foldl objectPushBack []) else .array es

/-- `ElementInfoToElement`, D:625-668. -/
def infoToElement (t : BaseName) (i : Info) : Elem :=
  if isPrimitive t then (if (literalTo t i.text).1 then makeElement (literalTo t i.text).2 else makeEmpty (kindOf t))
  else if t = .enum then
    match i.elements with
    | [] => makeEmpty .enum
    | [e] => makeElement (.enum (some e))
    | l => setAttr (str "enumerations") (makeElement (.array l)) (makeEmpty .enum)
  else makeElement (container t i.elements)

/-- `SaveValue<T, true>`, D:673-694; the values of a primitive type are never filled. -/
def savePrimitive (t : BaseName) (d : Parts) (e : Elem) : Elem :=
  match d.inlines with
  | [] => e
  | i :: _ => attach i.map (e.setData (literalTo t i.text).2)

/-- `SaveValue<T, false>`, D:696-711. -/
def saveContainer (t : BaseName) (d : Parts) (e : Elem) : Elem :=
  let es := merged d.hints ++ merged d.inlines ++ merged d.values
  if es.isEmpty ∨ e.has then e else e.setData (container t es)

/-- The only element of the first part, if it has a value, D:719-728. -/
def onlyValue (l : List Info) : Option Elem :=
  match l.head? with
  | some i => match i.elements with
    | [e] => if e.has then some e else none
    | _ => none
  | none => none

/-- `addToEnumerations`, D:738-759, for a list of elements. -/
def addEnumerations (report : Bool) : List Elem → List Elem → W (List Elem)
  | [], enums => W.pure enums
  | x :: r, enums => (W.defined (findAlike (alike x) enums)).bind fun found =>
    if found then (W.warn (if report then [.duplicate] else [])).bind fun _ => addEnumerations report r enums
    else addEnumerations report r (enums ++ [x])

/-- The inline values without those that are among the values, D:773-787. -/
def withoutValues (values : List Elem) : List Elem → W (List Elem)
  | [] => W.pure []
  | x :: r => (W.defined (findAlike (fun v => alike v x) values)).bind fun found =>
    (withoutValues values r).bind fun l => W.pure (if found then l else x :: l)

/-- `SaveValue<EnumElement>`, D:713-821. -/
def saveEnum (d : Parts) (e : Elem) : W Elem :=
  let e := match onlyValue d.inlines with
    | some c => e.setData (.enum (some (cloneAll c)))
    | none => match onlyValue d.values with
      | some c => e.setData (.enum (some (cloneAll c)))
      | none => e
  (withoutValues (merged d.values) (merged d.inlines)).bind fun inlines =>
  (addEnumerations true inlines []).bind fun enums =>
  (addEnumerations true (merged d.values) enums).bind fun enums =>
  (addEnumerations false ((merged d.samples).map cloneAll) enums).bind fun enums =>
  (addEnumerations false ((merged d.defaults).map cloneAll) enums).bind fun enums =>
  (addEnumerations true (merged d.hints) enums).bind fun enums =>
  if enums.isEmpty then W.pure e
  else (W.each (fun x => if isLiteral x then W.defined (appendFixed x) else W.pure x) enums).bind fun enums =>
    W.pure (setAttr (str "enumerations") (makeElement (.array (enums.map cloneAll))) e)

/-- `AllElementsToAtribute`, D:823-860, for the samples. -/
def saveSamples (t : BaseName) (l : List Info) (e : Elem) : Elem :=
  if t = .enum then
    (if (merged l).isEmpty then e else setAttr (str "samples") (makeElement (.array ((merged l).map fun x => makeElement (.enum (some x))))) e)
  else if l.isEmpty then e else setAttr (str "samples") (makeElement (.array (l.map (infoToElement t)))) e

/-- `LastElementToAttribute`, D:862-915, with `CheckForMultipleDefaultDefinitions`, D:874-890, for the default. -/
def saveDefault (t : BaseName) (l : List Info) (e : Elem) : W Elem :=
  match l.getLast? with
  | none => W.pure e
  | some last =>
    if t = .enum then
      (W.warn (if l.length > 1 ∨ (l.head?.getD {}).elements.length > 1 then [.multipleDefaults] else [])).bind fun _ =>
        W.pure (setAttr (str "default") (match (merged l).getLast? with
          | none => makeEmpty .enum
          | some x => makeElement (.enum (some x))) e)
    else W.pure (setAttr (str "default") (infoToElement t last) e)

/-- `CheckValueValidity`, D:70-116. -/
def validity (t : BaseName) (i : Info) : List Warning :=
  match t with
  | .number => if (literalTo t i.text).1 then [] else [.numberFormat]
  | .boolean => if (literalTo t i.text).1 then [] else [.booleanFormat]
  | _ => []

/-- `ElementDataToElement`, D:917-934. -/
def dataToElement (t : BaseName) (d : Parts) (e : Elem) : W Elem :=
  (W.warn ((d.inlines ++ d.values ++ d.samples ++ d.defaults ++ d.hints).flatMap (validity t))).bind fun _ =>
  (if t = .enum then saveEnum d e else W.pure (if isPrimitive t then savePrimitive t d e else saveContainer t d e)).bind fun e =>
  saveDefault t d.defaults (saveSamples t d.samples e)

/-- The loop of `DescriptionToRefract`, D:942-956. -/
def joinDescription (acc item : Bytes × SourceMap) : Bytes × SourceMap :=
  if item.1.isEmpty then acc
  else ((if acc.1.isEmpty then acc.1 else acc.1 ++ str "\n") ++ item.1, ByteBuffer.append acc.2 item.2)

/-- `DescriptionToRefract`, D:936-963. -/
def descriptionE (l : List (Bytes × SourceMap)) : Option Elem :=
  let info := l.foldl joinDescription ([], [])
  if info.1.isEmpty then none else some (attach info.2 (strE info.1))

/-- `element->meta().set(SerializeKey::Description, …)` if there is a description. -/
def setDescription (l : List (Bytes × SourceMap)) (e : Elem) : Elem :=
  match descriptionE l with
  | none => e
  | some x => setMeta (str "description") x e

/-- `element->attributes().set(SerializeKey::TypeAttributes, …)` if there are attributes. -/
def setTypeAttributes (bits : Nat) (e : Elem) : Elem :=
  match typeAttributes bits with
  | none => e
  | some x => setAttr (str "typeAttributes") x e

/-! ## Members -/

/-- `VariablePropertyIsString`, D:993-1005. -/
def variableIsString (r : Reg) (v : ValueDef) : W Bool :=
  if v.type.spec.name.base = some .string then W.pure true
  else (W.ends (rootFrom r v.type.spec.name.literal)).bind fun e =>
    W.pure (match e with | some e => e.kind = .string | none => false)

/-- `GetPropertyKey`, D:1007-1048. -/
def propertyKey (r : Reg) (name : PropertyName) (nameMap : SourceMap) : W Elem :=
  (if definitionEmpty name.isVariable then W.pure (makeEmpty .string)
   else (W.warn (if name.isVariable.values.length > 1 then [.multipleVariables] else [])).bind fun _ =>
    (if typeEmpty name.isVariable.type then W.pure (makeEmpty .string)
     else (variableIsString r name.isVariable).bind fun ok =>
      if ok then W.pure (setType name.isVariable.type (makeEmpty .string)) else W.stop .variableKey).bind fun key =>
    W.pure (match name.isVariable.values.head? with
      | some v => key.setData (.string v.literal)
      | none => key)).bind fun key =>
  W.pure (attach nameMap (if name.literal.isEmpty then key else key.setData (.string name.literal)))

/-- `validKey`, D:1050-1064. -/
def validKey (key : Elem) : Bool :=
  if !isReserved key.name then true
  else match findValue key with
    | some v => match v.data with | .string s => !s.isEmpty | _ => false
    | none => false

/-- The loop over the block descriptions of a property, D:1100-1105. -/
def blockOf : Section → Option (Bytes × SourceMap)
  | .mk .description d _ _ dm _ => some (d, dm)
  | _ => none

/-- The descriptions of a property, D:1094-1109. -/
def propertyDescriptions (description : Bytes) (descriptionMap : SourceMap) (sections : List Section) : List (Bytes × SourceMap) :=
  let blocks := sections.filterMap blockOf
  if description.isEmpty then blocks
  else (if blocks.isEmpty then description else description ++ str "\n", descriptionMap) :: blocks

/-- `ValueHasMembers`, D:1118-1126. -/
def hasMembers (sections : List Section) : Bool := sections.any fun s => match s with | .mk k _ _ _ _ _ => k = .members

/-- `CheckTypeAttributesClash`, D:1177-1205. -/
def clashes (bits : Nat) : List Warning :=
  (if bits.testBit bitFixed && bits.testBit bitOptional then [.fixedOptional] else [])
    ++ (if bits.testBit bitRequired && bits.testBit bitOptional then [.requiredOptional] else [])
    ++ (if bits.testBit bitDefault && bits.testBit bitSample then [.defaultSample] else [])
    ++ (if bits.testBit bitFixed && bits.testBit bitFixedType then [.fixedFixedType] else [])

/-- The type that `MsonMemberToRefract` converts a member to, D:1220-1251; the default nested type is always defined. -/
def memberType (resolved : Option BaseName) (nested : BaseName) (v : ValueDef) (sections : List Section) : BaseName :=
  match resolved with
  | some t => t
  | none =>
    if v.values.length > 1 then .array
    else if !v.type.spec.name.literal.isEmpty || hasMembers sections then .object
    else nested

/-- `RefractElementFromValue`, D:967-991, where `sections` converts the sections: the element and the descriptions. -/
def valueWith (r : Reg) (t : BaseName) (description : Bytes) (v : ValueDef) (map definitionMap descriptionMap : SourceMap)
    (sections : BaseName → BaseName → Parts → W Parts) : W (Elem × List (Bytes × SourceMap)) :=
  (extractValue r t description v definitionMap descriptionMap).bind fun d =>
  (sections t (nestedType v.type.spec.nested) d).bind fun d =>
  (dataToElement t d (attach map (setType v.type (makeEmpty (kindOf t))))).bind fun e => W.pure (e, d.descriptions)

/-- The member element of `RefractElementFromProperty`, D:1079-1085. -/
def memberE (n : PropertyName) (key value : Elem) : Elem :=
  if definitionEmpty n.isVariable then makeElement (.member (some key) (some value))
  else setAttr (str "variable") (makeElement (.boolean true)) (makeElement (.member (some key) (some value)))

/-- `MsonMemberToApie`, D:1345-1363, through `MsonMemberToRefract`, D:1207-1254, where `sections` converts the sections: for a value
    `ValueTrait::Invoke`, D:1154-1174, for a property `RefractElementFromProperty`, D:1066-1116. -/
def memberWith (r : Reg) (name : Option (PropertyName × SourceMap)) (nested : BaseName) (description : Bytes) (v : ValueDef)
    (ss : List Section) (map definitionMap descriptionMap : SourceMap) (sections : BaseName → BaseName → Parts → W Parts) :
    W (Option Elem) :=
  (resolveType r v.type.spec).bind fun resolved =>
  (W.warn (clashes v.type.attributes)).bind fun _ =>
  match name with
  | none =>
    (valueWith r (memberType resolved nested v ss) description v map definitionMap descriptionMap sections).bind fun x =>
    W.pure (some (setDescription x.2 (setTypeAttributes v.type.attributes x.1)))
  | some (n, nameMap) =>
    (propertyKey r n nameMap).bind fun key =>
    if validKey key then
      (valueWith r (memberType resolved nested v ss) description v map definitionMap descriptionMap sections).bind fun x =>
      W.pure (some (setDescription (propertyDescriptions description descriptionMap ss)
        (setTypeAttributes v.type.attributes (memberE n key x.1))))
    else W.pure none

/-- `msonToApieSymbol`, packages/drafter/src/MsonTypeSectionToApie.cc:110-135; a name that is empty fails an assertion there and gives
    the empty symbol in a build without them. -/
def symbolOf (n : TypeName) : Bytes :=
  if n.literal.isEmpty && !n.isVariable then
    (match n.base with
    | some b => (kindOf b).name
    | none => [])
  else n.literal

/-- `MsonTypeSectionToApie` of a mixin, MsonTypeSectionToApie.cc:137-147. -/
def mixinE (t : TypeDef) : Elem := setAttr (str "path") (strE (str "content")) (makeElement (.ref (symbolOf t.spec.name)))

/-- `WrapOption`, packages/drafter/src/MsonOneOfSectionToApie.cc:20-25, and the option without content for a null pointer,
    MsonOneOfSectionToApie.cc:83-86. -/
def optionE (e : Option Elem) : Elem := makeElement (.option e.toList)

/-- The result of `MsonOneOfSectionToApie`, MsonOneOfSectionToApie.cc:91-105. -/
def selectE (options : List Elem) : Elem := if options.isEmpty then makeEmpty .select else makeElement (.select options)

mutual
/-- The loops over the sections of a type, D:984-986 and D:1287-1289. -/
def convertSections (r : Reg) (t nested : BaseName) : List Section → Parts → W Parts
  | [], d => W.pure d
  | s :: rest, d => (convertSection r t nested s d).bind fun d => convertSections r t nested rest d
termination_by structural l => l
/-- `ExtractTypeSection::operator()`, D:305-339. -/
def convertSection (r : Reg) (t nested : BaseName) : Section → Parts → W Parts
  | .mk klass description value elements descriptionMap valueMap, d =>
    addSection t klass description value elements.isEmpty descriptionMap valueMap (convertElements r nested elements) d
termination_by structural s => s
/-- `MsonTypeSectionsToApie`, packages/drafter/src/MsonTypeSectionToApie.h:77-90. -/
def convertElements (r : Reg) (nested : BaseName) : List Element → W (List Elem)
  | [] => W.pure []
  | e :: rest => (convertElement r nested e).bind fun o => (convertElements r nested rest).bind fun l => W.pure (o.toList ++ l)
termination_by structural l => l
/-- `MsonTypeSectionToApie`, MsonTypeSectionToApie.cc:72-107 and 137-200. -/
def convertElement (r : Reg) (nested : BaseName) : Element → W (Option Elem)
  | .empty => W.stop .unknownElement
  | .property name nameMap m => convertMember r (some (name, nameMap)) nested m
  | .value m => convertMember r none nested m
  | .mixin t => W.pure (some (mixinE t))
  | .oneOf es => (convertOptions r es).bind fun l => W.pure (some (selectE l))
  | .group _ => W.stop .group
termination_by structural e => e
/-- `MsonMemberToApie`, D:1345-1363. -/
def convertMember (r : Reg) (name : Option (PropertyName × SourceMap)) (nested : BaseName) : Member → W (Option Elem)
  | .mk description v sections map definitionMap descriptionMap =>
    memberWith r name nested description v sections map definitionMap descriptionMap
      (fun t nested d => convertSections r t nested sections d)
termination_by structural m => m
/-- The loop of `MsonOneOfSectionToApie`, MsonOneOfSectionToApie.cc:98-102. -/
def convertOptions (r : Reg) : List Element → W (List Elem)
  | [] => W.pure []
  | e :: rest => (convertOption r e).bind fun o => (convertOptions r rest).bind fun l => W.pure (o :: l)
termination_by structural l => l
/-- `MsonOneOfEntryToElements`, MsonOneOfSectionToApie.cc:29-88. -/
def convertOption (r : Reg) : Element → W Elem
  | .empty => W.stop .unknownElement
  | .property name nameMap m => (convertMember r (some (name, nameMap)) .string m).bind fun o => W.pure (optionE o)
  | .value m => (convertMember r none .string m).bind fun o => W.pure (optionE o)
  | .mixin t => W.pure (optionE (some (mixinE t)))
  | .oneOf es => (convertOptions r es).bind fun l => W.pure (optionE (some (selectE l)))
  | .group es => (convertElements r .string es).bind fun l => W.pure (makeElement (.option l))
termination_by structural e => e
end

/-! ## Named types -/

/-- `RefractElementFromMSON`, D:1259-1298. -/
def fromNamedType (r : Reg) (t : BaseName) (ds : NamedType) : W Elem :=
  let e := setType ds.type (makeEmpty (kindOf t))
  let e := if ds.name.literal.isEmpty then e else setMeta (str "id") (attach ds.nameMap (strE ds.name.literal)) e
  let e := setTypeAttributes ds.type.attributes (attach ds.map e)
  (addHints r t ds.type {}).bind fun d =>
  (convertSections r t (nestedType ds.type.spec.nested) ds.sections d).bind fun d =>
  dataToElement t d (setDescription d.descriptions e)

/-- `MSONToRefract`, D:1301-1327; a null pointer is `none`. -/
def msonToRefract (r : Reg) (ds : NamedType) : W (Option Elem) :=
  if typeEmpty ds.type && nameEmpty ds.name && ds.sections.isEmpty then W.pure none
  else (resolveType r ds.type.spec).bind fun resolved =>
    (fromNamedType r (resolved.getD .object) ds).bind fun e => W.pure (some e)

end Verif.DataStructure
