import Verif.Model.Signature
import Verif.Model.NamedTypes
/-!
# MSON: packages/apib-parser/src/snowcrash/MSONUtility.h

`S` below is packages/apib-parser/src/snowcrash.  Not modelled: the markdown nodes and source maps, the text of the messages.
-/
namespace Verif.Mson
open Verif Verif.Text Verif.Signature
open Verif.NamedTypes (BaseName TypeName DepTable)

/-- `Value`, S/MSON.h:68-80. -/
structure Value where
  literal : Bytes := []
  isVariable : Bool := false
deriving Repr, DecidableEq

/-- `BaseType`, S/MSON.h:47-56. -/
inductive Base where
  | undefined | primitive | implicitPrimitive | object | implicitObject | value | implicitValue
deriving Repr, DecidableEq

/-- `TypeSpecification`, S/MSON.h:149-159. -/
structure TypeSpec where
  name : TypeName := ⟨none, [], false⟩
  nested : List TypeName := []
deriving Repr, DecidableEq

/-- `TypeDefinition`, S/MSON.h:162-182; the attributes are the bits of S/MSON.h:134-143. -/
structure TypeDef where
  base : Base := .undefined
  spec : TypeSpec := {}
  attributes : Nat := 0
deriving Repr, DecidableEq

/-- `checkVariable`, S/MSONUtility.h:26-37. -/
def checkVariable (s : Bytes) : Bool :=
  match s.head?, s.getLast? with
  | some a, some b => (a == asc '*' || a == asc '_') && a == b
  | _, _ => false

/-- `parseBaseType`, S/MSONUtility.h:46-64. -/
def parseBaseType : Option BaseName → Base
  | some .string | some .number | some .boolean => .primitive
  | some .object => .object
  | some .array | some .enum => .value
  | none => .undefined

/-- `parseValue`, S/MSONUtility.h:73-99. -/
def parseValue (s : Bytes) : Value :=
  let e := if checkVariable s then retrieveEscaped s 0 true else ([], s)
  let literal := if e.1.isEmpty then stripBackticks e.2 else e.1
  if literal = str "*" then ⟨[], true⟩ else ⟨literal, checkVariable s⟩

/-- `parseTypeName`, S/MSONUtility.h:127-146, with `parseSymbol`, S/MSONUtility.h:108-118, for `isBaseType`, which all the callers
    leave as it is, into a type name that is empty. -/
def parseTypeName (s : Bytes) : TypeName :=
  if s = str "boolean" then ⟨some .boolean, [], false⟩
  else if s = str "string" then ⟨some .string, [], false⟩
  else if s = str "number" then ⟨some .number, [], false⟩
  else if s = str "array" then ⟨some .array, [], false⟩
  else if s = str "enum" then ⟨some .enum, [], false⟩
  else if s = str "object" then ⟨some .object, [], false⟩
  else ⟨none, (parseValue s).literal, (parseValue s).isVariable⟩

/-- `parseTypeAttribute`, S/MSONUtility.h:157-182; `none` is the result `false`. -/
def parseTypeAttribute (s : Bytes) (attributes : Nat) : Option Nat :=
  if s = str "required" then some (attributes ||| 1 <<< 0)
  else if s = str "optional" then some (attributes ||| 1 <<< 1)
  else if s = str "fixed" then some (attributes ||| 1 <<< 2)
  else if s = str "sample" then some (attributes ||| 1 <<< 3)
  else if s = str "default" then some (attributes ||| 1 <<< 4)
  else if s = str "nullable" then some (attributes ||| 1 <<< 5)
  else if s = str "fixed-type" then some (attributes ||| 1 <<< 6)
  else none

/-- `[[:blank:]]` in the C locale. -/
def isBlank (c : UInt8) : Bool := c = asc ' ' || c = asc '\t'

/-- `[^][()]`. -/
def isInner (c : UInt8) : Bool := c ≠ asc ']' && c ≠ asc '[' && c ≠ asc '(' && c ≠ asc ')'

/-- The first group of `MarkdownLinkRegex`, markdown-parser/MarkdownParser.h:25-26,
    `^[[:blank:]]*\[(.*)][[:blank:]]*(\[([^][()]*)]|\(([^][()]+)\))[[:blank:]]*$`, in a string that begins with the character `[`, as
    `RegexCaptureFirst`, S/posix/RegexMatch.cc:46-53, returns it: empty if the expression does not match.  `regexec` sees the string
    up to the first NUL.  The expression is read from the end; there is at most one way to read it. -/
def linkText (s : Bytes) : Bytes :=
  let s := s.takeWhile (· ≠ 0)
  match s.reverse.dropWhile isBlank with
  | [] => []
  | close :: r =>
    let inner := r.takeWhile isInner
    match r.dropWhile isInner with
    | [] => []
    | «open» :: r =>
      if (close = asc ']' ∧ «open» = asc '[') ∨ (close = asc ')' ∧ «open» = asc '(' ∧ inner ≠ []) then
        match r.dropWhile isBlank with
        | [] => []
        | c :: r => if c = asc ']' ∧ r ≠ [] then r.reverse.drop 1 else []
      else []

/-- `StripMarkdownLink`, S/StringUtility.h:302-315. -/
def stripMarkdownLink (s : Bytes) : Bytes :=
  if s.head? ≠ some (asc '[') then s else trim (linkText s)

/-- The flags of `parseTypeSpecification` that are still used after its loop: `lookingAtNested`, `alreadyParsedLink`, and what has
    been read. -/
structure Reading where
  nested : Bool := false
  endLink : Bool := false
  parsedLink : Bool := false
  spec : TypeSpec := {}
deriving Repr, DecidableEq

/-- `if (!buffer.empty()) { parseTypeName(buffer, typeName); nestedTypes.push_back(typeName); }` after trimming. -/
def Reading.push (st : Reading) (buffer : Bytes) : TypeSpec :=
  if (trim buffer).isEmpty then st.spec
  else { st.spec with nested := st.spec.nested ++ [parseTypeName (trim buffer)] }

/-- The opening bracket, S/MSONUtility.h:205-218. -/
def Reading.opened (st : Reading) (buffer : Bytes) : Reading :=
  if ¬ st.nested then
    { st with
      nested := true
      spec := if (trim buffer).isEmpty then st.spec else { st.spec with name := parseTypeName (trim buffer) } }
  else { st with endLink := true }

/-- The closing bracket of the text of a link, S/MSONUtility.h:219-233. -/
def Reading.closed (st : Reading) (buffer : Bytes) : Reading :=
  { st with spec := st.push buffer, parsedLink := true, endLink := false }

/-- The comma, S/MSONUtility.h:234-250. -/
def Reading.separated (st : Reading) (buffer : Bytes) : Reading :=
  if st.parsedLink then { st with parsedLink := false } else { st with spec := st.push buffer }

/-- The loop of `parseTypeSpecification`, S/MSONUtility.h:203-264. -/
def specLoop (subject : Bytes) (i : Nat) (buffer : Bytes) (st : Reading) : Bytes × Reading :=
  match h : subject[i]? with
  | none => (buffer, st)
  | some c =>
    if c = asc '[' ∧ ¬ st.parsedLink then specLoop (trim (subject.drop (i + 1))) 0 [] (st.opened buffer)
    else if c = asc ']' ∧ st.nested ∧ st.endLink then specLoop (trim (subject.drop (i + 1))) 0 [] (st.closed buffer)
    else if c = asc ',' ∧ st.nested ∧ ¬ st.endLink then specLoop (trim (subject.drop (i + 1))) 0 [] (st.separated buffer)
    else specLoop subject (i + 1) (buffer ++ [c]) st
termination_by subject.length - i
decreasing_by
  all_goals
    have hi : i < subject.length := (List.getElem?_eq_some_iff.1 h).1
    have ht := trim_length (subject.drop (i + 1))
    simp only [List.length_drop] at ht
    omega

/-- The end of `parseTypeSpecification`, S/MSONUtility.h:266-290. -/
def specEnd (r : Bytes × Reading) : TypeSpec :=
  let buffer := trim r.1
  if buffer.isEmpty || r.2.parsedLink then r.2.spec
  else
    let buffer := if r.2.nested && buffer.getLast? = some (asc ']') then buffer.dropLast else buffer
    let typeName := parseTypeName (trim buffer)
    if r.2.nested then { r.2.spec with nested := r.2.spec.nested ++ [typeName] } else { r.2.spec with name := typeName }

/-- `parseTypeSpecification`, S/MSONUtility.h:190-290, into a specification that is empty. -/
def parseTypeSpecification (subject : Bytes) : TypeSpec := specEnd (specLoop (stripMarkdownLink subject) 0 [] {})

/-- The warnings of `parseTypeDefinition`. -/
inductive Warning where
  /-- "ignoring unrecognized type attribute" -/
  | unrecognized
  /-- "nested types should be present only for types which are sub typed from either array or enum structure type" -/
  | nestedTypes
deriving Repr, DecidableEq

/-- The loop of `parseTypeDefinition`, S/MSONUtility.h:372-393: the definition, `foundTypeSpecification` and the warnings. -/
def attributesStep (r : TypeDef × Bool × List Warning) (a : Bytes) : TypeDef × Bool × List Warning :=
  match parseTypeAttribute a r.1.attributes with
  | some bits => ({ r.1 with attributes := bits }, r.2)
  | none => if r.2.1 then (r.1, true, r.2.2 ++ [.unrecognized])
    else ({ r.1 with spec := parseTypeSpecification a }, true, r.2.2)

/-- The entry of the table of base types, S/BlueprintParser.h:345-372. -/
def ofTable : NamedTypes.BaseType → Base
  | .primitive => .primitive | .object => .object | .implicitObject => .implicitObject | .value => .value

/-- What is known of the named types while a member is parsed: `pd.namedTypeDependencyTable`, `pd.namedTypeBaseTable` and
    `pd.namedTypeContext`, S/SectionParserData.h:51-60, and `report.error`, which a later error overwrites. -/
structure Context where
  dep : DepTable
  bases : StdMap NamedTypes.BaseType
  context : Bytes
  error : Option NamedTypes.Err := none

/-- A call of `addDependency` in that context. -/
def Context.refer (c : Context) (dependency : Bytes) (circularCheck : Bool := false) : Context :=
  match NamedTypes.addDependency c.dep dependency c.context circularCheck with
  | .ok dep => { c with dep := dep }
  | .error e => { c with error := some e }

/-- The base type of a type name, S/MSONUtility.h:395-402. -/
def baseOf (bases : StdMap NamedTypes.BaseType) (name : TypeName) : Base :=
  match parseBaseType name.base with
  | .undefined => match StdMap.find bases name.literal with
    | some b => ofTable b
    | none => .undefined
  | b => b

/-- `parseTypeDefinition`, S/MSONUtility.h:365-423, into a definition that is empty. -/
def parseTypeDefinition (c : Context) (attributes : List Bytes) : TypeDef × Context × List Warning :=
  let r := attributes.foldl attributesStep ({}, false, [])
  let td := r.1
  let name := td.spec.name
  let base := baseOf c.bases name
  let c := if base = .undefined ∧ name.literal ≠ [] ∧ name.isVariable = false then c.refer name.literal else c
  let warnings := if base ≠ .value ∧ base ≠ .implicitValue ∧ td.spec.nested ≠ [] then r.2.2 ++ [.nestedTypes] else r.2.2
  ({ td with base := base }, c, warnings)

/-- `ValueDefinition`, S/MSON.h:185-195. -/
structure ValueDef where
  values : List Value := []
  type : TypeDef := {}
deriving Repr, DecidableEq

/-- `PropertyName`, S/MSON.h:285-295. -/
structure PropertyName where
  literal : Bytes := []
  isVariable : ValueDef := {}
deriving Repr, DecidableEq

/-- `parsePropertyName`, S/MSONUtility.h:434-462; the warnings of the signature are not modelled.  `line` is the first line of the text
    of the node without the surrounding white space, which `parseSignature`, S/SignatureSectionProcessor.h:82-86, takes instead of an
    empty subject. -/
def parsePropertyName (c : Context) (line s : Bytes) : Except Fault (PropertyName × Context × List Warning) :=
  if checkVariable s then
    let escaped := (retrieveEscaped s 0 true).1
    (parseSignature { identifier := false, values := true, attributes := true, content := false }
      (if escaped.isEmpty then line else escaped)).map fun sig =>
        let r := parseTypeDefinition c sig.attributes
        (⟨[], ⟨if sig.value.isEmpty then [] else [parseValue sig.value], r.1⟩⟩, r.2)
  else .ok (⟨stripBackticks s, {}⟩, c, [])

/-- `useSignatureData`, S/MSONValueMemberParser.h:121-195: what it makes of the attributes and values of a signature. -/
def useSignature (c : Context) (sig : Signature) : ValueDef × Context × List Warning :=
  let r := parseTypeDefinition c sig.attributes
  let spec := r.1.spec
  let c := if spec.name.base = some .array ∨ spec.name.base = some .enum then
      (spec.nested.filter fun n => n.literal ≠ [] ∧ n.isVariable = false).foldl (fun c n => c.refer n.literal) r.2.1
    else if spec.name.base = none ∧ spec.name.literal ≠ [] ∧ spec.name.isVariable = false then r.2.1.refer spec.name.literal
    else r.2.1
  if sig.values.length > 1 ∧ r.1.base = .primitive then (⟨[parseValue sig.value], r.1⟩, c, r.2.2)
  else
    let base := if sig.values.length > 1 ∧ r.1.base = .undefined then .implicitValue else r.1.base
    (⟨sig.values.map parseValue, { r.1 with base := base }⟩, c, r.2.2)

end Verif.Mson
