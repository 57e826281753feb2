import Verif.Model.Regex
import Verif.Model.Text
import Verif.Model.Metadata
import Verif.Model.Blueprint

/-!
# Recognition of sections

S = packages/apib-parser/src/snowcrash.

The regular expressions of the section processors, as they stand in the sources, and the functions that
classify a block and take its signature apart.
-/

namespace Verif.Recognition
open Verif Verif.Text Verif.Regex Verif.Section

/-! ## The expressions -/

/-- `HTTP_REQUEST_METHOD`, S/HTTP.h:22-23 -/
def httpRequestMethod : Bytes :=
  str "(GET|POST|PUT|DELETE|OPTIONS|PATCH|PROPPATCH|LOCK|UNLOCK|COPY|MOVE|MKCOL|HEAD|LINK|UNLINK|CONNECT)"
/-- `URI_TEMPLATE`, S/HTTP.h:30 -/
def uriTemplate : Bytes := str "(/.*)"
/-- `SYMBOL_IDENTIFIER`, S/ModelTable.h:25 -/
def symbolIdentifier : Bytes := str "([^][()]+)"
/-- `ACTION_SYMBOL_IDENTIFIER`, S/ActionParser.h:19 -/
def actionSymbolIdentifier : Bytes := str "(.+)"
/-- `MEDIA_TYPE`, S/PayloadParser.h:20 -/
def mediaType : Bytes := str "([[:blank:]]*\\(([^\\)]*)\\))"
/-- `RELATION_REGEX`, S/RelationParser.h:16 -/
def relationRegex : Bytes := str "^[[:blank:]]*[Rr]elation[[:blank:]]*:"

/-- S/ActionParser.h:25 -/
def actionHeaderRegex : Bytes :=
  str "^[[:blank:]]*" ++ httpRequestMethod ++ str "[[:blank:]]*" ++ uriTemplate ++ str "?$"
/-- S/ActionParser.h:28-29 -/
def namedActionHeaderRegex : Bytes :=
  str "^[[:blank:]]*" ++ actionSymbolIdentifier ++ str "\\[" ++ httpRequestMethod ++ str "[[:blank:]]*"
    ++ uriTemplate ++ str "?]$"
/-- S/ActionParser.h:32-33 -/
def namedActionNonAbsoluteURIRegex : Bytes :=
  str "^[[:blank:]]*" ++ actionSymbolIdentifier ++ str "\\[" ++ httpRequestMethod
    ++ str "[[:blank:]]+[^/]+]$"
/-- S/ResourceParser.h:24 -/
def resourceHeaderRegex : Bytes :=
  str "^[[:blank:]]*(" ++ httpRequestMethod ++ str "[[:blank:]]+)?" ++ uriTemplate ++ str "$"
/-- S/ResourceParser.h:27 -/
def namedResourceHeaderRegex : Bytes :=
  str "^[[:blank:]]*" ++ symbolIdentifier ++ str "[[:blank:]]+\\[" ++ uriTemplate ++ str "]$"
/-- S/ResourceParser.h:30-31 -/
def namedEndpointHeaderRegex : Bytes :=
  str "^[[:blank:]]*" ++ symbolIdentifier ++ str "[[:blank:]]+\\[" ++ httpRequestMethod
    ++ str "[[:blank:]]+" ++ uriTemplate ++ str "]$"
/-- S/ResourceGroupParser.h:19 -/
def groupHeaderRegex : Bytes :=
  str "^[[:blank:]]*[Gg]roup[[:blank:]]+" ++ symbolIdentifier ++ str "[[:blank:]]*$"
/-- S/DataStructureGroupParser.h:20 -/
def dataStructureGroupRegex : Bytes :=
  str "^[[:blank:]]*[Dd]ata[[:blank:]]+[Ss]tructures?[[:blank:]]*$"
/-- S/PayloadParser.h:40-41 -/
def requestRegex : Bytes :=
  str "^[[:blank:]]*[Rr]equest([[:blank:]]" ++ symbolIdentifier ++ str ")?" ++ mediaType
    ++ str "?[[:blank:]]*"
/-- S/PayloadParser.h:44 -/
def responseRegex : Bytes :=
  str "^[[:blank:]]*[Rr]esponse([[:blank:][:digit:]]+)?" ++ mediaType ++ str "?[[:blank:]]*"
/-- S/PayloadParser.h:47-48 -/
def modelRegex : Bytes :=
  str "^[[:blank:]]*(" ++ symbolIdentifier ++ str "[[:blank:]]+)?[Mm]odel" ++ mediaType
    ++ str "?[[:blank:]]*$"
/-- S/HeadersParser.h:25 -/
def headersRegex : Bytes := str "^[[:blank:]]*[Hh]eaders?[[:blank:]]*$"
/-- S/ParametersParser.h:25 -/
def parametersRegex : Bytes := str "^[[:blank:]]*[Pp]arameters?[[:blank:]]*$"
/-- S/AttributesParser.h:21 -/
def attributesRegex : Bytes := str "^[[:blank:]]*[Aa]ttributes?[[:blank:]]*(\\(.*\\))?$"
/-- S/AssetParser.h:30 -/
def bodyRegex : Bytes := str "^[[:blank:]]*[Bb]ody[[:blank:]]*$"
/-- S/AssetParser.h:33 -/
def schemaRegex : Bytes := str "^[[:blank:]]*[Ss]chema[[:blank:]]*$"
/-- S/ValuesParser.h:23 -/
def valuesRegex : Bytes := str "^[[:blank:]]*[Vv]alues[[:blank:]]*$"
/-- S/RelationParser.h:24 -/
def relationIdentifierRegex : Bytes :=
  relationRegex ++ str "[[:blank:]]*([a-z][a-z0-9.-]*)?[[:blank:]]*$"
/-- S/MSONMixinParser.h:21 -/
def mixinRegex : Bytes := str "^[[:blank:]]*([Ii]nclude[[:blank:]]+)"
/-- S/MSONOneOfParser.h:20 -/
def oneOfRegex : Bytes := str "^[[:blank:]]*[Oo]ne[[:blank:]]+[Oo]f[[:blank:]]*$"
/-- S/MSONTypeSectionParser.h:21 -/
def defaultRegex : Bytes := str "^[[:blank:]]*[Dd]efault[[:blank:]]*(:.*)?$"
/-- S/MSONTypeSectionParser.h:24 -/
def sampleRegex : Bytes := str "^[[:blank:]]*[Ss]ample[[:blank:]]*(:.*)?$"
/-- S/MSONTypeSectionParser.h:27 -/
def valueMembersRegex : Bytes := str "^[[:blank:]]*([Ii]tems|[Mm]embers)[[:blank:]]*$"
/-- S/MSONTypeSectionParser.h:30 -/
def propertyMembersRegex : Bytes := str "^[[:blank:]]*([Pp]roperties)[[:blank:]]*$"

/-! ## Headers -/

/-- `TrimString(subject)` of the text of a header. -/
def isAction (text : Bytes) : Bool := regexMatch (trim text) actionHeaderRegex
/-- S/ActionParser.h:263, 474 -/
def isNamedAction (text : Bytes) : Bool := regexMatch (trim text) namedActionHeaderRegex
/-- S/ActionParser.h:480-486: the second group is not empty -/
def actionHasUri (text : Bytes) : Bool :=
  match regexCapture (trim text) actionHeaderRegex 3 with
  | some groups => !(groups.getD 2 []).isEmpty
  | none => false
/-- S/ResourceParser.h:207-208 -/
def isResource (text : Bytes) : Bool :=
  regexMatch (trim text) namedResourceHeaderRegex || regexMatch (trim text) namedEndpointHeaderRegex
    || regexMatch (trim text) resourceHeaderRegex
/-- S/ResourceGroupParser.h:198-203 -/
def isGroup (text : Bytes) : Bool := regexMatch (trim text) groupHeaderRegex
/-- S/DataStructureGroupParser.h:94-101 -/
def isDataStructures (text : Bytes) : Bool :=
  regexMatch (trim (getFirstLine text).1) dataStructureGroupRegex

/-- What a header gives an action. -/
structure ActionParts where
  name : Bytes := []
  method : Bytes := []
  uri : Bytes := []
  deriving DecidableEq, Repr

/-- S/ActionParser.h:493-514 `actionHTTPMethodAndName`. -/
def actionParts (text : Bytes) : ActionParts :=
  let subject := trim (getFirstLine text).1
  match regexCapture subject actionHeaderRegex 3 with
  | some groups => { method := groups.getD 1 [] }
  | none =>
    match regexCapture subject namedActionHeaderRegex 4 with
    | some groups => ⟨groups.getD 1 [], groups.getD 2 [], groups.getD 3 []⟩
    | none => {}

/-- S/ActionParser.h:59-63, 81-87 `processSignature` of an action: its parts and what the rest of the
text adds to the description.  Simplification: no source maps. -/
def actionSignature (text : Bytes) : ActionParts × Bytes :=
  let p := actionParts text
  ({ p with name := trim p.name }, (getFirstLine text).2)

/-- What a header gives a resource; `action` is set if the header is also read as that of an action. -/
structure ResourceParts where
  name : Bytes := []
  uri : Bytes := []
  action : Option ActionParts := none
  deriving DecidableEq, Repr

/-- S/ResourceParser.h:315-326 `matchNamedResourceHeader`. -/
def namedResource (text : Bytes) : ResourceParts :=
  match regexCapture text namedResourceHeaderRegex 4 with
  | some groups => { name := trim (groups.getD 1 []), uri := groups.getD 2 [] }
  | none => {}

/-- S/ResourceParser.h:42-84 `processSignature` of a resource.  Simplification: no source maps. -/
def resourceParts (text : Bytes) : ResourceParts :=
  match regexCapture text resourceHeaderRegex 4 with
  | some groups =>
    { uri := groups.getD 3 []
      action := if (groups.getD 2 []).isEmpty then none else some (actionSignature text).1 }
  | none =>
    match regexCapture text namedEndpointHeaderRegex 5 with
    | some groups =>
      { name := trim (groups.getD 1 [])
        uri := groups.getD 3 []
        action := some (actionSignature text).1 }
    | none => namedResource text

/-- S/ResourceGroupParser.h:51-54: the name of a group. -/
def groupName (text : Bytes) : Bytes :=
  match regexCapture text groupHeaderRegex 3 with
  | some groups => trim (groups.getD 1 [])
  | none => []

/-- S/ActionParser.h:530-546 `checkForTypoMistake`: whether a header is reported. -/
def typo (text : Bytes) : Bool := regexMatch text namedActionNonAbsoluteURIRegex

/-! ## List items -/

/-- `node->children().front().text` -/
def frontText (n : Node) : Bytes := (n.children.head?.map Node.text).getD []
/-- `TrimString(GetFirstLine(node->children().front().text))` -/
def frontLine (n : Node) : Bytes := trim (getFirstLine (frontText n)).1

/-- S/HeadersParser.h:161-169 -/
def isHeaders (n : Node) : Bool := regexMatch (frontLine n) headersRegex
/-- S/ParametersParser.h:121-128 -/
def isParameters (n : Node) : Bool := regexMatch (frontLine n) parametersRegex
/-- S/AttributesParser.h:98-105 -/
def isAttributes (n : Node) : Bool := regexMatch (frontLine n) attributesRegex
/-- S/RelationParser.h:73-80 -/
def isRelation (n : Node) : Bool := regexMatch (frontLine n) relationRegex
/-- S/ValuesParser.h:78-83 -/
def isValues (n : Node) : Bool := regexMatch (trim (frontText n)) valuesRegex
/-- S/MSONMixinParser.h:87-93 -/
def isMixin (n : Node) : Bool := regexMatch (trim (frontText n)) mixinRegex
/-- S/MSONOneOfParser.h:60-67 -/
def isOneOf (n : Node) : Bool := regexMatch (frontLine n) oneOfRegex

/-- S/AssetParser.h:88-100, 107-121 -/
def assetOf (n : Node) : SectionType :=
  if regexMatch (frontLine n) bodyRegex then .body
  else if regexMatch (frontLine n) schemaRegex then .schema
  else .undefined

/-- S/MSONTypeSectionParser.h:172-198 -/
def typeSectionOf (n : Node) : SectionType :=
  let text := if n.kind = .header ∧ n.text ≠ [] then n.text
    else if n.kind = .listItem ∧ n.children ≠ [] then frontText n else []
  let subject := trim (getFirstLine text).1
  if regexMatch subject defaultRegex || regexMatch subject sampleRegex then .msonSampleDefault
  else if regexMatch subject valueMembersRegex then .msonValueMembers
  else if regexMatch subject propertyMembersRegex then .msonPropertyMembers
  else .undefined

/-- S/PayloadParser.h:30-37 `PayloadSignature` -/
inductive PayloadKind | request | response | model
  deriving DecidableEq, Repr

/-- S/PayloadParser.h:343-364 `payloadSignature`; `none` is `NoPayloadSignature`. -/
def payloadKind (signature : Bytes) : Option PayloadKind :=
  if regexMatch signature requestRegex then some .request
  else if regexMatch signature responseRegex then some .response
  else if regexMatch signature modelRegex then some .model
  else none

/-- S/PayloadParser.h:293-325 `nestedSectionType` of a payload. -/
def payloadNested (n : Node) : SectionType :=
  Recognise.first [Recognise.ofList n (Recognise.when (isHeaders n) .headers),
    Recognise.ofList n (assetOf n),
    Recognise.ofList n (Recognise.when (isAttributes n) .attributes),
    Recognise.ofList n (Recognise.when (isParameters n) .parameters)]

/-- S/PayloadParser.h:367-385 `getSectionType` -/
def payloadSection (k : PayloadKind) (nested : Bool) : SectionType :=
  match k, nested with
  | .request, true => .request
  | .request, false => .requestBody
  | .response, true => .response
  | .response, false => .responseBody
  | .model, true => .model
  | .model, false => .modelBody

/-- S/PayloadParser.h:264-291 `sectionType` of a payload. -/
def payloadOf (n : Node) : SectionType :=
  match payloadKind (frontLine n) with
  | none => .undefined
  | some k => payloadSection k (n.children.any fun c => payloadNested c ≠ .undefined)

/-- The recognition of blocks as it is in the code. -/
def recognise : Recognise where
  typeSection := typeSectionOf
  mixin := isMixin
  oneOf := isOneOf
  headers := isHeaders
  asset := assetOf
  attributes := isAttributes
  payload := payloadOf
  values := isValues
  parameters := isParameters
  relation := isRelation
  resource := isResource
  abbreviated text := (resourceParts text).action.isSome
  namedAction := isNamedAction
  action := isAction
  actionUri := actionHasUri
  group := isGroup
  dataStructures := isDataStructures
  metadata text := !(Metadata.parseMetadata text).1.isEmpty

/-! ## Signatures of payloads -/

/-- What the first line gives a payload: its name, the media type, and whether it is reported as
malformed. -/
structure PayloadParts where
  name : Bytes := []
  media : Bytes := []
  malformed : Bool := false
  deriving DecidableEq, Repr

/-- The expression of a payload, S/PayloadParser.h:405-424 -/
def payloadRegex : PayloadKind → Bytes
  | .request => requestRegex
  | .response => responseRegex
  | .model => modelRegex

/-- `std::string::find`, then `replace` with nothing. -/
def erase (target part : Bytes) : Bytes :=
  match findSub part target with
  | some pos => target.take pos ++ target.drop (pos + part.length)
  | none => target

/-- S/PayloadParser.h:396-502 `parseSignature`.  Simplification: no source maps. -/
def payloadParts (k : PayloadKind) (signature : Bytes) : PayloadParts :=
  match regexCapture signature (payloadRegex k) 5 with
  | none => {}
  | some groups =>
    if !(trim (erase signature (groups.getD 0 []))).isEmpty then { malformed := true }
    else
      let name := match k with
        | .model => groups.getD 2 []
        | .request | .response => groups.getD 1 []
      let media := match k with
        | .model | .request => groups.getD 4 []
        | .response => groups.getD 3 []
      { name := trim name, media := trim media }

/-- What the signature of a payload gives: `payloadParts`, the name a response without status is given and
whether that is reported (S/PayloadParser.h:59-73), and the rest of the text. -/
structure PayloadHead where
  parts : PayloadParts
  assumed : Bool
  rest : Bytes
  deriving DecidableEq, Repr

/-- S/PayloadParser.h:56-74 -/
def payloadHead (k : PayloadKind) (text : Bytes) : PayloadHead :=
  let line := getFirstLine text
  let p := payloadParts k line.1
  if p.name.isEmpty && k = .response then ⟨{ p with name := str "200" }, true, line.2⟩
  else ⟨p, false, line.2⟩

/-- S/RelationParser.h:31-62: the identifier of a relation; `none` if illegal characters are reported. -/
def relationIdentifier (text : Bytes) : Option Bytes :=
  match regexCapture (trim (getFirstLine text).1) relationIdentifierRegex 3 with
  | some groups => some (trim (groups.getD 1 []))
  | none => none

end Verif.Recognition
