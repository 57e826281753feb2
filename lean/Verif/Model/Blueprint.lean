import Verif.Model.Section

/-!
# The sections of a document (`BlueprintParser.h`, `ResourceGroupParser.h`, `ResourceParser.h`,
`ActionParser.h`, `DataStructureGroupParser.h`)

S = packages/apib-parser/src/snowcrash.

The five parsers of header-defined sections, with exactly the tests by which they hand blocks to
each other.  What the regular expressions answer is a parameter (`Recognise`), and so is what is
done with the data of a block (`Handlers`): the theorems hold whatever these are.  The parsers of
list-defined sections and of named types are parameters too (any `Grammar`).
-/

namespace Verif.Section

/-- What the regular expressions of the processors answer.  The functions on nodes are the bodies
of the `sectionType` functions after their test of the node's kind. -/
structure Recognise where
  /-- S/MSONTypeSectionParser.h:182-198 -/
  typeSection : Node → SectionType
  /-- S/MSONMixinParser.h:87-93 -/
  mixin : Node → Bool
  /-- S/MSONOneOfParser.h:60-67 -/
  oneOf : Node → Bool
  /-- S/HeadersParser.h:161-169 -/
  headers : Node → Bool
  /-- S/AssetParser.h:88-100: body, schema or undefined -/
  asset : Node → SectionType
  /-- S/AttributesParser.h:98-105 -/
  attributes : Node → Bool
  /-- S/PayloadParser.h:269-286 -/
  payload : Node → SectionType
  /-- S/ValuesParser.h:78-83 -/
  values : Node → Bool
  /-- S/ParametersParser.h:121-128 -/
  parameters : Node → Bool
  /-- S/RelationParser.h:73-80 -/
  relation : Node → Bool
  /-- S/ResourceParser.h:207-208, the three expressions together -/
  resource : Bytes → Bool
  /-- S/ResourceParser.h:52-60: the text names an HTTP method, so that the section is an action -/
  abbreviated : Bytes → Bool
  /-- S/ActionParser.h:474 `NamedActionHeaderRegex` -/
  namedAction : Bytes → Bool
  /-- S/ActionParser.h:480 `ActionHeaderRegex` -/
  action : Bytes → Bool
  /-- S/ActionParser.h:482: the second capture group is not empty -/
  actionUri : Bytes → Bool
  /-- S/ResourceGroupParser.h:201 `GroupHeaderRegex` -/
  group : Bytes → Bool
  /-- S/DataStructureGroupParser.h:99 `DataStructureGroupRegex` -/
  dataStructures : Bytes → Bool
  /-- S/BlueprintParser.h:46-53: the paragraph has a line that is a key and a value -/
  metadata : Bytes → Bool

namespace Recognise

/-- `node->type == ListItem && !node->children().empty()`, then the expression. -/
def ofList (n : Node) (t : SectionType) : SectionType :=
  if n.kind = .listItem ∧ n.children ≠ [] then t else .undefined

/-- `node->type == Header && !node->text.empty()`, then the expression. -/
def ofHeader (n : Node) (b : Bool) (t : SectionType) : SectionType :=
  if n.kind = .header ∧ n.text ≠ [] ∧ b then t else .undefined

/-- `b ? t : Undefined` -/
def when (b : Bool) (t : SectionType) : SectionType := if b then t else .undefined

variable (r : Recognise)

/-- S/MSONTypeSectionParser.h:169-199: headers and list items; on any other node the subject is
empty and no expression matches. -/
def typeSectionType (n : Node) : SectionType :=
  if (n.kind = .header ∧ n.text ≠ []) ∨ (n.kind = .listItem ∧ n.children ≠ []) then r.typeSection n
  else .undefined
/-- S/MSONMixinParser.h:82-97 -/
def mixinType (n : Node) : SectionType := ofList n (when (r.mixin n) .msonMixin)
/-- S/MSONOneOfParser.h:55-71 -/
def oneOfType (n : Node) : SectionType := ofList n (when (r.oneOf n) .msonOneOf)
/-- S/HeadersParser.h:156-173 -/
def headersType (n : Node) : SectionType := ofList n (when (r.headers n) .headers)
/-- S/AssetParser.h:84-104 -/
def assetType (n : Node) : SectionType := ofList n (r.asset n)
/-- S/AttributesParser.h:93-109 -/
def attributesType (n : Node) : SectionType := ofList n (when (r.attributes n) .attributes)
/-- S/PayloadParser.h:264-290 -/
def payloadType (n : Node) : SectionType := ofList n (r.payload n)
/-- S/ValuesParser.h:73-87 -/
def valuesType (n : Node) : SectionType := ofList n (when (r.values n) .values)
/-- S/ParametersParser.h:116-132 -/
def parametersType (n : Node) : SectionType := ofList n (when (r.parameters n) .parameters)
/-- S/RelationParser.h:68-84 -/
def relationType (n : Node) : SectionType := ofList n (when (r.relation n) .relation)
/-- S/ResourceParser.h:197-214 -/
def resourceType (n : Node) : SectionType := ofHeader n (r.resource n.text) .resource
/-- S/ActionParser.h:255-270 -/
def actionSectionType (n : Node) : SectionType :=
  ofHeader n (r.action n.text || r.namedAction n.text) .action
/-- S/ResourceGroupParser.h:193-207 -/
def groupType (n : Node) : SectionType := ofHeader n (r.group n.text) .resourceGroup
/-- S/DataStructureGroupParser.h:89-105 -/
def dataStructuresType (n : Node) : SectionType :=
  ofHeader n (r.dataStructures n.text) .dataStructureGroup

/-- The first type of the list that is not undefined. -/
def first : List SectionType → SectionType
  | [] => .undefined
  | t :: ts => if t ≠ .undefined then t else first ts

/-- S/Signature.cc:23-57 `SectionKeywordSignature`. -/
def keyword (n : Node) : SectionType :=
  first [r.typeSectionType n, r.mixinType n, r.oneOfType n, r.headersType n, r.assetType n,
    r.attributesType n, r.payloadType n, r.valuesType n, r.parametersType n, r.relationType n,
    r.resourceType n, r.actionSectionType n, r.groupType n, r.dataStructuresType n]

/-- S/ActionParser.h:39-45 `ActionType`. -/
inductive ActionType | notAction | dependent | complete
  deriving DecidableEq

/-- S/ActionParser.h:465-490 `actionType`. -/
def actionType (n : Node) : ActionType :=
  if n.kind ≠ .header ∨ n.text = [] then .notAction
  else if r.namedAction n.text then .dependent
  else if r.action n.text then (if r.actionUri n.text then .complete else .dependent)
  else .notAction

/-- S/SectionProcessor.h:239-261 `isDescriptionNode` of the base, for a section with the given
nested types, content test and upper sections. -/
def isDescription (nestedType : Node → SectionType) (upper : List SectionType) (n : Node) : Bool :=
  if nestedType n ≠ .undefined then false
  else r.keyword n = .undefined || !upper.contains (r.keyword n)

/-- S/SectionProcessor.h:270-282 `isUnexpectedNode` of the base. -/
def isUnexpected (upper : List SectionType) (n : Node) : Bool :=
  if !upper.contains (r.keyword n) then true else r.keyword n = .undefined

/-- S/BlueprintParser.h:251-278 `nestedSectionType` -/
def blueprintNested (n : Node) : SectionType :=
  first [r.resourceType n, r.groupType n, r.dataStructuresType n]

/-- S/ResourceGroupParser.h:209-214 -/
def groupNested (n : Node) : SectionType := r.resourceType n

/-- The payload is a model (S/ResourceParser.h:236-241). -/
def modelOnly : SectionType → SectionType
  | .model => .model
  | .modelBody => .modelBody
  | _ => .undefined

/-- S/ResourceParser.h:250-261: actions, but not complete ones. -/
def dependentAction (n : Node) : SectionType :=
  if r.actionSectionType n = .action ∧ r.actionType n ≠ .complete then .action else .undefined

/-- S/ResourceParser.h:216-264 -/
def resourceNested (n : Node) : SectionType :=
  first [r.parametersType n, r.headersType n, modelOnly (r.payloadType n), r.attributesType n,
    r.dependentAction n]

/-- S/ActionParser.h:272-313 -/
def actionNested (n : Node) : SectionType :=
  first [r.relationType n, r.parametersType n, r.headersType n, r.attributesType n,
    r.payloadType n]

/-- S/MSONNamedTypeParser.h:110-121: any header that is no keyword. -/
def namedTypeType (n : Node) : SectionType :=
  if n.kind = .header ∧ r.keyword n = .undefined then .msonNamedType else .undefined

end Recognise

/-- What the five processors do with the data of the block at a position, by section: arbitrary. -/
structure Handlers (σ : Type) where
  metadata : List Node → Nat → PD σ → σ
  abbreviated : List Node → Nat → PD σ → σ
  signature : SectionType → List Node → Nat → PD σ → σ
  description : SectionType → List Node → Nat → PD σ → σ
  preprocess : SectionType → List Node → Nat → PD σ → σ
  entered : SectionType → SectionType → List Node → Nat → PD σ → σ
  unexpected : SectionType → List Node → Nat → SectionType → PD σ → σ
  finalize : SectionType → List Node → Nat → PD σ → σ

variable {σ : Type}

/-- Put the new data in place. -/
def PD.set (pd : PD σ) (d : σ) : PD σ := { pd with data := d }

/-- S/BlueprintParser.h:44-63: past the leading paragraphs that are metadata. -/
def skipMetadata (r : Recognise) (ns : List Node) (i : Nat) : Nat :=
  i + ((ns.drop i).takeWhile fun n => n.kind == .paragraph && r.metadata n.text).length

/-- S/BlueprintParser.h:44-63: the metadata of that many paragraphs is collected. -/
def readMetadata (h : Handlers σ) (ns : List Node) : Nat → Nat → PD σ → PD σ
  | 0, _, pd => pd
  | k + 1, i, pd => readMetadata h ns k (i + 1) (pd.set (h.metadata ns i pd))

/-- S/BlueprintParser.h:35-94 `processSignature`: the metadata, then the name of the API or the
first block of its description. -/
def blueprintSignature (r : Recognise) (h : Handlers σ) (ns : List Node) (i : Nat) (pd : PD σ) :
    Except Stop (Reply σ Layout) :=
  let cur := skipMetadata r ns i
  let pd' := readMetadata h ns (cur - i) i pd
  match ns[cur]? with
  | none => .ok (.done cur .default pd')
  | some n =>
    if n.kind = .header ∧ r.blueprintNested n ≠ .undefined then .ok (.done cur .exclusive pd')
    else .ok (.done (cur + 1) .default (pd'.set (h.signature .blueprint ns cur pd')))

/-- The functions that all five processors have in common: one node per description or unexpected
block, no content nodes (S/SectionProcessor.h:149-180, 210-233, 263-267). -/
def common (s : SectionType) (h : Handlers σ)
    (signature : List Node → Nat → PD σ → Except Stop (Reply σ Layout))
    (isDescription : Node → Bool) (nestedType : Node → SectionType)
    (nested : List Node → Nat → PD σ → Except Stop (Reply σ Unit)) (isUnexpected : Node → Bool) :
    Own σ where
  signature := signature
  isDescription n _ := isDescription n
  description ns i pd := .ok (i + 1, pd.set (h.description s ns i pd))
  isContent _ _ := false
  content _ i pd := .ok (i + 1, pd)
  preprocess ns i pd := .ok (pd.set (h.preprocess s ns i pd))
  nestedType := nestedType
  nested := nested
  entered ns i t pd := .ok (pd.set (h.entered s t ns i pd))
  isUnexpected n _ := isUnexpected n
  unexpected ns i last pd := .ok (i + 1, pd.set (h.unexpected s ns i last pd))
  finalize ns i pd := .ok (pd.set (h.finalize s ns i pd))

/-- S/BlueprintParser.h:33-315 `SectionProcessor<Blueprint>`; a resource outside of any group is
given to the resource group parser too (lines 132-145). -/
def blueprintOwn (r : Recognise) (h : Handlers σ) : Own σ :=
  common .blueprint h (blueprintSignature r h) (r.isDescription r.blueprintNested [])
    r.blueprintNested
    (fun _ i pd =>
      match pd.top with
      | .resourceGroup => .ok (.enter .resourceGroup pd)
      | .resource => .ok (.enter .resourceGroup pd)
      | .dataStructureGroup => .ok (.enter .dataStructureGroup pd)
      | _ => .ok (.done i () pd))
    (fun _ => true)

/-- S/ResourceGroupParser.h:33-61 `processSignature`. -/
def groupSignature (r : Recognise) (h : Handlers σ) (ns : List Node) (i : Nat) (pd : PD σ) :
    Except Stop (Reply σ Layout) :=
  match ns[i]? with
  | none => .error .outOfRange
  | some n =>
    if r.groupNested n ≠ .undefined then .ok (.done i .exclusive pd)
    else .ok (.done (i + 1) .default (pd.set (h.signature .resourceGroup ns i pd)))

/-- S/ResourceGroupParser.h:31-241 `SectionProcessor<ResourceGroup>`. -/
def groupOwn (r : Recognise) (h : Handlers σ) : Own σ :=
  common .resourceGroup h (groupSignature r h)
    (fun n => if r.actionType n = .complete then false
      else r.isDescription r.groupNested [.resourceGroup, .dataStructureGroup] n)
    r.groupNested
    (fun _ i pd =>
      match pd.top with
      | .resource => .ok (.enter .resource pd)
      | _ => .ok (.done i () pd))
    (fun n => if r.actionType n = .dependent then true
      else r.isUnexpected [.resourceGroup, .dataStructureGroup] n)

/-- S/ResourceParser.h:42-82 `processSignature`: a header with an HTTP method is given to the action
parser as a whole. -/
def resourceSignature (r : Recognise) (h : Handlers σ) (ns : List Node) (i : Nat) (pd : PD σ) :
    Except Stop (Reply σ Layout) :=
  match ns[i]? with
  | none => .error .outOfRange
  | some n =>
    if r.abbreviated n.text then .ok (.enter .action (pd.set (h.abbreviated ns i pd)))
    else .ok (.done (i + 1) .default (pd.set (h.signature .resource ns i pd)))

/-- S/ResourceParser.h:40-269 `SectionProcessor<Resource>`. -/
def resourceOwn (r : Recognise) (h : Handlers σ) : Own σ :=
  common .resource h (resourceSignature r h)
    (fun n => if r.actionType n = .complete then false
      else r.isDescription r.resourceNested [.resourceGroup, .resource, .dataStructureGroup] n)
    r.resourceNested
    (fun _ i pd =>
      match pd.top with
      | .action => .ok (.enter .action pd)
      | .parameters => .ok (.enter .parameters pd)
      | .model => .ok (.enter .model pd)
      | .modelBody => .ok (.enter .modelBody pd)
      | .headers => .ok (.enter .headers pd)
      | .attributes => .ok (.enter .attributes pd)
      | _ => .ok (.done i () pd))
    (r.isUnexpected [.resourceGroup, .resource, .dataStructureGroup])

/-- A signature of one node (S/SectionProcessor.h:139-147, S/ActionParser.h:53-89). -/
def oneNode (s : SectionType) (h : Handlers σ) (ns : List Node) (i : Nat) (pd : PD σ) :
    Except Stop (Reply σ Layout) :=
  match ns[i]? with
  | none => .error .outOfRange
  | some _ => .ok (.done (i + 1) .default (pd.set (h.signature s ns i pd)))

/-- S/ActionParser.h:51-318 `SectionProcessor<Action>`. -/
def actionOwn (r : Recognise) (h : Handlers σ) : Own σ :=
  common .action h (oneNode .action h)
    (r.isDescription r.actionNested [.action, .resource, .resourceGroup, .dataStructureGroup])
    r.actionNested
    (fun _ i pd =>
      match pd.top with
      | .relation => .ok (.enter .relation pd)
      | .parameters => .ok (.enter .parameters pd)
      | .request => .ok (.enter .request pd)
      | .requestBody => .ok (.enter .requestBody pd)
      | .response => .ok (.enter .response pd)
      | .responseBody => .ok (.enter .responseBody pd)
      | .headers => .ok (.enter .headers pd)
      | .attributes => .ok (.enter .attributes pd)
      | _ => .ok (.done i () pd))
    (fun n => if r.assetType n ≠ .undefined then true
      else r.isUnexpected [.action, .resource, .resourceGroup, .dataStructureGroup] n)

/-- S/DataStructureGroupParser.h:26-116 `SectionProcessor<DataStructureGroup>`. -/
def dataStructuresOwn (r : Recognise) (h : Handlers σ) : Own σ :=
  common .dataStructureGroup h (oneNode .dataStructureGroup h) (fun _ => false) r.namedTypeType
    (fun _ i pd =>
      match pd.top with
      | .msonNamedType => .ok (.enter .msonNamedType pd)
      | _ => .ok (.done i () pd))
    (r.isUnexpected [.dataStructureGroup, .resourceGroup, .resource])

/-- The parsers the five call for what is not defined by their own kind of header: one for each
list-defined section of a resource or an action, and the one of named types. -/
structure Others (σ : Type) where
  ofResource : SectionType → Grammar σ
  ofAction : SectionType → Grammar σ
  namedType : Grammar σ

variable (r : Recognise) (h : Handlers σ) (x : Others σ)

/-- `ActionParser`, S/ActionParser.h:550 -/
def actionGrammar : Grammar σ := .mk (actionOwn r h) .header x.ofAction

/-- The parsers a resource calls, S/ResourceParser.h:90-148, 331-350. -/
def resourceChild : SectionType → Grammar σ
  | .action => actionGrammar r h x
  | t => x.ofResource t

/-- `ResourceParser`, S/ResourceParser.h:530 -/
def resourceGrammar : Grammar σ := .mk (resourceOwn r h) .header (resourceChild r h x)

/-- The parser a resource group calls, S/ResourceGroupParser.h:108-111. -/
def groupChild : SectionType → Grammar σ
  | .resource => resourceGrammar r h x
  | _ => .absent

/-- `ResourceGroupParser`, S/ResourceGroupParser.h:302 -/
def groupGrammar : Grammar σ := .mk (groupOwn r h) .header (groupChild r h x)

/-- The parser a data structure group calls, S/DataStructureGroupParser.h:38-41. -/
def dataStructuresChild : SectionType → Grammar σ
  | .msonNamedType => x.namedType
  | _ => .absent

/-- `DataStructureGroupParser`, S/DataStructureGroupParser.h:163 -/
def dataStructuresGrammar : Grammar σ :=
  .mk (dataStructuresOwn r h) .header (dataStructuresChild x)

/-- The parsers a blueprint calls, S/BlueprintParser.h:104-156. -/
def blueprintChild : SectionType → Grammar σ
  | .resourceGroup => groupGrammar r h x
  | .dataStructureGroup => dataStructuresGrammar r h x
  | _ => .absent

/-- `BlueprintParser`, S/BlueprintParser.h:843 -/
def blueprintGrammar : Grammar σ := .mk (blueprintOwn r h) .blueprint (blueprintChild r h x)

end Verif.Section
