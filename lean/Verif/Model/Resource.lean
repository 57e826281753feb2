import Verif.Model.Action
import Verif.Model.UriTemplate

/-!
# Resources (`ResourceParser.h`)

S = packages/apib-parser/src/snowcrash.

The processor of resources, run by the section parser of `Model/Section.lean`; actions are read by the parser of `Model/Action.lean`, models
by the one of `Model/Payload.lean`.  What the parsers of attributes and parameters make of their section is a parameter (`Surroundings`).
Simplifications: no source maps; a warning or an error is its kind and what its text depends on, without its location.
-/

namespace Verif.Resource
open Verif Verif.Text Verif.Regex Verif.Section Verif.Recognition
open Verif.Action (Action)
open Verif.Payload (one)

/-- The warnings of a resource. -/
inductive Warning
  /-- of the parsers of its sections, and the checks of S/ParametersParser.h:158-235, S/ActionParser.h:442-460 and S/SectionProcessor.h:210-233 -/
  | action (w : Action.Warning)
  /-- S/ResourceParser.h:362-374 -/
  | duplicateMethod (method uri : Bytes)
  /-- S/ResourceParser.h:376-389 -/
  | duplicateRelation (relation uri : Bytes)
  /-- S/ResourceParser.h:441-460 -/
  | overshadowing (name uri : Bytes)
  /-- S/ResourceParser.h:119-129 -/
  | duplicateType (name : Bytes)
  /-- S/ResourceParser.h:275-286 -/
  | template (text : Bytes)
  deriving DecidableEq, Repr

/-- `report.error` -/
inductive Problem
  /-- S/ResourceParser.h:470-480 -/
  | nameless (uri : Bytes)
  /-- S/ResourceParser.h:491-501 -/
  | defined (name : Bytes)
  deriving DecidableEq, Repr

/-- S/Blueprint.h:265, S/MSON.h:259-272: the name and the rest of the type of attributes. -/
structure Attributes where
  name : Bytes := []
  content : Bytes := []
  deriving DecidableEq, Repr

/-- S/Blueprint.h:310-345 `Resource` -/
structure Resource where
  name : Bytes := []
  uri : Bytes := []
  description : Bytes := []
  model : References.Payload := {}
  attributes : Attributes := {}
  parameters : List Bytes := []
  headers : List References.Header := []
  actions : List Action := []
  deriving DecidableEq, Repr

/-- What surrounds a resource: the source, the parser of attributes (given the named type it is run for, empty if there is none), the parser of
parameters, and the names of the types that the blueprint has so far. -/
structure Surroundings where
  source : Bytes
  attributes : Bytes → Node → Bytes → Bytes × List Payload.Warning
  parameters : Node → List Bytes → List Bytes × List Payload.Warning
  named : Bytes → Bool

/-- What surrounds an action or a payload. -/
def Surroundings.world (s : Surroundings) (t : References.Table) : Payload.World := ⟨s.source, t, s.attributes [], s.parameters⟩

/-- `out.node`, `out.report` and `pd.modelTable`. -/
structure Data where
  resource : Resource := {}
  warnings : List Warning := []
  table : References.Table := []
  error : Option Problem := none
  deriving DecidableEq, Repr

/-- `warnings.push_back` -/
def Data.warn (d : Data) (ws : List Warning) : Data := { d with warnings := d.warnings ++ ws }

/-- An action was read (S/ResourceParser.h:338-341): it is added, its warnings are in the report. -/
def addAction (a : Action) (ws : List Action.Warning) (d : Data) : Data :=
  { d with resource := { d.resource with actions := d.resource.actions ++ [a] }, warnings := d.warnings ++ ws.map .action }

/-- S/ResourceParser.h:42-84 `processSignature`, 328-351 `processNestedAction` -/
def signature (s : Surroundings) (ns : List Node) (i : Nat) (pd : PD Data) : Except Stop (Reply Data Layout) :=
  match ns[i]? with
  | none => .error .outOfRange
  | some n =>
    let p := resourceParts n.text
    let d : Data := { pd.data with resource := { pd.data.resource with name := p.name, uri := p.uri } }
    if p.action.isSome then
      match Action.parseAction (s.world d.table) pd.context ns i with
      | .error e => .error e
      | .ok (j, r) => .ok (.done j .redirect (pd.set (addAction r.data.action r.data.warnings d)))
    else .ok (.done (i + 1) .default (pd.set d))

/-- S/SectionProcessor.h:150-171 `processDescription` -/
def description (s : Surroundings) (n : Node) (pd : PD Data) : Except Stop Data :=
  let r := pd.data.resource
  match (if r.description.isEmpty then some [] else twoNewLines r.description) with
  | none => .error .outOfRange
  | some x => .ok { pd.data with resource := { r with description := x ++ trim (ByteBuffer.mapBytesRangeSet n.sourceMap s.source) } }

/-- S/BlueprintUtility.h:100-105 `MatchAction` -/
def matchAction (x y : Action) : Bool := x.uri == y.uri && x.method == y.method

/-- S/BlueprintUtility.h:108-113 `MatchRelation` -/
def matchRelation (x : Action) (relation : Bytes) : Bool := !x.relation.isEmpty && !relation.isEmpty && x.relation == relation

/-- S/ResourceParser.h:362-393: what is reported of an action. -/
def checkAction (r : Resource) (a : Action) : List Warning :=
  (if r.actions.any (matchAction · a) then [.duplicateMethod a.method r.uri] else []) ++
  (if r.actions.any (matchRelation · a.relation) then [.duplicateRelation a.relation r.uri] else []) ++
  if !a.parameters.isEmpty && a.uri.isEmpty then (Action.eligibility r.uri a.parameters).map .action else []

/-- S/ResourceParser.h:353-402 `processAction` -/
def processAction (s : Surroundings) (ns : List Node) (i : Nat) (pd : PD Data) : Except Stop (Nat × Data) :=
  match Action.parseAction (s.world pd.data.table) pd.context ns i with
  | .error e => .error e
  | .ok (j, r) =>
    let d := addAction r.data.action r.data.warnings pd.data
    .ok (j, d.warn (checkAction pd.data.resource r.data.action))

/-- S/ResourceParser.h:404-429 `processParameters` -/
def processParameters (s : Surroundings) (n : Node) (d : Data) : Data :=
  let r := s.parameters n []
  { d with
    resource := { d.resource with parameters := d.resource.parameters ++ r.1 }
    warnings := d.warnings ++ r.2.map (.action ∘ .payload) ++ (Action.eligibility d.resource.uri r.1).map .action }

/-- S/ResourceParser.h:462-466: the model is named after its resource if it has no name of its own. -/
def named (name : Bytes) (p : References.Payload) : References.Payload :=
  if p.name.isEmpty && !name.isEmpty then { p with name := name } else p

/-- S/ResourceParser.h:440-509: a model was read. -/
def addModel (p : References.Payload) (ws : List Payload.Warning) (d : Data) : Data :=
  let r := d.resource
  let q := named r.name p
  let e := if q.name.isEmpty then some (.nameless r.uri) else d.error
  { resource := { r with model := q }
    warnings := d.warnings ++ ws.map (.action ∘ .payload) ++ if r.model.name.isEmpty then [] else [.overshadowing r.name r.uri]
    table := match d.table.find q.name with
      | none => d.table ++ [(q.name, q)]
      | some _ => d.table
    error := match d.table.find q.name with
      | none => e
      | some _ => some (.defined q.name) }

/-- S/ResourceParser.h:431-439 `processModel` -/
def processModel (s : Surroundings) (ns : List Node) (i : Nat) (pd : PD Data) : Except Stop (Nat × Data) :=
  match Payload.parsePayload (s.world pd.data.table) pd.top pd.context.tail ns i with
  | .error e => .error e
  | .ok (j, r) => .ok (j, addModel r.data.payload r.data.warnings pd.data)

/-- S/ResourceParser.h:101-104, S/ActionParser.h:442-460 `handleDeprecatedHeaders` -/
def processHeaders (s : Surroundings) (ns : List Node) (i : Nat) (pd : PD Data) : Except Stop (Nat × Data) :=
  match (Payload.payloadChild (s.world pd.data.table) .headers).parse ns i ⟨pd.context, ⟨{ headers := pd.data.resource.headers }, []⟩⟩ with
  | .error e => .error e
  | .ok (j, r) => .ok (j, { pd.data with
      resource := { pd.data.resource with headers := r.data.payload.headers }
      warnings := pd.data.warnings ++ r.data.warnings.map (.action ∘ .payload) ++ [.action .deprecatedHeaders] })

/-- S/ResourceParser.h:106-146: attributes, a named type if the resource has a name. -/
def processAttributes (s : Surroundings) (n : Node) (d : Data) : Data :=
  let r := d.resource
  let x := s.attributes r.name n r.attributes.content
  let ws := d.warnings ++ x.2.map (.action ∘ .payload)
  if r.name.isEmpty then { d with resource := { r with attributes := { r.attributes with content := x.1 } }, warnings := ws }
  else if s.named r.name then { d with resource := { r with attributes := {} }, warnings := ws ++ [.duplicateType r.name] }
  else { d with resource := { r with attributes := ⟨r.name, x.1⟩ }, warnings := ws }

/-- S/ResourceParser.h:86-153 `processNestedSection` -/
def nestedSection (s : Surroundings) (ns : List Node) (i : Nat) (pd : PD Data) : Except Stop (Reply Data Unit) :=
  let moved (x : Except Stop (Nat × Data)) : Except Stop (Reply Data Unit) :=
    match x with
    | .error e => .error e
    | .ok (j, d) => .ok (.done j () (pd.set d))
  match ns[i]? with
  | none => .error .outOfRange
  | some n =>
    match pd.top with
    | .action => moved (processAction s ns i pd)
    | .parameters => .ok (.done (i + 1) () (pd.set (processParameters s n pd.data)))
    | .model | .modelBody => moved (processModel s ns i pd)
    | .headers => moved (processHeaders s ns i pd)
    | .attributes => .ok (.done (i + 1) () (pd.set (processAttributes s n pd.data)))
    | _ => .ok (.done i () pd)

/-- S/ResourceParser.h:171-180: the body of the entry of that name is replaced. -/
def replaceBody (name body : Bytes) (t : References.Table) : References.Table :=
  t.map fun e => if e.1 = name then (e.1, { e.2 with body := body }) else e

/-- S/ResourceParser.h:155-187 `processUnexpectedNode` -/
def unexpected (s : Surroundings) (last : SectionType) (n : Node) (pd : PD Data) : Except Stop Data :=
  if (n.kind = .paragraph ∨ n.kind = .code) ∧ (last = .modelBody ∨ last = .model) then
    match Action.dangling (s.world pd.data.table) last pd.top n with
    | .error e => .error e
    | .ok (c, ws) =>
      let m := pd.data.resource.model
      .ok { pd.data with
        resource := { pd.data.resource with model := { m with body := m.body ++ c } }
        warnings := pd.data.warnings ++ ws.map (.action ∘ .payload)
        table := replaceBody m.name (m.body ++ c) pd.data.table }
  else .ok (pd.data.warn [.action (.payload (Payload.ignored n))])

/-- S/ResourceParser.h:266-269 `upperSectionTypes` -/
def upper : List SectionType := [.resourceGroup, .resource, .dataStructureGroup]

/-- S/ResourceParser.h:271-309 `finalize` -/
def finalize (d : Data) : Data :=
  let r := d.resource
  { d with
    resource := if !r.headers.isEmpty
      then { r with actions := r.actions.map fun a => { a with examples := References.injectHeaders r.headers a.examples }, headers := [] } else r
    warnings := d.warnings ++ (UriTemplate.warnings r.uri).map .template }

/-- S/ResourceParser.h:189-195 `isDescriptionNode` -/
def isDescription (n : Node) : Bool :=
  if recognise.actionType n = .complete then false else recognise.isDescription recognise.resourceNested upper n

/-- S/ResourceParser.h:40-309 `SectionProcessor<Resource>`. -/
def own (s : Surroundings) : Own Data where
  signature := signature s
  isDescription n _ := isDescription n
  description := one (description s)
  isContent _ _ := false
  content _ i pd := .ok (i, pd)
  preprocess _ _ pd := .ok pd
  nestedType := recognise.resourceNested
  nested := nestedSection s
  entered _ _ _ pd := .ok pd
  isUnexpected n _ := recognise.isUnexpected upper n
  unexpected ns i last := one (unexpected s last) ns i
  finalize _ _ pd := .ok (pd.set (finalize pd.data))

/-- `ResourceParser`, S/ResourceParser.h:531 -/
def grammar (s : Surroundings) : Grammar Data := .mk (own s) .header fun _ => .absent

/-- `ResourceParser::parse` with a new resource (S/ResourceGroupParser.h:90-91), inside of the sections `context`, with the models and the error
known so far. -/
def parseResource (s : Surroundings) (context : List SectionType) (siblings : List Node) (i : Nat) (table : References.Table)
    (error : Option Problem) : Except Stop (Nat × PD Data) :=
  (grammar s).parse siblings i ⟨context, { table := table, error := error }⟩

end Verif.Resource
