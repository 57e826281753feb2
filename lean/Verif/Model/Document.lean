import Verif.Model.Group
import Verif.Model.DataGroup
import Verif.Model.Lookahead
import Verif.Model.Metadata

/-!
# The whole document (`BlueprintParser.h`)

S = packages/apib-parser/src/snowcrash.

The processor of the blueprint, run by the section parser of `Model/Section.lean`.  Groups are read by the parser of `Model/Group.lean`, groups of
data structures by that of `Model/DataGroup.lean`; the look-ahead is that of `Model/Lookahead.lean`, the tables of the named types are those of
`Model/NamedTypes.lean`.

Simplifications: source maps are left out.  The parsers of attributes and of parameters are parameters, and so is the effect that the attributes
of resources have on the tables of the named types (an error which they report is left out), and the tables of a document whose declarations are
in error.
-/

namespace Verif.Document
open Verif Verif.Text Verif.Section Verif.Recognition
open Verif.References (Table)
open Verif.Mson (Context)
open Verif.DataStructure (NamedType)
open Verif.NamedTypes (Decl buildTables)

/-- S/Blueprint.h:390-500 `Element`: those of a blueprint. -/
inductive Element
  /-- a resource (or text) outside of groups -/
  | top (e : Group.Element)
  /-- `ResourceGroupCategory` -/
  | group (name : Bytes) (es : List Group.Element)
  /-- `DataStructureGroupCategory` -/
  | data (ts : List NamedType)

/-- `report.error` -/
inductive Problem
  /-- of the named types -/
  | type (e : NamedTypes.Err)
  /-- of a resource -/
  | resource (p : Resource.Problem)
  /-- S/BlueprintParser.h:823-832 -/
  | undefinedModel (id : Bytes)
  /-- S/BlueprintParser.h:294-299 -/
  | noName
  deriving DecidableEq, Repr

/-- The warnings of a blueprint. -/
inductive Warning
  /-- S/BlueprintParser.h:561-599 -/
  | metadata (w : Metadata.Warning)
  /-- S/ActionParser.h:530-546 -/
  | typo (text : Bytes)
  /-- of its groups and resources -/
  | group (w : Group.Warning)
  /-- of its data structures -/
  | data (w : DataGroup.Warning)
  /-- S/BlueprintParser.h:109-125 -/
  | duplicateGroup (name : Bytes)
  /-- S/SectionProcessor.h:210-233 -/
  | ignored (w : Payload.Warning)
  /-- of requests and responses that refer to a model that comes later -/
  | payload (w : Payload.Warning)
  /-- S/BlueprintParser.h:301-307 -/
  | noName
  deriving DecidableEq, Repr

/-- The source, the parsers of attributes (given what is known of the named types) and of parameters, the texts of headers (see
`Model/MsonParser.lean`), the options, and: what the attributes among the blocks of a group or resource leave of what is known of the named types;
what is known of them if their declarations are in error. -/
structure Surroundings where
  source : Bytes
  attributes : Context → Bytes → Node → Bytes → Bytes × List Payload.Warning
  parameters : Node → List Bytes → List Bytes × List Payload.Warning
  header : Node → Bytes
  requireName : Bool
  refers : List Node → Context → Context
  broken : List Decl → Context

/-- `out.node`, `out.report`, and what `pd` has of models and named types. -/
structure Data where
  metadata : List (Bytes × Bytes) := []
  name : Bytes := []
  description : Bytes := []
  elements : List Element := []
  warnings : List Warning := []
  table : Table := []
  known : Context := ⟨[], [], [], none⟩
  error : Option Problem := none

/-- `warnings.push_back` -/
def Data.warn (d : Data) (ws : List Warning) : Data := { d with warnings := d.warnings ++ ws }

/-! ## The signature -/

/-- S/BlueprintParser.h:44-64: the paragraphs with which the blocks begin; how many of them there are, and whether one was met that is not
metadata. -/
def metadata : List Node → Data → Nat × Data × Bool
  | [], d => (0, d, false)
  | n :: ns, d =>
    if n.kind = .paragraph then
      let m := Metadata.parseMetadata n.text
      let d := d.warn (m.2.map .metadata)
      if m.1.isEmpty then (0, d, true)
      else
        let r := metadata ns { d with metadata := d.metadata ++ m.1 }
        (r.1 + 1, r.2)
    else (0, d, false)

/-- S/SectionProcessor.h:150-171 `processDescription` -/
def description (s : Surroundings) (n : Node) (pd : PD Data) : Except Stop Data :=
  match (if pd.data.description.isEmpty then some [] else twoNewLines pd.data.description) with
  | none => .error .outOfRange
  | some x => .ok { pd.data with description := x ++ trim (ByteBuffer.mapBytesRangeSet n.sourceMap s.source) }

/-- S/BlueprintParser.h:35-94 `processSignature` -/
def signature (s : Surroundings) (ns : List Node) (i : Nat) (pd : PD Data) : Except Stop (Reply Data Layout) :=
  let m := metadata (ns.drop i) pd.data
  match ns[i + m.1]? with
  | none => .ok (.done (i + m.1) .default (pd.set m.2.1))
  | some n =>
    if m.2.2 = false ∧ n.kind = .header then
      if recognise.blueprintNested n ≠ .undefined then .ok (.done (i + m.1) .exclusive (pd.set m.2.1))
      else .ok (.done (i + m.1 + 1) .default (pd.set { m.2.1 with name := trim n.text }))
    else
      match description s n (pd.set m.2.1) with
      | .error e => .error e
      | .ok d => .ok (.done (i + m.1 + 1) .default (pd.set d))

/-! ## The look-ahead -/

/-- S/BlueprintParser.h:165-236 `preprocessNestedSections` -/
def preprocess (s : Surroundings) (ns : List Node) (i : Nat) (pd : PD Data) : Except Stop (PD Data) :=
  match Lookahead.declarations (ns.drop i) with
  | .error e => .error e
  | .ok (ds, typos) =>
    let d := pd.data.warn (typos.map .typo)
    match buildTables ds with
    | none => .error .diverges
    | some (.error e) => .ok (pd.set { d with known := s.broken ds, error := some (.type e) })
    | some (.ok t) => .ok (pd.set { d with known := ⟨t.dep, t.base, [], none⟩ })

/-! ## Sections -/

/-- S/DataStructureGroupParser.h:127-160 `isNamedTypeDuplicate`, one element that may be in a category. -/
def partNamed (name : Bytes) : Group.Element → Bool
  | .copy _ => false
  | .resource r => r.attributes.name == name

/-- S/DataStructureGroupParser.h:127-160 `isNamedTypeDuplicate`, one element. -/
def elementNamed (name : Bytes) : Element → Bool
  | .top e => partNamed name e
  | .group _ es => es.any (partNamed name)
  | .data ts => ts.any fun t => t.name.literal == name

/-- S/DataStructureGroupParser.h:127-160 `isNamedTypeDuplicate` -/
def isNamed (es : List Element) (name : Bytes) : Bool := es.any (elementNamed name)

/-- S/ResourceGroupParser.h:249-264 `isResourceDuplicate`, one element. -/
def elementAt (uri : Bytes) : Element → Bool
  | .top e => Group.hasUri uri e
  | .group _ es => es.any (Group.hasUri uri)
  | .data _ => false

/-- S/ResourceGroupParser.h:249-264 `isResourceDuplicate` -/
def isAt (es : List Element) (uri : Bytes) : Bool := es.any (elementAt uri)

/-- S/BlueprintParser.h:605-617 `isResourceGroupDuplicate`, one element. -/
def isGroup (name : Bytes) : Element → Bool
  | .group x _ => x == name
  | _ => false

/-- What surrounds a group. -/
def Surroundings.group (s : Surroundings) (d : Data) : Group.Surroundings :=
  ⟨⟨s.source, s.attributes d.known, s.parameters, isNamed d.elements⟩, isAt d.elements⟩

/-- What surrounds a group of data structures. -/
def Surroundings.data (s : Surroundings) (d : Data) : DataGroup.Surroundings := ⟨⟨s.source, s.header⟩, isNamed d.elements⟩

/-- A group or a resource was read from the blocks `used`: its warnings, models and errors. -/
def Data.after (s : Surroundings) (used : List Node) (g : Group.Data) (d : Data) : Data :=
  { d with
    warnings := d.warnings ++ g.warnings.map .group
    table := g.table
    known := s.refers used d.known
    error := match g.error with
      | some e => some (.resource e)
      | none => d.error }

/-- S/BlueprintParser.h:109-127: a group was read. -/
def addGroup (s : Surroundings) (used : List Node) (g : Group.Data) (d : Data) : Data :=
  let d' := (d.after s used g).warn (if d.elements.any (isGroup g.name) then [.duplicateGroup g.name] else [])
  { d' with elements := d.elements ++ [.group g.name g.elements] }

/-- S/BlueprintParser.h:136-138: a resource was read. -/
def addResources (s : Surroundings) (used : List Node) (g : Group.Data) (d : Data) : Data :=
  { d.after s used g with elements := d.elements ++ g.elements.map .top }

/-- S/BlueprintParser.h:148-151: data structures were read. -/
def addData (g : DataGroup.Data) (d : Data) : Data :=
  { d with
    elements := d.elements ++ [.data g.types]
    warnings := d.warnings ++ g.warnings.map .data
    known := g.known
    error := match g.known.error with
      | some e => some (.type e)
      | none => d.error }

/-- S/BlueprintParser.h:96-159 `processNestedSection` -/
def nestedSection (s : Surroundings) (ns : List Node) (i : Nat) (pd : PD Data) : Except Stop (Reply Data Unit) :=
  match pd.top with
  | .resourceGroup =>
    match Group.parseGroup (s.group pd.data) pd.context ns i pd.data.table none with
    | .error e => .error e
    | .ok (j, g) => .ok (.done j () (pd.set (addGroup s ((ns.take j).drop i) g.data pd.data)))
  | .resource =>
    match Group.parseGroup (s.group pd.data) pd.context ns i pd.data.table none with
    | .error e => .error e
    | .ok (j, g) => .ok (.done j () (pd.set (addResources s ((ns.take j).drop i) g.data pd.data)))
  | .dataStructureGroup =>
    match DataGroup.parseData (s.data pd.data) pd.context ns i { pd.data.known with error := none } with
    | .error e => .error e
    | .ok (j, g) => .ok (.done j () (pd.set (addData g.data pd.data)))
  | _ => .ok (.done i () pd)

/-- S/SectionProcessor.h:210-233 `processUnexpectedNode` -/
def unexpected (n : Node) (pd : PD Data) : Except Stop Data := .ok (pd.data.warn [.ignored (Payload.ignored n)])

/-! ## References to models that come later -/

/-- What `checkLazyReferencing` carries: the warnings and the error. -/
structure Reports where
  warnings : List Payload.Warning := []
  error : Option Problem := none

/-- S/PayloadParser.h:566-586: headers of the payload itself are ignored. -/
def ignoredHeaders (context : SectionType) (m p : References.Payload) : List Payload.Warning :=
  if !p.headers.isEmpty && m.headers.any (fun h => h.1 == References.contentType) then [.ignoredHeaders context] else []

/-- S/BlueprintParser.h:820-841 `resolvePendingModels` -/
def resolvePending (context : SectionType) (t : Table) (p : References.Payload) (r : Reports) : References.Payload × Reports :=
  match t.find p.refId with
  | none => ({ p with refState := .unresolved }, { r with error := some (.undefinedModel p.refId) })
  | some m => (References.assignReferred m { p with refState := .resolved }, { r with warnings := r.warnings ++ ignoredHeaders context m p })

/-- S/BlueprintParser.h:749-769, 788-808, one request or response, with the check that follows. -/
def link (context : SectionType) (t : Table) (check : References.Payload → List Payload.Warning) (p : References.Payload) (r : Reports) :
    References.Payload × Reports :=
  if !p.refId.isEmpty && p.refState == .pending then
    let x := resolvePending context t p r
    (x.1, { x.2 with warnings := x.2.warnings ++ check x.1 })
  else (p, r)

/-- S/BlueprintParser.h:712-735 `checkExampleLazyReferencing`, one example. -/
def linkExample (context : SectionType) (t : Table) (x : References.Example) (r : Reports) : References.Example × Reports :=
  let requests := References.thread (link context t Payload.checkRequest) x.requests r
  let responses := References.thread (link context t Payload.checkResponse) x.responses requests.2
  (⟨requests.1, responses.1⟩, responses.2)

/-- S/BlueprintParser.h:712-735 -/
def linkAction (context : SectionType) (t : Table) (a : Action.Action) (r : Reports) : Action.Action × Reports :=
  let x := References.thread (linkExample context t) a.examples r
  ({ a with examples := x.1 }, x.2)

/-- S/BlueprintParser.h:688-709 `checkActionLazyReferencing` -/
def linkResource (context : SectionType) (t : Table) (x : Resource.Resource) (r : Reports) : Resource.Resource × Reports :=
  let y := References.thread (linkAction context t) x.actions r
  ({ x with actions := y.1 }, y.2)

/-- An element that may be in a category. -/
def linkPart (context : SectionType) (t : Table) : Group.Element → Reports → Group.Element × Reports
  | .copy x, r => (.copy x, r)
  | .resource x, r =>
    let y := linkResource context t x r
    (.resource y.1, y.2)

/-- S/BlueprintParser.h:625-685 `checkLazyReferencing`, `checkResourceLazyReferencing`, one element. -/
def linkElement (context : SectionType) (t : Table) : Element → Reports → Element × Reports
  | .top e, r =>
    let x := linkPart context t e r
    (.top x.1, x.2)
  | .group name es, r =>
    let x := References.thread (linkPart context t) es r
    (.group name x.1, x.2)
  | .data ts, r => (.data ts, r)

/-- S/BlueprintParser.h:625-660 `checkLazyReferencing` -/
def linkAll (context : SectionType) (d : Data) : Data :=
  let x := References.thread (linkElement context d.table) d.elements ⟨[], d.error⟩
  { d with elements := x.1, warnings := d.warnings ++ x.2.warnings.map .payload, error := x.2.error }

/-- S/BlueprintParser.h:280-308 `finalize` -/
def finalize (s : Surroundings) (pd : PD Data) : PD Data :=
  let d := linkAll pd.top pd.data
  pd.set (
    if !d.name.isEmpty then d
    else if s.requireName then { d with error := some .noName }
    else if !d.description.isEmpty then d.warn [.noName]
    else d)

/-- S/BlueprintParser.h:33-842 `SectionProcessor<Blueprint>`. -/
def own (s : Surroundings) : Own Data where
  signature := signature s
  isDescription n _ := recognise.isDescription recognise.blueprintNested [] n
  description := Payload.one (description s)
  isContent _ _ := false
  content _ i pd := .ok (i, pd)
  preprocess := preprocess s
  nestedType := recognise.blueprintNested
  nested := nestedSection s
  entered _ _ _ pd := .ok pd
  isUnexpected _ _ := true
  unexpected ns i _ := Payload.one unexpected ns i
  finalize _ _ pd := .ok (finalize s pd)

/-- `BlueprintParser`, S/BlueprintParser.h:845 -/
def grammar (s : Surroundings) : Grammar Data := .mk (own s) .blueprint fun _ => .absent

/-- `BlueprintParser::parse` for all blocks of the document (S/snowcrash.cc:74). -/
def parseDocument (s : Surroundings) (blocks : List Node) : Except Stop (Nat × PD Data) := (grammar s).parse blocks 0 ⟨[], {}⟩

end Verif.Document
