import Verif.Model.Resource

/-!
# Groups of resources (`ResourceGroupParser.h`)

S = packages/apib-parser/src/snowcrash.

The processor of resource groups, run by the section parser of `Model/Section.lean`; resources are read by the parser of
`Model/Resource.lean`.  Simplifications: those of `Model/Resource.lean`; the element and category kinds that `finalize` sets
(S/ResourceGroupParser.h:180-191) are the constructor of the element in `Model/Document.lean`.
-/

namespace Verif.Group
open Verif Verif.Text Verif.Regex Verif.Section Verif.Recognition
open Verif.Resource (Resource Problem)
open Verif.Payload (one)

/-- S/Blueprint.h:390-500 `Element`: those in a group. -/
inductive Element
  /-- text -/
  | copy (text : Bytes)
  /-- a resource -/
  | resource (r : Resource)
  deriving DecidableEq, Repr

/-- The warnings of a group. -/
inductive Warning
  /-- of its resources, and S/SectionProcessor.h:210-233 -/
  | resource (w : Resource.Warning)
  /-- S/ResourceGroupParser.h:123-132 -/
  | duplicateResource (uri : Bytes)
  /-- S/ResourceGroupParser.h:166-172 -/
  | unexpectedAction (method uri : Bytes)
  deriving DecidableEq, Repr

/-- What surrounds a group: what surrounds its resources, and the URIs of the resources that the blueprint has so far. -/
structure Surroundings where
  inner : Resource.Surroundings
  uris : Bytes → Bool

/-- `out.node`, `out.report` and `pd.modelTable`. -/
structure Data where
  name : Bytes := []
  elements : List Element := []
  warnings : List Warning := []
  table : References.Table := []
  error : Option Problem := none
  deriving DecidableEq, Repr

/-- `warnings.push_back` -/
def Data.warn (d : Data) (ws : List Warning) : Data := { d with warnings := d.warnings ++ ws }

/-- S/ResourceGroupParser.h:33-61 `processSignature` -/
def signature (ns : List Node) (i : Nat) (pd : PD Data) : Except Stop (Reply Data Layout) :=
  match ns[i]? with
  | none => .error .outOfRange
  | some n =>
    if recognise.groupNested n ≠ .undefined then .ok (.done i .exclusive pd)
    else .ok (.done (i + 1) .default (pd.set { pd.data with name := groupName n.text }))

/-- S/ResourceGroupParser.h:70-83: the elements before the text that is continued, and that text (empty if there is none). -/
def copied (es : List Element) : List Element × Bytes :=
  match es.getLast? with
  | some (.copy t) => (es.dropLast, t)
  | _ => (es, [])

/-- S/ResourceGroupParser.h:63-98 `processDescription` -/
def description (s : Surroundings) (n : Node) (pd : PD Data) : Except Stop Data :=
  let (es, t) := copied pd.data.elements
  match (if t.isEmpty then some [] else twoNewLines t) with
  | none => .error .outOfRange
  | some x => .ok { pd.data with elements := es ++ [.copy (x ++ trim (ByteBuffer.mapBytesRangeSet n.sourceMap s.inner.source))] }

/-- S/ResourceParser.h:517-527 `isResourceDuplicate` -/
def hasUri (uri : Bytes) : Element → Bool
  | .copy _ => false
  | .resource r => r.uri == uri

/-- S/ResourceGroupParser.h:113-138: a resource was read. -/
def addResource (s : Surroundings) (r : Resource.Data) (d : Data) : Data where
  name := d.name
  elements := d.elements ++ [.resource r.resource]
  warnings := d.warnings ++ r.warnings.map .resource ++
    if d.elements.any (hasUri r.resource.uri) || s.uris r.resource.uri then [.duplicateResource r.resource.uri] else []
  table := r.table
  error := r.error

/-- S/ResourceGroupParser.h:100-150 `processNestedSection` -/
def nestedSection (s : Surroundings) (ns : List Node) (i : Nat) (pd : PD Data) : Except Stop (Reply Data Unit) :=
  match pd.top with
  | .resource =>
    match Resource.parseResource s.inner pd.context ns i pd.data.table pd.data.error with
    | .error e => .error e
    | .ok (j, r) => .ok (.done j () (pd.set (addResource s r.data pd.data)))
  | _ => .ok (.done i () pd)

/-- S/ResourceGroupParser.h:273-281 `isResourcePresent`, which is true if there is *no* resource. -/
def isResourcePresent (es : List Element) : Bool :=
  es.all fun
    | .resource _ => false
    | .copy _ => true

/-- S/ResourceGroupParser.h:288-299 `lastResource` -/
def lastResource (es : List Element) : Resource :=
  es.foldl (fun last e => match e with
    | .resource r => r
    | .copy _ => last) {}

/-- S/ResourceGroupParser.h:152-178 `processUnexpectedNode` -/
def unexpected (n : Node) (pd : PD Data) : Except Stop Data :=
  if recognise.actionType n = .dependent && isResourcePresent pd.data.elements then
    .ok (pd.data.warn [.unexpectedAction (actionSignature n.text).1.method (lastResource pd.data.elements).uri])
  else .ok (pd.data.warn [.resource (.action (.payload (Payload.ignored n)))])

/-- S/ResourceGroupParser.h:216-219 `upperSectionTypes` -/
def upper : List SectionType := [.resourceGroup, .dataStructureGroup]

/-- S/ResourceGroupParser.h:221-231 `isDescriptionNode` -/
def isDescription (n : Node) : Bool :=
  if recognise.actionType n = .complete then false else recognise.isDescription recognise.groupNested upper n

/-- S/ResourceGroupParser.h:233-241 `isUnexpectedNode` -/
def isUnexpected (n : Node) : Bool :=
  if recognise.actionType n = .dependent then true else recognise.isUnexpected upper n

/-- S/ResourceGroupParser.h:31-300 `SectionProcessor<ResourceGroup>`. -/
def own (s : Surroundings) : Own Data where
  signature := signature
  isDescription n _ := isDescription n
  description := one (description s)
  isContent _ _ := false
  content _ i pd := .ok (i, pd)
  preprocess _ _ pd := .ok pd
  nestedType := recognise.groupNested
  nested := nestedSection s
  entered _ _ _ pd := .ok pd
  isUnexpected n _ := isUnexpected n
  unexpected ns i _ := one unexpected ns i
  finalize _ _ pd := .ok pd

/-- `ResourceGroupParser`, S/ResourceGroupParser.h:302 -/
def grammar (s : Surroundings) : Grammar Data := .mk (own s) .header fun _ => .absent

/-- `ResourceGroupParser::parse` with a new group (S/BlueprintParser.h:104-105, 133-134), inside of the sections `context`, with the models and the
error known so far. -/
def parseGroup (s : Surroundings) (context : List SectionType) (siblings : List Node) (i : Nat) (table : References.Table)
    (error : Option Problem) : Except Stop (Nat × PD Data) :=
  (grammar s).parse siblings i ⟨context, { table := table, error := error }⟩

end Verif.Group
