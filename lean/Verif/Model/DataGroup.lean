import Verif.Model.MsonParser
import Verif.Model.Payload

/-!
# Groups of data structures (`DataStructureGroupParser.h`)

S = packages/apib-parser/src/snowcrash.

The processor of data structure groups, run by the section parser of `Model/Section.lean`; the named types are read by `parseNamed` of
`Model/MsonParser.lean`.  Simplifications: source maps are left out; the element and category kinds that `finalize` sets
(S/DataStructureGroupParser.h:79-91) are the constructor of the element in `Model/Document.lean`.
-/

namespace Verif.DataGroup
open Verif Verif.Text Verif.Section Verif.Recognition
open Verif.MsonParser (Out World parseNamed)
open Verif.Mson (Context)
open Verif.DataStructure (NamedType)
open Verif.Payload (one ignored)

/-- The warnings of a group of data structures. -/
inductive Warning
  /-- of its types -/
  | type (w : MsonParser.Warning)
  /-- S/DataStructureGroupParser.h:49-55 -/
  | duplicateType (name : Bytes)
  /-- S/SectionProcessor.h:210-233 -/
  | ignored (w : Payload.Warning)
  deriving DecidableEq, Repr

/-- What surrounds a group: the source, and the names of types that the blueprint has so far
(S/DataStructureGroupParser.h:127-160 `isNamedTypeDuplicate`). -/
structure Surroundings where
  world : World
  names : Bytes → Bool

/-- `out.node`, what `pd` has of named types, and `out.report`. -/
structure Data where
  types : List NamedType := []
  known : Context
  warnings : List Warning := []

/-- `warnings.push_back` -/
def Data.warn (d : Data) (ws : List Warning) : Data := { d with warnings := d.warnings ++ ws }

/-- S/SectionProcessor.h:139-147 `processSignature` of the base: the header is passed over. -/
def signature (ns : List Node) (i : Nat) (pd : PD Data) : Except Stop (Reply Data Layout) :=
  match ns[i]? with
  | none => .error .outOfRange
  | some _ => .ok (.done (i + 1) .default pd)

/-- S/DataStructureGroupParser.h:47-75: a type was read. -/
def addType (s : Surroundings) (r : Out NamedType) (d : Data) : Data :=
  if s.names r.node.name.literal then
    { d with known := r.types, warnings := d.warnings ++ r.warnings.map .type ++ [.duplicateType r.node.name.literal] }
  else { types := d.types ++ [r.node], known := r.types, warnings := d.warnings ++ r.warnings.map .type }

/-- S/DataStructureGroupParser.h:32-77 `processNestedSection` -/
def nestedSection (s : Surroundings) (ns : List Node) (i : Nat) (pd : PD Data) : Except Stop (Reply Data Unit) :=
  match pd.top with
  | .msonNamedType =>
    match parseNamed s.world ns i ⟨pd.context, {}, pd.data.known, []⟩ with
    | .error e => .error e
    | .ok (j, r) => .ok (.done j () (pd.set (addType s r.data pd.data)))
  | _ => .ok (.done i () pd)

/-- S/DataStructureGroupParser.h:118-121 `upperSectionTypes` -/
def upper : List SectionType := [.dataStructureGroup, .resourceGroup, .resource]

/-- S/SectionProcessor.h:210-233 `processUnexpectedNode` -/
def unexpected (n : Node) (pd : PD Data) : Except Stop Data := .ok (pd.data.warn [.ignored (ignored n)])

/-- S/DataStructureGroupParser.h:27-161 `SectionProcessor<DataStructureGroup>`. -/
def own (s : Surroundings) : Own Data where
  signature := signature
  isDescription _ _ := false
  description _ i pd := .ok (i, pd)
  isContent _ _ := false
  content _ i pd := .ok (i, pd)
  preprocess _ _ pd := .ok pd
  nestedType := recognise.namedTypeType
  nested := nestedSection s
  entered _ _ _ pd := .ok pd
  isUnexpected n _ := recognise.isUnexpected upper n
  unexpected ns i _ := one unexpected ns i
  finalize _ _ pd := .ok pd

/-- `DataStructureGroupParser`, S/DataStructureGroupParser.h:164 -/
def grammar (s : Surroundings) : Grammar Data := .mk (own s) .header fun _ => .absent

/-- `DataStructureGroupParser::parse` with a new group (S/BlueprintParser.h:170-171), inside of the sections `context`, with what is known of
the named types. -/
def parseData (s : Surroundings) (context : List SectionType) (siblings : List Node) (i : Nat) (known : Context) : Except Stop (Nat × PD Data) :=
  (grammar s).parse siblings i ⟨context, { known := known }⟩

end Verif.DataGroup
