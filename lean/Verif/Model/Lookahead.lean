import Verif.Model.MsonParser

/-!
# Which types a document declares: the look-ahead over the blocks of the document (`BlueprintParser.h`)

S = packages/apib-parser/src/snowcrash.

`preprocessNestedSections` goes over all blocks of the document before any section is parsed and fills the tables of the named types.  Here it
gives the declarations in document order (`NamedTypes.fill` puts one into the tables, `NamedTypes.buildTables` all of them) and the texts of the
headers that are reported.  Simplification: source maps are left out.
-/

namespace Verif.Lookahead
open Verif Verif.Text Verif.Section Verif.Recognition
open Verif.MsonParser (signatureOf typeTraits)
open Verif.NamedTypes (Decl)

/-- `contextSectionType` and `contextCur`, S/BlueprintParser.h:171-173, as far as they are used: the types that can be remembered are
those of a resource and of a group of data structures. -/
inductive Place
  | nowhere
  | data
  | resource (header : Node)

/-- What the loop carries. -/
structure State where
  place : Place := .nowhere
  decls : List Decl := []
  typos : List Bytes := []

/-- Nothing is known of any type. -/
def unknown : Mson.Context := ⟨[], [], [], none⟩

/-- `fillNamedTypeTables`, S/BlueprintParser.h:327-355: what is declared; `name` is empty except for a resource.  The subject that
`parseSignature` takes instead of an empty one: S/SignatureSectionProcessor.h:82-86.  The reports are temporary. -/
def declare (n : Node) (subject name : Bytes) : Except Stop (Option Decl) :=
  match signatureOf typeTraits (if subject = [] then trim (getFirstLine n.text).1 else subject) [] with
  | .error e => .error e
  | .ok (sig, _) =>
    let spec := (Mson.parseTypeDefinition unknown sig.attributes).1.spec
    if name ≠ [] ∧ Mson.checkVariable sig.identifier = true then .ok none
    else .ok (some ⟨if name ≠ [] then name else stripBackticks sig.identifier, spec.name, spec.nested⟩)

/-- S/BlueprintParser.h:178-188: the section that a block begins; an action with its own URI is not a resource here. -/
def sectionOf (n : Node) : SectionType :=
  if recognise.keyword n = .resource ∧ recognise.actionType n = .complete then .action else recognise.keyword n

/-- S/BlueprintParser.h:190-202: the place after the header `n`, before its own section is considered. -/
def entered (n : Node) (p : Place) : Place :=
  if sectionOf n = .resource then .resource n
  else if sectionOf n = .dataStructureGroup then .data
  else match p with
    | .data => .data
    | p => if recognise.actionSectionType n = .action then .nowhere else p

/-- S/BlueprintParser.h:207-209: the headers that do not end the data structures. -/
def dataSections : List SectionType := [.msonSampleDefault, .msonPropertyMembers, .msonValueMembers, .undefined, .dataStructureGroup]

/-- S/BlueprintParser.h:176-229, one pass of the loop, without the check for mistakes. -/
def visit (n : Node) (s : State) : Except Stop State :=
  if n.kind = .header then
    match entered n s.place with
    | .data =>
      if ¬ dataSections.contains (sectionOf n) then .ok { s with place := .nowhere }
      else if sectionOf n = .undefined then
        (declare n n.text []).map fun d => { s with place := .data, decls := s.decls ++ d.toList }
      else .ok { s with place := .data }
    | p => .ok { s with place := p }
  else match s.place with
    | .resource h =>
      if n.kind = .listItem ∧ sectionOf n = .attributes ∧ (namedResource h.text).name ≠ [] then
        (declare n (frontText n) (namedResource h.text).name).map fun d => { s with decls := s.decls ++ d.toList }
      else .ok s
    | _ => .ok s

/-- S/BlueprintParser.h:227-229 and S/ActionParser.h:530-546: headers that are reported. -/
def mistake (n : Node) : Bool := sectionOf n = .undefined && n.kind = .header && typo n.text

/-- S/BlueprintParser.h:176-229, one pass of the loop. -/
def step (n : Node) (s : State) : Except Stop State :=
  (visit n s).map fun t => if mistake n then { t with typos := t.typos ++ [n.text] } else t

/-- S/BlueprintParser.h:165-232, the loop over the blocks from the first nested section on. -/
def lookahead : List Node → State → Except Stop State
  | [], s => .ok s
  | n :: ns, s =>
    match step n s with
    | .error e => .error e
    | .ok t => lookahead ns t

/-- S/BlueprintParser.h:165-232: the declarations of the blocks and the texts of the headers that are reported. -/
def declarations (ns : List Node) : Except Stop (List Decl × List Bytes) := (lookahead ns {}).map fun s => (s.decls, s.typos)

end Verif.Lookahead
