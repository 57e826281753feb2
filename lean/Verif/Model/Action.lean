import Verif.Model.Payload
import Verif.Model.Parameters

/-!
# Actions and relations (`ActionParser.h`, `RelationParser.h`)

S = packages/apib-parser/src/snowcrash.

The processor of actions, run by the section parser of `Model/Section.lean`; requests and responses are read by the parser of
`Model/Payload.lean`.  What the parsers of attributes and parameters make of their section is a parameter (`World`); a parameter stands for
itself by its name.  Simplifications: no source maps; a warning is its kind and what its text depends on, without its location.
-/

namespace Verif.Action
open Verif Verif.Text Verif.Regex Verif.Section Verif.Recognition
open Verif.Payload (World one oneSignature)

/-- The warnings of an action. -/
inductive Warning
  /-- of the parsers of its sections, and the defaults of S/SectionProcessor.h:210-233 and S/CodeBlockUtility.h:194-261 -/
  | payload (w : Payload.Warning)
  /-- S/RelationParser.h:46-54 -/
  | relation
  /-- S/ActionParser.h:380-386 -/
  | duplicate (t : SectionType) (name method : Bytes)
  /-- S/ActionParser.h:400-415 -/
  | method (w : Http.MethodWarning)
  /-- S/ActionParser.h:447-455 -/
  | deprecatedHeaders
  /-- S/ActionParser.h:231-244 -/
  | indented (t : SectionType)
  /-- S/ParametersParser.h:158-178 -/
  | notFound (parameter : Bytes)
  /-- S/ActionParser.h:338-344 -/
  | noResponse
  /-- S/ActionParser.h:345-361 -/
  | noResponseFor (request : Bytes)
  deriving DecidableEq, Repr

/-- S/Blueprint.h:270-300 `Action` -/
structure Action where
  method : Bytes := []
  name : Bytes := []
  uri : Bytes := []
  description : Bytes := []
  relation : Bytes := []
  parameters : List Bytes := []
  headers : List References.Header := []
  attributes : Bytes := []
  examples : List References.Example := []
  deriving DecidableEq, Repr

/-- `out.node` and `out.report.warnings`. -/
structure Data where
  action : Action := {}
  warnings : List Warning := []
  deriving DecidableEq, Repr

/-- `warnings.push_back` -/
def Data.warn (d : Data) (ws : List Warning) : Data := { d with warnings := d.warnings ++ ws }

/-! ## Relations -/

/-- S/RelationParser.h:31-62 `processSignature` -/
def relationSignature (n : Node) (pd : PD Data) : Except Stop Data :=
  match relationIdentifier n.text with
  | some i => .ok { pd.data with action := { pd.data.action with relation := i } }
  | none => .ok (pd.data.warn [.relation])

/-- S/RelationParser.h:29-87 `SectionProcessor<Relation>`, with the defaults of S/SectionProcessor.h:128-301. -/
def relationOwn : Own Data where
  signature := oneSignature relationSignature
  isDescription _ _ := false
  description _ i pd := .ok (i, pd)
  isContent _ _ := false
  content _ i pd := .ok (i, pd)
  preprocess _ _ pd := .ok pd
  nestedType _ := .undefined
  nested _ i pd := .ok (.done i () pd)
  entered _ _ _ pd := .ok pd
  isUnexpected n _ := recognise.isUnexpected [] n
  unexpected ns i _ := one (fun n pd => .ok (pd.data.warn [.payload (Payload.ignored n)])) ns i
  finalize _ _ pd := .ok pd

/-! ## Actions -/

/-- S/ActionParser.h:53-89 `processSignature` -/
def actionSignatureNode (n : Node) (pd : PD Data) : Except Stop Data :=
  let s := actionSignature n.text
  let a := pd.data.action
  .ok { pd.data with action :=
    { a with method := s.1.method, name := s.1.name, uri := s.1.uri, description := a.description ++ s.2 } }

/-- S/SectionProcessor.h:150-171 `processDescription` -/
def actionDescription (w : World) (n : Node) (pd : PD Data) : Except Stop Data :=
  let a := pd.data.action
  match (if a.description.isEmpty then some [] else twoNewLines a.description) with
  | none => .error .outOfRange
  | some s => .ok { pd.data with action := { a with description := s ++ trim (Payload.sourceOf w n) } }

/-- The first header of that name (S/BlueprintUtility.h:64-86). -/
def firstHeader (name : Bytes) (hs : List References.Header) : Bytes :=
  match hs.find? (fun h => h.1 == name) with
  | some h => h.2
  | none => []

/-- S/BlueprintUtility.h:57-89 `MatchPayload` -/
def matchPayload (p q : References.Payload) : Bool :=
  p.name == q.name && firstHeader References.contentType p.headers == firstHeader References.contentType q.headers

/-- S/ActionParser.h:425-440 `isPayloadDuplicate` -/
def isDuplicate (t : SectionType) (p : References.Payload) (e : References.Example) : Bool :=
  match t with
  | .request => e.requests.any (matchPayload · p)
  | .response => e.responses.any (matchPayload · p)
  | _ => false

/-- S/ActionParser.h:373-420 `checkPayload` -/
def checkPayload (t : SectionType) (method : Bytes) (p : References.Payload) (e : References.Example) : List Warning :=
  (if isDuplicate t p e then [.duplicate t p.name method] else []) ++
    if t = .response ∨ t = .responseBody then
      match Http.checkMethod method p.name p.body with
      | some w => [.method w]
      | none => []
    else []

/-- S/ActionParser.h:121-130, 151-160: the examples with one that the payload can enter at the end. -/
def openExample (t : SectionType) (es : List References.Example) : List References.Example :=
  match es.getLast? with
  | none => [{}]
  | some e => if (t = .request ∨ t = .requestBody) ∧ e.responses ≠ [] then es ++ [{}] else es

/-- S/ActionParser.h:134, 164: the payload is added to the last example. -/
def push (t : SectionType) (p : References.Payload) (e : References.Example) : References.Example :=
  if t = .request ∨ t = .requestBody then { e with requests := e.requests ++ [p] } else { e with responses := e.responses ++ [p] }

/-- S/ActionParser.h:112-170: a request or a response was read. -/
def addPayload (t : SectionType) (p : References.Payload) (ws : List Payload.Warning) (d : Data) : Data :=
  let es := openExample t d.action.examples
  { action := { d.action with examples := References.onLast (push t p) es }
    warnings := d.warnings ++ ws.map .payload ++ checkPayload t d.action.method p (es.getLast?.getD {}) }

/-- S/ActionParser.h:91-190 `processNestedSection` -/
def actionNestedSection (w : World) (ns : List Node) (i : Nat) (pd : PD Data) : Except Stop (Reply Data Unit) :=
  match ns[i]? with
  | none => .error .outOfRange
  | some n =>
    match pd.top with
    | .relation => .ok (.enter .relation pd)
    | .parameters =>
      let r := w.parameters n pd.data.action.parameters
      .ok (.done (i + 1) () (pd.set
        ⟨{ pd.data.action with parameters := r.1 }, pd.data.warnings ++ r.2.map .payload⟩))
    | .attributes =>
      let r := w.attributes n pd.data.action.attributes
      .ok (.done (i + 1) () (pd.set
        ⟨{ pd.data.action with attributes := r.1 }, pd.data.warnings ++ r.2.map .payload⟩))
    | .headers =>
      match (Payload.payloadChild w .headers).parse ns i ⟨pd.context, ⟨{ headers := pd.data.action.headers }, []⟩⟩ with
      | .error e => .error e
      | .ok (j, r) => .ok (.done j () (pd.set ⟨{ pd.data.action with headers := r.data.payload.headers },
          pd.data.warnings ++ r.data.warnings.map .payload ++ [.deprecatedHeaders]⟩))
    | .request | .requestBody | .response | .responseBody =>
      match Payload.parsePayload w pd.top pd.context.tail ns i with
      | .error e => .error e
      | .ok (j, r) => .ok (.done j () (pd.set (addPayload pd.top r.data.payload r.data.warnings pd.data)))
    | _ => .ok (.done i () pd)

/-- The body of the last payload is continued (`.back().body`). -/
def continueLast (c : Bytes) (ps : List References.Payload) : List References.Payload :=
  match ps.getLast? with
  | none => ps
  | some p => ps.dropLast ++ [{ p with body := p.body ++ c }]

/-- The body of the last response of the last example is continued. -/
def continueResponse (c : Bytes) (e : References.Example) : References.Example := { e with responses := continueLast c e.responses }

/-- The body of the last request of the last example is continued. -/
def continueRequest (c : Bytes) (e : References.Example) : References.Example := { e with requests := continueLast c e.requests }

/-- S/CodeBlockUtility.h:194-231 `addDanglingAsset`: what is added to the body and the warnings. -/
def dangling (w : World) (last context : SectionType) (n : Node) : Except Stop (Bytes × List Payload.Warning) :=
  match twoNewLines (if n.kind = .code then n.text else Payload.sourceOf w n) with
  | none => .error .outOfRange
  | some asset =>
    let level := if n.kind = .code then Payload.codeBlockLevel last - 1 else Payload.codeBlockLevel last
    .ok (asset, Payload.possibleReference context n ++ if level = 0 then [] else [.dangling level])

/-- S/ActionParser.h:192-250 `processUnexpectedNode` -/
def actionUnexpected (w : World) (last : SectionType) (n : Node) (pd : PD Data) : Except Stop Data :=
  let a := pd.data.action
  let text := n.kind = .paragraph ∨ n.kind = .code
  if text ∧ (last = .responseBody ∨ last = .response) ∧ (a.examples.getLast?.any fun e => !e.responses.isEmpty) then
    match dangling w last pd.top n with
    | .error e => .error e
    | .ok (c, ws) => 
      .ok ⟨{ a with examples := References.onLast (continueResponse c) a.examples }, pd.data.warnings ++ ws.map .payload⟩
  else if text ∧ (last = .requestBody ∨ last = .request) ∧ (a.examples.getLast?.any fun e => !e.requests.isEmpty) then
    match dangling w last pd.top n with
    | .error e => .error e
    | .ok (c, ws) => 
      .ok ⟨{ a with examples := References.onLast (continueRequest c) a.examples }, pd.data.warnings ++ ws.map .payload⟩
  else if recognise.assetType n ≠ .undefined then .ok (pd.data.warn [.indented (recognise.assetType n)])
  else .ok (pd.data.warn [.payload (Payload.ignored n)])

/-- S/ActionParser.h:315-318 `upperSectionTypes` -/
def actionUpper : List SectionType := [.action, .resource, .resourceGroup, .dataStructureGroup]

/-- S/ParametersParser.h:197-235 `checkParametersEligibility` -/
def eligibility (uri : Bytes) (ps : List Bytes) : List Warning :=
  (ps.filter fun p => !(Parameters.variableNames uri).contains p).map .notFound

/-- S/ActionParser.h:338-361: what is missing. -/
def missing (es : List References.Example) : List Warning :=
  match es.getLast? with
  | none => [.noResponse]
  | some e =>
    match e.requests.getLast? with
    | none => []
    | some r => if e.responses.isEmpty then [.noResponseFor r.name] else []

/-- S/ActionParser.h:320-362 `finalize` -/
def actionFinalize (d : Data) : Data :=
  let a := d.action
  let a' := if !a.headers.isEmpty
    then { a with examples := References.injectHeaders a.headers a.examples, headers := [] } else a
  { action := a'
    warnings := d.warnings ++ (if !a.uri.isEmpty then eligibility a.uri a.parameters else []) ++ missing a'.examples }

/-- S/ActionParser.h:51-362 `SectionProcessor<Action>`. -/
def actionOwn (w : World) : Own Data where
  signature := oneSignature actionSignatureNode
  isDescription n _ := recognise.isDescription recognise.actionNested actionUpper n
  description := one (actionDescription w)
  isContent _ _ := false
  content _ i pd := .ok (i, pd)
  preprocess _ _ pd := .ok pd
  nestedType := recognise.actionNested
  nested := actionNestedSection w
  entered _ _ _ pd := .ok pd
  isUnexpected n _ := if recognise.assetType n ≠ .undefined then true else recognise.isUnexpected actionUpper n
  unexpected ns i last := one (actionUnexpected w last) ns i
  finalize _ _ pd := .ok (pd.set (actionFinalize pd.data))

/-- The parsers an action calls by way of the section parser. -/
def actionChild : SectionType → Grammar Data
  | .relation => .mk relationOwn .list fun _ => .absent
  | _ => .absent

/-- `ActionParser`, S/ActionParser.h:550 -/
def actionGrammar (w : World) : Grammar Data := .mk (actionOwn w) .header actionChild

/-- `ActionParser::parse` with a new action (S/ResourceParser.h:338-339, 359-360), inside of the sections `context`. -/
def parseAction (w : World) (context : List SectionType) (siblings : List Node) (i : Nat) : Except Stop (Nat × PD Data) :=
  (actionGrammar w).parse siblings i ⟨context, {}⟩

end Verif.Action
