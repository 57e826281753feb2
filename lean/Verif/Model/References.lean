import Verif.Model.Text

/-!
# Resource models and references to them

S = packages/apib-parser/src/snowcrash: `ModelTable.h`, `PayloadParser.h`, `ActionParser.h`,
`ResourceParser.h`, `HeadersParser.h`, `BlueprintParser.h`.

The model begins after the Markdown blocks have been cut into sections: a document is a list of
resources (in groups or not), a resource a list of model and action sections, an action a list of
requests and responses.  Warnings and source maps are left out.
-/

namespace Verif.References
open Verif

/-- S/Blueprint.h:152-157 `Reference::State`. -/
inductive State | unresolved | pending | resolved
  deriving DecidableEq, Repr

abbrev Header := Bytes × Bytes

/-- S/Blueprint.h:206-240 `Payload` (request, response or model).  Parameters and attributes are
only copied or kept, so that their text stands for them. -/
structure Payload where
  name : Bytes := []
  description : Bytes := []
  parameters : List Bytes := []
  headers : List Header := []
  attributes : Bytes := []
  body : Bytes := []
  schema : Bytes := []
  refId : Bytes := []
  refState : State := .unresolved
  deriving DecidableEq, Repr

/-- `std::map<Identifier, ResourceModel>`, S/ModelTable.h:31; entries are never replaced, so that an
association list with the first definition in front of any other does. -/
abbrev Table := List (Bytes × Payload)

/-- `find` -/
def Table.find (t : Table) (id : Bytes) : Option Payload := t.lookup id

/-- `report.error` with code `ModelError`: why. -/
inductive ModelError
  | undefinedModel (id : Bytes)
  | alreadyDefined (id : Bytes)
  | unnamed
  deriving DecidableEq, Repr

/-- `[[:blank:]]` -/
def blank (c : UInt8) : Bool := c == asc ' ' || c == asc '\t'

/-- A character of `SYMBOL_IDENTIFIER`, S/ModelTable.h:23. -/
def symbolChar (c : UInt8) : Bool :=
  !(c == asc '[' || c == asc ']' || c == asc '(' || c == asc ')')

/-- `TrimString(source)` and `GetModelReference`, S/PayloadParser.h:517-519, S/ModelTable.h:38-49:
`^[[:blank:]]*\[([^][()]+)]\[][[:blank:]]*$`; the expression sees the text up to the first NUL. -/
def modelReference (source : Bytes) : Option Bytes :=
  let s := (((Text.trim source).takeWhile (· ≠ 0)).dropWhile blank).reverse.dropWhile blank |>.reverse
  let inner := (s.drop 1).take (s.length - 4)
  if s == asc '[' :: (inner ++ str "][]") && !inner.isEmpty && inner.all symbolChar then
    some (Text.trim inner)
  else none

/-- `HTTPHeaderName::ContentType` -/
def contentType : Bytes := str "Content-Type"

/-- S/PayloadParser.h:552-607 `assingReferredPayload`. -/
def assignReferred (model p : Payload) : Payload :=
  let isPayloadContentType := !p.headers.isEmpty
  let isModelContentType := model.headers.any fun h => h.1 == contentType
  { p with
    description := model.description
    parameters := model.parameters
    headers := if isPayloadContentType && !isModelContentType then p.headers ++ model.headers
      else model.headers
    body := model.body
    schema := model.schema }

/-- S/PayloadParser.h:509-545 `parseModelReference`, after the text was found to be a reference. -/
def refer (t : Table) (symbol : Bytes) (p : Payload) : Payload :=
  match t.find symbol with
  | none => { p with refId := symbol, refState := .pending }
  | some m => assignReferred m { p with refId := symbol, refState := .resolved }

/-- A request, response or model as it stands in the document: what its signature and nested
sections say (`own`), the text that may be a reference, and what the body is if it is not one. -/
structure Source where
  own : Payload
  text : Bytes := []
  body : Bytes := []

/-- S/PayloadParser.h:75-90, 107-141: the payload that `PayloadParser::parse` gives.  Simplification:
one block of content; any after a reference is ignored with a warning. -/
def parsePayload (t : Table) (s : Source) : Payload :=
  match modelReference s.text with
  | none => { s.own with body := s.body }
  | some symbol => refer t symbol s.own

/-! ## Actions -/

/-- S/Blueprint.h:248-261 `TransactionExample` -/
structure Example where
  requests : List Payload := []
  responses : List Payload := []
  deriving DecidableEq, Repr

inductive Side | request | response
  deriving DecidableEq, Repr

/-- A change of `examples.back()`. -/
def onLast (f : Example → Example) : List Example → List Example
  | [] => []
  | [e] => [f e]
  | e :: e' :: es => e :: onLast f (e' :: es)

/-- S/ActionParser.h:118-140, 148-164: the request or response enters the examples. -/
def addPayload (side : Side) (p : Payload) (es : List Example) : List Example :=
  match side with
  | .request =>
    let es := match es.getLast? with
      | none => es ++ [{}]
      | some e => if !e.responses.isEmpty then es ++ [{}] else es
    onLast (fun e => { e with requests := e.requests ++ [p] }) es
  | .response =>
    let es := if es.isEmpty then es ++ [{}] else es
    onLast (fun e => { e with responses := e.responses ++ [p] }) es

/-- An action in the document: the deprecated headers section and the requests and responses. -/
structure ActionSource where
  headers : List Header := []
  payloads : List (Side × Source)

/-- S/HeadersParser.h:309-371 `injectDeprecatedHeaders` -/
def injectHeaders (headers : List Header) (es : List Example) : List Example :=
  let inject (p : Payload) : Payload := { p with headers := headers ++ p.headers }
  es.map fun e => { requests := e.requests.map inject, responses := e.responses.map inject }

/-- S/Blueprint.h:270-300 `Action`: the part of it that matters here. -/
structure Action where
  examples : List Example
  deriving DecidableEq, Repr

/-- S/ActionParser.h:91-169, 320-345: the action, from its payloads to `finalize`. -/
def parseAction (t : Table) (a : ActionSource) : Action :=
  let es := a.payloads.foldl (fun es sp => addPayload sp.1 (parsePayload t sp.2) es) []
  { examples := if !a.headers.isEmpty then injectHeaders a.headers es else es }

/-! ## Resources -/

/-- A model or an action of a resource. -/
inductive Section
  | model (s : Source)
  | action (a : ActionSource)

/-- A resource in the document. -/
structure ResourceSource where
  name : Bytes := []
  headers : List Header := []
  sections : List Section

/-- What the parser remembers: the table of models and the error reported last. -/
structure Memory where
  table : Table := []
  error : Option ModelError := none

/-- S/Blueprint.h:310-340 `Resource`: the part of it that matters here. -/
structure Resource where
  actions : List Action
  deriving DecidableEq, Repr

/-- S/ResourceParser.h:437-466: the payload of a model, named after its resource if it has no name of
its own.  Simplification: text after the model that continues its body
(S/ResourceParser.h:157-185) is part of the model's source. -/
def modelPayload (resourceName : Bytes) (t : Table) (s : Source) : Payload :=
  let p := parsePayload t s
  if p.name.isEmpty && !resourceName.isEmpty then { p with name := resourceName } else p

/-- S/ResourceParser.h:431-509 `processModel`. -/
def processModel (resourceName : Bytes) (s : Source) (m : Memory) : Memory :=
  let p := modelPayload resourceName m.table s
  let error := if p.name.isEmpty then some .unnamed else m.error
  match m.table.find p.name with
  | none => { table := m.table ++ [(p.name, p)], error := error }
  | some _ => { table := m.table, error := some (.alreadyDefined p.name) }

/-- S/ResourceParser.h:83-100: the nested sections of a resource, in order. -/
def parseSections (resourceName : Bytes) : List Section → Memory → List Action × Memory
  | [], m => ([], m)
  | .model s :: ss, m => parseSections resourceName ss (processModel resourceName s m)
  | .action a :: ss, m =>
    let r := parseSections resourceName ss m
    (parseAction m.table a :: r.1, r.2)

/-- `ResourceParser`, S/ResourceParser.h:288-306 for the deprecated headers. -/
def parseResource (r : ResourceSource) (m : Memory) : Resource × Memory :=
  let x := parseSections r.name r.sections m
  ({ actions := if !r.headers.isEmpty then
      x.1.map fun a => { examples := injectHeaders r.headers a.examples } else x.1 }, x.2)

/-! ## The document -/

/-- An element of a category, or of the document: a resource or something else (copy, data
structure). -/
inductive Content (α : Type)
  | resource (r : α)
  | other

/-- An element of the document: a category with its elements, or such an element. -/
inductive Element (α : Type)
  | category (es : List (Content α))
  | content (c : Content α)

/-- A pass over a list, one after the other. -/
def thread {α β μ : Type} (f : α → μ → β × μ) : List α → μ → List β × μ
  | [], m => ([], m)
  | a :: as, m =>
    let x := f a m
    let r := thread f as x.2
    (x.1 :: r.1, r.2)

/-- A pass over an element of a category. -/
def Content.through {α β μ : Type} (f : α → μ → β × μ) : Content α → μ → Content β × μ
  | .resource r, m => ((.resource (f r m).1), (f r m).2)
  | .other, m => (.other, m)

/-- A pass over an element of the document. -/
def Element.through {α β μ : Type} (f : α → μ → β × μ) : Element α → μ → Element β × μ
  | .category es, m => (.category (thread (Content.through f) es m).1,
      (thread (Content.through f) es m).2)
  | .content c, m => (.content (Content.through f c m).1, (Content.through f c m).2)

/-- The document is read from its first to its last resource. -/
def parseElements (doc : List (Element ResourceSource)) : List (Element Resource) × Memory :=
  thread (Element.through parseResource) doc {}

/-! ## References that could not be resolved at once -/

/-- S/BlueprintParser.h:754, 793, and 819-839 `resolvePendingModels`. -/
def resolvePayload (t : Table) (p : Payload) (e : Option ModelError) : Payload × Option ModelError :=
  if !p.refId.isEmpty && p.refState == .pending then
    match t.find p.refId with
    | none => ({ p with refState := .unresolved }, some (.undefinedModel p.refId))
    | some m => (assignReferred m { p with refState := .resolved }, e)
  else (p, e)

/-- S/BlueprintParser.h:712-735 `checkExampleLazyReferencing`, one example. -/
def resolveExample (t : Table) (x : Example) (e : Option ModelError) :
    Example × Option ModelError :=
  let requests := thread (resolvePayload t) x.requests e
  let responses := thread (resolvePayload t) x.responses requests.2
  ({ requests := requests.1, responses := responses.1 }, responses.2)

/-- S/BlueprintParser.h:712-735 -/
def resolveAction (t : Table) (a : Action) (e : Option ModelError) : Action × Option ModelError :=
  let r := thread (resolveExample t) a.examples e
  ({ examples := r.1 }, r.2)

/-- S/BlueprintParser.h:688-709 `checkActionLazyReferencing` -/
def resolveResource (t : Table) (r : Resource) (e : Option ModelError) :
    Resource × Option ModelError :=
  let x := thread (resolveAction t) r.actions e
  ({ actions := x.1 }, x.2)

/-- S/BlueprintParser.h:625-685 `checkLazyReferencing`, `checkResourceLazyReferencing`. -/
def resolveElements (t : Table) (es : List (Element Resource)) (e : Option ModelError) :
    List (Element Resource) × Option ModelError :=
  thread (Element.through (resolveResource t)) es e

/-- What is known when the document has been parsed. -/
structure Parsed where
  elements : List (Element Resource)
  table : Table
  error : Option ModelError

/-- `BlueprintParser::parse` up to and with `finalize` (S/BlueprintParser.h:280-286). -/
def parse (doc : List (Element ResourceSource)) : Parsed :=
  let x := parseElements doc
  let r := resolveElements x.2.table x.1 x.2.error
  { elements := r.1, table := x.2.table, error := r.2 }

end Verif.References
