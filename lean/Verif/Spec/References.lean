import Verif.Model.References
import Verif.Spec.Text

/-!
# What a reference to a resource model means

The meaning of a request or response is a matter of the document as a whole: of the text of the
reference and of the model of that name, wherever in the document it is defined.
-/

namespace Verif.Spec.References
open Verif Verif.References

/-! ## The requests and responses of a document, in order -/

def ofExample (x : Example) : List Payload := x.requests ++ x.responses
def ofAction (a : Action) : List Payload := a.examples.flatMap ofExample
def ofResource (r : Resource) : List Payload := r.actions.flatMap ofAction

def ofContent {α β : Type} (f : α → List β) : Content α → List β
  | .resource r => f r
  | .other => []

def ofElement {α β : Type} (f : α → List β) : Element α → List β
  | .category es => es.flatMap (ofContent f)
  | .content c => ofContent f c

/-- All requests and responses of a parsed document. -/
def payloads (es : List (Element Resource)) : List Payload := es.flatMap (ofElement ofResource)

/-- Those of an action as they stand in the document. -/
def actionSources : Section → List Source
  | .model _ => []
  | .action a => a.payloads.map (·.2)

/-- All requests and responses as they stand in the document. -/
def sources (doc : List (Element ResourceSource)) : List Source :=
  doc.flatMap (ofElement fun r => r.sections.flatMap actionSources)

/-- The models of a resource, each with the name of the resource. -/
def sectionModels (resourceName : Bytes) : Section → List (Bytes × Source)
  | .model s => [(resourceName, s)]
  | .action _ => []

/-- All models as they stand in the document, each with the name of its resource. -/
def modelSources (doc : List (Element ResourceSource)) : List (Bytes × Source) :=
  doc.flatMap (ofElement fun r => r.sections.flatMap (sectionModels r.name))

/-- A model is called by the name in its signature, or else by that of its resource. -/
def modelName (m : Bytes × Source) : Bytes := if m.2.own.name = [] then m.1 else m.2.own.name

/-- The headers of the deprecated headers sections of actions. -/
def sectionHeaders : Section → List Header
  | .model _ => []
  | .action a => a.headers

/-- The deprecated headers sections of resources and actions are not used. -/
def NoDeprecatedHeaders (doc : List (Element ResourceSource)) : Prop :=
  doc.flatMap (ofElement fun r => r.headers ++ r.sections.flatMap sectionHeaders) = []

/-! ## The text of a reference -/

/-- The text is `[symbol][]` but for white space around it and around the symbol. -/
def IsReference (text symbol : Bytes) : Prop :=
  ∃ before inner after, text = before ++ (asc '[' :: (inner ++ str "][]")) ++ after ∧
    Blank before ∧ Blank after ∧ inner ≠ [] ∧
    (∀ c ∈ inner, c ∉ [asc '[', asc ']', asc '(', asc ')']) ∧ Trimmed inner symbol

/-! ## The meaning of a request or response -/

/-- `p` is `own` filled in with the model. -/
structure Filled (own model p : Payload) : Prop where
  name : p.name = own.name
  attributes : p.attributes = own.attributes
  description : p.description = model.description
  parameters : p.parameters = model.parameters
  body : p.body = model.body
  schema : p.schema = model.schema
  headers : p.headers = if ∃ h ∈ model.headers, h.1 = str "Content-Type" then model.headers
    else own.headers ++ model.headers

/-- What the request or response `s` has become, given the models by name. -/
def Meaning (models : Bytes → Option Payload) (s : Source) (p : Payload) : Prop :=
  match modelReference s.text with
  | none => p = { s.own with body := s.body }
  | some id =>
    match models id with
    | some m => Filled s.own m p ∧ p.refId = id ∧ p.refState = .resolved
    | none => p = { s.own with refId := id, refState := .unresolved }

/-- Before its text is looked at, no request or response refers to anything. -/
def Fresh (doc : List (Element ResourceSource)) : Prop := ∀ s ∈ sources doc, s.own.refId = []

/-- The payload that a model which is not itself a reference stands for. -/
def modelDefinition (m : Bytes × Source) : Payload :=
  { m.2.own with name := modelName m, body := m.2.body }

/-! ## Examples of an action -/

/-- The requests and responses of an example, requests first. -/
def sides (x : Example) : List (Side × Payload) :=
  x.requests.map (Side.request, ·) ++ x.responses.map (Side.response, ·)

/-- A sequence of requests and responses is cut into examples where a request follows a response,
and nowhere else: no example is empty, every example but the last ends with a response, every
example but the first begins with a request. -/
def Cut (es : List Example) : Prop :=
  (∀ e ∈ es.dropLast, e.responses ≠ []) ∧ ∀ e ∈ es.tail, e.requests ≠ []

end Verif.Spec.References
