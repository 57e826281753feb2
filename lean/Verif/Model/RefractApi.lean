import Verif.Model.Api
import Verif.Model.JsonValue
import Verif.Model.JsonSchema
import Verif.Model.MediaType
/-!
# Conversion of the blueprint to API Elements: packages/drafter/src/RefractAPI.cc, packages/drafter/src/Render.cc

`RA` below is packages/drafter/src/RefractAPI.cc, `BP` is packages/apib-parser/src/snowcrash/Blueprint.h.

Simplifications: source maps are left out (the result is the one without the `sourceMap` attributes, which are only ever added;
see C19).  The type `δ` of data structures, their conversion (`MSONToRefract`) and their expansion (`ExpandRefract`) are parameters,
which may fail; the context they update (warnings) is not modelled.  `NodeInfo` without a node is `none`.
-/
namespace Verif.RefractApi
open Verif Verif.Refract

/-- Why a conversion ends without a result: a fault of the code modelled, or an exception of the code that is not. -/
inductive Stop where
  | fault (f : Fault)
  | thrown (t : Api.Thrown)
deriving DecidableEq

abbrev R (α : Type) := Except Stop α

def ofFault {α : Type} : Except Fault α → R α
  | .ok a => .ok a
  | .error f => .error (.fault f)

/-- `ParameterUse`, BP:106-111. -/
inductive Use where
  | undefined | optional | required
deriving DecidableEq, Repr

/-- `Parameter`, BP:114-136. -/
structure Parameter where
  name : Bytes := []
  description : Bytes := []
  type : Bytes := []
  use : Use := .undefined
  defaultValue : Bytes := []
  exampleValue : Bytes := []
  values : List Bytes := []
deriving DecidableEq, Repr

/-- `Payload`, BP:206-231, without the reference. -/
structure Payload (δ : Type) where
  name : Bytes := []
  description : Bytes := []
  parameters : List Parameter := []
  headers : List (Bytes × Bytes) := []
  attributes : δ
  body : Bytes := []
  schema : Bytes := []

/-- `TransactionExample`, BP:256-269. -/
structure Example (δ : Type) where
  name : Bytes := []
  description : Bytes := []
  requests : List (Payload δ) := []
  responses : List (Payload δ) := []

/-- `Action`, BP:286-314. -/
structure Action (δ : Type) where
  method : Bytes := []
  name : Bytes := []
  description : Bytes := []
  parameters : List Parameter := []
  attributes : δ
  uriTemplate : Bytes := []
  relation : Bytes := []
  headers : List (Bytes × Bytes) := []
  examples : List (Example δ) := []

/-- `Resource`, BP:322-347, without the model. -/
structure Resource (δ : Type) where
  uriTemplate : Bytes := []
  name : Bytes := []
  description : Bytes := []
  attributes : δ
  parameters : List Parameter := []
  headers : List (Bytes × Bytes) := []
  actions : List (Action δ) := []

/-- `Element::Category`, BP:412-417. -/
inductive Category where
  | undefined | resourceGroup | dataStructureGroup
deriving DecidableEq, Repr

/-- `Element`, BP:359-442: the content that its class says; `other` are the classes that are not converted. -/
inductive Element (δ : Type) where
  | copy (text : Bytes)
  | resource (r : Resource δ)
  | dataStructure (d : δ)
  | category (c : Category) (name : Bytes) (elements : List (Element δ))
  | other

/-- `Blueprint`, BP:462-472. -/
structure Blueprint (δ : Type) where
  name : Bytes := []
  description : Bytes := []
  metadata : List (Bytes × Bytes) := []
  elements : List (Element δ) := []

/-- The context and the code that is not modelled. -/
structure Env (δ : Type) where
  /-- `NamedType::empty` -/
  isEmpty : δ → Bool
  /-- `MSONToRefract`, RefractDataStructure.cc:1301-1327 -/
  mson : δ → R (Option Elem)
  /-- `ExpandRefract`, RefractDataStructure.cc:1329-1343 -/
  expand : Elem → R Elem
  /-- `ConversionContext::expandMson` -/
  expandMson : Bool := false
  /-- `ConversionContext::options` -/
  options : Option Api.ParseOptions := none

/-! ## Helpers -/

/-- `from_primitive` of a string, Element.h:181. -/
def strE (s : Bytes) : Elem := makeElement (.string s)
/-- `attributes().set(key, value)`. -/
def setAttr (k : Bytes) (v e : Elem) : Elem := e.setAttributes (Infos.set e.attributes k v)
/-- `meta().set(key, value)`. -/
def setMeta (k : Bytes) (v e : Elem) : Elem := e.setMetas (Infos.set e.metas k v)
/-- `make_element<ArrayElement>(from_primitive(klass))`. -/
def classes (klass : Bytes) : Elem := makeElement (.array [strE klass])
/-- An array element with a name. -/
def arrayE (name : Bytes) (l : List Elem) : Elem := (makeElement (.array l)).setName name

/-- `HolderElement(SerializeKey::DataStructure, dsd::Holder(ds))`, RA:122 and 312-315. -/
def dataStructureE (ds : Elem) : Elem := .mk (str "dataStructure") [] [] true (.holder (some ds))

/-- `DataStructureToRefract`, RA:108-125. -/
def dataStructureToRefract {δ} (env : Env δ) (d : δ) : R (Option Elem) :=
  (env.mson d).bind fun m =>
    match m with
    | none => .ok none
    | some e =>
      if env.expandMson then (env.expand e).bind fun e => .ok (some (dataStructureE e))
      else .ok (some (dataStructureE e))

/-- `MetadataToRefract`, RA:127-141. -/
def metadataToRefract (m : Bytes × Bytes) : Elem :=
  setMeta (str "classes") (classes (str "user")) (makeElement (.member (some (strE m.1)) (some (strE m.2))))

/-- `CopyToRefract`, RA:143-153; a null pointer is `none`. -/
def copyToRefract (s : Bytes) : Option Elem := if s.isEmpty then none else some ((strE s).setName (str "copy"))

/-- `LiteralToRefract`, RefractSourceMap.cc:58-70, with `LiteralTo<dsd::String>`, Serialize.cc:155-158. -/
def literalToRefract (s : Bytes) : Elem := if s.isEmpty then makeEmpty .string else strE s

/-- `ParameterValuesToRefract`, RA:155-174. -/
def parameterValues (p : Parameter) : Elem :=
  let e := if p.exampleValue.isEmpty then makeEmpty .enum else makeElement (.enum (some (literalToRefract p.exampleValue)))
  let e := if p.defaultValue.isEmpty then e else setAttr (str "default") (makeElement (.enum (some (literalToRefract p.defaultValue)))) e
  setAttr (str "enumerations") (makeElement (.array (p.values.map literalToRefract))) e

/-- `ExtractParameter`, RA:177-195. -/
def extractParameter (p : Parameter) : Elem :=
  if p.values.isEmpty then
    let e := if p.exampleValue.isEmpty then makeEmpty .string else literalToRefract p.exampleValue
    if p.defaultValue.isEmpty then e else setAttr (str "default") (strE p.defaultValue) e
  else parameterValues p

/-- `ParameterToRefract`, RA:197-225. -/
def parameterToRefract (p : Parameter) : Elem :=
  let e := makeElement (.member (some (strE p.name)) (some (extractParameter p)))
  let e := if p.description.isEmpty then e else setMeta (str "description") (strE p.description) e
  let e := if p.type.isEmpty then e else setMeta (str "title") (strE p.type) e
  setAttr (str "typeAttributes") (makeElement (.array [strE (if p.use = .optional then str "optional" else str "required")])) e

/-- `ParametersToRefract`, RA:227-231, with `CollectionToRefract`, RA:79-100. -/
def parametersToRefract (ps : List Parameter) : Elem :=
  (makeElement (.object (ps.map parameterToRefract))).setName (str "hrefVariables")

/-- `HeaderToRefract`, RA:233-240. -/
def headerToRefract (h : Bytes × Bytes) : Elem := makeElement (.member (some (strE h.1)) (some (strE h.2)))

/-- `make_asset_element`, RA:244-267. -/
def assetE (content klass contentType : Bytes) : Elem :=
  let e : Elem := .mk (str "asset") [] [] true (.string content)
  let e := if klass.isEmpty then e else setMeta (str "classes") (classes klass) e
  if contentType.isEmpty then e else setAttr (str "contentType") (strE contentType) e

/-- `jsonSchemaType`, RA:274-277. -/
def jsonSchemaType : MediaType.MediaType := { type := str "application", subtype := str "schema", suffix := str "json" }
/-- `textPlainType`, RA:279-282. -/
def textPlainType : MediaType.MediaType := { type := str "text", subtype := str "plain" }

/-- `getContentTypeFromHeaders`, Render.cc:47-60. -/
def contentTypeOf (headers : List (Bytes × Bytes)) : Bytes :=
  match headers.find? fun h => h.1 = str "Content-Type" with
  | some h => h.2
  | none => []

/-- `generateValueAsset`, RA:284-296. -/
def generateValueAsset (expanded : Elem) (t : MediaType.MediaType) : R (List Elem) :=
  if MediaType.isJSON t then
    (ofFault (JsonValue.generateJsonValue expanded)).bind fun v =>
      .ok [assetE (Json.serializeJson false v) (str "messageBody") (MediaType.print t)]
  else .ok []

/-- `generateSchemaAsset`, RA:298-310. -/
def generateSchemaAsset (expanded : Elem) (t : MediaType.MediaType) : R (List Elem) :=
  if MediaType.isJSON t then
    (ofFault (JsonSchema.generateJsonSchema expanded)).bind fun v =>
      .ok [assetE (Json.serializeJson false v) (str "messageBodySchema") (MediaType.print jsonSchemaType)]
  else .ok []

/-- `isRequest`, RA:102-105. -/
def isRequest {δ} (action : Option (Action δ)) : Bool :=
  match action with
  | none => false
  | some a => !a.method.isEmpty

/-! ## Payloads -/

/-- The first part of `PayloadToRefract`, RA:327-363: the element without content. -/
def payloadHead {δ} (payload : Option (Payload δ)) (action : Option (Action δ)) : Elem :=
  let e : Elem :=
    match action with
    | some a =>
      if isRequest (some a) then
        let e := setAttr (str "method") (strE a.method) (arrayE (str "httpRequest") [])
        match payload with
        | some p => if p.name.isEmpty then e else setMeta (str "title") (strE p.name) e
        | none => e
      else
        match payload with
        | some p => setAttr (str "statusCode") (strE p.name) (arrayE (str "httpResponse") [])
        | none => arrayE (str "httpResponse") []
    | none =>
      match payload with
      | some p => setAttr (str "statusCode") (strE p.name) (arrayE (str "httpResponse") [])
      | none => arrayE (str "httpResponse") []
  match payload with
  | none => e
  | some p =>
    let e := if p.parameters.isEmpty then e else setAttr (str "hrefVariables") (parametersToRefract p.parameters) e
    if p.headers.isEmpty then e else setAttr (str "headers") (arrayE (str "httpHeaders") (p.headers.map headerToRefract)) e

/-- RA:370-372: the converted attributes of the payload. -/
def payloadStructure {δ} (env : Env δ) (p : Payload δ) : R (Option Elem) :=
  if env.isEmpty p.attributes then .ok none else env.mson p.attributes

/-- RA:375-383: the data structure pushed. -/
def pushedStructure {δ} (env : Env δ) (ds : Option Elem) : R (List Elem) :=
  match ds with
  | none => .ok []
  | some e =>
    if env.expandMson then (env.expand (cloneAll e)).bind fun e => .ok [dataStructureE e]
    else .ok [dataStructureE (cloneAll e)]

/-- RA:390-393: the expanded data structure that a body or a schema is generated from. -/
def generationStructure {δ} (env : Env δ) (ds : Option Elem) (action : Option (Action δ)) : R (Option Elem) :=
  let fromAction : R (Option Elem) :=
    match ds, action with
    | some e, _ => .ok (some e)
    | none, some a => if env.isEmpty a.attributes then .ok none else env.mson a.attributes
    | none, none => .ok none
  fromAction.bind fun ds =>
    match ds with
    | none => .ok none
    | some e => (env.expand e).bind fun e => .ok (some e)

/-- RA:395-406. -/
def bodyAssets {δ} (env : Env δ) (p : Payload δ) (t : MediaType.MediaType) (expanded : Option Elem) : R (List Elem) :=
  if p.body.isEmpty then
    match expanded with
    | some e => if Api.isSkipBodies env.options then .ok [] else generateValueAsset e t
    | none => .ok []
  else .ok [assetE p.body (str "messageBody") (MediaType.print t)]

/-- RA:408-419. -/
def schemaAssets {δ} (env : Env δ) (p : Payload δ) (t : MediaType.MediaType) (expanded : Option Elem) : R (List Elem) :=
  if p.schema.isEmpty then
    match expanded with
    | some e => if Api.isSkipSchemas env.options then .ok [] else generateSchemaAsset e t
    | none => .ok []
  else .ok [assetE p.schema (str "messageBodySchema") (MediaType.print (if MediaType.isJSON t then jsonSchemaType else textPlainType))]

/-- `PayloadToRefract`, RA:319-422. -/
def payloadToRefract {δ} (env : Env δ) (payload : Option (Payload δ)) (action : Option (Action δ)) : R Elem :=
  match payload with
  | none => .ok (payloadHead none action)
  | some p =>
    let t := MediaType.parseMediaType (contentTypeOf p.headers)
    (payloadStructure env p).bind fun ds =>
    (pushedStructure env ds).bind fun pushed =>
    (generationStructure env ds action).bind fun expanded =>
    (bodyAssets env p t expanded).bind fun body =>
    (schemaAssets env p t expanded).bind fun schema =>
    .ok ((payloadHead (some p) action).setData (.array ((copyToRefract p.description).toList ++ pushed ++ body ++ schema)))

/-! ## Transactions, actions, resources -/

/-- `TransactionToRefract`, RA:424-443.  Nothing pushed is null. -/
def transactionToRefract {δ} (env : Env δ) (example_ : Example δ) (action : Option (Action δ)) (request response : Option (Payload δ)) : R Elem :=
  (payloadToRefract env request action).bind fun q =>
  (payloadToRefract env response none).bind fun r =>
  .ok (arrayE (str "httpTransaction") ((copyToRefract example_.description).toList ++ [q, r]))

/-- `f` on each element in order, until it fails: a loop that pushes to the back. -/
def mapR {α β : Type} (f : α → R β) : List α → R (List β)
  | [] => .ok []
  | a :: l => (f a).bind fun b => (mapR f l).bind fun bs => .ok (b :: bs)

/-- The loop body at RA:481-513: the transactions of an example. -/
def exampleTransactions {δ} (env : Env δ) (action : Action δ) (x : Example δ) : R (List Elem) :=
  (if x.requests.isEmpty && !x.responses.isEmpty then
    mapR (fun r => transactionToRefract env x (some action) none (some r)) x.responses
  else .ok []).bind fun alone =>
  (mapR (fun q =>
    (if x.responses.isEmpty then (transactionToRefract env x (some action) (some q) none).bind fun t => .ok [t] else .ok []).bind fun single =>
    (mapR (fun r => transactionToRefract env x (some action) (some q) (some r)) x.responses).bind fun ts => .ok (single ++ ts)) x.requests).bind fun l =>
  .ok (alone ++ l.flatten)

/-- `ActionToRefract`, RA:445-518.  `DataStructureToRefract` gives null only for an empty data structure, for which it is not called; the
    `none` case of the model is not reached in the code. -/
def actionToRefract {δ} (env : Env δ) (a : Action δ) : R Elem :=
  let e := setMeta (str "title") (strE a.name) (arrayE (str "transition") [])
  let e := if a.relation.isEmpty then e else setAttr (str "relation") (strE a.relation) e
  let e := if a.uriTemplate.isEmpty then e else setAttr (str "href") (strE a.uriTemplate) e
  let e := if a.parameters.isEmpty then e else setAttr (str "hrefVariables") (parametersToRefract a.parameters) e
  (if env.isEmpty a.attributes then .ok e
   else (dataStructureToRefract env a.attributes).bind fun d =>
    match d with
    | some d => .ok (setAttr (str "data") d e)
    | none => .ok e).bind fun e =>
  (mapR (exampleTransactions env a) a.examples).bind fun l =>
  .ok (e.setData (.array ((copyToRefract a.description).toList ++ l.flatten)))

/-- `ResourceToRefract`, RA:520-548. -/
def resourceToRefract {δ} (env : Env δ) (r : Resource δ) : R Elem :=
  let e := setAttr (str "href") (strE r.uriTemplate) (setMeta (str "title") (strE r.name) (arrayE (str "resource") []))
  let e := if r.parameters.isEmpty then e else setAttr (str "hrefVariables") (parametersToRefract r.parameters) e
  (if env.isEmpty r.attributes then .ok none else dataStructureToRefract env r.attributes).bind fun d =>
  (mapR (actionToRefract env) r.actions).bind fun l =>
  .ok (e.setData (.array ((copyToRefract r.description).toList ++ d.toList ++ l)))

/-! ## Blueprint -/

mutual
/-- `ElementToRefract`, RA:586-604, with `CategoryToRefract`, RA:557-584; null pointers, which are removed (RA:581), are `none`. -/
def elementToRefract {δ} (env : Env δ) : Element δ → R (Option Elem)
  | .copy s => .ok (copyToRefract s)
  | .resource r => (resourceToRefract env r).bind fun e => .ok (some e)
  | .dataStructure d => dataStructureToRefract env d
  | .category c name es =>
    (elementsToRefract env es).bind fun l =>
      let e := arrayE (str "category") l
      .ok (some (match c with
        | .resourceGroup => setMeta (str "title") (strE name) (setMeta (str "classes") (classes (str "resourceGroup")) e)
        | .dataStructureGroup => setMeta (str "classes") (classes (str "dataStructures")) e
        | .undefined => e))
  | .other => .error (.thrown (.error ⟨[], 1, str "unknown type of api description element"⟩))
termination_by structural e => e
/-- The elements of a category or of the blueprint without the null pointers, RA:64-76 and 58-62. -/
def elementsToRefract {δ} (env : Env δ) : List (Element δ) → R (List Elem)
  | [] => .ok []
  | x :: l => (elementToRefract env x).bind fun e => (elementsToRefract env l).bind fun es => .ok (e.toList ++ es)
termination_by structural l => l
end

/-- `BlueprintToRefract`, RA:606-631. -/
def blueprintToRefract {δ} (env : Env δ) (b : Blueprint δ) : R Elem :=
  let e := setMeta (str "title") (strE b.name) (setMeta (str "classes") (classes (str "api")) (arrayE (str "category") []))
  let e := if b.metadata.isEmpty then e else setAttr (str "metadata") (makeElement (.array (b.metadata.map metadataToRefract))) e
  (elementsToRefract env b.elements).bind fun l =>
  .ok (e.setData (.array ((copyToRefract b.description).toList ++ l)))

end Verif.RefractApi
