import Verif.Model.RefractApi
import Mathlib.Data.List.Forall2
/-!
# Transactions and message bodies (specification)
-/
namespace Verif.Spec
open Verif Verif.Refract Verif.RefractApi

/-- What a consumer sees of an element: its children, its classes, and an attribute or meta value that is text. -/
def childrenE (e : Elem) : List Elem := match e.data with | .array l => l | _ => []
def textOf (e : Elem) : Option Bytes := match e.data with | .string s => some s | _ => none
def classesE (e : Elem) : List Bytes :=
  match Infos.find e.metas (str "classes") with
  | some c => (childrenE c).filterMap textOf
  | none => []
def attrText (e : Elem) (k : Bytes) : Option Bytes := (Infos.find e.attributes k).bind textOf
def metaText (e : Elem) (k : Bytes) : Option Bytes := (Infos.find e.metas k).bind textOf

/-- The assets of a request or response with a class. -/
def assetsE (klass : Bytes) (e : Elem) : List Elem := (childrenE e).filter fun c => klass ∈ classesE c

/-- The request-response pairs of an example: each response alone if there is no request, each request alone if there is no
    response, and each request with each response otherwise. -/
def pairsOf {δ : Type} (x : Example δ) : List (Option (Payload δ) × Option (Payload δ)) :=
  match x.requests, x.responses with
  | [], rs => rs.map fun r => (none, some r)
  | qs, [] => qs.map fun q => (some q, none)
  | qs, rs => qs.flatMap fun q => rs.map fun r => (some q, some r)

/-- `t` is the transaction of an action for a pair of an example: the description of the example, if any, the request and the
    response. -/
def IsTransaction {δ : Type} (env : Env δ) (a : Action δ) (p : Example δ × Option (Payload δ) × Option (Payload δ)) (t : Elem) : Prop :=
  t.name = str "httpTransaction" ∧ ∃ copies q r, childrenE t = copies ++ [q, r] ∧
    (if p.1.description = [] then copies = [] else ∃ c, copies = [c] ∧ c.name = str "copy" ∧ textOf c = some p.1.description) ∧
    payloadToRefract env p.2.1 (some a) = .ok q ∧ payloadToRefract env p.2.2 none = .ok r

/-- The value of the first header with this very name; none is like an empty one. -/
inductive FirstHeader (k : Bytes) : List (Bytes × Bytes) → Bytes → Prop
  | none : FirstHeader k [] []
  | here {v r} : FirstHeader k ((k, v) :: r) v
  | skip {h r v} : h.1 ≠ k → FirstHeader k r v → FirstHeader k (h :: r) v

/-- The media type of a payload is JSON. -/
def IsJsonPayload {δ : Type} (p : Payload δ) : Prop :=
  ∃ v, FirstHeader (str "Content-Type") p.headers v ∧ MediaType.isJSON (MediaType.parseMediaType v) = true

/-- The data structure of a payload: that of its own attributes, or else that of the action, expanded. -/
inductive StructureOf {δ : Type} (env : Env δ) (p : Payload δ) (a : Option (Action δ)) : Elem → Prop
  | own {e e'} : env.isEmpty p.attributes = false → env.mson p.attributes = .ok (some e) → env.expand e = .ok e' → StructureOf env p a e'
  | inherited {b e e'} : (env.isEmpty p.attributes = true ∨ env.mson p.attributes = .ok none) → a = some b →
      env.isEmpty b.attributes = false → env.mson b.attributes = .ok (some e) → env.expand e = .ok e' → StructureOf env p a e'

end Verif.Spec

namespace Verif.Spec
open Verif Verif.Refract Verif.RefractApi

mutual
/-- The resources of a blueprint element, in the order of the document. -/
def resourcesOf {δ : Type} : Element δ → List (Resource δ)
  | .resource r => [r]
  | .category _ _ es => resourcesOfList es
  | _ => []
termination_by structural e => e
def resourcesOfList {δ : Type} : List (Element δ) → List (Resource δ)
  | [] => []
  | x :: l => resourcesOf x ++ resourcesOfList l
termination_by structural l => l
end

mutual
/-- The resource elements that a consumer finds in an element: itself, or those in a category. -/
def resourceElems : Elem → List Elem
  | .mk n m a h d => if n = str "resource" then [.mk n m a h d] else if n = str "category" then resourceElemsD d else []
termination_by structural e => e
def resourceElemsD : Data → List Elem
  | .array l => resourceElemsL l
  | _ => []
termination_by structural d => d
def resourceElemsL : List Elem → List Elem
  | [] => []
  | e :: l => resourceElems e ++ resourceElemsL l
termination_by structural l => l
end

/-- `t` shows the action: its name and, if there is one, its URI template; and its transactions. -/
def ShowsAction {δ : Type} (env : Env δ) (a : Action δ) (t : Elem) : Prop :=
  t.name = str "transition" ∧ metaText t (str "title") = some a.name ∧
    (a.uriTemplate ≠ [] → attrText t (str "href") = some a.uriTemplate) ∧ actionToRefract env a = .ok t

/-- `e` shows the resource: its name, URI template and all its actions, in order. -/
def ShowsResource {δ : Type} (env : Env δ) (r : Resource δ) (e : Elem) : Prop :=
  e.name = str "resource" ∧ metaText e (str "title") = some r.name ∧ attrText e (str "href") = some r.uriTemplate ∧
    List.Forall₂ (ShowsAction env) r.actions ((childrenE e).filter fun c => c.name = str "transition")

end Verif.Spec
