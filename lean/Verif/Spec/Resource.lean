import Verif.Spec.Action
import Verif.Model.Resource

/-!
# What a resource is made of, with all warnings (specification)

`Surroundings`, `Resource` and the warnings are those of the model; the readers of attributes and of parameters are given with the
`Surroundings`.
-/

namespace Verif.Spec.Resource
open Verif Verif.Text Verif.Spec Verif.Spec.Recognition Verif.Section Verif.Props Verif.Recognition Verif.Spec.Payload
open Verif.Spec.Action (RequestItem ResponseItem HasParts NotFound Ends ActionRead Injected)
open Verif.Action (Action)
open Verif.References (Header Table)
open Verif.Resource (Resource Warning Problem Surroundings)

/-! ## The blocks of a resource -/

/-- The header of an action of the resource: `METHOD`, `name [METHOD]` or `name [METHOD /uri]`. -/
def ActionHeader (n : Node) : Prop :=
  n.kind = .header ∧ ∃ s, Seen n.text s ∧ ((∃ name m u, NamedActionLine s name m u) ∨ ∃ m, ActionLine s m [])

/-- A header `METHOD /uri` or `METHOD/uri`. -/
def WholeHeader (n : Node) : Prop :=
  n.kind = .header ∧ ∃ s, Seen n.text s ∧ (¬ ∃ name m u, NamedActionLine s name m u) ∧ ∃ m u, Path u ∧ ActionLine s m u

/-- `+ Model`, `+ name Model`, which is nothing else. -/
def ModelItem (n : Node) : Prop :=
  (∃ s, ItemLine n s ∧ ∃ name m, ModelLine s name m) ∧ ¬ RequestItem n ∧ ¬ ResponseItem n ∧ ¬ ParametersItem n ∧ ¬ HeadersItem n

/-- The section of a resource that a block begins. -/
inductive SectionOf (n : Node) : SectionType → Prop
  | parameters : ParametersItem n → SectionOf n .parameters
  | headers : HeadersItem n → SectionOf n .headers
  | model : ModelItem n → HasParts n → SectionOf n .model
  | shortModel : ModelItem n → ¬ HasParts n → SectionOf n .modelBody
  | attributes : AttributesItem n → ¬ ModelItem n → SectionOf n .attributes
  | action : ActionHeader n → SectionOf n .action

/-- The block begins a section of a resource. -/
def ResourcePart (n : Node) : Prop := ∃ t, SectionOf n t

/-- The blocks at which a resource ends: headers of other resources, of groups and of data structures. -/
def Closes (n : Node) : Prop :=
  n.kind = .header ∧ ¬ ActionHeader n ∧ (¬ ∃ l s, FirstLine n.text l ∧ Seen l s ∧ TypeSectionForm s) ∧
    ((∃ s, Seen n.text s ∧ ResourceForm s) ∨ (∃ s, Seen n.text s ∧ ¬ ActionForm s) ∧
      ((∃ s name, Seen n.text s ∧ GroupLine s name) ∨ ∃ l s, FirstLine n.text l ∧ Seen l s ∧ DataLine s))

/-- The blocks at which the description of a resource ends. -/
def AfterDescription (n : Node) : Prop := ResourcePart n ∨ Closes n ∨ WholeHeader n

/-! ## Sections -/

/-- A resource that is being read, the models defined so far, and the error reported last. -/
structure State where
  resource : Resource
  table : Table
  error : Option Problem

/-- Warnings of the readers of sections. -/
def of (ws : List Payload.Warning) : List Warning := ws.map fun w => .action (.payload w)

/-- Such a model is defined. -/
def Known (t : Table) (name : Bytes) : Prop := ∃ p, (name, p) ∈ t

/-- A model without a name gets the name of its resource. -/
inductive Named (name : Bytes) (p : References.Payload) : References.Payload → Prop
  | own : p.name ≠ [] → Named name p p
  | resource : p.name = [] → Named name p { p with name := name }

/-- A model that replaces another is reported. -/
inductive Shadows (r : Resource) : List Warning → Prop
  | yes : r.model.name ≠ [] → Shadows r [.overshadowing r.name r.uri]
  | no : r.model.name = [] → Shadows r []

/-- A model is defined, unless there is one of this name; that, or the lack of a name, is the new error. -/
inductive Defines (uri : Bytes) (t : Table) (e : Option Problem) (q : References.Payload) : Table → Option Problem → Prop
  | new : ¬ Known t q.name → q.name ≠ [] → Defines uri t e q (t ++ [(q.name, q)]) e
  | nameless : ¬ Known t q.name → q.name = [] → Defines uri t e q (t ++ [(q.name, q)]) (some (.nameless uri))
  | again : Known t q.name → Defines uri t e q t (some (.defined q.name))

/-- All models of that name get that body. -/
inductive Rebodied (name body : Bytes) : Table → Table → Prop
  | nil : Rebodied name body [] []
  | this {p t t'} : Rebodied name body t t' → Rebodied name body ((name, p) :: t) ((name, { p with body := body }) :: t')
  | other {k p t t'} : k ≠ name → Rebodied name body t t' → Rebodied name body ((k, p) :: t) ((k, p) :: t')

/-- Text after a model continues its body. -/
inductive Continued (place : SectionType) (c : Bytes) (x : State) : State → Prop
  | mk {b t} : place = .model ∨ place = .modelBody → b = x.resource.model.body ++ c → Rebodied x.resource.model.name b x.table t →
      Continued place c x { x with resource := { x.resource with model := { x.resource.model with body := b } }, table := t }

/-- What a block of a resource in a section `parent` adds, if it is not the header of an action; `place` is the section that text in its place
belongs to. -/
inductive Part (s : Surroundings) (parent place : SectionType) (n : Node) (x : State) : State → List Warning → Prop
  | parameters {ps ws b} : ParametersItem n → s.parameters n [] = (ps, ws) → NotFound x.resource.uri ps b →
      Part s parent place n x { x with resource := { x.resource with parameters := x.resource.parameters ++ ps } } (of ws ++ b.map .action)
  | headers {hs ws} : HeadersItem n → HeadersRead (s.world x.table) parent n x.resource.headers hs ws →
      Part s parent place n x { x with resource := { x.resource with headers := hs } } (of ws ++ [.action .deprecatedHeaders])
  | attributes {v ws} : SectionOf n .attributes → x.resource.name = [] → s.attributes [] n x.resource.attributes.content = (v, ws) →
      Part s parent place n x { x with resource := { x.resource with attributes := ⟨x.resource.attributes.name, v⟩ } } (of ws)
  | type {v ws} : SectionOf n .attributes → x.resource.name ≠ [] → s.attributes x.resource.name n x.resource.attributes.content = (v, ws) →
      s.named x.resource.name = false →
      Part s parent place n x { x with resource := { x.resource with attributes := ⟨x.resource.name, v⟩ } } (of ws)
  | duplicate {v ws} : SectionOf n .attributes → x.resource.name ≠ [] → s.attributes x.resource.name n x.resource.attributes.content = (v, ws) →
      s.named x.resource.name = true →
      Part s parent place n x { x with resource := { x.resource with attributes := {} } } (of ws ++ [.duplicateType x.resource.name])
  | model {t sig blocks p ws q b table error} : ModelItem n → SectionOf n t → Parts n sig blocks →
      PayloadRead (s.world x.table) t sig blocks p ws → Named x.resource.name p q → Shadows x.resource b →
      Defines x.resource.uri x.table x.error q table error →
      Part s parent place n x ⟨{ x.resource with model := q }, table, error⟩ (of ws ++ b)
  | code {y r k} : ¬ ResourcePart n → n.kind = .code → n.text ≠ [] → n.text ≠ [asc '\n'] → Continued place (closed n.text) x y →
      MaybeReference .undefined n r → Level place (k + 1) →
      Part s parent place n x y (of (r ++ [.dangling k]))
  | paragraph {v y r k} : ¬ ResourcePart n → n.kind = .paragraph → ByteBuffer.mapBytesRangeSet n.sourceMap s.source = v → v ≠ [] →
      v ≠ [asc '\n'] → Continued place (closed v) x y → MaybeReference .undefined n r → Level place k →
      Part s parent place n x y (of (r ++ [.dangling k]))
  | ignored {ws} : ¬ ResourcePart n → ¬ (TextBlock n ∧ (place = .model ∨ place = .modelBody)) → Strays [n] ws →
      Part s parent place n x x (of ws)

/-- The section that text after `n` belongs to. -/
inductive Leaves (place : SectionType) (n : Node) (ns : List Node) : SectionType → Prop
  | part {t} : SectionOf n t → Leaves place n ns t
  | text {m} : ¬ ResourcePart n → ns.head? = some m → TextBlock m → Leaves place n ns place
  | other : ¬ ResourcePart n → (∀ m, ns.head? = some m → ¬ TextBlock m) → Leaves place n ns .undefined

/-! ## Actions -/

/-- An action with the method and URI of another is reported. -/
inductive SameMethod (r : Resource) (a : Action) : List Warning → Prop
  | yes : (∃ b ∈ r.actions, b.uri = a.uri ∧ b.method = a.method) → SameMethod r a [.duplicateMethod a.method r.uri]
  | no : (¬ ∃ b ∈ r.actions, b.uri = a.uri ∧ b.method = a.method) → SameMethod r a []

/-- An action with the relation of another is reported. -/
inductive SameRelation (r : Resource) (a : Action) : List Warning → Prop
  | yes : a.relation ≠ [] → (∃ b ∈ r.actions, b.relation = a.relation) → SameRelation r a [.duplicateRelation a.relation r.uri]
  | no : ¬ (a.relation ≠ [] ∧ ∃ b ∈ r.actions, b.relation = a.relation) → SameRelation r a []

/-- Parameters of an action without a URI of its own that the resource's URI does not have are reported. -/
inductive Misfits (r : Resource) (a : Action) : List Action.Warning → Prop
  | check {ws} : a.uri = [] → NotFound r.uri a.parameters ws → Misfits r a ws
  | no : a.uri ≠ [] → Misfits r a []

/-- The state with one more action. -/
def State.withAction (x : State) (a : Action) : State := { x with resource := { x.resource with actions := x.resource.actions ++ [a] } }

/-- Blocks from the first section on, up to one at which the resource ends; `rest` are the blocks that are left. -/
inductive Sections (s : Surroundings) (parent : SectionType) : SectionType → State → List Node → List Node → State → List Warning → Prop
  | done {place x} : Sections s parent place x [] [] x []
  | closed {place x n ns} : Closes n → Sections s parent place x (n :: ns) (n :: ns) x []
  | action {place x n ns pre post a v b c d rest y ws} : ActionHeader n → Until Ends ns pre post →
      ActionRead (s.world x.table) .action n pre a v → SameMethod x.resource a b → SameRelation x.resource a c → Misfits x.resource a d →
      Sections s parent .action (x.withAction a) post rest y ws →
      Sections s parent place x (n :: ns) rest y (v.map .action ++ b ++ c ++ d.map .action ++ ws)
  | next {place x n ns y v place' rest z ws} : ¬ ActionHeader n → ¬ Closes n → Part s parent place n x y v → Leaves place n ns place' →
      Sections s parent place' y ns rest z ws → Sections s parent place x (n :: ns) rest z (v ++ ws)

/-! ## The header and the end -/

/-- The text before the first NUL. -/
def BeforeNul (text s : Bytes) : Prop := 0 ∉ s ∧ (text = s ∨ ∃ r, text = s ++ 0 :: r)

/-- The name and the URI in the header of a resource, and whether it is also the header of its only action. -/
inductive HeadLine (text : Bytes) : Bytes → Bytes → Bool → Prop
  | uri {s u} : BeforeNul text s → UriLine s u → HeadLine text [] u false
  | endpoint {s m u} : BeforeNul text s → EndpointLine s m u → HeadLine text [] u true
  | namedEndpoint {s n t m u} : BeforeNul text s → (¬ ∃ u, UriLine s u) → (¬ ∃ m u, EndpointLine s m u) → NamedEndpointLine s n m u →
      Trimmed n t → HeadLine text t u true
  | named {s n t u} : BeforeNul text s → (¬ ∃ u, UriLine s u) → (¬ ∃ m u, EndpointLine s m u) → NamedResourceLine s n u → Trimmed n t →
      HeadLine text t u false
  | none {s} : BeforeNul text s → ¬ ResourceForm s → HeadLine text [] [] false

/-- What is done at the end: the URI is checked, and headers of the resource are put in front of those of all payloads. -/
inductive Finished (x : State) : State → List Warning → Prop
  | mk {ws} : UriTemplate.warnings x.resource.uri = ws →
      Finished x { x with resource := { x.resource with headers := [], actions := x.resource.actions.map fun a =>
        { a with examples := Injected x.resource.headers a.examples } } } (ws.map .template)

/-- The resource with the header `sig`, after which the blocks `blocks` come, of which `rest` are left; `context` is the section it is in. -/
inductive ResourceRead (s : Surroundings) (context : SectionType) (table : Table) (error : Option Problem) (sig : Node) (blocks : List Node) :
    List Node → State → List Warning → Prop
  | action {name uri pre rest a v x b} : HeadLine sig.text name uri true → Until Ends blocks pre rest →
      ActionRead (s.world table) context sig pre a v → Finished ⟨{ name := name, uri := uri, actions := [a] }, table, error⟩ x b →
      ResourceRead s context table error sig blocks rest x (v.map .action ++ b)
  | resource {name uri pre post d rest x v y b} : HeadLine sig.text name uri false → Until AfterDescription blocks pre post →
      Describes (s.world table) [] pre d →
      Sections s context .undefined ⟨{ name := name, uri := uri, description := d }, table, error⟩ post rest x v → Finished x y b →
      ResourceRead s context table error sig blocks rest y (v ++ b)

end Verif.Spec.Resource
