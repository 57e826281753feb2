import Verif.Spec.DataGroup
import Verif.Spec.Lookahead
import Verif.Spec.Metadata
import Verif.Spec.References
import Verif.Model.Document

/-!
# What a document is made of, with all warnings and the error (specification)

`Surroundings`, `Element`, the warnings and the problems are those of the model.
-/

namespace Verif.Spec.Document
open Verif Verif.Text Verif.Spec Verif.Spec.Recognition Verif.Section Verif.Props Verif.Recognition Verif.Spec.Payload
open Verif.Spec.DataGroup (ResourceHeading GroupHeading DataHeading Types)
open Verif.Spec.Group (GroupRead)
open Verif.References (Table)
open Verif.Mson (Context)
open Verif.NamedTypes (Decl buildTables)
open Verif.Document (Element Warning Problem Surroundings)

/-- A block with which a resource, a group or data structures begin. -/
def Opens (n : Node) : Prop := ResourceHeading n ∨ GroupHeading n ∨ DataHeading n

/-! ## The beginning -/

/-- The block is a paragraph in which there is a line with a key and a value. -/
def MetaBlock (n : Node) : Prop := n.kind = .paragraph ∧ ∃ l ∈ split (asc '\n') (trimEnd n.text), ∃ k v, KeyValue l k v

/-- The blocks of metadata with which the document begins: keys and values, what is reported, and the blocks that are left. -/
inductive Head : List Node → List (Bytes × Bytes) → List Metadata.Warning → List Node → Prop
  | more {n ns ms vs rest} : MetaBlock n → Head ns ms vs rest →
      Head (n :: ns) ((Metadata.parseMetadata n.text).1 ++ ms) ((Metadata.parseMetadata n.text).2 ++ vs) rest
  | done {ns} : (∀ n, ns.head? = some n → ¬ MetaBlock n) → Head ns [] [] ns

/-- What the description of the document is taken from. -/
def texts (s : Surroundings) : Payload.World := ⟨s.source, [], s.attributes ⟨[], [], [], none⟩ [], s.parameters⟩

/-- Name and description of the document, from the blocks after the metadata; and the blocks that are left. -/
inductive Intro (s : Surroundings) : List Node → Bytes → Bytes → List Node → Prop
  | nothing : Intro s [] [] [] []
  | sections {n ns} : Opens n → Intro s (n :: ns) [] [] (n :: ns)
  | title {n ns name pre post d} : n.kind = .header → ¬ Opens n → Trimmed n.text name → Until Opens ns pre post → Describes (texts s) [] pre d →
      Intro s (n :: ns) name d post
  | text {n ns pre post d} : n.kind ≠ .header → Until Opens ns pre post → Describes (texts s) [] (n :: pre) d → Intro s (n :: ns) [] d post

/-- What is known of the named types that are declared. -/
inductive Tables (s : Surroundings) (ds : List Decl) : Context → Option Problem → Prop
  | fine {t} : buildTables ds = some (.ok t) → Tables s ds ⟨t.dep, t.base, [], none⟩ none
  | wrong {e} : buildTables ds = some (.error e) → Tables s ds (s.broken ds) (some (.type e))

/-! ## Sections -/

/-- What has been read: the elements, the models, what is known of the named types, and the error reported last. -/
structure State where
  elements : List Element
  table : Table
  known : Context
  error : Option Problem

/-- There is a resource with that URI, in a group or outside. -/
def HasUri (es : List Element) (uri : Bytes) : Prop :=
  (∃ r, .top (.resource r) ∈ es ∧ r.uri = uri) ∨ ∃ name gs r, .group name gs ∈ es ∧ .resource r ∈ gs ∧ r.uri = uri

/-- There is a type with that name: attributes of a resource in a group or outside, or a data structure. -/
def HasType (es : List Element) (name : Bytes) : Prop :=
  (∃ r, .top (.resource r) ∈ es ∧ r.attributes.name = name) ∨ (∃ g gs r, .group g gs ∈ es ∧ .resource r ∈ gs ∧ r.attributes.name = name) ∨
    ∃ ts t, .data ts ∈ es ∧ t ∈ ts ∧ t.name.literal = name

/-- `g` is what surrounds a group in this state. -/
structure Around (s : Surroundings) (x : State) (g : Group.Surroundings) : Prop where
  source : g.inner.source = s.source
  attributes : g.inner.attributes = s.attributes x.known
  parameters : g.inner.parameters = s.parameters
  named : ∀ n, g.inner.named n = true ↔ HasType x.elements n
  uris : ∀ u, g.uris u = true ↔ HasUri x.elements u

/-- `g` is what surrounds data structures in this state. -/
structure AroundData (s : Surroundings) (x : State) (g : DataGroup.Surroundings) : Prop where
  world : g.world = ⟨s.source, s.header⟩
  names : ∀ n, g.names n = true ↔ HasType x.elements n

/-- A second group of the same name is reported. -/
inductive GroupTwice (es : List Element) (name : Bytes) : List Warning → Prop
  | yes {gs} : .group name gs ∈ es → GroupTwice es name [.duplicateGroup name]
  | no : (∀ gs, .group name gs ∉ es) → GroupTwice es name []

/-- The blocks after the description, to the end of the document. -/
inductive Sections (s : Surroundings) : State → List Node → State → List Warning → Prop
  | done {x} : Sections s x [] x []
  | resource {x n ns g used mid name y v z ws} : ResourceHeading n → Around s x g → GroupRead g x.table none n ns mid name y v →
      n :: ns = used ++ mid →
      Sections s ⟨x.elements ++ y.elements.map .top, y.table, s.refers used x.known, (y.error.map .resource).or x.error⟩ mid z ws →
      Sections s x (n :: ns) z (v.map .group ++ ws)
  | group {x n ns g used mid name y v b z ws} : ¬ ResourceHeading n → GroupHeading n → Around s x g →
      GroupRead g x.table none n ns mid name y v → n :: ns = used ++ mid → GroupTwice x.elements name b →
      Sections s ⟨x.elements ++ [.group name y.elements], y.table, s.refers used x.known, (y.error.map .resource).or x.error⟩ mid z ws →
      Sections s x (n :: ns) z (v.map .group ++ b ++ ws)
  | data {x n ns g mid ts known v z ws} : ¬ ResourceHeading n → ¬ GroupHeading n → DataHeading n → AroundData s x g →
      Types g [] { x.known with error := none } ns mid ts known v →
      Sections s ⟨x.elements ++ [.data ts], x.table, known, (known.error.map .type).or x.error⟩ mid z ws →
      Sections s x (n :: ns) z (v.map .data ++ ws)
  | ignored {x n ns v z ws} : ¬ Opens n → Strays [n] v → Sections s x ns z ws → Sections s x (n :: ns) z (v.map .ignored ++ ws)

/-! ## References to models that come later -/

/-- Headers of the payload itself that the model overrides are reported. -/
inductive Overridden (p m : References.Payload) : List Payload.Warning → Prop
  | yes {h} : p.headers ≠ [] → h ∈ m.headers → h.1 = str "Content-Type" → Overridden p m [.ignoredHeaders .undefined]
  | no : (p.headers = [] ∨ ∀ h ∈ m.headers, h.1 ≠ str "Content-Type") → Overridden p m []

/-- What becomes of a request or response at the end of the document, given all models. -/
inductive Link (t : Table) (k : PayloadKind) (p : References.Payload) : References.Payload → List Payload.Warning → Option Problem → Prop
  | other : (p.refId = [] ∨ p.refState ≠ .pending) → Link t k p p [] none
  | found {m q h c} : p.refId ≠ [] → p.refState = .pending → t.find p.refId = some m → Spec.References.Filled p m q → q.refId = p.refId →
      q.refState = .resolved → Overridden p m h → Checked k q c → Link t k p q (h ++ c) none
  | missing {c} : p.refId ≠ [] → p.refState = .pending → t.find p.refId = none → Checked k { p with refState := .unresolved } c →
      Link t k p { p with refState := .unresolved } c (some (.undefinedModel p.refId))

/-- The same for each of a list, in order; the error is the last one. -/
inductive Each {α : Type} (R : α → α → List Payload.Warning → Option Problem → Prop) :
    List α → List α → List Payload.Warning → Option Problem → Prop
  | nil : Each R [] [] [] none
  | cons {a b v e as bs v' e'} : R a b v e → Each R as bs v' e' → Each R (a :: as) (b :: bs) (v ++ v') (e'.or e)

/-- In an example: requests, then responses. -/
inductive LinkExample (t : Table) (x : References.Example) : References.Example → List Payload.Warning → Option Problem → Prop
  | mk {requests responses v e v' e'} : Each (Link t .request) x.requests requests v e → Each (Link t .response) x.responses responses v' e' →
      LinkExample t x ⟨requests, responses⟩ (v ++ v') (e'.or e)

/-- In an action. -/
inductive LinkAction (t : Table) (a : Action.Action) : Action.Action → List Payload.Warning → Option Problem → Prop
  | mk {es v e} : Each (LinkExample t) a.examples es v e → LinkAction t a { a with examples := es } v e

/-- In an element that may be in a group. -/
inductive LinkPart (t : Table) : Group.Element → Group.Element → List Payload.Warning → Option Problem → Prop
  | copy {x} : LinkPart t (.copy x) (.copy x) [] none
  | resource {r as v e} : Each (LinkAction t) r.actions as v e → LinkPart t (.resource r) (.resource { r with actions := as }) v e

/-- In an element of the document. -/
inductive LinkElement (t : Table) : Element → Element → List Payload.Warning → Option Problem → Prop
  | top {a b v e} : LinkPart t a b v e → LinkElement t (.top a) (.top b) v e
  | group {name as bs v e} : Each (LinkPart t) as bs v e → LinkElement t (.group name as) (.group name bs) v e
  | data {ts} : LinkElement t (.data ts) (.data ts) [] none

/-! ## The document -/

/-- A document without a name. -/
inductive Nameless (require : Bool) (name description : Bytes) : List Warning → Option Problem → Prop
  | named : name ≠ [] → Nameless require name description [] none
  | required : name = [] → require = true → Nameless require name description [] (some .noName)
  | reported : name = [] → require = false → description ≠ [] → Nameless require name description [.noName] none
  | tolerated : name = [] → require = false → description = [] → Nameless require name description [] none

/-- What a document gives. -/
structure Outcome where
  metadata : List (Bytes × Bytes)
  name : Bytes
  description : Bytes
  elements : List Element
  warnings : List Warning
  error : Option Problem

/-- The document with these blocks. -/
inductive DocumentRead (s : Surroundings) : List Node → Outcome → Prop
  | nothing : DocumentRead s [] ⟨[], [], [], [], [], none⟩
  | document {ns ms mv body name d blocks ds typos known e₀ x ws es lv e₁ nv e₂} : ns ≠ [] → Head ns ms mv body → Intro s body name d blocks →
      Lookahead.Declarations [] blocks ds → Lookahead.Mistakes blocks typos → Tables s ds known e₀ →
      Sections s ⟨[], [], known, e₀⟩ blocks x ws → Each (LinkElement x.table) x.elements es lv e₁ → Nameless s.requireName name d nv e₂ →
      DocumentRead s ns ⟨ms, name, d, es,
        mv.map .metadata ++ typos.map .typo ++ ws ++ lv.map .payload ++ nv, e₂.or (e₁.or x.error)⟩

/-! ## What can be asked of the elements -/

/-- The requests and responses of an element that may be in a group. -/
def payloadsOf : Group.Element → List References.Payload
  | .copy _ => []
  | .resource r => r.actions.flatMap fun a => a.examples.flatMap fun x => x.requests ++ x.responses

/-- All requests and responses. -/
def payloads (es : List Element) : List References.Payload :=
  es.flatMap fun
    | .top e => payloadsOf e
    | .group _ gs => gs.flatMap payloadsOf
    | .data _ => []

/-- The names of the groups, in order. -/
def groupNames (es : List Element) : List Bytes :=
  es.filterMap fun
    | .group name _ => some name
    | _ => none

end Verif.Spec.Document
