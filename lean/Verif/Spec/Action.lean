import Verif.Spec.PayloadParts
import Verif.Spec.Parameters
import Verif.Model.Action

/-!
# What an action is made of, with all warnings (specification)

`World`, `Action` and the warnings are those of the model; the readers of attributes and of parameters are given with the `World`.
-/

namespace Verif.Spec.Action
open Verif Verif.Text Verif.Spec Verif.Spec.Recognition Verif.Section Verif.Props Verif.Recognition Verif.Spec.Payload
open Verif.Payload (World)
open Verif.References (Header Example)
open Verif.Action (Action Warning)

/-! ## The blocks of an action -/

/-- A header that begins an action, a resource, a group or the data structures.  (One of the form of a section of an MSON type, such as
`Sample: …`, does not.) -/
def Begins (n : Node) : Prop :=
  n.kind = .header ∧ ((∃ s, Seen n.text s ∧ (ResourceForm s ∨ ActionForm s ∨ ∃ name, GroupLine s name)) ∨
      ∃ l s, FirstLine n.text l ∧ Seen l s ∧ DataLine s) ∧
    ¬ ∃ l s, FirstLine n.text l ∧ Seen l s ∧ TypeSectionForm s

/-- `+ Relation: …` -/
def RelationItem (n : Node) : Prop := ∃ s, ItemLine n s ∧ ∃ r, RelationLine s r
/-- `+ Request …` -/
def RequestItem (n : Node) : Prop := ∃ s, ItemLine n s ∧ Item.Form .request s
/-- `+ Response …` -/
def ResponseItem (n : Node) : Prop := ∃ s, ItemLine n s ∧ Item.Form .response s
/-- One of the blocks of the item is a section of a payload. -/
def HasParts (n : Node) : Prop := ∃ c ∈ n.children, PayloadPart c

/-- The section of an action that an item is. -/
inductive SectionOf (n : Node) : SectionType → Prop
  | relation : RelationItem n → SectionOf n .relation
  | parameters : ParametersItem n → SectionOf n .parameters
  | headers : HeadersItem n → SectionOf n .headers
  | attributes : AttributesItem n → SectionOf n .attributes
  | request : RequestItem n → HasParts n → SectionOf n .request
  | shortRequest : RequestItem n → ¬ HasParts n → SectionOf n .requestBody
  | response : ResponseItem n → HasParts n → SectionOf n .response
  | shortResponse : ResponseItem n → ¬ HasParts n → SectionOf n .responseBody

/-- The item is a section of an action. -/
def ActionPart (n : Node) : Prop := ∃ t, SectionOf n t

/-- `+ Model`, which is no section of an action. -/
def ModelItem (n : Node) : Prop := (∃ s, ItemLine n s ∧ ∃ name m, ModelLine s name m) ∧ ¬ ActionPart n

/-- The blocks at which an action ends. -/
def Ends (n : Node) : Prop := Begins n ∨ ModelItem n

/-! ## Examples -/

/-- A request, with or without sections. -/
def IsRequest (t : SectionType) : Prop := t = .request ∨ t = .requestBody
/-- A response, with or without sections. -/
def IsResponse (t : SectionType) : Prop := t = .response ∨ t = .responseBody

/-- The example with the payload. -/
inductive With (t : SectionType) (p : References.Payload) (e : Example) : Example → Prop
  | request : IsRequest t → With t p e { e with requests := e.requests ++ [p] }
  | response : IsResponse t → With t p e { e with responses := e.responses ++ [p] }

/-- A payload enters the last example (`e` is this example before), except that a request after a response begins a new one. -/
inductive Enters (t : SectionType) (p : References.Payload) : List Example → Example → List Example → Prop
  | first {e} : With t p {} e → Enters t p [] {} [e]
  | next {es e e'} : IsRequest t → e.responses ≠ [] → With t p {} e' → Enters t p (es ++ [e]) {} (es ++ [e, e'])
  | same {es e e'} : (IsRequest t → e.responses = []) → With t p e e' → Enters t p (es ++ [e]) e (es ++ [e'])

/-- The value of the first header `Content-Type`, empty if there is none. -/
def ContentType (hs : List Header) (v : Bytes) : Prop :=
  (∃ a b, hs = a ++ (str "Content-Type", v) :: b ∧ ∀ h ∈ a, h.1 ≠ str "Content-Type") ∨ ((∀ h ∈ hs, h.1 ≠ str "Content-Type") ∧ v = [])

/-- Two payloads cannot be told apart. -/
def Alike (p q : References.Payload) : Prop := p.name = q.name ∧ ∃ v, ContentType p.headers v ∧ ContentType q.headers v

/-- The example has such a payload.  (Payloads without sections are not compared.) -/
def Repeats (t : SectionType) (p : References.Payload) (e : Example) : Prop :=
  t = .request ∧ (∃ q ∈ e.requests, Alike q p) ∨ t = .response ∧ ∃ q ∈ e.responses, Alike q p

/-- A payload that is there twice is reported. -/
inductive Twice (t : SectionType) (method : Bytes) (p : References.Payload) (e : Example) : List Warning → Prop
  | yes : Repeats t p e → Twice t method p e [.duplicate t p.name method]
  | no : ¬ Repeats t p e → Twice t method p e []

/-- A body that the response to such a request must not have is reported. -/
inductive Forbidden (t : SectionType) (method : Bytes) (p : References.Payload) : List Warning → Prop
  | head : IsResponse t → p.body ≠ [] → method = str "HEAD" → Forbidden t method p [.method .method]
  | connect {code} : IsResponse t → p.body ≠ [] → method = str "CONNECT" → Http.extract p.name = code → 200 ≤ code → code ≤ 299 →
      Forbidden t method p [.method (.connect code)]
  | no : ¬ (IsResponse t ∧ p.body ≠ [] ∧ (method = str "HEAD" ∨ method = str "CONNECT" ∧ 200 ≤ Http.extract p.name ∧ Http.extract p.name ≤ 299)) →
      Forbidden t method p []

/-- Text after a payload continues its body. -/
inductive Continued (place : SectionType) (c : Bytes) : List Example → List Example → Prop
  | response {es rs ps p} : IsResponse place →
      Continued place c (es ++ [⟨rs, ps ++ [p]⟩]) (es ++ [⟨rs, ps ++ [{ p with body := p.body ++ c }]⟩])
  | request {es ps p ss} : IsRequest place →
      Continued place c (es ++ [⟨ps ++ [p], ss⟩]) (es ++ [⟨ps ++ [{ p with body := p.body ++ c }], ss⟩])

/-! ## Sections -/

/-- The identifier of a relation: it is empty or made of lower case letters, digits, `.` and `-`, and begins with a letter. -/
def Identified (text i : Bytes) : Prop :=
  ∃ line s b c, FirstLine text line ∧ Seen line s ∧ RelationLine s (b ++ i ++ c) ∧ Blanks b ∧ Blanks c ∧ (i = [] ∨ Identifier i)

/-- What a block of an action in a section `parent` adds; `place` is the section that text in its place belongs to. -/
inductive Part (w : World) (parent place : SectionType) (n : Node) (a : Action) : Action → List Warning → Prop
  | relation {sig blocks i ws} : RelationItem n → Parts n sig blocks → Identified sig.text i → Strays blocks ws →
      Part w parent place n a { a with relation := i } (ws.map .payload)
  | illegal {sig blocks ws} : RelationItem n → Parts n sig blocks → (∀ i, ¬ Identified sig.text i) → Strays blocks ws →
      Part w parent place n a a (.relation :: ws.map .payload)
  | parameters {v ws} : ParametersItem n → w.parameters n a.parameters = (v, ws) →
      Part w parent place n a { a with parameters := v } (ws.map .payload)
  | attributes {v ws} : AttributesItem n → w.attributes n a.attributes = (v, ws) →
      Part w parent place n a { a with attributes := v } (ws.map .payload)
  | headers {hs ws} : HeadersItem n → HeadersRead w parent n a.headers hs ws →
      Part w parent place n a { a with headers := hs } (ws.map .payload ++ [.deprecatedHeaders])
  | payload {t sig blocks p ws e es b c} : RequestItem n ∨ ResponseItem n → SectionOf n t → Parts n sig blocks →
      PayloadRead w t sig blocks p ws → Enters t p a.examples e es → Twice t a.method p e b → Forbidden t a.method p c →
      Part w parent place n a { a with examples := es } (ws.map .payload ++ b ++ c)
  | code {es r k} : ¬ ActionPart n → n.kind = .code → n.text ≠ [] → n.text ≠ [asc '\n'] → Continued place (closed n.text) a.examples es →
      MaybeReference .undefined n r → Level place (k + 1) →
      Part w parent place n a { a with examples := es } (r.map .payload ++ [.payload (.dangling k)])
  | paragraph {v es r k} : ¬ ActionPart n → n.kind = .paragraph → ByteBuffer.mapBytesRangeSet n.sourceMap w.source = v → v ≠ [] →
      v ≠ [asc '\n'] → Continued place (closed v) a.examples es → MaybeReference .undefined n r → Level place k →
      Part w parent place n a { a with examples := es } (r.map .payload ++ [.payload (.dangling k)])
  | body : ¬ ActionPart n → BodyItem n → Part w parent place n a a [.indented .body]
  | schema : ¬ ActionPart n → SchemaItem n → Part w parent place n a a [.indented .schema]
  | ignored {ws} : ¬ ActionPart n → ¬ BodyItem n → ¬ SchemaItem n → ¬ (TextBlock n ∧ ∃ es, Continued place [] a.examples es) → Strays [n] ws →
      Part w parent place n a a (ws.map .payload)

/-- The section that text after `n` belongs to. -/
inductive Leaves (place : SectionType) (n : Node) (ns : List Node) : SectionType → Prop
  | part {t} : SectionOf n t → Leaves place n ns t
  | text {m} : ¬ ActionPart n → ns.head? = some m → TextBlock m → Leaves place n ns place
  | other : ¬ ActionPart n → (∀ m, ns.head? = some m → ¬ TextBlock m) → Leaves place n ns .undefined

/-- All blocks from the first section on. -/
inductive Sections (w : World) (parent : SectionType) : SectionType → Action → List Node → Action → List Warning → Prop
  | done {place a} : Sections w parent place a [] a []
  | next {place a n a₁ v ns place' a₂ ws} : Part w parent place n a a₁ v → Leaves place n ns place' →
      Sections w parent place' a₁ ns a₂ ws → Sections w parent place a (n :: ns) a₂ (v ++ ws)

/-! ## The header -/

/-- What the header says. -/
inductive HeadLine (text : Bytes) : Action → Prop
  | plain {l s m u} : FirstLine text l → Seen l s → ActionLine s m u → HeadLine text { method := m }
  | named {l s n t m u} : FirstLine text l → Seen l s → (¬ ∃ m u, ActionLine s m u) → NamedActionLine s n m u →
      (∀ n' m' u', NamedActionLine s n' m' u' → n'.length ≤ n.length) → Trimmed n t → HeadLine text { method := m, name := t, uri := u }
  | none {l s} : FirstLine text l → Seen l s → ¬ ActionForm s → HeadLine text {}

/-! ## The end -/

/-- Parameters that the URI does not have are reported. -/
inductive NotFound (uri : Bytes) : List Bytes → List Warning → Prop
  | nil : NotFound uri [] []
  | found {p ps ws} : HasVariable uri p → NotFound uri ps ws → NotFound uri (p :: ps) ws
  | not {p ps ws} : ¬ HasVariable uri p → NotFound uri ps ws → NotFound uri (p :: ps) (.notFound p :: ws)

/-- The headers of the action in front of those of all its payloads. -/
def Injected (hs : List Header) (es : List Example) : List Example :=
  es.map fun e => ⟨e.requests.map fun p => { p with headers := hs ++ p.headers }, e.responses.map fun p => { p with headers := hs ++ p.headers }⟩

/-- That the action, or its last request, has no response is reported. -/
inductive Unanswered : List Example → List Warning → Prop
  | none : Unanswered [] [.noResponse]
  | last {es rs r} : Unanswered (es ++ [⟨rs ++ [r], []⟩]) [.noResponseFor r.name]
  | no {es e} : (e.requests = [] ∨ e.responses ≠ []) → Unanswered (es ++ [e]) []

/-- What is done at the end. -/
inductive Finished (a : Action) : Action → List Warning → Prop
  | mk {b c} : (a.uri = [] ∧ b = [] ∨ a.uri ≠ [] ∧ NotFound a.uri a.parameters b) → Unanswered a.examples c →
      Finished a { a with headers := [], examples := Injected a.headers a.examples } (b ++ c)

/-- The action with the header `sig` and the blocks `blocks`. -/
inductive ActionRead (w : World) (parent : SectionType) (sig : Node) (blocks : List Node) : Action → List Warning → Prop
  | mk {a rest pre post d a₁ b a₂ c} : HeadLine sig.text a → Remainder sig.text rest → Until ActionPart blocks pre post →
      Describes w rest pre d → Sections w parent .undefined { a with description := d } post a₁ b → Finished a₁ a₂ c →
      ActionRead w parent sig blocks a₂ (b ++ c)

end Verif.Spec.Action
