import Verif.Spec.MsonParser
import Verif.Model.Payload
import Verif.Spec.References

/-!
# What a request, response or model is made of, with all warnings (specification)

`World`, `Data` and the warnings are those of the model; the readers of attributes and of parameters are given with the `World`.
-/

namespace Verif.Spec.Payload
open Verif Verif.Text Verif.Spec Verif.Spec.Recognition Verif.Section Verif.Props Verif.Recognition
open Verif.Payload (World Warning)
open Verif.References (Header)
open Verif.Spec.MsonParser (Follows)

/-! ## Blocks of text -/

/-- The text is `[symbol][]`, but for white space around it; it ends before the first NUL. -/
def Reference (text symbol : Bytes) : Prop :=
  ∃ s a inner b, Seen text s ∧ s = a ++ asc '[' :: (inner ++ str "][]") ++ b ∧ Blanks a ∧ Blanks b ∧ inner ≠ [] ∧
    (∀ c ∈ inner, c ∉ [asc '[', asc ']', asc '(', asc ')']) ∧ Trimmed inner symbol

/-- By how many levels (of four spaces or one tab) code in such a section is indented. -/
inductive Level (t : SectionType) : Nat → Prop
  | outer : t ∈ [.blueprint, .resourceGroup, .resource, .action] → Level t 1
  | short : t ∈ [.requestBody, .responseBody, .modelBody] → Level t 2
  | full : t ∉ [.blueprint, .resourceGroup, .resource, .action, .requestBody, .responseBody, .modelBody] → Level t 3

/-- A block that could be meant as a reference is reported. -/
inductive MaybeReference (t : SectionType) (n : Node) : List Warning → Prop
  | yes {symbol} : Reference n.text symbol → MaybeReference t n [.possibleReference symbol t]
  | no : (∀ symbol, ¬ Reference n.text symbol) → MaybeReference t n []

/-- The section that begins with this line. -/
inductive SectionWord (s : Bytes) : SectionType → Prop
  | headers : HeadersLine s → SectionWord s .headers
  | body : BodyLine s → SectionWord s .body
  | schema : SchemaLine s → SectionWord s .schema

/-- The first line of the block is an item that begins such a section. -/
def Hides (n : Node) (t : SectionType) : Prop :=
  ∃ l m r s, FirstLine n.text l ∧ Trimmed l (m :: r) ∧ m ∈ [asc '-', asc '+', asc '*'] ∧ Seen r s ∧ SectionWord s t

/-- Code that looks like a section that is indented too much is reported. -/
inductive TooDeep (context : SectionType) (n : Node) : List Warning → Prop
  | yes {t k} : Hides n t → Level context (k + 1) → TooDeep context n [.excessive t k]
  | no : (∀ t, ¬ Hides n t) → TooDeep context n []

/-- What is reported about a block of an asset.  What should be code but is not is reported. -/
inductive Reports (context parent : SectionType) (n : Node) : List Warning → Prop
  | code {a b} : n.kind = .code → MaybeReference context n a → TooDeep context n b → Reports context parent n (a ++ b)
  | other {a k} : n.kind ≠ .code → MaybeReference context n a → Level parent k →
      Reports context parent n (a ++ [.notPreformatted context k])

/-- The same for all blocks, in their order. -/
inductive ReportsAll (context parent : SectionType) : List Node → List Warning → Prop
  | nil : ReportsAll context parent [] []
  | cons {n ns a b} : Reports context parent n a → ReportsAll context parent ns b → ReportsAll context parent (n :: ns) (a ++ b)

/-- Content on the lines under the first is reported. -/
inductive Multiline (context parent : SectionType) (rest : Bytes) : List Warning → Prop
  | none : rest = [] → Multiline context parent rest []
  | some {k} : rest ≠ [] → Level parent k → Multiline context parent rest [.multiline context k]

/-- Blocks that are ignored are reported. -/
inductive Strays : List Node → List Warning → Prop
  | nil : Strays [] []
  | header {n ns ws} : n.kind = .header → Strays ns ws → Strays (n :: ns) (.unexpectedHeader :: ws)
  | other {n ns ws} : n.kind ≠ .header → Strays ns ws → Strays (n :: ns) (.unrecognised :: ws)

/-- What a block says: the text of code, the source of any other block. -/
def said (w : World) (n : Node) : Bytes := if n.kind = .code then n.text else ByteBuffer.mapBytesRangeSet n.sourceMap w.source

/-! ## Sections -/

/-- A `Body` or `Schema` section, its text and its warnings. -/
def AssetRead (w : World) (t parent : SectionType) (n : Node) (v : Bytes) (ws : List Warning) : Prop :=
  ∃ sig blocks pre post rest a b c, Parts n sig blocks ∧ Until Starts blocks pre post ∧ Remainder sig.text rest ∧
    Multiline t parent rest a ∧ ReportsAll t parent pre b ∧ Strays post c ∧
    v = lines rest ++ (pre.map (said w)).flatten ∧ ws = a ++ b ++ c

/-- Headers read from the ranges of the source, after others. -/
def HeadersIn (w : World) (ranges : List ByteBuffer.Range) (hs hs' : List Header) (ws : List Warning) : Prop :=
  ∃ vs, Headers.headersFromContent w.source (ranges.map fun r => (r.location, r.length)) (hs, []) = (hs', vs) ∧ ws = vs.map .header

/-- Blocks of headers. -/
inductive HeaderBlocks (w : World) (parent : SectionType) : List Header → List Node → List Header → List Warning → Prop
  | nil {hs} : HeaderBlocks w parent hs [] hs []
  | cons {hs n hs₁ ns hs₂ a b c} : Reports .headers parent n a → HeadersIn w n.sourceMap hs hs₁ b → HeaderBlocks w parent hs₁ ns hs₂ c →
      HeaderBlocks w parent hs (n :: ns) hs₂ (a ++ b ++ c)

/-- That there are no headers is reported. -/
inductive NoHeaders : List Header → List Warning → Prop
  | none : NoHeaders [] [.noHeaders]
  | some {hs} : hs ≠ [] → NoHeaders hs []

/-- A `Headers` section: the first range of its first block is the line `+ Headers`. -/
def HeadersRead (w : World) (parent : SectionType) (n : Node) (hs hs' : List Header) (ws : List Warning) : Prop :=
  ∃ sig blocks pre post rest hs₁ a b c d e, Parts n sig blocks ∧ Until Starts blocks pre post ∧ Remainder sig.text rest ∧
    Multiline .headers parent rest a ∧ HeadersIn w (sig.sourceMap.drop 1) hs hs₁ b ∧ HeaderBlocks w parent hs₁ pre hs' c ∧
    Strays post d ∧ NoHeaders hs' e ∧ ws = a ++ b ++ c ++ d ++ e

/-- `+ Headers` -/
def HeadersItem (n : Node) : Prop := ∃ s, ItemLine n s ∧ HeadersLine s
/-- `+ Attributes` -/
def AttributesItem (n : Node) : Prop := ∃ s, ItemLine n s ∧ AttributesLine s
/-- `+ Parameters` -/
def ParametersItem (n : Node) : Prop := ∃ s, ItemLine n s ∧ ParametersLine s

/-- A second text is reported. -/
inductive Again (t : SectionType) (old : Bytes) : List Warning → Prop
  | yes : old ≠ [] → Again t old [.redefined t]
  | no : old = [] → Again t old []

/-- What a block of a payload adds; `inBody`: the block is in the place of one that continues a body. -/
inductive Part (w : World) (context : SectionType) (inBody : Bool) (n : Node) (p : References.Payload) :
    References.Payload → List Warning → Prop
  | headers {hs ws} : HeadersItem n → HeadersRead w context n p.headers hs ws → Part w context inBody n p { p with headers := hs } ws
  | body {v a ws} : BodyItem n → Again .body p.body a → AssetRead w .body context n v ws →
      Part w context inBody n p { p with body := v } (a ++ ws)
  | schema {v a ws} : SchemaItem n → Again .schema p.schema a → AssetRead w .schema context n v ws →
      Part w context inBody n p { p with schema := v } (a ++ ws)
  | attributes {v ws} : AttributesItem n → w.attributes n p.attributes = (v, ws) → Part w context inBody n p { p with attributes := v } ws
  | parameters {v ws} : ParametersItem n → context = .request → w.parameters n p.parameters = (v, ws) →
      Part w context inBody n p { p with parameters := v } ws
  | foreign : ParametersItem n → context ≠ .request → Part w context inBody n p p [.foreignParameters]
  | code {a} : inBody = true → n.kind = .code → n.text ≠ [] → n.text ≠ [asc '\n'] → MaybeReference .undefined n a →
      Part w context inBody n p { p with body := p.body ++ closed n.text } (a ++ [.dangling 2])
  | paragraph {a v} : inBody = true → n.kind = .paragraph → ByteBuffer.mapBytesRangeSet n.sourceMap w.source = v → v ≠ [] → v ≠ [asc '\n'] →
      MaybeReference .undefined n a → Part w context inBody n p { p with body := p.body ++ closed v } (a ++ [.dangling 3])
  | ignored {ws} : ¬ PayloadPart n → ¬ (inBody = true ∧ TextBlock n) → Strays [n] ws → Part w context inBody n p p ws

/-- Whether the block after `n` is in the place of one that continues a body. -/
inductive Leaves (inBody : Bool) (n : Node) (ns : List Node) : Bool → Prop
  | body : BodyItem n → Leaves inBody n ns true
  | part : PayloadPart n → ¬ BodyItem n → Leaves inBody n ns false
  | text {m} : ¬ PayloadPart n → ns.head? = some m → TextBlock m → Leaves inBody n ns inBody
  | other : ¬ PayloadPart n → (∀ m, ns.head? = some m → ¬ TextBlock m) → Leaves inBody n ns false

/-- All blocks from the first section on. -/
inductive Sections (w : World) (context : SectionType) : Bool → References.Payload → List Node → References.Payload → List Warning → Prop
  | done {b p} : Sections w context b p [] p []
  | next {b p n p₁ a ns b' p₂ c} : Part w context b n p p₁ a → Leaves b n ns b' → Sections w context b' p₁ ns p₂ c →
      Sections w context b p (n :: ns) p₂ (a ++ c)

/-! ## The first line -/

/-- What the first line says: the name and the media type.  (A response without a status has the status 200.) -/
inductive HeadLine (k : PayloadKind) (context : SectionType) (text : Bytes) : References.Payload → List Warning → Bytes → Prop
  | mk {line rest name hs a b} : FirstLine text line → Remainder text rest →
      (k = .response ∧ (payloadParts k line).name = [] ∧ name = str "200" ∧ b = [.missingStatus] ∨
        ¬ (k = .response ∧ (payloadParts k line).name = []) ∧ name = (payloadParts k line).name ∧ b = []) →
      ((payloadParts k line).media = [] ∧ hs = [] ∨
        (payloadParts k line).media ≠ [] ∧ hs = [(str "Content-Type", (payloadParts k line).media)]) →
      ((payloadParts k line).malformed = true ∧ a = [.malformed context] ∨ (payloadParts k line).malformed = false ∧ a = []) →
      HeadLine k context text { name := name, headers := hs } (a ++ b) rest

/-- Blocks of a description. -/
inductive Describes (w : World) : Bytes → List Node → Bytes → Prop
  | nil {d} : Describes w d [] d
  | cons {d n s d' ns e} : Trimmed (ByteBuffer.mapBytesRangeSet n.sourceMap w.source) s → Follows d s d' → Describes w d' ns e →
      Describes w d (n :: ns) e

/-! ## References -/

/-- What a reference gives.  (That headers of the payload itself are ignored is reported.) -/
inductive Refers (w : World) (context : SectionType) (symbol : Bytes) (p : References.Payload) : References.Payload → List Warning → Prop
  | unknown : w.table.find symbol = none → Refers w context symbol p { p with refId := symbol, refState := .pending } []
  | found {m q} : w.table.find symbol = some m → Spec.References.Filled p m q → q.refId = symbol → q.refState = .resolved →
      (p.headers = [] ∨ ∀ h ∈ m.headers, h.1 ≠ str "Content-Type") → Refers w context symbol p q []
  | ignoring {m q} : w.table.find symbol = some m → Spec.References.Filled p m q → q.refId = symbol → q.refState = .resolved →
      p.headers ≠ [] → (∃ h ∈ m.headers, h.1 = str "Content-Type") → Refers w context symbol p q [.ignoredHeaders context]

/-! ## Payloads without sections -/

/-- The lines under the first. -/
inductive Under (w : World) (context : SectionType) (rest : Bytes) (p : References.Payload) : References.Payload → List Warning → Prop
  | nothing : rest = [] → Under w context rest p p []
  | reference {symbol q ws} : rest ≠ [] → Reference rest symbol → Refers w context symbol p q ws → Under w context rest p q ws
  | text {k} : rest ≠ [] → (∀ symbol, ¬ Reference rest symbol) → Level context k →
      Under w context rest p { p with body := closed (lines rest) } [.multiline .body k]

/-- The blocks of the body: after a reference nothing counts, only the first block can be one. -/
inductive BodyBlocks (w : World) (context : SectionType) : References.Payload → List Node → References.Payload → List Warning → Prop
  | done {p} : BodyBlocks w context p [] p []
  | after {p n ns q ws} : p.refId ≠ [] → BodyBlocks w context p ns q ws →
      BodyBlocks w context p (n :: ns) q (.afterReference p.refId :: ws)
  | reference {p n symbol p₁ a ns q ws} : p.refId = [] → p.body = [] → n.kind = .paragraph → Reference n.text symbol →
      Refers w context symbol p p₁ a → BodyBlocks w context p₁ ns q ws → BodyBlocks w context p (n :: ns) q (a ++ ws)
  | text {p n a ns q ws} : p.refId = [] → (p.body ≠ [] ∨ n.kind ≠ .paragraph ∨ ∀ symbol, ¬ Reference n.text symbol) →
      Reports .body context n a → BodyBlocks w context { p with body := p.body ++ said w n } ns q ws →
      BodyBlocks w context p (n :: ns) q (a ++ ws)

/-! ## Payloads -/

/-- A request that says nothing is reported, and so is a body that its response must not have. -/
inductive Checked (k : PayloadKind) (p : References.Payload) : List Warning → Prop
  | empty {length encoding} : k = .request → HeaderValue p.headers (str "Content-Length") length →
      HeaderValue p.headers (str "Transfer-Encoding") encoding → p.body = [] → p.attributes = [] → p.refState ≠ .pending →
      (p.headers = [] ∧ p.parameters = [] ∨ length ≠ [] ∨ encoding ≠ []) → Checked k p [.emptyBody length encoding]
  | request {length encoding} : k = .request → HeaderValue p.headers (str "Content-Length") length →
      HeaderValue p.headers (str "Transfer-Encoding") encoding →
      ¬ (p.body = [] ∧ p.attributes = [] ∧ p.refState ≠ .pending ∧ (p.headers = [] ∧ p.parameters = [] ∨ length ≠ [] ∨ encoding ≠ [])) →
      Checked k p []
  | response {code} : k = .response → Http.checkResponse p.name p.body (p.refState = .pending) = some code → Checked k p [.bodyNotAllowed code]
  | fine : k = .response → Http.checkResponse p.name p.body (p.refState = .pending) = none → Checked k p []
  | model : k = .model → Checked k p []

/-- A payload with sections, and one without. -/
inductive PayloadRead (w : World) (context : SectionType) (sig : Node) (blocks : List Node) : References.Payload → List Warning → Prop
  | full {k p a rest pre post d q b c} : (k, true, context) ∈ payloadTypes → HeadLine k context sig.text p a rest →
      Until PayloadPart blocks pre post → Describes w rest pre d → Sections w context false { p with description := d } post q b →
      Checked k q c → PayloadRead w context sig blocks q (a ++ b ++ c)
  | short {k p a rest pre post p₁ p₂ q b c d e} : (k, false, context) ∈ payloadTypes → HeadLine k context sig.text p a rest →
      Under w context rest p p₁ b → Until Starts blocks pre post → BodyBlocks w context p₁ pre p₂ c →
      Sections w context false p₂ post q d → Checked k q e → PayloadRead w context sig blocks q (a ++ b ++ c ++ d ++ e)

end Verif.Spec.Payload
