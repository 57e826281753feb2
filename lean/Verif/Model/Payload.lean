import Verif.Model.Recognise
import Verif.Model.References
import Verif.Model.Headers
import Verif.Model.Metadata

/-!
# Payloads, their assets and headers (`PayloadParser.h`, `AssetParser.h`, `HeadersParser.h`,
`CodeBlockUtility.h`)

S = packages/apib-parser/src/snowcrash.

The three processors are run by the section parser of `Model/Section.lean`.  What the parsers of attributes
and parameters make of their section is a parameter (`World`).  Simplifications: no source maps; a warning is
its kind and what its text depends on, without its location.
-/

namespace Verif.Payload
open Verif Verif.Text Verif.Regex Verif.Section Verif.Recognition

abbrev Payload := References.Payload

/-- The warnings of the three processors. -/
inductive Warning
  /-- S/CodeBlockUtility.h:246-256 -/
  | possibleReference (symbol : Bytes) (context : SectionType)
  /-- S/CodeBlockUtility.h:66-80 -/
  | notPreformatted (context : SectionType) (level : Nat)
  /-- S/CodeBlockUtility.h:97-113 -/
  | multiline (context : SectionType) (level : Nat)
  /-- S/CodeBlockUtility.h:145-163 -/
  | excessive (found : SectionType) (level : Nat)
  /-- S/CodeBlockUtility.h:219-228 -/
  | dangling (level : Nat)
  /-- S/SectionProcessor.h:222-224 -/
  | unexpectedHeader
  /-- S/SectionProcessor.h:226 -/
  | unrecognised
  /-- S/PayloadParser.h:438-465 -/
  | malformed (context : SectionType)
  /-- S/PayloadParser.h:68-76 -/
  | missingStatus
  /-- S/PayloadParser.h:117-125 -/
  | afterReference (symbol : Bytes)
  /-- S/PayloadParser.h:570-580 -/
  | ignoredHeaders (context : SectionType)
  /-- S/PayloadParser.h:166-175 -/
  | foreignParameters
  /-- S/PayloadParser.h:184-191, 199-206 -/
  | redefined (context : SectionType)
  /-- S/PayloadParser.h:645-663 -/
  | emptyBody (length encoding : Bytes)
  /-- S/PayloadParser.h:687-693 -/
  | bodyNotAllowed (code : Nat)
  /-- S/HeadersParser.cc:60-111 -/
  | header (w : Headers.Warning)
  /-- S/HeadersParser.h:181-184 -/
  | noHeaders
  /-- of the parsers of attributes and parameters -/
  | other (text : Bytes)
  deriving DecidableEq, Repr

/-- What the parsers read: the source, the table of models, and what the parsers of attributes and
parameters make of their section, given what was there before. -/
structure World where
  source : Bytes
  table : References.Table
  attributes : Node → Bytes → Bytes × List Warning
  parameters : Node → List Bytes → List Bytes × List Warning

/-- `out.node` and `out.report.warnings`. -/
structure Data where
  payload : Payload := {}
  warnings : List Warning := []

/-- `warnings.push_back` -/
def Data.warn (d : Data) (ws : List Warning) : Data := { d with warnings := d.warnings ++ ws }

/-! ## CodeBlockUtility.h -/

/-- S/CodeBlockUtility.h:28-42 `codeBlockIndentationLevel` -/
def codeBlockLevel : SectionType → Nat
  | .blueprint | .resourceGroup | .resource | .action => 1
  | .requestBody | .responseBody | .modelBody => 2
  | _ => 3

/-- S/CodeBlockUtility.h:237-261 `checkPossibleReference` -/
def possibleReference (context : SectionType) (n : Node) : List Warning :=
  match References.modelReference n.text with
  | some symbol => [.possibleReference symbol context]
  | none => []

/-- S/Signature.cc:58-71 `RecognizeCodeBlockFirstLine` -/
def firstLineType (subject : Bytes) : SectionType :=
  if regexMatch subject headersRegex then .headers
  else if regexMatch subject bodyRegex then .body
  else if regexMatch subject schemaRegex then .schema
  else .undefined

/-- S/CodeBlockUtility.h:120-167 `checkExcessiveIndentation` -/
def excessive (context : SectionType) (n : Node) : List Warning :=
  match trim (getFirstLine n.text).1 with
  | [] => []
  | c :: s =>
    if c ≠ asc '-' ∧ c ≠ asc '+' ∧ c ≠ asc '*' then []
    else
      let type := firstLineType (trimStart s)
      if type ≠ .undefined then [.excessive type (codeBlockLevel context - 1)] else []

/-- `MapBytesRangeSet(node->sourceMap, pd.sourceData)` -/
def sourceOf (w : World) (n : Node) : Bytes := ByteBuffer.mapBytesRangeSet n.sourceMap w.source

/-- S/CodeBlockUtility.h:50-81 `contentAsCodeBlock`: what is added to the content, and the warnings. -/
def contentAsCodeBlock (w : World) (context parent : SectionType) (n : Node) : Bytes × List Warning :=
  if n.kind = .code then (n.text, possibleReference context n ++ excessive context n)
  else (sourceOf w n, possibleReference context n ++ [.notPreformatted context (codeBlockLevel parent)])

/-- S/CodeBlockUtility.h:84-114 `signatureContentAsCodeBlock` -/
def signatureContent (context parent : SectionType) (n : Node) : Bytes × List Warning :=
  let rest := (getFirstLine n.text).2
  if rest.isEmpty then ([], []) else (rest ++ [asc '\n'], [.multiline context (codeBlockLevel parent)])

/-- S/SectionProcessor.h:210-233, the warning of `processUnexpectedNode`. -/
def ignored (n : Node) : Warning := if n.kind = .header then .unexpectedHeader else .unrecognised

/-- A step over one node that only changes the data. -/
def one {σ : Type} (f : Node → PD σ → Except Stop σ) (ns : List Node) (i : Nat) (pd : PD σ) :
    Except Stop (Nat × PD σ) :=
  match ns[i]? with
  | none => .error .outOfRange
  | some n =>
    match f n pd with
    | .error e => .error e
    | .ok d => .ok (i + 1, pd.set d)

/-- The same for a signature. -/
def oneSignature {σ : Type} (f : Node → PD σ → Except Stop σ) (ns : List Node) (i : Nat) (pd : PD σ) :
    Except Stop (Reply σ Layout) :=
  match one f ns i pd with
  | .error e => .error e
  | .ok (j, pd') => .ok (.done j .default pd')

/-! ## Assets -/

/-- The asset that is read: `out.node.body` or `out.node.schema`, S/PayloadParser.h:193, 208. -/
def getAsset (t : SectionType) (p : Payload) : Bytes := if t = .schema then p.schema else p.body

/-- Assignment to it. -/
def setAsset (t : SectionType) (v : Bytes) (p : Payload) : Payload :=
  if t = .schema then { p with schema := v } else { p with body := v }

/-- S/AssetParser.h:41-57 `processSignature` -/
def assetSignature (t : SectionType) (n : Node) (pd : PD Data) : Except Stop Data :=
  let c := signatureContent pd.top pd.parent n
  .ok ⟨setAsset t c.1 pd.data.payload, pd.data.warnings ++ c.2⟩

/-- S/AssetParser.h:60-76 `processContent` -/
def assetContent (w : World) (t : SectionType) (n : Node) (pd : PD Data) : Except Stop Data :=
  let c := contentAsCodeBlock w pd.top pd.parent n
  .ok ⟨setAsset t (getAsset t pd.data.payload ++ c.1) pd.data.payload, pd.data.warnings ++ c.2⟩

/-- S/AssetParser.h:39-123 `SectionProcessor<Asset>`, with the defaults of S/SectionProcessor.h:128-301. -/
def assetOwn (w : World) (t : SectionType) : Own Data where
  signature := oneSignature (assetSignature t)
  isDescription _ _ := false
  description _ i pd := .ok (i, pd)
  isContent n _ := recognise.keyword n = .undefined
  content := one (assetContent w t)
  preprocess _ _ pd := .ok pd
  nestedType _ := .undefined
  nested _ i pd := .ok (.done i () pd)
  entered _ _ _ pd := .ok pd
  isUnexpected n _ := recognise.isUnexpected [] n
  unexpected ns i _ := one (fun n pd => .ok (pd.data.warn [ignored n])) ns i
  finalize _ _ pd := .ok pd

/-! ## Headers -/

/-- `headersFromContent` of the ranges of a node (S/HeadersParser.h:262-303). -/
def readHeaders (w : World) (ranges : List ByteBuffer.Range) (d : Data) : Data :=
  let r := Headers.headersFromContent w.source (ranges.map fun r => (r.location, r.length)) (d.payload.headers, [])
  { payload := { d.payload with headers := r.1 }, warnings := d.warnings ++ r.2.map .header }

/-- S/HeadersParser.h:114-132 `processSignature`: the first range is that of `+ Headers`. -/
def headersSignature (w : World) (n : Node) (pd : PD Data) : Except Stop Data :=
  .ok (readHeaders w (n.sourceMap.drop 1) (pd.data.warn (signatureContent pd.top pd.parent n).2))

/-- S/HeadersParser.h:136-148 `processContent` -/
def headersContent (w : World) (n : Node) (pd : PD Data) : Except Stop Data :=
  .ok (readHeaders w n.sourceMap (pd.data.warn (contentAsCodeBlock w pd.top pd.parent n).2))

/-- S/HeadersParser.h:112-187 `SectionProcessor<Headers>`. -/
def headersOwn (w : World) : Own Data where
  signature := oneSignature (headersSignature w)
  isDescription _ _ := false
  description _ i pd := .ok (i, pd)
  isContent n _ := recognise.keyword n = .undefined
  content := one (headersContent w)
  preprocess _ _ pd := .ok pd
  nestedType _ := .undefined
  nested _ i pd := .ok (.done i () pd)
  entered _ _ _ pd := .ok pd
  isUnexpected n _ := recognise.isUnexpected [] n
  unexpected ns i _ := one (fun n pd => .ok (pd.data.warn [ignored n])) ns i
  finalize _ _ pd := .ok (pd.set (pd.data.warn (if pd.data.payload.headers.isEmpty then [.noHeaders] else [])))

/-! ## Payloads -/

/-- The kind of a payload section, S/PayloadParser.h:405-424. -/
def kindOf : SectionType → Option PayloadKind
  | .request | .requestBody => some .request
  | .response | .responseBody => some .response
  | .model | .modelBody => some .model
  | _ => none

/-- S/PayloadParser.h:388-393 `isAbbreviated` -/
def isAbbreviated : SectionType → Bool
  | .requestBody | .responseBody | .modelBody => true
  | _ => false

/-- S/PayloadParser.h:63-76: what the text of the signature gives. -/
def headOf (context : SectionType) (text : Bytes) : PayloadHead :=
  match kindOf context with
  | some k => payloadHead k text
  | none => ⟨{}, false, (getFirstLine text).2⟩

/-- S/PayloadParser.h:508-608 `parseModelReference`, `assingReferredPayload`, for a text that is a reference. -/
def refer (w : World) (context : SectionType) (symbol : Bytes) (d : Data) : Data :=
  { payload := References.refer w.table symbol d.payload
    warnings := d.warnings ++
      match w.table.find symbol with
      | none => []
      | some m => if !d.payload.headers.isEmpty && m.headers.any (fun h => h.1 == References.contentType)
          then [.ignoredHeaders context] else [] }

/-- S/PayloadParser.h:63-76, 396-502: the data after the first line. -/
def payloadSignatureLine (context : SectionType) (n : Node) (d : Data) : Data :=
  let h := headOf context n.text
  { payload := { d.payload with
      name := h.parts.name
      headers := d.payload.headers ++
        if h.parts.media.isEmpty then [] else [(References.contentType, h.parts.media)] }
    warnings := d.warnings ++ (if h.parts.malformed then [.malformed context] else [])
      ++ (if h.assumed then [.missingStatus] else []) }

/-- S/PayloadParser.h:56-106 `processSignature` -/
def payloadSignature (w : World) (n : Node) (pd : PD Data) : Except Stop Data :=
  let d := payloadSignatureLine pd.top n pd.data
  let rest := (headOf pd.top n.text).rest
  if rest.isEmpty then .ok d
  else if !isAbbreviated pd.top then .ok { d with payload := { d.payload with description := rest } }
  else
    match References.modelReference rest with
    | some symbol => .ok (refer w pd.top symbol d)
    | none =>
      let c := signatureContent .body pd.top n
      match twoNewLines (d.payload.body ++ c.1) with
      | none => .error .outOfRange
      | some b => .ok ⟨{ d.payload with body := b }, d.warnings ++ c.2⟩

/-- S/SectionProcessor.h:150-171 `processDescription` -/
def payloadDescription (w : World) (n : Node) (pd : PD Data) : Except Stop Data :=
  let p := pd.data.payload
  match (if p.description.isEmpty then some [] else twoNewLines p.description) with
  | none => .error .outOfRange
  | some s => .ok { pd.data with payload := { p with description := s ++ trim (sourceOf w n) } }

/-- S/PayloadParser.h:130-140: the block is added to the body. -/
def addContent (w : World) (context : SectionType) (n : Node) (d : Data) : Data :=
  let c := contentAsCodeBlock w .body context n
  ⟨{ d.payload with body := d.payload.body ++ c.1 }, d.warnings ++ c.2⟩

/-- S/PayloadParser.h:108-146 `processContent` -/
def payloadContent (w : World) (n : Node) (pd : PD Data) : Except Stop Data :=
  let d := pd.data
  if !d.payload.refId.isEmpty then .ok (d.warn [.afterReference d.payload.refId])
  else if !d.payload.body.isEmpty ∨ n.kind ≠ .paragraph then .ok (addContent w pd.top n d)
  else
    match References.modelReference n.text with
    | some symbol => .ok (refer w pd.top symbol d)
    | none => .ok (addContent w pd.top n d)

/-- The warning about a second section, S/PayloadParser.h:183-191, 198-206. -/
def redefinition (t : SectionType) (d : Data) : Data :=
  d.warn (if (getAsset t d.payload).isEmpty then [] else [.redefined t])

/-- S/PayloadParser.h:148-217 `processNestedSection` -/
def payloadNestedSection (w : World) (ns : List Node) (i : Nat) (pd : PD Data) : Except Stop (Reply Data Unit) :=
  match ns[i]? with
  | none => .error .outOfRange
  | some n =>
    match pd.top with
    | .headers => .ok (.enter .headers pd)
    | .attributes =>
      let r := w.attributes n pd.data.payload.attributes
      .ok (.done (i + 1) () (pd.set ⟨{ pd.data.payload with attributes := r.1 }, pd.data.warnings ++ r.2⟩))
    | .parameters =>
      if pd.parent ≠ .request then .ok (.done (i + 1) () (pd.set (pd.data.warn [.foreignParameters])))
      else
        let r := w.parameters n pd.data.payload.parameters
        .ok (.done (i + 1) () (pd.set ⟨{ pd.data.payload with parameters := r.1 }, pd.data.warnings ++ r.2⟩))
    | .body => .ok (.enter .body (pd.set (redefinition .body pd.data)))
    | .schema => .ok (.enter .schema (pd.set (redefinition .schema pd.data)))
    | _ => .ok (.done i () pd)

/-- S/CodeBlockUtility.h:194-231 `addDanglingAsset`, for the body. -/
def addDangling (w : World) (last : SectionType) (n : Node) (pd : PD Data) : Except Stop Data :=
  match twoNewLines (if n.kind = .code then n.text else sourceOf w n) with
  | none => .error .outOfRange
  | some asset =>
    let level := if n.kind = .code then codeBlockLevel last - 1 else codeBlockLevel last
    .ok ⟨{ pd.data.payload with body := pd.data.payload.body ++ asset },
      pd.data.warnings ++ possibleReference pd.top n ++ if level = 0 then [] else [.dangling level]⟩

/-- S/PayloadParser.h:219-240 `processUnexpectedNode` -/
def payloadUnexpected (w : World) (last : SectionType) (n : Node) (pd : PD Data) : Except Stop Data :=
  if (n.kind = .paragraph ∨ n.kind = .code) ∧ last = .body then addDangling w last n pd
  else .ok (pd.data.warn [ignored n])

/-- The last header of that name (S/PayloadParser.h:621-632). -/
def lastHeader (name : Bytes) (hs : List References.Header) : Bytes :=
  hs.foldl (fun v h => if h.1 = name then h.2 else v) []

/-- S/PayloadParser.h:615-666 `checkRequest` -/
def checkRequest (p : Payload) : List Warning :=
  let length := lastHeader (str "Content-Length") p.headers
  let encoding := lastHeader (str "Transfer-Encoding") p.headers
  if p.body.isEmpty && p.attributes.isEmpty && p.refState ≠ .pending then
    let warn := if p.headers.isEmpty && p.parameters.isEmpty then true else !length.isEmpty || !encoding.isEmpty
    if warn then [.emptyBody length encoding] else []
  else []

/-- S/PayloadParser.h:672-695 `checkResponse` -/
def checkResponse (p : Payload) : List Warning :=
  match Http.checkResponse p.name p.body (p.refState = .pending) with
  | some code => [.bodyNotAllowed code]
  | none => []

/-- S/PayloadParser.h:328-341 `finalize` -/
def payloadFinalize (pd : PD Data) : PD Data :=
  pd.set (pd.data.warn (match pd.top with
    | .request | .requestBody => checkRequest pd.data.payload
    | .response | .responseBody => checkResponse pd.data.payload
    | _ => []))

/-- S/PayloadParser.h:54-341 `SectionProcessor<Payload>`. -/
def payloadOwn (w : World) : Own Data where
  signature := oneSignature (payloadSignature w)
  isDescription n t := !isAbbreviated t && recognise.isDescription payloadNested [] n
  description := one (payloadDescription w)
  isContent n t := isAbbreviated t && recognise.keyword n = .undefined
  content := one (payloadContent w)
  preprocess _ _ pd := .ok pd
  nestedType := payloadNested
  nested := payloadNestedSection w
  entered _ _ _ pd := .ok pd
  isUnexpected n _ := recognise.isUnexpected [] n
  unexpected ns i last := one (payloadUnexpected w last) ns i
  finalize _ _ pd := .ok (payloadFinalize pd)

/-- The parsers a payload calls, S/PayloadParser.h:154-211. -/
def payloadChild (w : World) : SectionType → Grammar Data
  | .headers => .mk (headersOwn w) .list fun _ => .absent
  | .body => .mk (assetOwn w .body) .list fun _ => .absent
  | .schema => .mk (assetOwn w .schema) .list fun _ => .absent
  | _ => .absent

/-- `PayloadParser`, S/PayloadParser.h:725 -/
def payloadGrammar (w : World) : Grammar Data := .mk (payloadOwn w) .list (payloadChild w)

/-- A payload of the given kind of section is parsed: `PayloadParser::parse` with a new payload
(S/ActionParser.h:118-140, S/ResourceParser.h:437-444), inside of the sections `outer`. -/
def parsePayload (w : World) (context : SectionType) (outer : List SectionType) (siblings : List Node) (i : Nat) :
    Except Stop (Nat × PD Data) :=
  (payloadGrammar w).parse siblings i ⟨context :: outer, {}⟩

end Verif.Payload
