import Verif.Model.Parameters
import Verif.Model.MsonParser
import Verif.Model.Payload

/-!
# Parameters (`ParametersParser.h`, `ParameterParser.h`, `MSONParameterParser.h`, `ValuesParser.h`)

S = packages/apib-parser/src/snowcrash.

The four processors, run by the section parser of `Model/Section.lean`.  Type sections of a parameter are read by the parser of
`Model/MsonParser.lean`, its traits by `Model/Parameters.lean`.

Simplification: source maps are left out.
-/

namespace Verif.ParametersParser
open Verif Verif.Text Verif.Section Verif.Recognition Verif.Regex
open Verif.Parameters (Parameter)
open Verif.Mson (Context)
open Verif.Signature (matchLoop Signature Traits)
open Verif.MsonParser (World readSignature parseTypeSection Draft)
open Verif.DataStructure (Element)

/-! ## What is a parameter -/

/-- S/ParameterParser.h:22 `PARAMETER_IDENTIFIER`, in the expression of line 411. -/
def identifierRegex : Bytes := str "^`?(([[:alnum:]_.-])*|(%[A-Fa-f0-9]{2})*)+`?[[:blank:]]*"

/-- S/ParameterParser.h:75-81 `ParameterType`. -/
inductive Syntax
  | none | old | new
  deriving DecidableEq, Repr

/-- `matchBrackets(innerSignature, 0, ')')`, S/SignatureSectionProcessor.h:375-440: what it returns and what is left of the text.  (The bound of
the loop is never reached: `ParametersParser.brackets_fine`.) -/
def brackets (s : Bytes) : Bytes × Bytes :=
  match matchLoop (s.length + 1) s 1 (asc ')') false false (s.take 1) with
  | .ok r => r
  | .error _ => ([], [])

/-- S/ParameterParser.h:463-474: what stands after the name, and the traits if there are any. -/
def afterTraits (s : Bytes) : Syntax :=
  if s.head? = some (asc '-') then .new
  else if s.take 3 = str "..." then .old
  else .none

/-- S/ParameterParser.h:421-474: what stands after the name. -/
def afterName (s : Bytes) : Syntax :=
  if s.isEmpty then .new
  else if s.head? = some (asc ':') ∨ s.head? = some (asc '=') then
    if (trim (s.drop 1)).isEmpty then .none else if s.head? = some (asc ':') then .new else .old
  else if s.head? = some (asc '(') then
    let r := brackets s
    if r.1.length = 2 ∨ r.1 = r.2 then .none
    else if regexMatch (r.1.drop 1) (str "enum\\[[^][]+]") then .new
    else if regexMatch (r.1.drop 1) (str "`") then .old
    else if (trim r.2).isEmpty then .new
    else afterTraits (trim r.2)
  else afterTraits s

/-- S/ParameterParser.h:401-475 `getParameterType` -/
def getParameterType (signature : Bytes) : Syntax :=
  let s := trim signature
  match regexCapture s identifierRegex with
  | none => .none
  | some groups =>
    if (groups.getD 0 []).isEmpty then .none else afterName (trim (s.drop (groups.getD 0 []).length))

/-- S/ParameterParser.h:188-207: the nested list items; `none` if they do not tell. -/
def lookAhead : List Node → Option SectionType
  | [] => none
  | n :: ns =>
    if n.kind = .listItem ∧ n.children ≠ [] then
      if typeSectionOf n = .msonSampleDefault ∨ typeSectionOf n = .msonValueMembers then some .msonParameter
      else if regexMatch (frontLine n) valuesRegex then some .parameter
      else lookAhead ns
    else lookAhead ns

/-- S/ParameterParser.h:178-221 `sectionType` -/
def parameterType (n : Node) : SectionType :=
  if n.kind = .listItem ∧ n.children ≠ [] then
    match lookAhead n.children with
    | some t => t
    | none =>
      match getParameterType (frontLine n) with
      | .old => .parameter
      | .new => .msonParameter
      | .none => .undefined
  else .undefined

/-! ## Reports -/

/-- The warnings of a parameters section. -/
inductive Warning
  /-- of signatures, type sections, and blocks that are ignored -/
  | mson (w : MsonParser.Warning)
  /-- S/ParametersParser.h:49-61 -/
  | extraContent
  /-- S/ParametersParser.h:95-103 -/
  | again (name : Bytes)
  /-- S/ParametersParser.h:144-149 -/
  | noParameters
  /-- S/ParameterParser.h:299-309 -/
  | badTraits (oldSyntax : Bool)
  /-- S/ParameterParser.h:137-145 -/
  | valuesAgain (name : Bytes)
  /-- S/ParameterParser.h:156-164 -/
  | noValues (name : Bytes)
  /-- S/ValuesParser.h:53-62 -/
  | notValue (text : Bytes)
  /-- S/ParameterParser.h:336-348 -/
  | clash (name : Bytes)
  /-- S/ParameterParser.h:377-398 -/
  | notAmong (text : Bytes)
  deriving DecidableEq, Repr

/-- `out.node`, what is known of the named types, and `out.report.warnings`. -/
structure Out (α : Type) where
  node : α
  types : Context
  warnings : List Warning := []

/-- `warnings.push_back` -/
def Out.warn {α : Type} (o : Out α) (ws : List Warning) : Out α := { o with warnings := o.warnings ++ ws }

/-- S/SectionProcessor.h:210-233 `processUnexpectedNode` -/
def unexpected {α : Type} (ns : List Node) (i : Nat) (pd : PD (Out α)) : Except Stop (Nat × PD (Out α)) :=
  match ns[i]? with
  | none => .error .outOfRange
  | some n => .ok (i + 1, pd.set (pd.data.warn [.mson (if n.kind = .header then .unexpectedHeader else .unrecognised)]))

/-- A signature that is one node. -/
def oneSignature {α : Type} (f : Node → Out α → Except Stop (Out α)) (ns : List Node) (i : Nat) (pd : PD (Out α)) :
    Except Stop (Reply (Out α) Layout) :=
  match ns[i]? with
  | none => .error .outOfRange
  | some n =>
    match f n pd.data with
    | .error e => .error e
    | .ok o => .ok (.done (i + 1) .default (pd.set o))

/-! ## Values -/

/-- S/ValuesParser.h:16 -/
def valueRegex : Bytes := str "`([^`]+)`"

/-- S/ValuesParser.h:92-106 `nestedSectionType` -/
def valueType (n : Node) : SectionType :=
  if n.kind = .listItem ∧ n.children.length = 1 ∧ (trim (frontText n)).isEmpty = false then .value else .undefined

/-- S/ValuesParser.h:37-63: one value. -/
def addValue (n : Node) (o : Out (List Bytes)) : Out (List Bytes) :=
  match regexCapture (frontText n) valueRegex with
  | some groups => { o with node := o.node ++ [groups.getD 1 []] }
  | none => o.warn [.notValue (trim (frontText n))]

/-- S/ValuesParser.h:28-106 `SectionProcessor<Values>` -/
def valuesOwn : Own (Out (List Bytes)) where
  signature := oneSignature fun _ o => .ok o
  isDescription _ _ := false
  description _ i pd := .ok (i, pd)
  isContent _ _ := false
  content _ i pd := .ok (i + 1, pd)
  preprocess _ _ pd := .ok pd
  nestedType := valueType
  nested ns i pd :=
    match ns[i]? with
    | none => .error .outOfRange
    | some n => if pd.top = .value then .ok (.done (i + 1) () (pd.set (addValue n pd.data))) else .ok (.done i () pd)
  entered _ _ _ pd := .ok pd
  isUnexpected n _ := recognise.isUnexpected [] n
  unexpected ns i _ := unexpected ns i
  finalize _ _ pd := .ok pd

/-- `ValuesParser::parse`, S/ValuesParser.h:109 -/
def parseValues : Parse (Out (List Bytes)) := parseSection valuesOwn .list fun _ _ i pd => .ok (i, pd)

/-! ## A parameter -/

/-- S/SectionProcessor.h:150-171 `processDescription` -/
def description (w : World) (ns : List Node) (i : Nat) (pd : PD (Out Parameter)) : Except Stop (Nat × PD (Out Parameter)) :=
  match ns[i]? with
  | none => .error .outOfRange
  | some n =>
    match MsonParser.separated pd.data.node.description with
    | .error e => .error e
    | .ok s => .ok (i + 1, pd.set { pd.data with node := { pd.data.node with description := s ++ trim (MsonParser.sourceOf w n) } })

/-- S/ParameterParser.h:92-100 -/
abbrev oldTraits : Traits :=
  { identifier := true, values := true, attributes := true, content := true, valuesDelimiter := asc '=', contentDelimiter := str "..." }
/-- S/MSONParameterParser.h:25-32 -/
abbrev newTraits : Traits := { identifier := true, values := true, attributes := true, content := true }

/-- The traits of a parameter, S/ParameterParser.h:231-329. -/
def withTraits (oldSyntax : Bool) (attributes : List Bytes) (p : Parameter) (o : Out Parameter) : Out Parameter :=
  let r := Parameters.parseAttributes oldSyntax attributes p.exampleValue
  { o with
    node := { p with use := r.1.use, type := r.1.type, exampleValue := r.1.exampleValue }
    warnings := o.warnings ++ if r.2 then [.badTraits oldSyntax] else [] }

/-- S/ParameterParser.h:102-134 `finalizeSignature` -/
def oldSignature (n : Node) (o : Out Parameter) : Except Stop (Out Parameter) :=
  match readSignature oldTraits n with
  | .error e => .error e
  | .ok (sig, ws) =>
    let text := if sig.remainingContent.isEmpty then sig.content else sig.content ++ str "\n" ++ sig.remainingContent
    .ok (withTraits true sig.attributes { o.node with name := sig.identifier, description := trim text, defaultValue := sig.value }
      (o.warn (ws.map .mson)))

/-- S/MSONParameterParser.h:34-65 `finalizeSignature` -/
def newSignature (n : Node) (o : Out Parameter) : Except Stop (Out Parameter) :=
  match readSignature newTraits n with
  | .error e => .error e
  | .ok (sig, ws) =>
    let text := if sig.remainingContent.isEmpty then sig.content else sig.content ++ str "\n" ++ sig.remainingContent ++ str "\n"
    .ok (withTraits false sig.attributes
      { o.node with name := stripBackticks sig.identifier, description := text, exampleValue := sig.value } (o.warn (ws.map .mson)))

/-- S/ParameterParser.h:171-176, S/MSONParameterParser.h:136-142 `finalize` -/
def checkParameter (o : Out Parameter) : Out Parameter :=
  o.warn ((if Parameters.defaultClash o.node then [.clash o.node.name] else []) ++
    match Parameters.valuesWarning o.node with
    | some t => [.notAmong t]
    | none => [])

/-- S/ParameterParser.h:136-169 `processNestedSection` -/
def oldNested (ns : List Node) (i : Nat) (pd : PD (Out Parameter)) : Except Stop (Reply (Out Parameter) Unit) :=
  if pd.top ≠ .values then .ok (.done i () pd)
  else
    let o := pd.data.warn (if pd.data.node.values.isEmpty then [] else [.valuesAgain pd.data.node.name])
    match parseValues ns i ⟨pd.context, [], o.types, o.warnings⟩ with
    | .error e => .error e
    | .ok (_, v) =>
      .ok (.done (i + 1) () (pd.set ⟨{ o.node with values := v.data.node }, v.data.types,
        v.data.warnings ++ if v.data.node.isEmpty then [.noValues o.node.name] else []⟩))

/-- S/ParameterParser.h:86-229 `SectionProcessor<Parameter>` -/
def oldOwn (w : World) : Own (Out Parameter) where
  signature := oneSignature oldSignature
  isDescription n _ := recognise.isDescription recognise.valuesType [] n
  description := description w
  isContent _ _ := false
  content _ i pd := .ok (i + 1, pd)
  preprocess _ _ pd := .ok pd
  nestedType := recognise.valuesType
  nested := oldNested
  entered _ _ _ pd := .ok pd
  isUnexpected n _ := recognise.isUnexpected [] n
  unexpected ns i _ := unexpected ns i
  finalize _ _ pd := .ok (pd.set (checkParameter pd.data))

/-- `ParameterParser::parse`, S/ParameterParser.h:478 -/
def parseOld (w : World) : Parse (Out Parameter) := parseSection (oldOwn w) .list fun _ _ i pd => .ok (i, pd)

/-- S/MSONParameterParser.h:107-132: the values of the section. -/
def sectionValues (es : List Element) : List Bytes :=
  es.filterMap fun
    | .value m => match m.definition.values with
      | [v] => some v.literal
      | _ => none
    | _ => none

/-- S/MSONParameterParser.h:67-134 `processNestedSection` -/
def newNested (w : World) (ns : List Node) (i : Nat) (pd : PD (Out Parameter)) : Except Stop (Reply (Out Parameter) Unit) :=
  let call (d : Draft) (f : Draft → Parameter → Parameter) : Except Stop (Reply (Out Parameter) Unit) :=
    match parseTypeSection w ns i ⟨pd.context, d, pd.data.types, []⟩ with
    | .error e => .error e
    | .ok (j, x) =>
      .ok (.done j () (pd.set ⟨f x.data.node pd.data.node, x.data.types, pd.data.warnings ++ x.data.warnings.map .mson⟩))
  match pd.top with
  | .msonSampleDefault =>
    call { base := .implicitPrimitive } fun d p =>
      if d.value.isEmpty then p
      else if d.klass = .default then { p with defaultValue := d.value }
      else if d.klass = .sample then { p with exampleValue := d.value }
      else p
  | .msonValueMembers => call { base := .implicitValue } fun d p => { p with values := sectionValues d.elements }
  | _ => .ok (.done i () pd)

/-- S/MSONParameterParser.h:22-156 `SectionProcessor<MSONParameter>` -/
def newOwn (w : World) : Own (Out Parameter) where
  signature := oneSignature newSignature
  isDescription n _ := recognise.isDescription recognise.typeSectionType [] n
  description := description w
  isContent _ _ := false
  content _ i pd := .ok (i + 1, pd)
  preprocess _ _ pd := .ok pd
  nestedType := recognise.typeSectionType
  nested := newNested w
  entered _ _ _ pd := .ok pd
  isUnexpected n _ := recognise.isUnexpected [] n
  unexpected ns i _ := unexpected ns i
  finalize _ _ pd := .ok (pd.set (checkParameter pd.data))

/-- `MSONParameterParser::parse`, S/MSONParameterParser.h:159 -/
def parseNew (w : World) : Parse (Out Parameter) := parseSection (newOwn w) .list fun _ _ i pd => .ok (i, pd)

/-! ## The section -/

/-- S/ParametersParser.h:89-112, with `findParameter` and `removeParameter`: the parameter is added, and one of the same name is removed. -/
def addParameter (p : Parameter) (o : Out (List Parameter)) : Out (List Parameter) :=
  match Parameters.findParameter o.node p with
  | none => { o with node := o.node ++ [p] }
  | some j => { o with node := o.node.eraseIdx j ++ [p], warnings := o.warnings ++ [.again p.name] }

/-- S/ParametersParser.h:68-114 `processNestedSection` -/
def parametersNested (w : World) (ns : List Node) (i : Nat) (pd : PD (Out (List Parameter))) : Except Stop (Reply (Out (List Parameter)) Unit) :=
  let call (p : Parse (Out Parameter)) : Except Stop (Reply (Out (List Parameter)) Unit) :=
    match p ns i ⟨pd.context, { name := [] }, pd.data.types, pd.data.warnings⟩ with
    | .error e => .error e
    | .ok (_, x) => .ok (.done (i + 1) () (pd.set (addParameter x.data.node ⟨pd.data.node, x.data.types, x.data.warnings⟩)))
  match pd.top with
  | .parameter => call (parseOld w)
  | .msonParameter => call (parseNew w)
  | _ => .ok (.done i () pd)

/-- S/ParametersParser.h:36-152 `SectionProcessor<Parameters>` -/
def parametersOwn (w : World) : Own (Out (List Parameter)) where
  signature := oneSignature fun n o => .ok (o.warn (if (getFirstLine n.text).2.isEmpty then [] else [.extraContent]))
  isDescription _ _ := false
  description _ i pd := .ok (i, pd)
  isContent _ _ := false
  content _ i pd := .ok (i + 1, pd)
  preprocess _ _ pd := .ok pd
  nestedType := parameterType
  nested := parametersNested w
  entered _ _ _ pd := .ok pd
  isUnexpected n _ := recognise.isUnexpected [] n
  unexpected ns i _ := unexpected ns i
  finalize _ _ pd := .ok (pd.set (pd.data.warn (if pd.data.node.isEmpty then [.noParameters] else [])))

/-- `ParametersParser::parse`, S/ParametersParser.h:238 -/
def parseParameters (w : World) : Parse (Out (List Parameter)) := parseSection (parametersOwn w) .list fun _ _ i pd => .ok (i, pd)

end Verif.ParametersParser
