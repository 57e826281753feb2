import Verif.Model.ByteBuffer

/-!
# Parsing of sections (`SectionParser.h`)

S = packages/apib-parser/src/snowcrash, P = packages/apib-parser/src/markdown-parser.

`SectionParser<T, Adapter>::parse` is a template driven by the static functions of
`SectionProcessor<T>`.  The model keeps the template exactly and takes the processor as a record
of functions, so that what is proved holds for every processor.  Iterators into a sibling list are
indices, `end()` is the length.
-/

namespace Verif.Section

/-- P/MarkdownNode.h:22-36 `MarkdownNodeType`; the kinds the section parser never asks about are
collapsed into `other`. -/
inductive Kind
  | header | listItem | paragraph | code | other
  deriving DecidableEq, Repr

/-- P/MarkdownNode.h:47-101 `MarkdownNode`.  Simplification: parent pointers and `data` are left
out. -/
inductive Node
  | mk (kind : Kind) (text : Bytes) (sourceMap : List ByteBuffer.Range) (children : List Node)

namespace Node
/-- P/MarkdownNode.h:53 -/
def kind : Node → Kind | mk k _ _ _ => k
/-- P/MarkdownNode.h:56 -/
def text : Node → Bytes | mk _ t _ _ => t
/-- P/MarkdownNode.h:62 -/
def sourceMap : Node → List ByteBuffer.Range | mk _ _ m _ => m
/-- P/MarkdownNode.h:75-76 -/
def children : Node → List Node | mk _ _ _ c => c
/-- The length of the first range (SectionParser.h:197); that there is none is not modelled. -/
def mapped (n : Node) : Nat := (n.sourceMap.head?.map fun r => r.length).getD 0
end Node

/-- S/Section.h:20-56 `SectionType`. -/
inductive SectionType
  | undefined | blueprint | dataStructureGroup | resourceGroup | resource | action | relation
  | request | requestBody | response | responseBody | attributes | model | modelBody | body
  | danglingBody | schema | danglingSchema | headers | foreign | parameters | parameter
  | msonParameter | values | value | msonMixin | msonNamedType | msonOneOf | msonPropertyMember
  | msonSampleDefault | msonPropertyMembers | msonValueMembers | msonValueMember | mson
  deriving DecidableEq, Repr

/-- S/SectionProcessor.h:43-48 `SectionLayout`. -/
inductive Layout
  | default | exclusive | redirect
  deriving DecidableEq, Repr

/-- Ways for a parse not to return: an exception is thrown, an iterator is dereferenced at
`end()`, or a loop runs out of the iterations it was given. -/
inductive Stop
  | thrown | outOfRange | diverges
  deriving DecidableEq, Repr

/-- S/SectionParserData.h:24-112: the section context stack (top first) and everything else a
processor may change (output, report, tables), of any type `σ`. -/
structure PD (σ : Type) where
  context : List SectionType
  data : σ

/-- S/SectionParserData.h:82-85 `sectionContext`. -/
def PD.top {σ : Type} (pd : PD σ) : SectionType :=
  match pd.context with
  | [] => .undefined
  | t :: _ => t

/-- S/SectionParserData.h:88-99 `parentSectionContext`. -/
def PD.parent {σ : Type} (pd : PD σ) : SectionType :=
  match pd.context with
  | [] => .undefined
  | [t] => t
  | _ :: t :: _ => t

/-- What a processor answers when it is given a node: it has dealt with it and names the node to
go on with, or it runs the parser of a nested section at that node. -/
inductive Reply (σ α : Type)
  | done (cur : Nat) (extra : α) (pd : PD σ)
  | enter (section_ : SectionType) (pd : PD σ)

/-- S/SectionProcessor.h:128-301, the static functions of a `SectionProcessor<T>`.  Each receives
the sibling list and a position in it.  `signature` and `nested` may run the parser of another
section (`enter`); `entered` is what they do with its result. -/
structure Own (σ : Type) where
  signature : List Node → Nat → PD σ → Except Stop (Reply σ Layout)
  isDescription : Node → SectionType → Bool
  description : List Node → Nat → PD σ → Except Stop (Nat × PD σ)
  isContent : Node → SectionType → Bool
  content : List Node → Nat → PD σ → Except Stop (Nat × PD σ)
  preprocess : List Node → Nat → PD σ → Except Stop (PD σ)
  nestedType : Node → SectionType
  nested : List Node → Nat → PD σ → Except Stop (Reply σ Unit)
  entered : List Node → Nat → SectionType → PD σ → Except Stop (PD σ)
  isUnexpected : Node → SectionType → Bool
  unexpected : List Node → Nat → SectionType → PD σ → Except Stop (Nat × PD σ)
  finalize : List Node → Nat → PD σ → Except Stop (PD σ)

/-- S/SectionParser.h:144-248, the three adapters. -/
inductive Adapter
  | header | list | blueprint
  deriving DecidableEq, Repr

/-- S/SectionParser.h:196-203: the first child whose source map begins with a non-empty range,
else the first child. -/
def firstMapped (ns : List Node) : Nat :=
  let i := ns.findIdx fun n => n.mapped != 0
  if i < ns.length then i else 0

/-- S/SectionParser.h:147-164, 187-210, 228-238 `startingNode` and `startingNodeSiblings`. -/
def Adapter.start (a : Adapter) (siblings : List Node) (seed : Nat) :
    Except Stop (Nat × List Node) :=
  match a with
  | .blueprint => .ok (seed, siblings)
  | .header =>
    match siblings[seed]? with
    | none => .error .outOfRange
    | some n => if n.kind = .header then .ok (seed, siblings) else .error .thrown
  | .list =>
    match siblings[seed]? with
    | none => .error .outOfRange
    | some n =>
      if n.kind = .listItem then .ok (firstMapped n.children, n.children) else .error .thrown

/-- S/SectionParser.h:167-171, 212-219, 241-245 `nextStartingNode`. -/
def Adapter.next (a : Adapter) (siblings : List Node) (seed cur : Nat) : Nat :=
  match a with
  | .blueprint => cur
  | .header => cur
  | .list => if seed = siblings.length then seed else seed + 1

/-- S/SectionParser.h:181, 221, 247 `nextSkipsUnexpected`. -/
def Adapter.skips : Adapter → Bool
  | .list => true
  | _ => false

/-- The parser of a nested section: siblings, position, parser data. -/
abbrev Parse (σ : Type) := List Node → Nat → PD σ → Except Stop (Nat × PD σ)

/-- S/SectionParser.h:67-75 and 77-85, the loops over description and content nodes.  The last
component is `false` when the loop was left because the processor did not move (the parser then
returns without looking at nested sections and without `finalize`).  The first argument bounds the
number of iterations. -/
def phase {σ : Type} (is : Node → SectionType → Bool)
    (step : List Node → Nat → PD σ → Except Stop (Nat × PD σ)) (ns : List Node) :
    Nat → Nat → PD σ → Except Stop (Nat × PD σ × Bool)
  | fuel, cur, pd =>
    match ns[cur]? with
    | none => .ok (cur, pd, true)
    | some n =>
      if is n pd.top then
        match fuel with
        | 0 => .error .diverges
        | fuel + 1 =>
          match step ns cur pd with
          | .error e => .error e
          | .ok (cur', pd') =>
            if cur' = cur then .ok (cur', pd', false) else phase is step ns fuel cur' pd'
      else .ok (cur, pd, true)

/-- `cur->type` is a paragraph or a code block (S/SectionParser.h:127-128). -/
def isText : Option Node → Bool
  | some n => n.kind == .paragraph || n.kind == .code
  | none => false

/-- S/SectionParser.h:117-123: one nested node. -/
def nestedStep {σ : Type} (o : Own σ) (skips : Bool) (child : SectionType → Parse σ)
    (ns : List Node) (n : Node) (cur : Nat) (last : SectionType) (pd : PD σ) :
    Except Stop (Nat × PD σ) :=
  if o.nestedType n ≠ .undefined then
    match o.nested ns cur pd with
    | .error e => .error e
    | .ok (.done cur' _ pd') => .ok (cur', pd')
    | .ok (.enter t pd') =>
      match child t ns cur pd' with
      | .error e => .error e
      | .ok (cur', pd'') =>
        match o.entered ns cur t pd'' with
        | .error e => .error e
        | .ok pd''' => .ok (cur', pd''')
  else if skips || o.isUnexpected n pd.top then o.unexpected ns cur last pd
  else .ok (cur, pd)

/-- S/SectionParser.h:110-137, the loop over nested sections.  The first argument bounds the number
of iterations. -/
def nestedLoop {σ : Type} (o : Own σ) (skips : Bool) (child : SectionType → Parse σ)
    (ns : List Node) : Nat → Nat → SectionType → PD σ → Except Stop (Nat × PD σ)
  | fuel, cur, last, pd =>
    match ns[cur]? with
    | none => .ok (cur, pd)
    | some n =>
      match fuel with
      | 0 => .error .diverges
      | fuel + 1 =>
        match nestedStep o skips child ns n cur last
            { pd with context := o.nestedType n :: pd.context } with
        | .error e => .error e
        | .ok (cur', pd') =>
          let last' :=
            if cur' ≠ ns.length ∧ (pd'.top ≠ .undefined ∨ isText ns[cur']? = false)
            then pd'.top else last
          let pd'' := { pd' with context := pd'.context.tail }
          if cur' = cur then .ok (cur', pd'')
          else nestedLoop o skips child ns fuel cur' last' pd''

/-- S/SectionParser.h:96-140 `parseNestedSections`. -/
def parseNested {σ : Type} (o : Own σ) (skips : Bool) (child : SectionType → Parse σ)
    (ns : List Node) (cur : Nat) (pd : PD σ) : Except Stop (Nat × PD σ) :=
  match o.preprocess ns cur pd with
  | .error e => .error e
  | .ok pd' => nestedLoop o skips child ns (ns.length - cur) cur .undefined pd'

/-- S/SectionParser.h:87-92 (and 49-53): nested sections, then `finalize`. -/
def closing {σ : Type} (o : Own σ) (a : Adapter) (child : SectionType → Parse σ)
    (siblings : List Node) (seed : Nat) (ns : List Node) (cur : Nat) (pd : PD σ) :
    Except Stop (Nat × PD σ) :=
  match parseNested o a.skips child ns cur pd with
  | .error e => .error e
  | .ok (cur', pd') =>
    match o.finalize siblings seed pd' with
    | .error e => .error e
    | .ok pd'' => .ok (a.next siblings seed cur', pd'')

/-- S/SectionParser.h:63-92, the default layout after the signature. -/
def body {σ : Type} (o : Own σ) (a : Adapter) (child : SectionType → Parse σ)
    (siblings : List Node) (seed : Nat) (ns : List Node) (start cur : Nat) (pd : PD σ) :
    Except Stop (Nat × PD σ) :=
  if cur = start then .ok (a.next siblings seed cur, pd)
  else
    match phase o.isDescription o.description ns (ns.length - cur) cur pd with
    | .error e => .error e
    | .ok (cur₁, pd₁, false) => .ok (a.next siblings seed cur₁, pd₁)
    | .ok (cur₁, pd₁, true) =>
      match phase o.isContent o.content ns (ns.length - cur₁) cur₁ pd₁ with
      | .error e => .error e
      | .ok (cur₂, pd₂, false) => .ok (a.next siblings seed cur₂, pd₂)
      | .ok (cur₂, pd₂, true) => closing o a child siblings seed ns cur₂ pd₂

/-- S/SectionParser.h:32-93 `SectionParser<T, Adapter>::parse`.  A signature that runs another
parser leaves the section with the redirect layout (S/ResourceParser.h:331-350). -/
def parseSection {σ : Type} (o : Own σ) (a : Adapter) (child : SectionType → Parse σ) : Parse σ :=
  fun siblings seed pd =>
    match a.start siblings seed with
    | .error e => .error e
    | .ok (start, ns) =>
      match o.signature ns start pd with
      | .error e => .error e
      | .ok (.enter t pd₁) =>
        match child t ns start pd₁ with
        | .error e => .error e
        | .ok (cur, pd₂) =>
          match o.entered ns start t pd₂ with
          | .error e => .error e
          | .ok pd₃ =>
            match o.finalize siblings seed pd₃ with
            | .error e => .error e
            | .ok pd₄ => .ok (a.next siblings seed cur, pd₄)
      | .ok (.done cur .exclusive pd₁) => closing o a child siblings seed ns cur pd₁
      | .ok (.done cur .redirect pd₁) =>
        match o.finalize siblings seed pd₁ with
        | .error e => .error e
        | .ok pd₂ => .ok (a.next siblings seed cur, pd₂)
      | .ok (.done cur .default pd₁) => body o a child siblings seed ns start cur pd₁

/-- The parsers that a parser calls, and theirs, and so on.  `absent` stands for a nested section
for which the processor has no parser: it hands the node back.  Sections that nest in each other
(MSON members) are unrolled as deep as the document nests. -/
inductive Grammar (σ : Type)
  | absent
  | mk (own : Own σ) (adapter : Adapter) (child : SectionType → Grammar σ)

/-- The parser of a grammar. -/
def Grammar.parse {σ : Type} : Grammar σ → Parse σ
  | .absent => fun _ seed pd => .ok (seed, pd)
  | .mk own adapter child => parseSection own adapter fun t => (child t).parse

end Verif.Section
