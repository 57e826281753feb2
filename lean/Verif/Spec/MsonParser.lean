import Verif.Model.MsonParser
import Verif.Spec.LineKinds
import Verif.Spec.SignatureLine
import Verif.Spec.Recognise
import Verif.Spec.Text
import Verif.Spec.Payload

/-!
# Members and sections of MSON (specification)

What the blocks of a list item are, what is made of them, and what comes together.
-/

namespace Verif.Spec.MsonParser
open Verif Verif.Text Verif.Section Verif.Spec Verif.Spec.Recognition
open Verif.MsonParser (World Out Warning Draft ValueNode PropertyNode TypeSection sectionOf)
open Verif.Mson (Base TypeDef Context)
open Verif.DataStructure (Klass Element)

/-! ## What a list item is -/

/-- A list item whose first block has this text. -/
def Starts (n : Node) (text : Bytes) : Prop := n.kind = .listItem ∧ ∃ c cs, n.children = c :: cs ∧ c.text = text

/-- What is seen of the first line of a list item. -/
def Line (n : Node) (s : Bytes) : Prop := ∃ text l, Starts n text ∧ FirstLine text l ∧ Seen l s

/-- `Default…` or `Sample…` -/
def IsSample (n : Node) : Prop := ∃ s, Line n s ∧ (DefaultLine s ∨ SampleLine s)
/-- `Items` or `Members` -/
def IsItems (n : Node) : Prop := ∃ s, Line n s ∧ ItemsLine s
/-- `Properties` -/
def IsProperties (n : Node) : Prop := ∃ s, Line n s ∧ PropertiesLine s
/-- `One of` -/
def IsOneOf (n : Node) : Prop := ∃ s, Line n s ∧ OneOfLine s
/-- `Include …` -/
def IsInclude (n : Node) : Prop := ∃ text s, Starts n text ∧ Seen text s ∧ MixinLine s

/-- A type section, and which. -/
inductive IsPart (n : Node) : SectionType → Prop
  | sample : IsSample n → IsPart n .msonSampleDefault
  | items : IsItems n → IsPart n .msonValueMembers
  | properties : IsProperties n → IsPart n .msonPropertyMembers

/-- A list item that is none of these. -/
def IsPlain (n : Node) : Prop :=
  n.kind = .listItem ∧ ¬ IsSample n ∧ ¬ IsItems n ∧ ¬ IsProperties n ∧ ¬ IsOneOf n ∧ ¬ IsInclude n

/-- A paragraph, code, quote and so on. -/
def IsText (n : Node) : Prop := n.kind ≠ .header ∧ n.kind ≠ .listItem

/-- A header that reads like a type section. -/
def IsHeading (n : Node) : Prop := n.kind = .header ∧
  ∃ l s, FirstLine n.text l ∧ Seen l s ∧ (DefaultLine s ∨ SampleLine s ∨ ItemsLine s ∨ PropertiesLine s)

/-! ## What is made of a list item -/

/-- The item is read as `o`, wherever it stands, whatever section it is in (below `top`), and whatever has been reported before. -/
def ReadAs {β : Type} (parse : Parse (Out β)) (top : List SectionType) (new : β) (n : Node) (types : Context) (o : Out β) : Prop :=
  ∀ ns i ctx ws, ns[i]? = some n →
    parse ns i ⟨top ++ ctx, new, types, ws⟩ = .ok (i + 1, ⟨top ++ ctx, o.node, o.types, ws ++ o.warnings⟩)

/-- The item cannot be read. -/
def Fails {β : Type} (parse : Parse (Out β)) (top : List SectionType) (new : β) (n : Node) (types : Context) (e : Stop) : Prop :=
  ∀ ns i ctx ws, ns[i]? = some n → parse ns i ⟨top ++ ctx, new, types, ws⟩ = .error e

/-- The item alone decides: it is read as one thing, or it cannot be read for one reason, and that is found out. -/
def Decided {β : Type} (parse : Parse (Out β)) (top : List SectionType) (new : β) (n : Node) (types : Context) : Prop :=
  (∃ o, ReadAs parse top new n types o) ∨ ∃ e, e ≠ .diverges ∧ Fails parse top new n types e

/-- As a property of an object. -/
def ReadProperty (w : World) := ReadAs (MsonParser.parseProperty w) [] {}
/-- As a value. -/
def ReadValue (w : World) := ReadAs (MsonParser.parseValue w) [] {}
/-- As an `Include`. -/
def ReadInclude (w : World) := ReadAs (MsonParser.parseMixin w) [] {}
/-- As a `One of`. -/
def ReadOneOf (w : World) := ReadAs (MsonParser.parseOneOf w) [] []
/-- As a type section of something that has this base type. -/
def ReadPart (w : World) (t : SectionType) (b : Base) := ReadAs (MsonParser.parseTypeSection w) [t] { base := b }

/-- As `Attributes`. -/
def ReadAttributes (w : World) := ReadAs (MsonParser.parseAttributes w) [] {}

/-! ## What a member is made of -/

/-- Objects, lists and texts; a base type may be implied. -/
def ObjectBase (b : Base) : Prop := b = .object ∨ b = .implicitObject
def ListBase (b : Base) : Prop := b = .value ∨ b = .implicitValue
def ScalarBase (b : Base) : Prop := b = .primitive ∨ b = .implicitPrimitive

/-- Base types that go together. -/
def Alike (a b : Base) : Prop := a = b ∨ (ObjectBase a ∧ ObjectBase b) ∨ (ListBase a ∧ ListBase b) ∨ (ScalarBase a ∧ ScalarBase b)

/-- The base type after a block: the first block decides, if the signature does not. -/
inductive Settles (b : Base) (n : Node) : Base → Prop
  | known : b ≠ .undefined → Settles b n b
  | object : b = .undefined → IsPlain n ∨ IsInclude n ∨ IsOneOf n ∨ IsProperties n → Settles b n .implicitObject
  | sample : b = .undefined → IsSample n → Settles b n .implicitPrimitive
  | items : b = .undefined → IsItems n → Settles b n .undefined
  | text : b = .undefined → IsText n → Settles b n .undefined

/-- What a block adds: members, a section, or nothing. -/
inductive Piece
  | members (es : List Element)
  | section_ (s : TypeSection)
  | nothing

/-- An object that has a value on its line is reported. -/
inductive Doubt (x : Warning) (v : ValueNode) : List Warning → Prop
  | yes : ObjectBase v.definition.type.base → v.definition.values ≠ [] → Doubt x v [x]
  | no : ¬ (ObjectBase v.definition.type.base ∧ v.definition.values ≠ []) → Doubt x v []

/-- What a block adds to a member of this base type. -/
inductive Adds (w : World) (b : Base) (n : Node) (types : Context) : Piece → Context → List Warning → Prop
  | property {o ws} : IsPlain n → ObjectBase b → ReadProperty w n types o → Doubt .valueOfObject o.node.toValueNode ws →
      Adds w b n types (.members [o.node.made]) o.types (o.warnings ++ ws)
  | value {o ws} : IsPlain n → ListBase b → ReadValue w n types o → Doubt .valueOfObjectItem o.node ws →
      Adds w b n types (.members [.value o.node.made]) o.types (o.warnings ++ ws)
  | include_ {o} : IsInclude n → ReadInclude w n types o → Alike b o.node.base →
      Adds w b n types (.members [.mixin o.node]) o.types o.warnings
  | mismatch {o} : IsInclude n → ReadInclude w n types o → ¬ Alike b o.node.base →
      Adds w b n types (.members []) o.types (o.warnings ++ [.mixinMismatch])
  | oneOf {o} : IsOneOf n → ObjectBase b → ReadOneOf w n types o → Adds w b n types (.members [.oneOf o.node]) o.types o.warnings
  | part {t o} : IsPart n t → ReadPart w t b n types o → o.node.klass ≠ .undefined →
      Adds w b n types (.section_ o.node.made) o.types o.warnings
  | ignored {t o} : IsPart n t → ReadPart w t b n types o → o.node.klass = .undefined → Adds w b n types .nothing o.types o.warnings
  | text : IsText n → ¬ ScalarBase b → Adds w b n types (.members []) types [.unrecognised]

/-- A block at which reading stops. -/
inductive Halts (b : Base) (n : Node) : Piece → List Warning → Prop
  | header : n.kind = .header → ¬ IsHeading n → Halts b n .nothing []
  | oneOf : IsOneOf n → ¬ ObjectBase b → Halts b n (.members []) [.misplacedOneOf]
  | scalar : IsPlain n ∨ IsText n → ScalarBase b → Halts b n (.members []) [.membersOfPrimitive]

/-- What is there with one more piece: members come to the members before them. -/
inductive Joins : List TypeSection → Piece → List TypeSection → Prop
  | more {ss d v es fs} : Joins (ss ++ [sectionOf .members d v es]) (.members fs) (ss ++ [sectionOf .members d v (es ++ fs)])
  | first {ss fs} : (∀ s ∈ ss.getLast?, s.klass ≠ .members) → Joins ss (.members fs) (ss ++ [sectionOf .members [] [] fs])
  | section_ {ss s} : Joins ss (.section_ s) (ss ++ [s])
  | nothing {ss} : Joins ss .nothing ss

/-- What there is of a member: its sections, its base type, and what is known of the named types. -/
structure State where
  sections : List TypeSection
  base : Base
  types : Context

/-! ## Descriptions -/

/-- The source of a block without white space around it. -/
def Source (w : World) (n : Node) (s : Bytes) : Prop := Trimmed (ByteBuffer.mapBytesRangeSet n.sourceMap w.source) s

/-- A text and a text after it: an empty line is between them.  (Nothing can come after a text that is one line feed.) -/
inductive Follows : Bytes → Bytes → Bytes → Prop
  | first {s} : Follows [] s s
  | next {d s} : d ≠ [] → d ≠ [asc '\n'] → Follows d s (Spec.Payload.closed d ++ s)

/-- A section that is a description. -/
def description (d : Bytes) : TypeSection := sectionOf .description d [] []

/-- Nothing, or sections of which the last is not a description. -/
def Open (ss : List TypeSection) : Prop := ∀ s ∈ ss.getLast?, s.klass ≠ .description

/-- One block after the other, to the last or to one that halts: what there is then, the warnings, and the blocks that are not read.
While there is nothing but a description, everything but a type section comes to the description. -/
inductive Blocks (w : World) : State → List Node → State → List Warning → List Node → Prop
  | done {s} : Blocks w s [] s [] []
  | next {ss b types n b' p types' ws ss' ns t vs rest} : Open ss ∨ (∃ u, IsPart n u) → Settles b n b' → Adds w b' n types p types' ws →
      Joins ss p ss' → Blocks w ⟨ss', b', types'⟩ ns t vs rest → Blocks w ⟨ss, b, types⟩ (n :: ns) t (ws ++ vs) rest
  | describe {d b types n s d' ns t vs rest} : n.kind ≠ .header → (¬ ∃ u, IsPart n u) → Source w n s → Follows d s d' →
      Blocks w ⟨[description d'], b, types⟩ ns t vs rest → Blocks w ⟨[description d], b, types⟩ (n :: ns) t vs rest
  | halt {ss b types n b' p ws ss' ns} : Open ss ∨ n.kind = .header → (n.kind = .header ∧ b' = b ∨ Settles b n b') → Halts b' n p ws →
      Joins ss p ss' → Blocks w ⟨ss, b, types⟩ (n :: ns) ⟨ss', b', types⟩ ws (n :: ns)

/-- All blocks under the first line: text directly under it is a description. -/
inductive Content (w : World) : State → List Node → State → List Warning → List Node → Prop
  | blocks {st ns t ws rest} : st.sections ≠ [] ∨ (∀ n ∈ ns.head?, ¬ IsText n) → Blocks w st ns t ws rest → Content w st ns t ws rest
  | text {b types n s ns t ws rest} : IsText n → Source w n s → Blocks w ⟨[description s], b, types⟩ ns t ws rest →
      Content w ⟨[], b, types⟩ (n :: ns) t ws rest

/-! ## First lines -/

/-- The line with which an item opens, and the text under it in the same block.  A header counts as it stands in the source. -/
inductive Opening (w : World) (n : Node) : Bytes → Bytes → Prop
  | text {l line rest} : ¬ (n.kind = .header ∧ w.header n ≠ []) → FirstLine n.text l → Trimmed l line →
      Spec.Payload.Remainder n.text rest → Opening w n line rest
  | header : n.kind = .header → w.header n ≠ [] → Opening w n (w.header n) []

/-- Text under the line is a description. -/
inductive Under : Bytes → List TypeSection → Prop
  | nothing : Under [] []
  | text {rest} : rest ≠ [] → Under rest [description rest]

/-- A value as its line says.  (What the parts of a line are is said in `Spec/SignatureLine.lean`.) -/
def ValueLine (w : World) (n : Node) (types : Context) (v : Out ValueNode) : Prop :=
  ∃ line rest sig sw, Opening w n line rest ∧ SignatureLine.SignatureLine Spec.LineKinds.valueLine line sig sw ∧
    v.node.description = sig.content ∧ v.node.definition = (Mson.useSignature types sig).1 ∧ Under rest v.node.sections ∧
    v.types = (Mson.useSignature types sig).2.1 ∧
    v.warnings = sw ++ (Mson.useSignature types sig).2.2.map .type

/-- A property as its line says: a name, and the same. -/
def PropertyLine (w : World) (n : Node) (types : Context) (v : Out PropertyNode) : Prop :=
  ∃ line rest sig sw l own types' ws, Opening w n line rest ∧ SignatureLine.SignatureLine Spec.LineKinds.memberLine line sig sw ∧
    FirstLine n.text l ∧ Trimmed l own ∧ Mson.parsePropertyName types own sig.identifier = .ok (v.node.name, types', ws) ∧
    v.node.description = sig.content ∧ v.node.definition = (Mson.useSignature types' sig).1 ∧ Under rest v.node.sections ∧
    v.types = (Mson.useSignature types' sig).2.1 ∧
    v.warnings = sw ++ MsonParser.nameWarnings own sig.identifier ++
      ws.map .type ++ (Mson.useSignature types' sig).2.2.map .type

/-- `Attributes` as its line says: a type, which is an object if none is given. -/
def AttributesLine (n : Node) (types : Context) (v : Out DataStructure.NamedType) : Prop :=
  ∃ l line rest sig sw, FirstLine n.text l ∧ Trimmed l line ∧ Spec.Payload.Remainder n.text rest ∧
    SignatureLine.SignatureLine Spec.LineKinds.typeLine line sig sw ∧
    v.node = { type := MsonParser.objectBase (Mson.parseTypeDefinition types sig.attributes).1, sections := v.node.sections } ∧
    Under rest v.node.sections ∧ v.types = (Mson.parseTypeDefinition types sig.attributes).2.1 ∧
    v.warnings = sw ++ (Mson.parseTypeDefinition types sig.attributes).2.2.map .type

/-- The base type in the end: what was never decided is a text. -/
inductive Finally : Base → Base → Prop
  | given {b} : b ≠ .undefined → Finally b b
  | text : Finally .undefined .implicitPrimitive

/-! ## Plain lists of members -/

/-- Items that are all read as properties, one after the other. -/
inductive Properties (w : World) : Context → List Node → List Element → Context → List Warning → Prop
  | nil {types} : Properties w types [] [] types []
  | cons {types n o ws ns es types' vs} : IsPlain n → ReadProperty w n types o → Doubt .valueOfObject o.node.toValueNode ws →
      Properties w o.types ns es types' vs → Properties w types (n :: ns) (o.node.made :: es) types' (o.warnings ++ ws ++ vs)

/-- Items that are all read as values, one after the other. -/
inductive Values (w : World) : Context → List Node → List Element → Context → List Warning → Prop
  | nil {types} : Values w types [] [] types []
  | cons {types n o ws ns es types' vs} : IsPlain n → ReadValue w n types o → Doubt .valueOfObjectItem o.node ws →
      Values w o.types ns es types' vs → Values w types (n :: ns) (.value o.node.made :: es) types' (o.warnings ++ ws ++ vs)

/-- Texts, one after the other, as one. -/
inductive Texts (w : World) : Bytes → List Node → Bytes → Prop
  | nil {d} : Texts w d [] d
  | cons {d n s d' ns e} : IsText n → Source w n s → Follows d s d' → Texts w d' ns e → Texts w d (n :: ns) e

end Verif.Spec.MsonParser
