import Verif.Spec.MsonParser
import Verif.Spec.Headers

/-!
# Type sections, `One of` and `Include` (specification)
-/

namespace Verif.Spec.MsonParser
open Verif Verif.Text Verif.Section Verif.Spec Verif.Spec.Recognition
open Verif.MsonParser (World Out Warning Draft ValueNode)
open Verif.Mson (Base TypeDef Context)
open Verif.DataStructure (Klass Element)
open Verif.Signature (Signature)

/-- The first line of a list item, the text under it in the same block, the parts of the line, and what is reported of it. -/
def Signed (t : Signature.Traits) (n : Node) (line rest : Bytes) (sig : Signature) (sw : List Warning) : Prop :=
  ∃ l, FirstLine n.text l ∧ Trimmed l line ∧ Spec.Payload.Remainder n.text rest ∧ SignatureLine.SignatureLine t line sig sw

/-! ## Type sections -/

/-- The class of a section that begins with this word, in something of this base type. -/
inductive Named (b : Base) (word : Bytes) : Klass → Prop
  | default : CaseEq word (str "Default") → Named b word .default
  | sample : CaseEq word (str "Sample") → Named b word .sample
  | items : CaseEq word (str "Items") ∨ CaseEq word (str "Members") → ListBase b → Named b word .members
  | properties : CaseEq word (str "Properties") → ObjectBase b → Named b word .members

/-- The section has no place there. -/
inductive Misplaced (b : Base) (word : Bytes) : Prop
  | items : CaseEq word (str "Items") ∨ CaseEq word (str "Members") → ¬ ListBase b → Misplaced b word
  | properties : CaseEq word (str "Properties") → ¬ ObjectBase b → Misplaced b word

/-- A value on its own, as an element. -/
def bare (v : Bytes) : Element := .value (ValueNode.made { definition := { values := [Mson.parseValue v] } })

/-- What stands on the line of a section, and under it: of a text its value, of a list its elements, of an object nothing. -/
inductive Heading (b : Base) (sig : Signature) (rest : Bytes) : Draft → List Warning → Prop
  | text {k} : Named b sig.identifier k → k ≠ .members → ScalarBase b → Heading b sig rest ⟨b, k, sig.value ++ rest, []⟩ []
  | list {k} : Named b sig.identifier k → k ≠ .members → ListBase b → Heading b sig rest ⟨b, k, [], sig.values.map bare⟩ []
  | object {k} : Named b sig.identifier k → k ≠ .members → ObjectBase b → sig.values = [] → sig.value = [] →
      Heading b sig rest ⟨b, k, [], []⟩ []
  | valued {k} : Named b sig.identifier k → k ≠ .members → ObjectBase b → sig.values ≠ [] ∨ sig.value ≠ [] →
      Heading b sig rest ⟨b, k, [], []⟩ [.objectValues]
  | other {k} : Named b sig.identifier k → k ≠ .members → ¬ ScalarBase b → ¬ ListBase b → ¬ ObjectBase b → Heading b sig rest ⟨b, k, [], []⟩ []
  | members : Named b sig.identifier .members → Heading b sig rest ⟨b, .members, [], []⟩ []
  | unknown : (∀ k, ¬ Named b sig.identifier k) → ¬ Misplaced b sig.identifier → Heading b sig rest ⟨b, .undefined, [], []⟩ []

/-- A list item that is neither `Include` nor `One of`. -/
def IsItem (n : Node) : Prop := n.kind = .listItem ∧ ¬ IsInclude n ∧ ¬ IsOneOf n

/-- The element a block of a section is. -/
inductive Gives (w : World) (t : SectionType) (b : Base) (n : Node) (types : Context) : Element → Context → List Warning → Prop
  | property {o} : IsItem n → t = .msonPropertyMembers ∨ (t = .msonSampleDefault ∧ ObjectBase b) → ReadProperty w n types o →
      Gives w t b n types o.node.made o.types o.warnings
  | value {o} : IsItem n → t = .msonValueMembers ∨ (t = .msonSampleDefault ∧ ListBase b) → ReadValue w n types o →
      Gives w t b n types (.value o.node.made) o.types o.warnings
  | include_ {o} : IsInclude n → t = .msonPropertyMembers ∨ t = .msonValueMembers → ReadInclude w n types o →
      Gives w t b n types (.mixin o.node) o.types o.warnings
  | oneOf {o} : IsOneOf n → t = .msonPropertyMembers → ReadOneOf w n types o → Gives w t b n types (.oneOf o.node) o.types o.warnings

/-- A block at which a section ends. -/
inductive Closes (t : SectionType) (b : Base) (n : Node) : List Warning → Prop
  | header : n.kind = .header → Closes t b n []
  | oneOf : IsOneOf n → t = .msonValueMembers → Closes t b n [.misplacedOneOf]
  | sampleInclude : IsInclude n → t = .msonSampleDefault → Closes t b n [.notInSample .msonMixin]
  | sampleOneOf : IsOneOf n → t = .msonSampleDefault → Closes t b n [.notInSample .msonOneOf]
  | text : IsText n → t = .msonSampleDefault → ¬ ScalarBase b → Closes t b n []
  | untyped : IsItem n → t = .msonSampleDefault → ¬ ScalarBase b → ¬ ListBase b → ¬ ObjectBase b → Closes t b n []

/-- The blocks of a section. -/
inductive PartBlocks (w : World) (t : SectionType) (b : Base) : Bytes → List Element → Context → List Node →
    Bytes → List Element → Context → List Warning → Prop
  | done {v es types} : PartBlocks w t b v es types [] v es types []
  | element {v es types n e types' ws ns v' es' types'' vs} : Gives w t b n types e types' ws →
      PartBlocks w t b v (es ++ [e]) types' ns v' es' types'' vs → PartBlocks w t b v es types (n :: ns) v' es' types'' (ws ++ vs)
  | text {v es types n v₁ ns v' es' types' vs} : t = .msonSampleDefault → ScalarBase b → IsText n ∨ IsItem n →
      Follows v (ByteBuffer.mapBytesRangeSet n.sourceMap w.source) v₁ → PartBlocks w t b v₁ es types ns v' es' types' vs →
      PartBlocks w t b v es types (n :: ns) v' es' types' vs
  | closes {v es types n ns ws} : Closes t b n ws → PartBlocks w t b v es types (n :: ns) v es types ws

/-- Blocks of a section that all are elements of it. -/
inductive Elements (w : World) (t : SectionType) (b : Base) : Context → List Node → List Element → Context → List Warning → Prop
  | nil {types} : Elements w t b types [] [] types []
  | cons {types n e types' ws ns es types'' vs} : Gives w t b n types e types' ws → Elements w t b types' ns es types'' vs →
      Elements w t b types (n :: ns) (e :: es) types'' (ws ++ vs)

/-! ## `One of` -/

/-- A header that reads like a section other than `Properties`. -/
def OtherHeading (n : Node) : Prop := n.kind = .header ∧ ∃ l s, FirstLine n.text l ∧ Seen l s ∧ (DefaultLine s ∨ SampleLine s ∨ ItemsLine s)

/-- The element a block of a `One of` is. -/
inductive Offers (w : World) (n : Node) (types : Context) : Element → Context → List Warning → Prop
  | property {o} : IsPlain n → ReadProperty w n types o → Offers w n types o.node.made o.types o.warnings
  | include_ {o} : IsInclude n → ReadInclude w n types o → Offers w n types (.mixin o.node) o.types o.warnings
  | oneOf {o} : IsOneOf n → ReadOneOf w n types o → Offers w n types (.oneOf o.node) o.types o.warnings
  | group {o} : IsProperties n → ReadPart w .msonPropertyMembers .object n types o → Offers w n types (.group o.node.elements) o.types o.warnings

/-- The blocks of a `One of`. -/
inductive Choices (w : World) : List Element → Context → List Node → List Element → Context → List Warning → Prop
  | done {es types} : Choices w es types [] es types []
  | element {es types n e types' ws ns es' types'' vs} : Offers w n types e types' ws → Choices w (es ++ [e]) types' ns es' types'' vs →
      Choices w es types (n :: ns) es' types'' (ws ++ vs)
  | text {es types n ns es' types' vs} : IsText n → Choices w es types ns es' types' vs →
      Choices w es types (n :: ns) es' types' (.unrecognised :: vs)
  | header {es types n ns es' types' vs} : n.kind = .header → ¬ IsHeading n → Choices w es types ns es' types' vs →
      Choices w es types (n :: ns) es' types' (.unexpectedHeader :: vs)
  | ends {es types n ns} : IsSample n ∨ IsItems n ∨ OtherHeading n → Choices w es types (n :: ns) es types []

/-- Blocks of a `One of` that all are elements of it. -/
inductive Offered (w : World) : Context → List Node → List Element → Context → List Warning → Prop
  | nil {types} : Offered w types [] [] types []
  | cons {types n e types' ws ns es types'' vs} : Offers w n types e types' ws → Offered w types' ns es types'' vs →
      Offered w types (n :: ns) (e :: es) types'' (ws ++ vs)

/-- A `One of` of nothing is reported. -/
inductive EmptyChoice : List Element → List Warning → Prop
  | empty : EmptyChoice [] [.emptyOneOf]
  | some {es} : es ≠ [] → EmptyChoice es []

/-! ## `Include` -/

/-- The type that is included comes first among the attributes. -/
inductive Included (id : Bytes) (attributes : List Bytes) : List Bytes → Prop
  | name {w b r} : id = w ++ b ++ r → Word 'I' 'i' "nclude" w → Gap b → (∀ c, r.head? = some c → ¬ (c = asc ' ' ∨ c = asc '\t')) →
      Included id attributes (r :: attributes)
  | none : (∀ w b r, id = w ++ b ++ r → Word 'I' 'i' "nclude" w → ¬ Gap b) → Included id attributes attributes

/-- That one type depends on another is noted if the other is named by the document. -/
inductive Notes (types : Context) (t : TypeDef) : Context → Prop
  | named : t.spec.name.base = none → t.spec.name.literal ≠ [] → t.spec.name.isVariable = false →
      Notes types t (types.refer t.spec.name.literal true)
  | other : ¬ (t.spec.name.base = none ∧ t.spec.name.literal ≠ [] ∧ t.spec.name.isVariable = false) → Notes types t types

/-- Only objects and lists can be included. -/
inductive NotIncluded (t : TypeDef) : List Warning → Prop
  | yes : t.base = .primitive ∨ t.base = .undefined → NotIncluded t [.primitiveMixin]
  | no : t.base ≠ .primitive → t.base ≠ .undefined → NotIncluded t []

/-- What is under an `Include` is reported. -/
inductive Stray : List Node → List Warning → Prop
  | nil : Stray [] []
  | header {n ns ws} : n.kind = .header → Stray ns ws → Stray (n :: ns) (.unexpectedHeader :: ws)
  | other {n ns ws} : n.kind ≠ .header → Stray ns ws → Stray (n :: ns) (.unrecognised :: ws)

end Verif.Spec.MsonParser
