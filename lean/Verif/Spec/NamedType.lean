import Verif.Spec.MsonSections

/-!
# Named types (specification)

What a header of a data structure and the blocks after it give, and where it ends.
-/

namespace Verif.Spec.MsonParser
open Verif Verif.Text Verif.Section Verif.Spec Verif.Spec.Recognition
open Verif.MsonParser (World Out Warning Draft TypeSection)
open Verif.Mson (Base TypeDef Context)
open Verif.DataStructure (Klass Element NamedType)

/-- A header that reads like a type section, and which. -/
inductive HeadingOf (n : Node) : SectionType → Prop
  | sample {l s} : n.kind = .header → FirstLine n.text l → Seen l s → DefaultLine s ∨ SampleLine s → HeadingOf n .msonSampleDefault
  | items {l s} : n.kind = .header → FirstLine n.text l → Seen l s → ItemsLine s → HeadingOf n .msonValueMembers
  | properties {l s} : n.kind = .header → FirstLine n.text l → Seen l s → PropertiesLine s → HeadingOf n .msonPropertyMembers

/-- The blocks of a section under a heading, and those that are not of it: all from the one at which it ends. -/
inductive PartUntil (w : World) (t : SectionType) (b : Base) : Bytes → List Element → Context → List Node →
    Bytes → List Element → Context → List Warning → List Node → Prop
  | done {v es types} : PartUntil w t b v es types [] v es types [] []
  | element {v es types n e types' ws ns v' es' types'' vs rest} : Gives w t b n types e types' ws →
      PartUntil w t b v (es ++ [e]) types' ns v' es' types'' vs rest → PartUntil w t b v es types (n :: ns) v' es' types'' (ws ++ vs) rest
  | text {v es types n v₁ ns v' es' types' vs rest} : t = .msonSampleDefault → ScalarBase b → IsText n ∨ IsItem n →
      Follows v (ByteBuffer.mapBytesRangeSet n.sourceMap w.source) v₁ → PartUntil w t b v₁ es types ns v' es' types' vs rest →
      PartUntil w t b v es types (n :: ns) v' es' types' vs rest
  | closes {v es types n ns ws} : Closes t b n ws → PartUntil w t b v es types (n :: ns) v es types ws (n :: ns)

/-- A type section under a heading: what stands on the header, and then its blocks. -/
inductive Headed (w : World) (b : Base) (n : Node) (types : Context) (ns : List Node) : Draft → Context → List Warning → List Node → Prop
  | mk {t line under sig sw d hs v es types' ws rest} : HeadingOf n t → Signed Spec.LineKinds.sectionLine n line under sig sw → Heading b sig under d hs →
      PartUntil w t b d.value d.elements types ns v es types' ws rest →
      Headed w b n types ns { d with value := v, elements := es } types' (sw ++ hs ++ ws) rest

/-- A section comes to the sections if it is known what it is. -/
inductive Appends (ss : List TypeSection) (d : Draft) : List TypeSection → Prop
  | known : d.klass ≠ .undefined → Appends ss d (ss ++ [d.made])
  | unknown : d.klass = .undefined → Appends ss d ss

/-- One block after the other of a type that has this base type, to the last or to one that is not of the type: the sections, what is known of the
named types, the warnings, and the blocks that are not of the type.  Under the header there may be a description, members, and sections that have
headings; there is no rule for a section that is a list item. -/
inductive TypeBlocks (w : World) (b : Base) : List TypeSection → Context → List Node → List TypeSection → Context → List Warning → List Node → Prop
  | done {ss types} : TypeBlocks w b ss types [] ss types [] []
  | member {ss types n p types₁ ws ss₁ ns ss' types' vs rest} : Open ss → (¬ ∃ t, IsPart n t) → Adds w b n types p types₁ ws → Joins ss p ss₁ →
      TypeBlocks w b ss₁ types₁ ns ss' types' vs rest → TypeBlocks w b ss types (n :: ns) ss' types' (ws ++ vs) rest
  | describe {d types n s d' ns ss' types' vs rest} : n.kind ≠ .header → (¬ ∃ t, IsPart n t) → Source w n s → Follows d s d' →
      TypeBlocks w b [description d'] types ns ss' types' vs rest → TypeBlocks w b [description d] types (n :: ns) ss' types' vs rest
  | heading {ss types n ns d types₁ ws ns₁ ss₁ ss' types' vs rest} : Headed w b n types ns d types₁ ws ns₁ → Appends ss d ss₁ →
      TypeBlocks w b ss₁ types₁ ns₁ ss' types' vs rest → TypeBlocks w b ss types (n :: ns) ss' types' (ws ++ vs) rest
  | misplaced {ss types n ns t line under sig sw} : HeadingOf n t → Signed Spec.LineKinds.sectionLine n line under sig sw → Misplaced b sig.identifier →
      TypeBlocks w b ss types (n :: ns) ss types (sw ++ [.notAllowed sig.identifier]) (n :: ns)
  | halt {ss types n p ws ss' ns} : Open ss ∨ n.kind = .header → Halts b n p ws → Joins ss p ss' →
      TypeBlocks w b ss types (n :: ns) ss' types ws (n :: ns)

/-- All blocks after the header: text directly under it is a description. -/
inductive TypeContent (w : World) (b : Base) (types : Context) : List Node → List TypeSection → Context → List Warning → List Node → Prop
  | blocks {ns ss' types' ws rest} : (∀ n ∈ ns.head?, ¬ IsText n) → TypeBlocks w b [] types ns ss' types' ws rest →
      TypeContent w b types ns ss' types' ws rest
  | text {n s ns ss' types' ws rest} : IsText n → Source w n s → TypeBlocks w b [description s] types ns ss' types' ws rest →
      TypeContent w b types (n :: ns) ss' types' ws rest

/-- The characters that a name is not to have, unless it is in backticks. -/
def Reserved (c : UInt8) : Prop := c ∈ str "]:()<>{}[_*+`-"

/-- Reported if a name that is not in backticks has one of them (up to its first zero byte). -/
inductive Reports (text name : Bytes) : List Warning → Prop
  | yes {s p c q} : Trimmed text s → s.head? ≠ some (asc '`') → name = p ++ c :: q → (0 ∉ p) → c ≠ 0 → Reserved c → Reports text name [.reservedCharacters]
  | no {s} : Trimmed text s → (s.head? = some (asc '`') ∨ ∀ p c q, name = p ++ c :: q → (0 ∉ p) → ¬ Reserved c) → Reports text name []

/-- The type of a type definition, which is an object if nothing else is said. -/
inductive Typed (t : TypeDef) : TypeDef → Prop
  | given : t.base ≠ .undefined → Typed t t
  | object : t.base = .undefined → Typed t { t with base := .implicitObject }

/-- A named type: its name and its type are on the header; its sections are made of the blocks after it.  While it is read, types it refers to are
noted under its name; after it, under none. -/
inductive TypeRead (w : World) (types : Context) (n : Node) (ns : List Node) : NamedType → Context → List Warning → List Node → Prop
  | mk {line under sig sw type ss types' rs ws rest} : Signed Spec.LineKinds.typeLine n line under sig sw →
      Typed (Mson.parseTypeDefinition types sig.attributes).1 type → Reports n.text (Mson.parseValue sig.identifier).literal rs →
      TypeContent w type.base { (Mson.parseTypeDefinition types sig.attributes).2.1 with context := (Mson.parseValue sig.identifier).literal } ns
        ss types' ws rest →
      TypeRead w types n ns
        { name := ⟨none, (Mson.parseValue sig.identifier).literal, (Mson.parseValue sig.identifier).isVariable⟩, type := type, sections := ss }
        { types' with context := [] }
        (sw ++ (Mson.parseTypeDefinition types sig.attributes).2.2.map .type ++ rs ++ ws) rest

end Verif.Spec.MsonParser
