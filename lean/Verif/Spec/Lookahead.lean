import Verif.Spec.DataGroup
import Verif.Model.NamedTypes

/-!
# Which types a document declares (specification)
-/

namespace Verif.Spec.Lookahead
open Verif Verif.Text Verif.Spec Verif.Spec.Recognition Verif.Section Verif.Spec.Payload Verif.Spec.DataGroup Verif.Spec.Resource
open Verif.NamedTypes (Decl)

/-- The header of a resource that is not at the same time the header of its only action. -/
def ResourceStart (n : Node) : Prop := ¬ TypeHeading n ∧ ResourceHeading n ∧ ¬ WholeHeader n
/-- `# Data Structures` -/
def DataStart (n : Node) : Prop := ¬ TypeHeading n ∧ ¬ ResourceHeading n ∧ ¬ ActionHeading n ∧ ¬ GroupHeading n ∧ DataHeading n

/-- The blocks before are those of a document in which `# Data Structures` comes, and after it only headers of types, of their sections
and `# Data Structures` again. -/
def InData (before : List Node) : Prop :=
  ∃ pre d mid, before = pre ++ d :: mid ∧ DataStart d ∧ ∀ m ∈ mid, m.kind = .header → TypeHeader m ∨ TypeHeading m ∨ DataStart m

/-- The last header of a resource or of data structures before is `h`, that of a resource, and no header of an action comes after it. -/
def InResource (before : List Node) (h : Node) : Prop :=
  ∃ pre mid, before = pre ++ h :: mid ∧ ResourceStart h ∧ ∀ m ∈ mid, ¬ ResourceStart m ∧ ¬ DataStart m ∧ ¬ ActionHeading m

/-- The name in a header `name [/uri]`. -/
def NamedAs (h : Node) (name : Bytes) : Prop := ∃ s n u, BeforeNul h.text s ∧ NamedResourceLine s n u ∧ Trimmed n name

/-- The type that a list of attributes of a signature names, with its nested types. -/
def Specified (attributes : List Bytes) (d : Decl) : Prop :=
  ∀ c, (Mson.parseTypeDefinition c attributes).1.spec = ⟨d.type, d.nested⟩

/-- What the header of a type declares. -/
def HeaderDeclares (n : Node) (d : Decl) : Prop :=
  ∃ sig sw, SignatureLine.SignatureLine Spec.LineKinds.typeLine n.text sig sw ∧ d.identifier = stripBackticks sig.identifier ∧ Specified sig.attributes d

/-- What `+ Attributes` of a resource with that name declares. -/
def ItemDeclares (n : Node) (name : Bytes) (d : Decl) : Prop :=
  ∃ c cs sig sw, n.children = c :: cs ∧ SignatureLine.SignatureLine Spec.LineKinds.typeLine c.text sig sw ∧ d.identifier = name ∧ Specified sig.attributes d

/-- The block declares this, after those before. -/
inductive Declares (before : List Node) (n : Node) : Decl → Prop
  | type {d} : InData before → TypeHeader n → HeaderDeclares n d → Declares before n d
  | attributes {h name d} : InResource before h → AttributesItem n → NamedAs h name → name ≠ [] → ItemDeclares n name d → Declares before n d

/-- The block declares a type, after those before. -/
def Declaring (before : List Node) (n : Node) : Prop :=
  InData before ∧ TypeHeader n ∨ AttributesItem n ∧ ∃ h name, InResource before h ∧ NamedAs h name ∧ name ≠ []

/-- The declarations of the blocks, after those before, in the order of the blocks. -/
inductive Declarations : List Node → List Node → List Decl → Prop
  | nil {before} : Declarations before [] []
  | declares {before n ns d ds} : Declares before n d → Declarations (before ++ [n]) ns ds → Declarations before (n :: ns) (d :: ds)
  | skips {before n ns ds} : ¬ Declaring before n → Declarations (before ++ [n]) ns ds → Declarations before (n :: ns) ds

/-- A header that is nothing else, with a method and a URI without `/` in brackets: `Name [GET uri]`. -/
def Mistaken (n : Node) : Prop := TypeHeader n ∧ ∃ s, BeforeNul n.text s ∧ RelativeLine s

/-- The texts of the mistaken headers, in the order of the blocks. -/
inductive Mistakes : List Node → List Bytes → Prop
  | nil : Mistakes [] []
  | mistaken {n ns ts} : Mistaken n → Mistakes ns ts → Mistakes (n :: ns) (n.text :: ts)
  | fine {n ns ts} : ¬ Mistaken n → Mistakes ns ts → Mistakes (n :: ns) ts

end Verif.Spec.Lookahead
