import Verif.Spec.NamedType
import Verif.Spec.Group
import Verif.Model.DataGroup

/-!
# What a group of data structures is made of, with all warnings (specification)
-/

namespace Verif.Spec.DataGroup
open Verif Verif.Text Verif.Spec Verif.Spec.Recognition Verif.Section Verif.Props Verif.Recognition Verif.Spec.Payload
open Verif.Spec.MsonParser (TypeRead)
open Verif.DataGroup (Warning Surroundings)
open Verif.Mson (Context)
open Verif.DataStructure (NamedType)

/-- The header reads like a section of a type: `Properties`, `Items`, `Sample`, `Default`. -/
def TypeHeading (n : Node) : Prop := n.kind = .header ∧ ∃ l s, FirstLine n.text l ∧ Seen l s ∧ TypeSectionForm s
/-- The header of a resource. -/
def ResourceHeading (n : Node) : Prop := n.kind = .header ∧ ∃ s, Seen n.text s ∧ ResourceForm s
/-- The header of an action. -/
def ActionHeading (n : Node) : Prop := n.kind = .header ∧ ∃ s, Seen n.text s ∧ ActionForm s
/-- The header of a group of resources. -/
def GroupHeading (n : Node) : Prop := n.kind = .header ∧ ∃ s name, Seen n.text s ∧ GroupLine s name
/-- The header of a group of data structures. -/
def DataHeading (n : Node) : Prop := n.kind = .header ∧ ∃ l s, FirstLine n.text l ∧ Seen l s ∧ DataLine s

/-- The header of a named type: it is no other header. -/
def TypeHeader (n : Node) : Prop :=
  n.kind = .header ∧ ¬ TypeHeading n ∧ ¬ ResourceHeading n ∧ ¬ ActionHeading n ∧ ¬ GroupHeading n ∧ ¬ DataHeading n

/-- The blocks at which a group of data structures ends: headers of resources, of groups and of data structures. -/
def Closes (n : Node) : Prop := ¬ TypeHeading n ∧ (ResourceHeading n ∨ ¬ ActionHeading n ∧ (GroupHeading n ∨ DataHeading n))

/-- The blocks after the header up to one at which the group ends: the types so far and those known, the blocks, those that are left, the types
and those known in the end, the warnings. -/
inductive Types (s : Surroundings) : List NamedType → Context → List Node → List Node → List NamedType → Context → List Warning → Prop
  | done {ts known} : Types s ts known [] [] ts known []
  | closed {ts known n ns} : Closes n → Types s ts known (n :: ns) (n :: ns) ts known []
  | type {ts known n ns t known₁ v mid rest ts' known' ws} : TypeHeader n → TypeRead s.world known n ns t known₁ v mid →
      s.names t.name.literal = false → Types s (ts ++ [t]) known₁ mid rest ts' known' ws →
      Types s ts known (n :: ns) rest ts' known' (v.map .type ++ ws)
  | twice {ts known n ns t known₁ v mid rest ts' known' ws} : TypeHeader n → TypeRead s.world known n ns t known₁ v mid →
      s.names t.name.literal = true → Types s ts known₁ mid rest ts' known' ws →
      Types s ts known (n :: ns) rest ts' known' (v.map .type ++ .duplicateType t.name.literal :: ws)
  | ignored {ts known n ns v rest ts' known' ws} : ¬ TypeHeader n → ¬ Closes n → Strays [n] v → Types s ts known ns rest ts' known' ws →
      Types s ts known (n :: ns) rest ts' known' (v.map .ignored ++ ws)

end Verif.Spec.DataGroup
