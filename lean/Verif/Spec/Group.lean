import Verif.Spec.Resource
import Verif.Model.Group

/-!
# What a group of resources is made of, with all warnings (specification)

`Surroundings`, `Element` and the warnings are those of the model.
-/

namespace Verif.Spec.Group
open Verif Verif.Text Verif.Spec Verif.Spec.Recognition Verif.Section Verif.Props Verif.Recognition Verif.Spec.Payload
open Verif.Spec.Resource (ActionHeader WholeHeader BeforeNul ResourceRead)
open Verif.References (Table)
open Verif.Resource (Problem)
open Verif.Group (Element Warning Surroundings)

/-! ## The blocks of a group -/

/-- The header of a resource. -/
def ResourceHeader (n : Node) : Prop := n.kind = .header ∧ ∃ s, Seen n.text s ∧ ResourceForm s

/-- The blocks at which a group ends: headers of groups and of data structures. -/
def Closes (n : Node) : Prop :=
  n.kind = .header ∧ (¬ ∃ l s, FirstLine n.text l ∧ Seen l s ∧ TypeSectionForm s) ∧ (∃ s, Seen n.text s ∧ ¬ ResourceForm s ∧ ¬ ActionForm s) ∧
    ((∃ s name, Seen n.text s ∧ GroupLine s name) ∨ ∃ l s, FirstLine n.text l ∧ Seen l s ∧ DataLine s)

/-- The blocks at which the description of a group ends. -/
def AfterDescription (n : Node) : Prop := ResourceHeader n ∨ Closes n ∨ WholeHeader n

/-! ## Resources -/

/-- The elements of a group that is being read, the models defined so far, and the error reported last. -/
structure State where
  elements : List Element
  table : Table
  error : Option Problem

/-- There is a resource with that URI in the group or in what the blueprint had before the group. -/
def Defined (s : Surroundings) (es : List Element) (uri : Bytes) : Prop := (∃ r, .resource r ∈ es ∧ r.uri = uri) ∨ s.uris uri = true

/-- That is reported. -/
inductive Twice (s : Surroundings) (es : List Element) (uri : Bytes) : List Warning → Prop
  | yes : Defined s es uri → Twice s es uri [.duplicateResource uri]
  | no : ¬ Defined s es uri → Twice s es uri []

/-- The blocks up to one at which the group ends; `rest` are the blocks that are left. -/
inductive Sections (s : Surroundings) : State → List Node → List Node → State → List Warning → Prop
  | done {x} : Sections s x [] [] x []
  | closed {x n ns} : Closes n → Sections s x (n :: ns) (n :: ns) x []
  | resource {x n ns mid r v b rest y ws} : ResourceHeader n → ResourceRead s.inner .resource x.table x.error n ns mid r v →
      Twice s x.elements r.resource.uri b → Sections s ⟨x.elements ++ [.resource r.resource], r.table, r.error⟩ mid rest y ws →
      Sections s x (n :: ns) rest y (v.map .resource ++ b ++ ws)
  | action {x n ns a rest y ws} : ¬ ResourceHeader n → ActionHeader n → (∀ r, .resource r ∉ x.elements) → Action.HeadLine n.text a →
      Sections s x ns rest y ws → Sections s x (n :: ns) rest y (.unexpectedAction a.method [] :: ws)
  | ignored {x n ns v rest y ws} : ¬ ResourceHeader n → ¬ Closes n → ¬ (ActionHeader n ∧ ∀ r, .resource r ∉ x.elements) → Strays [n] v →
      Sections s x ns rest y ws → Sections s x (n :: ns) rest y (v.map (fun w => .resource (.action (.payload w))) ++ ws)

/-! ## The group -/

/-- The name in the header of a group. -/
inductive Title (text : Bytes) : Bytes → Prop
  | group {s n t} : BeforeNul text s → GroupLine s n → Trimmed n t → Title text t
  | none {s} : BeforeNul text s → (¬ ∃ n, GroupLine s n) → Title text []

/-- The elements that the description gives. -/
inductive Described (w : Payload.World) : List Node → List Element → Prop
  | none : Described w [] []
  | some {n ns d} : Describes w [] (n :: ns) d → Described w (n :: ns) [.copy d]

/-- The group that begins with the header `sig`, after which the blocks `blocks` come, of which `rest` are left: its name, and the state at its
end.  If the header is that of a resource, the group has no name, and the header belongs to the resource. -/
inductive GroupRead (s : Surroundings) (table : Table) (error : Option Problem) (sig : Node) (blocks : List Node) :
    List Node → Bytes → State → List Warning → Prop
  | resources {rest x ws} : ResourceHeader sig → Sections s ⟨[], table, error⟩ (sig :: blocks) rest x ws →
      GroupRead s table error sig blocks rest [] x ws
  | group {name pre post es rest x ws} : ¬ ResourceHeader sig → Title sig.text name → Until AfterDescription blocks pre post →
      Described (s.inner.world table) pre es → Sections s ⟨es, table, error⟩ post rest x ws → GroupRead s table error sig blocks rest name x ws

end Verif.Spec.Group
