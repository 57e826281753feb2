import Verif.Props.C91

/-! # C91: documents -/

namespace Verif.Props
open Verif Verif.Text Verif.Section Verif.Recognition Verif.Spec Verif.Spec.Recognition Verif.Lookahead Verif.Spec.Lookahead
open Verif.Spec.DataGroup (TypeHeading ResourceHeading ActionHeading GroupHeading DataHeading TypeHeader Types)
open Verif.Spec.MsonParser (TypeRead HeadingOf TypeBlocks PartUntil Signed)
open Verif.Spec.Payload (AttributesItem)
open Verif.NamedTypes (Decl buildTables)
open Verif.DataStructure (NamedType)
open Verif.Mson (Context)

/-! ## Examples -/

theorem declarations_of {ns : List Node} {p : List Decl × List Bytes → Bool} (h : (declarations ns).toOption.any p = true) :
    ∃ ds ts, Declarations [] ns ds ∧ Mistakes ns ts ∧ p (ds, ts) = true := by
  obtain ⟨⟨ds, ts⟩, h1, h2⟩ := any_ok h
  obtain ⟨h3, h4⟩ := (C91_lookahead ns ds ts).mp h1
  exact ⟨ds, ts, h3, h4, h2⟩

/-- The attributes of the resource and of `B` are declared, the attributes of the action are not; neither is `C`, after the header of an action;
the last header is reported. -/
example : ∃ ds ts, Declarations [] [mhead "A [/a]", mitem [mpara "Attributes (object)"], mhead "GET", mitem [mpara "Attributes"],
      mhead "Data Structures", mhead "B (A)", mhead "GET", mhead "C", mhead "Read [GET a]"] ds ∧
    Mistakes [mhead "A [/a]", mitem [mpara "Attributes (object)"], mhead "GET", mitem [mpara "Attributes"],
      mhead "Data Structures", mhead "B (A)", mhead "GET", mhead "C", mhead "Read [GET a]"] ts ∧
    (ds == [⟨str "A", ⟨some .object, [], false⟩, []⟩, ⟨str "B", ⟨none, str "A", false⟩, []⟩] && ts == [str "Read [GET a]"]) = true :=
  declarations_of (p := fun r => r.1 == [⟨str "A", ⟨some .object, [], false⟩, []⟩, ⟨str "B", ⟨none, str "A", false⟩, []⟩] && r.2 == [str "Read [GET a]"])
    (by decide +kernel)

/-- The parser of the group reads `C` all the same. -/
example : ∃ ts known' ws rest, Types hasA [] noTypes [mhead "B (A)", mhead "GET", mhead "C"] rest ts known' ws ∧
    (ts.map (fun t => t.name.literal) == [str "B", str "C"] && rest.length == 0) = true :=
  types_of (p := fun x => x.2.types.map (fun t => t.name.literal) == [str "B", str "C"] && x.1.length == 0) (by decide +kernel)

/-- Headers of sections and nested types; `# Group` ends the data structures. -/
example : ∃ ds ts, Declarations [] [mhead "Data Structures", mhead "B (array[C])", mhead "Properties", mhead "C", mhead "Group X", mhead "D"] ds ∧
    Mistakes [mhead "Data Structures", mhead "B (array[C])", mhead "Properties", mhead "C", mhead "Group X", mhead "D"] ts ∧
    (ds == [⟨str "B", ⟨some .array, [], false⟩, [⟨none, str "C", false⟩]⟩, ⟨str "C", ⟨none, [], false⟩, []⟩] && ts == []) = true :=
  declarations_of (p := fun r => r.1 == [⟨str "B", ⟨some .array, [], false⟩, [⟨none, str "C", false⟩]⟩, ⟨str "C", ⟨none, [], false⟩, []⟩] && r.2 == [])
    (by decide +kernel)

/-- A group after a resource does not end it: attributes under the header of the group are declared as those of the resource. -/
example : ∃ ds ts, Declarations [] [mhead "A [/a]", mhead "Group B", mitem [mpara "Attributes (object)"]] ds ∧
    Mistakes [mhead "A [/a]", mhead "Group B", mitem [mpara "Attributes (object)"]] ts ∧ (ds.map (·.identifier) == [str "A"] && ts == []) = true :=
  declarations_of (p := fun r => r.1.map (·.identifier) == [str "A"] && r.2 == []) (by decide +kernel)

/-- Two types of one name in a group: an error of the document, although the parser of the group would not report it. -/
example : ∃ ds ts, Declarations [] [mhead "Data Structures", mhead "B", mhead "B"] ds ∧ Mistakes [mhead "Data Structures", mhead "B", mhead "B"] ts ∧
    (ds.map (·.identifier) == [str "B", str "B"]) = true :=
  declarations_of (p := fun r => r.1.map (·.identifier) == [str "B", str "B"]) (by decide +kernel)

/-- A variable as a name: declared with the asterisks, read without. -/
example : ∃ ds ts, Declarations [] [mhead "Data Structures", mhead "*B*"] ds ∧ Mistakes [mhead "Data Structures", mhead "*B*"] ts ∧
    (ds.map (·.identifier) == [str "*B*"]) = true :=
  declarations_of (p := fun r => r.1.map (·.identifier) == [str "*B*"]) (by decide +kernel)

end Verif.Props
