import Verif.Props.C92
import Verif.Props.C88

/-! # C92: documents -/

namespace Verif.Props
open Verif Verif.Text Verif.Section Verif.Recognition Verif.Spec Verif.Spec.Document
open Verif.Document (Element Warning Problem Surroundings parseDocument outcomeOf)

/-! ## Examples -/

def quietDocument (source : Bytes) (requireName : Bool) : Surroundings :=
  ⟨source, fun _ _ _ x => (x, []), fun _ x => (x, []), fun n => n.text, requireName, fun _ c => c, fun _ => ⟨[], [], [], none⟩⟩

/-- An element without data structures, as a name and parts. -/
def partsOf : Element → Option (Bytes × List Group.Element)
  | .top e => some ([], [e])
  | .group name es => some (name, es)
  | .data _ => none

theorem document_of {s : Surroundings} {ns : List Node} {p : Outcome → Bool}
    (h : (parseDocument s ns).toOption.any (fun r => p (outcomeOf r.2.data)) = true) : ∃ o, DocumentRead s ns o ∧ p o = true := by
  cases hd : parseDocument s ns with
  | error e => rw [hd] at h; cases h
  | ok r => rw [hd] at h; exact ⟨_, (C92_document s ns _).mp ⟨r.1, r.2, hd, rfl⟩, h⟩

def shopBlocks : List Node :=
  [para "A: b", header " Shop ", para "d", header "Group A", header "/a", header "Group A", header "/a"]

def modelBlocks : List Node :=
  [header "Shop", header "/b", header "GET", listItem [para "Response 200", para "[M][]"], header "M [/m]", listItem [para "Model", code "x"]]

/-- Metadata, a name, a description, and two groups of one name with one resource: both are reported. -/
example : ∃ o, DocumentRead (quietDocument (str "d") true) shopBlocks o ∧
    (o.metadata == [(str "A", str "b")] && o.name == str "Shop" && o.description == str "d" &&
      o.elements.map partsOf == [some (str "A", [.resource { uri := str "/a" }]), some (str "A", [.resource { uri := str "/a" }])] &&
      o.warnings == [.group (.duplicateResource (str "/a")), .duplicateGroup (str "A")] && o.error == none) = true :=
  document_of (p := fun o => o.metadata == [(str "A", str "b")] && o.name == str "Shop" && o.description == str "d" &&
      o.elements.map partsOf == [some (str "A", [.resource { uri := str "/a" }]), some (str "A", [.resource { uri := str "/a" }])] &&
      o.warnings == [.group (.duplicateResource (str "/a")), .duplicateGroup (str "A")] && o.error == none) (by decide +kernel)

/-- The response refers to a model that comes later. -/
example : ∃ o, DocumentRead (quietDocument [] false) modelBlocks o ∧
    ((payloads o.elements).map (fun p => (p.name, p.refId, p.refState, p.body)) == [(str "200", str "M", .resolved, str "x")] && o.error == none) = true :=
  document_of (p := fun o => (payloads o.elements).map (fun p => (p.name, p.refId, p.refState, p.body)) == [(str "200", str "M", .resolved, str "x")] &&
    o.error == none) (by decide +kernel)

/-- There is no such model. -/
example : ∃ o, DocumentRead (quietDocument [] false) (modelBlocks.take 4) o ∧
    ((payloads o.elements).map (fun p => (p.name, p.refId, p.refState)) == [(str "200", str "M", .unresolved)] &&
      o.error == some (.undefinedModel (str "M"))) = true :=
  document_of (p := fun o => (payloads o.elements).map (fun p => (p.name, p.refId, p.refState)) == [(str "200", str "M", .unresolved)] &&
    o.error == some (.undefinedModel (str "M"))) (by decide +kernel)

/-- A document without a name: an error if a name is required, and a warning if not. -/
example : ∃ o, DocumentRead (quietDocument (str "d") true) [para "d", header "/a"] o ∧ (o.error == some .noName && o.warnings == []) = true :=
  document_of (p := fun o => o.error == some .noName && o.warnings == []) (by decide +kernel)

example : ∃ o, DocumentRead (quietDocument (str "d") false) [para "d", header "/a"] o ∧
    (o.error == none && o.warnings == [.noName] && o.description == str "d") = true :=
  document_of (p := fun o => o.error == none && o.warnings == [.noName] && o.description == str "d") (by decide +kernel)

/-- Without blocks nothing is reported, even if a name is required. -/
example : DocumentRead (quietDocument [] true) [] ⟨[], [], [], [], [], none⟩ := .nothing

end Verif.Props
