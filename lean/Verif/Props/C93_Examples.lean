import Verif.Props.C91
import Verif.Props.C93

/-! # C93: sections -/

namespace Verif.Props
open Verif Verif.Text Verif.Section Verif.ParametersParser Verif.Spec.ParametersParser

theorem section_of {n : Node} {p : Out (List Parameters.Parameter) → Bool}
    (h : (parametersItem msonWorld n ⟨[], noTypes, []⟩).toOption.any p = true) :
    ∃ ps types ws, SectionRead msonWorld n noTypes ps types ws ∧ p ⟨ps, types, ws⟩ = true := by
  cases hr : parametersItem msonWorld n ⟨[], noTypes, []⟩ with
  | error e => rw [hr] at h; cases h
  | ok d =>
    rw [hr] at h
    obtain ⟨ps, types, ws, h1, rfl⟩ := parametersItem_iff.mp hr
    exact ⟨ps, types, ws, h1, h⟩

/-- The old syntax: values between backticks count, others are reported, and so is a default value of a required parameter. -/
example : ∃ ps types ws, SectionRead msonWorld (mitem [mpara "Parameters",
      mitem [mpara "a = `x` (b)", mitem [mpara "Values", mitem [mpara "`x`"], mitem [mpara "z"]]]]) noTypes ps types ws ∧
    (ps == [{ name := str "a", type := str "b", defaultValue := str "x", values := [str "x"] }] && ws == [.notValue (str "z"), .clash (str "a")]) = true :=
  section_of (p := fun o => o.node == [{ name := str "a", type := str "b", defaultValue := str "x", values := [str "x"] }] &&
    o.warnings == [.notValue (str "z"), .clash (str "a")]) (by decide +kernel)

/-- The new syntax: `Properties` ends the parameter, and what is below it is lost without a word. -/
example : ∃ ps types ws, SectionRead msonWorld (mitem [mpara "Parameters",
      mitem [mpara "a: x (b) - d", mitem [mpara "Properties"], mitem [mpara "Default: q"]]]) noTypes ps types ws ∧
    (ps == [{ name := str "a", description := str "d", type := str "b", exampleValue := str "x" }] && ws == []) = true :=
  section_of (p := fun o => o.node == [{ name := str "a", description := str "d", type := str "b", exampleValue := str "x" }] &&
    o.warnings == []) (by decide +kernel)

/-- The same name again: the later parameter counts; a block that is no parameter is reported. -/
example : ∃ ps types ws, SectionRead msonWorld (mitem [mpara "Parameters", mitem [mpara "a", mitem [mpara "Default: q"]],
      mitem [mpara "b"], mitem [mpara "a ... t"], mpara "e"]) noTypes ps types ws ∧
    (ps == [{ name := str "b" }, { name := str "a", description := str "t" }] &&
      ws == [.clash (str "a"), .again (str "a"), .mson .unrecognised]) = true :=
  section_of (p := fun o => o.node == [{ name := str "b" }, { name := str "a", description := str "t" }] &&
    o.warnings == [.clash (str "a"), .again (str "a"), .mson .unrecognised]) (by decide +kernel)

/-- The line `Values` and text below it in the same paragraph: the parameter is taken to be of the old syntax, but no values are read. -/
example : ∃ ps types ws, SectionRead msonWorld (mitem [mpara "Parameters", mitem [mpara "a: x",
      mitem [mpara "Values\nx", mitem [mpara "`y`"]]]]) noTypes ps types ws ∧ (ps.map (·.values) == [[]] && ps.map (·.name) == [str "a: x"]) = true :=
  section_of (p := fun o => o.node.map (·.values) == [[]] && o.node.map (·.name) == [str "a: x"]) (by decide +kernel)

/-- A section of nothing. -/
example : ∃ ps types ws, SectionRead msonWorld (mitem [mpara "Parameters\nx"]) noTypes ps types ws ∧
    (ps == [] && ws == [.extraContent, .noParameters]) = true :=
  section_of (p := fun o => o.node == [] && o.warnings == [.extraContent, .noParameters]) (by decide +kernel)

/-- A header inside a parameter that reads like a section of it is an exception: there is no reading. -/
example : ¬ ∃ ps types ws, SectionRead msonWorld (mitem [mpara "Parameters", mitem [mpara "a", mhead "Sample"]]) noTypes ps types ws := by
  rintro ⟨ps, types, ws, h⟩
  have := parametersItem_iff.mpr ⟨ps, types, ws, h, (rfl : (⟨ps, types, [] ++ ws⟩ : Out (List Parameters.Parameter)) = _)⟩
  have h' : (parametersItem msonWorld (mitem [mpara "Parameters", mitem [mpara "a", mhead "Sample"]]) ⟨[], noTypes, []⟩).toOption.isNone = true := by
    decide +kernel
  rw [this] at h'
  cases h'

end Verif.Props
