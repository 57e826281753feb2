import Verif.Model.Signature

/-!
# The kinds of lines (specification)

Which parts the first line of an item or section of each kind has, and the delimiters of its values and its content.
-/

namespace Verif.Spec.LineKinds
open Verif
open Verif.Signature (Traits)

/-- A section of a type, `Items: 1, 2`: no attributes, no content. -/
abbrev sectionLine : Traits :=
  { identifier := true, values := true, attributes := false, content := false, valuesDelimiter := asc ':', contentDelimiter := str "-" }

/-- A type, `Name (Base, attributes)`. -/
abbrev typeLine : Traits :=
  { identifier := true, values := false, attributes := true, content := false, valuesDelimiter := asc ':', contentDelimiter := str "-" }

/-- `One Of` -/
abbrev choiceLine : Traits :=
  { identifier := true, values := false, attributes := false, content := false, valuesDelimiter := asc ':', contentDelimiter := str "-" }

/-- A value member, `1, 2 (attributes) - description`. -/
abbrev valueLine : Traits :=
  { identifier := false, values := true, attributes := true, content := true, valuesDelimiter := asc ':', contentDelimiter := str "-" }

/-- A property member, `name: 1, 2 (attributes) - description`, and a parameter in the new syntax. -/
abbrev memberLine : Traits :=
  { identifier := true, values := true, attributes := true, content := true, valuesDelimiter := asc ':', contentDelimiter := str "-" }

/-- A parameter in the old syntax, `name = 1 (attributes) ... description`. -/
abbrev oldParameterLine : Traits :=
  { identifier := true, values := true, attributes := true, content := true, valuesDelimiter := asc '=', contentDelimiter := str "..." }

end Verif.Spec.LineKinds
