import Verif.Spec.Text
/-!
# Metadata (specification)
-/
namespace Verif.Spec
open Verif

/-- A line that is a key and a value: a colon with something on both sides. -/
def KeyValue (line key value : Bytes) : Prop :=
  ∃ a b, line = a ++ asc ':' :: b ∧ asc ':' ∉ a ∧ Trimmed a key ∧ Trimmed b value ∧ key ≠ [] ∧ value ≠ []

end Verif.Spec
