import Verif.Spec.Text
import Verif.Model.Signature
/-!
# Parts of a signature (specification)
-/
namespace Verif.Spec
open Verif

/-- A text in which brackets and backticks are balanced, and which contains the characters `stops` only inside them. -/
inductive Balanced : List UInt8 → Bytes → Prop
  | nil {stops} : Balanced stops []
  | char {stops c r} : c ∉ str "`[(" → c ∉ stops → Balanced stops r → Balanced stops (c :: r)
  | square {stops x r} : Balanced (str "]") x → Balanced stops r → Balanced stops (asc '[' :: x ++ asc ']' :: r)
  | round {stops x r} : Balanced (str ")") x → Balanced stops r → Balanced stops (asc '(' :: x ++ asc ')' :: r)
  | escape {stops n t r} : 0 < n → t ≠ [] → t.head? ≠ some (asc '`') → t.getLast? ≠ some (asc '`') → ¬ ticks n <:+: t → Balanced stops r →
      Balanced stops (ticks n ++ t ++ ticks n ++ r)

/-- A text that begins with a delimiter that the traits of the signature have: that of values, attributes or content. -/
def Stops (t : Signature.Traits) (s : Bytes) : Prop :=
  (t.values = true ∧ s.head? = some t.valuesDelimiter) ∨ (t.attributes = true ∧ s.head? = some (asc '(')) ∨
    (t.content = true ∧ t.contentDelimiter <+: s)

/-- Texts, each followed by a comma. -/
def commas (ps : List Bytes) : Bytes := (ps.map (· ++ [asc ','])).flatten

end Verif.Spec
