import Verif.Model.Bytes
/-!
# Text (specification)
-/
namespace Verif.Spec
open Verif

/-- White space: blank, tab, line feed, vertical tab, form feed, carriage return. -/
def White (c : UInt8) : Prop := c ∈ [32, 9, 10, 11, 12, (13 : UInt8)]

/-- Nothing but white space. -/
def Blank (s : Bytes) : Prop := ∀ c ∈ s, White c

/-- Text that neither begins nor ends with white space. -/
def Bare (t : Bytes) : Prop := (∀ c, t.head? = some c → ¬ White c) ∧ (∀ c, t.getLast? = some c → ¬ White c)

/-- `t` is `s` without the surrounding white space. -/
def Trimmed (s t : Bytes) : Prop := ∃ a b, s = a ++ t ++ b ∧ Blank a ∧ Blank b ∧ Bare t

/-- `n` backticks. -/
def ticks (n : Nat) : Bytes := List.replicate n (asc '`')

end Verif.Spec
