import Verif.Model.Bytes
/-!
# ECMA-404 number grammar (specification)

`number = [ '-' ] int [ '.' digit+ ] [ ('e' | 'E') [ '+' | '-' ] digit+ ]`,
`int = '0' | digit1-9 digit*`.
-/
namespace Verif.Spec
open Verif

/-- The code points U+0030 through U+0039. -/
def IsDigit (c : UInt8) : Prop := 0x30 ≤ c ∧ c ≤ 0x39

/-- One or more digits. -/
def Digits (s : Bytes) : Prop := s ≠ [] ∧ ∀ c ∈ s, IsDigit c

/-- Integer part: a single `0`, or digits without superfluous leading zero. -/
def IntPart (s : Bytes) : Prop := s = [0x30] ∨ (Digits s ∧ s.head? ≠ some 0x30)

/-- Fraction: a point followed by digits. -/
def FracPart (s : Bytes) : Prop := ∃ d, s = 0x2E :: d ∧ Digits d

/-- Exponent: `e` or `E`, an optional sign, digits. -/
def ExpPart (s : Bytes) : Prop :=
  ∃ e sg d, s = e :: (sg ++ d) ∧ (e = 0x65 ∨ e = 0x45) ∧ (sg = [] ∨ sg = [0x2B] ∨ sg = [0x2D]) ∧ Digits d

/-- The ECMA-404 numbers. -/
def JsonNumber (s : Bytes) : Prop :=
  ∃ sign int frac exp, s = sign ++ int ++ frac ++ exp ∧ (sign = [] ∨ sign = [0x2D]) ∧ IntPart int ∧
    (frac = [] ∨ FracPart frac) ∧ (exp = [] ∨ ExpPart exp)

/-- ASCII white space. -/
def IsSpace (c : UInt8) : Prop := c = 0x20 ∨ c = 0x09 ∨ c = 0x0A ∨ c = 0x0B ∨ c = 0x0C ∨ c = 0x0D

end Verif.Spec
