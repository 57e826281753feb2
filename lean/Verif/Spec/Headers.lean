import Verif.Spec.Text
/-!
# HTTP headers (specification)
-/
namespace Verif.Spec
open Verif

def isAlpha (c : UInt8) : Prop := (asc 'A' ≤ c ∧ c ≤ asc 'Z') ∨ (asc 'a' ≤ c ∧ c ≤ asc 'z')
def isDigit (c : UInt8) : Prop := asc '0' ≤ c ∧ c ≤ asc '9'

/-- `tchar` of RFC 7230, section 3.2.6. -/
def TokenChar (c : UInt8) : Prop := c ∈ str "!#$%&'*+-.^_`|~" ∨ isDigit c ∨ isAlpha c

/-- `token` of RFC 7230, section 3.2.6. -/
def Token (s : Bytes) : Prop := s ≠ [] ∧ ∀ c ∈ s, TokenChar c

/-- Nothing but blanks. -/
def Spaces (s : Bytes) : Prop := ∀ c ∈ s, c = asc ' '

/-- The line consists of blanks, the name and `after`, which is empty or begins with a colon or white space. -/
def HasName (line name after : Bytes) : Prop :=
  (∃ a, Spaces a ∧ line = a ++ name ++ after) ∧ name ≠ [] ∧ (∀ c ∈ name, c ≠ asc ':' ∧ c ≠ asc ' ' ∧ c ≠ asc '\t') ∧
    ∀ c, after.head? = some c → c = asc ':' ∨ c = asc ' ' ∨ c = asc '\t'

/-- What follows the name is a colon, perhaps after blanks, and `value`. -/
def Colon (after value : Bytes) : Prop := ∃ a, Spaces a ∧ after = a ++ asc ':' :: value

/-- `value` is what follows the colon or, if there is none, the name, without the surrounding white space. -/
def HasValue (after value : Bytes) : Prop :=
  (∃ b, Colon after b ∧ Trimmed b value) ∨ ((∀ b, ¬ Colon after b) ∧ Trimmed after value)

/-- Letters that are equal or differ only in case. -/
def CaseEqChar (a b : UInt8) : Prop :=
  a = b ∨ (asc 'A' ≤ a ∧ a ≤ asc 'Z' ∧ b.toNat = a.toNat + 32) ∨ (asc 'A' ≤ b ∧ b ≤ asc 'Z' ∧ a.toNat = b.toNat + 32)

/-- Texts that are equal up to case. -/
def CaseEq : Bytes → Bytes → Prop
  | [], [] => True
  | a :: s, b :: t => CaseEqChar a b ∧ CaseEq s t
  | _, _ => False

end Verif.Spec
