import Verif.Spec.Headers
import Verif.Model.MediaType
/-!
# Media types (specification)
-/
namespace Verif.Spec
open Verif Verif.MediaType

/-- `restricted-name` of RFC 6838, section 4.2, without the plus sign, which separates the suffix. -/
def NameChar (c : UInt8) : Prop := isAlpha c ∨ isDigit c ∨ c ∈ str "!#$&-^_."
def RestrictedName (s : Bytes) : Prop :=
  (∃ c, s.head? = some c ∧ (isAlpha c ∨ isDigit c)) ∧ s.length ≤ 127 ∧ ∀ c ∈ s, NameChar c

/-- Optional white space of RFC 7230. -/
def Ows (s : Bytes) : Prop := ∀ c ∈ s, c = asc ' ' ∨ c = asc '\t'

/-- The text of a subtype and a suffix, which may be absent (empty); the subtype may contain plus signs only if there is a
    suffix. -/
def SubtypeText (sub suffix text : Bytes) : Prop :=
  (suffix = [] ∧ RestrictedName sub ∧ text = sub) ∨
  (RestrictedName suffix ∧ (∃ names, names ≠ [] ∧ (∀ n ∈ names, RestrictedName n) ∧ sub = [asc '+'].intercalate names) ∧
    text = sub ++ asc '+' :: suffix)

/-- The text of a parameter: the value is a name, or any text in quotes (`escapes` tells what may be escaped in it and how). -/
def ParameterText (escape : Bytes → Bytes → Prop) (p : Bytes × Bytes) (text : Bytes) : Prop :=
  RestrictedName p.1 ∧
    ((RestrictedName p.2 ∧ text = p.1 ++ asc '=' :: p.2) ∨ ∃ q, escape p.2 q ∧ text = p.1 ++ asc '=' :: asc '"' :: q ++ [asc '"'])

/-- A quoted text in which nothing needs an escape. -/
def Unescaped (v q : Bytes) : Prop := q = v ∧ asc '"' ∉ v ∧ asc '\\' ∉ v

/-- Quoted text, `quoted-string` of RFC 7230 but for the characters it allows: a backslash stands before a quote or a backslash, and
    may stand before any other character. -/
inductive Escaped : Bytes → Bytes → Prop
  | nil : Escaped [] []
  | plain {c v q} : c ≠ asc '"' → c ≠ asc '\\' → Escaped v q → Escaped (c :: v) (c :: q)
  | pair {c v q} : Escaped v q → Escaped (c :: v) (asc '\\' :: c :: q)

/-- The text of parameters: each follows a semicolon. -/
inductive ParametersText (escape : Bytes → Bytes → Prop) : List (Bytes × Bytes) → Bytes → Prop
  | nil : ParametersText escape [] []
  | cons {p ps a b x y} : Ows a → Ows b → ParameterText escape p x → ParametersText escape ps y →
      ParametersText escape (p :: ps) (a ++ asc ';' :: b ++ x ++ y)

/-- The text of a media type, RFC 7231, section 3.1.1.1. -/
def MediaTypeText (escape : Bytes → Bytes → Prop) (t : MediaType) (text : Bytes) : Prop :=
  ∃ a b sub ps, Ows a ∧ Ows b ∧ RestrictedName t.type ∧ SubtypeText t.subtype t.suffix sub ∧ ParametersText escape t.parameters ps ∧
    text = a ++ t.type ++ asc '/' :: sub ++ ps ++ b

end Verif.Spec
