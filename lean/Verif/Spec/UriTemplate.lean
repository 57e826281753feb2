import Verif.Model.UriTemplate
import Verif.Spec.Utf8
/-!
# What a URI template says (specification)

Only the result types (`Variable`, `Item`, `Kind`, `Expression`, `Part`) are taken from the model; the grammar is written here
once more as an inductive relation, without any parsing.  It is the grammar of RFC 6570 §2 as the code restricts it.
-/
namespace Verif.Spec
open Verif Verif.UriTemplate

/-- A byte between two characters. -/
def Between (a b : Char) (c : UInt8) : Prop := a.toNat ≤ c.toNat ∧ c.toNat ≤ b.toNat

def DigitByte (c : UInt8) : Prop := Between '0' '9' c
def LetterByte (c : UInt8) : Prop := Between 'a' 'z' c ∨ Between 'A' 'Z' c
def HexByte (c : UInt8) : Prop := DigitByte c ∨ Between 'a' 'f' c ∨ Between 'A' 'F' c

/-- `%XX`. -/
def PctTriple (u : Bytes) : Prop := ∃ a b, HexByte a ∧ HexByte b ∧ u = [asc '%', a, b]

/-- One character of a variable name other than a dot. -/
def VarCharText (u : Bytes) : Prop := PctTriple u ∨ ∃ c, (LetterByte c ∨ DigitByte c ∨ c = asc '_') ∧ u = [c]

/-- A variable name after its first character: name characters and dots, no two dots in a row. -/
inductive NameTail : Bytes → Prop
  | nil : NameTail []
  | char {u r} : VarCharText u → NameTail r → NameTail (u ++ r)
  | dot {r} : NameTail r → r.head? ≠ some (asc '.') → NameTail (asc '.' :: r)

def VarName (s : Bytes) : Prop := ∃ u r, VarCharText u ∧ NameTail r ∧ s = u ++ r

/-- The number written with decimal digits. -/
def decimal (ds : Bytes) : Nat := ds.foldl (fun n c => 10 * n + (c.toNat - 48)) 0

/-- A variable with its modifier. -/
inductive VarSpec : Bytes → Variable → Prop
  | plain {n} : VarName n → VarSpec n { name := n }
  | explode {n} : VarName n → VarSpec (n ++ [asc '*']) { name := n, explode := true }
  | limit {n ds} : VarName n → ds.length ≤ 3 → (∀ c ∈ ds, DigitByte c) →
      VarSpec (n ++ asc ':' :: ds) { name := n, limit := decimal ds }

/-- An element of the list of variables, standing at the given offset: a variable, or any other text without comma and closing
    brace, which is kept as it is. -/
inductive ItemText (p : Nat) : Bytes → Item → Prop
  | variable {s v} : VarSpec s v → ItemText p s (.variable v)
  | invalid {s} : (∀ v, ¬ VarSpec s v) → asc ',' ∉ s → asc '}' ∉ s → ItemText p s (.invalid s p)

/-- Elements separated by commas. -/
inductive ItemsText : Nat → Bytes → List Item → Prop
  | one {p s i} : ItemText p s i → ItemsText p s [i]
  | more {p s i r is} : ItemText p s i → ItemsText (p + s.length + 1) r is → ItemsText p (s ++ asc ',' :: r) (i :: is)

/-- The operators. -/
inductive OperatorChar : UInt8 → Kind → Prop
  | plus : OperatorChar (asc '+') .reservedChars
  | hash : OperatorChar (asc '#') .fragment
  | dot : OperatorChar (asc '.') .label
  | slash : OperatorChar (asc '/') .path
  | semicolon : OperatorChar (asc ';') .pathParam
  | question : OperatorChar (asc '?') .queryParam
  | ampersand : OperatorChar (asc '&') .queryContinue
  | reserved {c} : c ∈ ['=', ',', '!', '@', '|'] → OperatorChar (asc c) .reserved

/-- What is between the braces, starting at the given offset. -/
inductive InnerText : Nat → Bytes → Kind → List Item → Prop
  | plain {p s is} : ItemsText p s is → (∀ c k, s.head? = some c → ¬ OperatorChar c k) → InnerText p s .noop is
  | operator {p c k s is} : OperatorChar c k → ItemsText (p + 1) s is → InnerText p (c :: s) k is

/-- One allowed literal character: `%XX`, an ASCII character of the list, or a character of the ranges `ucschar` and `iprivate`
    of RFC 3987 in UTF-8. -/
def LiteralUnit (u : Bytes) : Prop :=
  PctTriple u ∨
  (∃ c, (LetterByte c ∨ DigitByte c ∨ c ∈ str "!#$&()*+,-./:;=?@_") ∧ u = [c]) ∨
  (∃ x, (∃ r ∈ ucsRanges, r.1 ≤ x ∧ x ≤ r.2) ∧ u = utf8 x)

/-- Literal text: one or more literal characters. -/
def LiteralText (s : Bytes) : Prop := ∃ us : List Bytes, us ≠ [] ∧ (∀ u ∈ us, LiteralUnit u) ∧ s = us.flatten

/-- A part of the template, standing at the given offset. -/
inductive PartText (p : Nat) : Bytes → Part → Prop
  | literals {s} : LiteralText s → PartText p s (.literals s)
  | invalid {s} : s ≠ [] → asc '{' ∉ s → ¬ LiteralText s → PartText p s (.invalid s p)
  | closed {s k is} : InnerText (p + 1) s k is → PartText p (asc '{' :: s ++ [asc '}']) (.expression ⟨k, is, false⟩)
  | unclosed {s k is} : InnerText (p + 1) s k is → PartText p (asc '{' :: s) (.expression ⟨k, is, true⟩)

/-- A part that is not an expression. -/
def IsText : Part → Prop
  | .expression _ => False
  | _ => True

/-- An expression without closing brace. -/
def IsUnclosed : Part → Prop
  | .expression e => e.missingClose = true
  | _ => False

/-- The parts of a template: texts between expressions are not divided, and only the last expression may be unclosed. -/
inductive PartsText : Nat → Bytes → List Part → Prop
  | nil {p} : PartsText p [] []
  | cons {p s x r xs} : PartText p s x → PartsText (p + s.length) r xs → (IsText x → ∀ y, xs.head? = some y → ¬ IsText y) →
      (IsUnclosed x → xs = []) → PartsText p (s ++ r) (x :: xs)

/-- The operators drafter supports. -/
def SupportedKind (k : Kind) : Prop := k ∈ [Kind.noop, .reservedChars, .fragment, .queryParam, .queryContinue]

/-- An expression without fault. -/
def GoodExpression (s : Bytes) : Prop :=
  ∃ (i : Bytes) (k : Kind) (vs : List Variable), s = asc '{' :: i ++ [asc '}'] ∧ InnerText 0 i k (vs.map Item.variable) ∧ SupportedKind k

/-- A template without fault: literal characters and expressions. -/
def GoodTemplate (s : Bytes) : Prop := ∃ us : List Bytes, (∀ u ∈ us, LiteralUnit u ∨ GoodExpression u) ∧ s = us.flatten

/-- An element that is not a variable. -/
def isInvalidItem : Item → Bool
  | .invalid _ _ => true
  | .variable _ => false

/-- The faults of a part: each unsupported operator, each element that is not a variable, each missing brace, each text with
    characters that are not allowed. -/
def faults : Part → Nat
  | .literals _ => 0
  | .invalid _ _ => 1
  | .expression e =>
    (if e.kind ∈ [Kind.noop, .reservedChars, .fragment, .queryParam, .queryContinue] then 0 else 1) +
      (e.variables.filter isInvalidItem).length + (if e.missingClose then 1 else 0)

/-! ## RFC 6570 -/

/-- `*( ["."] varchar )` of RFC 6570 §2.3. -/
inductive RfcNameTail : Bytes → Prop
  | nil : RfcNameTail []
  | char {u r} : VarCharText u → RfcNameTail r → RfcNameTail (u ++ r)
  | dot {u r} : VarCharText u → RfcNameTail r → RfcNameTail (asc '.' :: u ++ r)

/-- `varname = varchar *( ["."] varchar )`, RFC 6570 §2.3. -/
def RfcVarName (s : Bytes) : Prop := ∃ u r, VarCharText u ∧ RfcNameTail r ∧ s = u ++ r

/-- `max-length = %x31-39 0*3DIGIT`, RFC 6570 §2.4.1: 1 to 9999. -/
def RfcMaxLength (ds : Bytes) : Prop := ∃ d r, Between '1' '9' d ∧ r.length ≤ 3 ∧ (∀ c ∈ r, DigitByte c) ∧ ds = d :: r

/-- `varspec = varname [ modifier-level4 ]`, RFC 6570 §2.3 and §2.4. -/
inductive RfcVarSpec : Bytes → Variable → Prop
  | plain {n} : RfcVarName n → RfcVarSpec n { name := n }
  | explode {n} : RfcVarName n → RfcVarSpec (n ++ [asc '*']) { name := n, explode := true }
  | limit {n ds} : RfcVarName n → RfcMaxLength ds → RfcVarSpec (n ++ asc ':' :: ds) { name := n, limit := decimal ds }

/-! ## Percent encoding, RFC 3986 §2.1 -/

/-- A hexadecimal digit, in upper case. -/
def hexDigit (n : Nat) : UInt8 := (str "0123456789ABCDEF").getD n 0

/-- `pct-encoded = "%" HEXDIG HEXDIG` for each byte. -/
def percentEncode (s : Bytes) : Bytes := s.flatMap fun c => [asc '%', hexDigit (c.toNat / 16), hexDigit (c.toNat % 16)]

end Verif.Spec
