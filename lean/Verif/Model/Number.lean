import Verif.Model.Bytes
/-!
# Literals (drafter/src/Serialize.cc)
-/
namespace Verif.Number
open Verif

/-- Lambda `is_digit`, packages/drafter/src/Serialize.cc:71. -/
def isDigit (c : UInt8) : Bool := asc '0' ≤ c && c ≤ asc '9'

/-- `many`, packages/drafter/src/Serialize.cc:42-49: advance while the predicate holds.
    An iterator pair `[b,e)` is modelled by the list of the remaining octets. -/
def many (p : UInt8 → Bool) : Bytes → Bytes
  | [] => []
  | c :: r => if p c then many p r else c :: r

/-- `optional`, packages/drafter/src/Serialize.cc:51-57: skip at most one. -/
def optional (p : UInt8 → Bool) : Bytes → Bytes
  | [] => []
  | c :: r => if p c then r else c :: r

/-- The exponent part of `isValidNumber`, packages/drafter/src/Serialize.cc:113-130
    (the C++ code is only reached with `b != e`; the empty case is unreachable and returns `false`). -/
def exponent : Bytes → Bool
  | [] => false
  | c :: r =>
    if c = asc 'e' || c = asc 'E' then
      match optional (fun c => c = asc '+' || c = asc '-') r with
      | [] => false
      | d :: r' => if !isDigit d then false else (many isDigit (d :: r')).isEmpty
    else false

/-- The fractional part of `isValidNumber`, packages/drafter/src/Serialize.cc:95-106, followed by the exponent. -/
def fraction : Bytes → Bool
  | [] => false
  | c :: r =>
    if c = asc '.' then
      match r with
      | [] => false
      | d :: r' =>
        if !isDigit d then false
        else match many isDigit (d :: r') with
          | [] => true
          | q => exponent q
    else exponent (c :: r)

/-- The part of `isValidNumber` after the optional minus, packages/drafter/src/Serialize.cc:76-131. -/
def unsigned : Bytes → Bool
  | [] => false
  | c :: r =>
    if c = asc '0' then
      match r with
      | [] => true
      | r' => fraction r'
    else if !isDigit c then false
    else match many isDigit (c :: r) with
      | [] => true
      | q => fraction q

/-- `isValidNumber`, packages/drafter/src/Serialize.cc:59-131. -/
def isValidNumber (s : Bytes) : Bool := unsigned (optional (fun c => c = asc '-') s)

/-- `std::isspace` in the "C" locale (called at packages/drafter/src/Serialize.cc:143). -/
def isspace (c : UInt8) : Bool := c = 0x20 || (0x09 ≤ c && c ≤ 0x0D)

/-- The loop at packages/drafter/src/Serialize.cc:141-145: drop the white space at the right. -/
def rstrip (s : Bytes) : Bytes := (s.reverse.dropWhile isspace).reverse

/-- `LiteralTo<dsd::Number>`, packages/drafter/src/Serialize.cc:134-152.
    `none` models `{false, dsd::Number{}}`; `some d` models `{true, dsd::Number{d}}`. -/
def literalToNumber (s : Bytes) : Option Bytes :=
  if isValidNumber (rstrip s) then some (rstrip s) else none

/-- `LiteralTo<dsd::Boolean>`, packages/drafter/src/Serialize.cc:17-24. -/
def literalToBoolean (s : Bytes) : Option Bool :=
  if s = str "true" || s = str "false" then some (s = str "true") else none

/-- `LiteralTo<dsd::String>`, packages/drafter/src/Serialize.cc:154-158
    (the pair of the success flag and the string, which is filled in even on failure). -/
def literalToString (s : Bytes) : Bool × Bytes := (!s.isEmpty, s)

end Verif.Number
