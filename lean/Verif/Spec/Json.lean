import Verif.Model.Value
import Verif.Proof.Number
import Verif.Spec.Utf8
/-!
# A JSON reader (specification, RFC 8259 / ECMA-404)

Written from the standard, independently of the printer.  It works on octets; `\uXXXX` escapes are replaced by the
UTF-8 encoding of the code point (surrogate pairs are combined, lone surrogates rejected).
-/
namespace Verif.Spec.Json
open Verif Verif.So Verif.Spec

instance (s : Bytes) : Decidable (JsonNumber s) :=
  decidable_of_iff _ (Verif.Number.isValidNumber_iff s)

/-- RFC 8259 §2 `ws`. -/
def isWs (c : UInt8) : Bool := c = 0x20 || c = 0x09 || c = 0x0A || c = 0x0D

/-- Skip insignificant white space. -/
def skipWs : Bytes → Bytes
  | [] => []
  | c :: r => if isWs c then skipWs r else c :: r

/-- Value of a hexadecimal digit. -/
def hexVal (c : UInt8) : Option Nat :=
  if 0x30 ≤ c ∧ c ≤ 0x39 then some (c.toNat - 0x30)
  else if 0x41 ≤ c ∧ c ≤ 0x46 then some (c.toNat - 0x41 + 10)
  else if 0x61 ≤ c ∧ c ≤ 0x66 then some (c.toNat - 0x61 + 10)
  else none

/-- Four hexadecimal digits. -/
def hex4 (a b c d : UInt8) : Option Nat :=
  match hexVal a, hexVal b, hexVal c, hexVal d with
  | some a, some b, some c, some d => some (a * 4096 + b * 256 + c * 16 + d)
  | _, _, _, _ => none

/-- RFC 8259 §7: the two-character escapes. -/
def simpleEscape (c : UInt8) : Option UInt8 :=
  if c = 0x22 then some 0x22        -- \"
  else if c = 0x5C then some 0x5C   -- \\
  else if c = 0x2F then some 0x2F   -- \/
  else if c = 0x62 then some 0x08   -- \b
  else if c = 0x66 then some 0x0C   -- \f
  else if c = 0x6E then some 0x0A   -- \n
  else if c = 0x72 then some 0x0D   -- \r
  else if c = 0x74 then some 0x09   -- \t
  else none

/-- The rest of a string literal after the opening quote: contents and what follows the closing quote.
    `hi` is a pending high surrogate. -/
def readString (hi : Option Nat) : Bytes → Option (Bytes × Bytes)
  | [] => none
  | 0x22 :: r => if hi.isSome then none else some ([], r)
  | 0x5C :: 0x75 :: a :: b :: c :: d :: r =>
    match hex4 a b c d with
    | none => none
    | some u =>
      match hi with
      | some h =>
        if 0xDC00 ≤ u ∧ u ≤ 0xDFFF then
          (readString none r).map fun (s, t) => (utf8 (0x10000 + (h - 0xD800) * 1024 + (u - 0xDC00)) ++ s, t)
        else none
      | none =>
        if 0xD800 ≤ u ∧ u ≤ 0xDBFF then readString (some u) r
        else if 0xDC00 ≤ u ∧ u ≤ 0xDFFF then none
        else (readString none r).map fun (s, t) => (utf8 u ++ s, t)
  | 0x5C :: e :: r =>
    if hi.isSome then none
    else match simpleEscape e with
      | none => none
      | some x => (readString none r).map fun (s, t) => (x :: s, t)
  | c :: r =>
    if hi.isSome ∨ c < 0x20 ∨ c = 0x5C then none
    else (readString none r).map fun (s, t) => (c :: s, t)

/-- Characters that can occur in a number; none of them can follow a number in JSON. -/
def isNumChar (c : UInt8) : Bool :=
  (0x30 ≤ c && c ≤ 0x39) || c = 0x2B || c = 0x2D || c = 0x2E || c = 0x45 || c = 0x65

/-- If `s` starts with the given word, what follows it. -/
def expect : Bytes → Bytes → Option Bytes
  | [], s => some s
  | _ :: _, [] => none
  | a :: w, c :: s => if a = c then expect w s else none

mutual
/-- Read one value (leading white space allowed); the first argument bounds the recursion. -/
def readValue : Nat → Bytes → Option (Value × Bytes)
  | 0, _ => none
  | n + 1, s =>
    match skipWs s with
    | [] => none
    | c :: r =>
      if c = 0x7B then
        match skipWs r with
        | 0x7D :: r' => some (.obj [], r')
        | r' => (readMembers n r').map fun (ms, t) => (.obj ms, t)
      else if c = 0x5B then
        match skipWs r with
        | 0x5D :: r' => some (.arr [], r')
        | r' => (readElems n r').map fun (es, t) => (.arr es, t)
      else if c = 0x22 then (readString none r).map fun (x, t) => (.str x, t)
      else if c = 0x6E then (expect (str "ull") r).map fun t => (.null, t)
      else if c = 0x74 then (expect (str "rue") r).map fun t => (.tru, t)
      else if c = 0x66 then (expect (str "alse") r).map fun t => (.fls, t)
      else
        let lexeme := (c :: r).takeWhile isNumChar
        if JsonNumber lexeme then some (.num lexeme, (c :: r).dropWhile isNumChar) else none
/-- One or more `string : value` separated by commas, up to and including the closing brace. -/
def readMembers : Nat → Bytes → Option (List (Bytes × Value) × Bytes)
  | 0, _ => none
  | n + 1, s =>
    match skipWs s with
    | 0x22 :: r =>
      match readString none r with
      | none => none
      | some (k, r) =>
        match skipWs r with
        | 0x3A :: r =>
          match readValue n r with
          | none => none
          | some (v, r) =>
            match skipWs r with
            | 0x2C :: r => (readMembers n r).map fun (ms, t) => ((k, v) :: ms, t)
            | 0x7D :: r => some ([(k, v)], r)
            | _ => none
        | _ => none
    | _ => none
/-- One or more values separated by commas, up to and including the closing bracket. -/
def readElems : Nat → Bytes → Option (List Value × Bytes)
  | 0, _ => none
  | n + 1, s =>
    match readValue n s with
    | none => none
    | some (v, r) =>
      match skipWs r with
      | 0x2C :: r => (readElems n r).map fun (es, t) => (v :: es, t)
      | 0x5D :: r => some ([v], r)
      | _ => none
end

/-- Read a JSON text: one value surrounded by optional white space. -/
def readJson (s : Bytes) : Option Value :=
  match readValue (2 * s.length) s with
  | some (v, r) => if (skipWs r).isEmpty then some v else none
  | none => none

end Verif.Spec.Json

namespace Verif.Spec.Json
open Verif Verif.So Verif.Spec
mutual
/-- Every number in the tree is the text of a JSON number (drafter only creates such numbers: texts accepted by the
    literal recogniser, see C10, and decimal integers). -/
def NumbersOk : Value → Prop
  | .num s => JsonNumber s
  | .obj ms => NumbersOkM ms
  | .arr es => NumbersOkE es
  | _ => True
termination_by structural v => v
/-- `NumbersOk` for each member of an object. -/
def NumbersOkM : List (Bytes × Value) → Prop
  | [] => True
  | m :: r => NumbersOkP m ∧ NumbersOkM r
termination_by structural v => v
/-- `NumbersOk` for one member. -/
def NumbersOkP : Bytes × Value → Prop
  | (_, v) => NumbersOk v
termination_by structural v => v
/-- `NumbersOk` for each element of an array. -/
def NumbersOkE : List Value → Prop
  | [] => True
  | v :: r => NumbersOk v ∧ NumbersOkE r
termination_by structural v => v
end
end Verif.Spec.Json

namespace Verif.Spec.Json
open Verif
/-- Lexical position in a JSON text: outside a string literal, inside one, or just after a backslash inside one. -/
inductive Pos where
  | outside | inside | escaped

/-- Remove the white space that is outside string literals. -/
def stripWs : Pos → Bytes → Bytes
  | _, [] => []
  | .outside, c :: r =>
    if isWs c then stripWs .outside r
    else if c = 0x22 then c :: stripWs .inside r
    else c :: stripWs .outside r
  | .inside, c :: r =>
    if c = 0x22 then c :: stripWs .outside r
    else if c = 0x5C then c :: stripWs .escaped r
    else c :: stripWs .inside r
  | .escaped, c :: r => c :: stripWs .inside r
end Verif.Spec.Json
