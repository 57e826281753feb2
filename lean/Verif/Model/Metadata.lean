import Verif.Model.Text
/-!
# Metadata and traits of HTTP: packages/apib-parser/src/snowcrash/BlueprintParser.h, HTTP.cc, PayloadParser.h, ActionParser.h

`S` below is packages/apib-parser/src/snowcrash.  Source maps are not modelled.
-/
namespace Verif.Metadata
open Verif Verif.Text

/-- The warnings of `parseMetadata`. -/
inductive Warning where
  | duplicate (key : Bytes)
  | malformed
deriving DecidableEq, Repr

/-- The search for duplicates in `parseMetadata`, S/BlueprintParser.h:564-590: the rest of the collection and the keys reported
    so far. -/
def duplicates : List (Bytes × Bytes) → List Bytes → List Warning
  | [], _ => []
  | m :: rest, keys =>
    if rest.any (·.1 == m.1) && !keys.contains m.1 then .duplicate m.1 :: duplicates rest (keys ++ [m.1])
    else duplicates rest keys

/-- `parseMetadata`, S/BlueprintParser.h:535-600. -/
def parseMetadata (text : Bytes) : List (Bytes × Bytes) × List Warning :=
  let lines := split (asc '\n') (trimEnd text)
  let node := lines.filterMap keyValueFromLine
  (node,
    if lines.length = node.length then duplicates node []
    else if !node.isEmpty then [.malformed] else [])

/-- The loop of `processSignature` over the paragraphs with which a blueprint begins, S/BlueprintParser.h:42-64: the metadata,
    the warnings and the paragraphs from the first one on that is not metadata. -/
def parseParagraphs : List Bytes → List (Bytes × Bytes) × List Warning × List Bytes
  | [] => ([], [], [])
  | p :: ps =>
    let m := parseMetadata p
    if m.1.isEmpty then ([], m.2, p :: ps)
    else
      let r := parseParagraphs ps
      (m.1 ++ r.1, m.2 ++ r.2.1, r.2.2)

end Verif.Metadata

namespace Verif.Http
open Verif Verif.Text

/-- `GetStatusCodeTrait(code).allowBody`, S/HTTP.cc:24-35. -/
def statusAllowsBody (code : Nat) : Bool := !(code = 204 || code = 304 || code / 100 = 1)

/-- `GetMethodTrait(method).allowBody`, S/HTTP.cc:37-49. -/
def methodAllowsBody (method : Bytes) : Bool := !(method = str "HEAD" || method = str "CONNECT")

def isDigit (c : UInt8) : Bool := asc '0' ≤ c && c ≤ asc '9'

/-- The value of decimal digits. -/
def digits (n : Nat) : Bytes → Nat
  | [] => n
  | c :: s => digits (10 * n + (c.toNat - 48)) s

/-- A number stored in a 32-bit unsigned code: the greatest value if it is too great, negated if there is a minus sign. -/
def store (neg : Bool) (v : Nat) : Nat := if 2 ^ 32 ≤ v then 2 ^ 32 - 1 else if neg then (2 ^ 32 - v) % 2 ^ 32 else v

/-- `std::stringstream(name) >> code` for a 32-bit unsigned code: white space, a sign and decimal digits are read; 0 is stored if
    there are no digits and the greatest value if the number is too great. -/
def extract (name : Bytes) : Nat :=
  let s := trimStart name
  let neg := s.head? = some (asc '-')
  let d := (if neg || s.head? = some (asc '+') then s.drop 1 else s).takeWhile isDigit
  store neg (digits 0 d)

/-- `checkResponse`, S/PayloadParser.h:671-697: the code for which a warning is given. -/
def checkResponse (name body : Bytes) (pending : Bool) : Option Nat :=
  let code := if name.isEmpty then 200 else extract name
  if !statusAllowsBody code && !body.isEmpty && !pending then some code else none

/-- The warnings about bodies in `checkPayload`, S/ActionParser.h:388-419. -/
inductive MethodWarning where
  /-- the response for a method must not include a body -/
  | method
  /-- the response for a status and CONNECT must not include a body -/
  | connect (code : Nat)
deriving DecidableEq, Repr

/-- `checkPayload` for responses, S/ActionParser.h:388-419, if the response has a name; without a name an uninitialised status is
    read, if the method is CONNECT and there is a body. -/
def checkMethod (method name body : Bytes) : Option MethodWarning :=
  let code := extract name
  if !methodAllowsBody method && !body.isEmpty then
    if method = str "CONNECT" && code / 100 = 2 then some (.connect code)
    else if method ≠ str "CONNECT" && !methodAllowsBody method then some .method
    else none
  else none

end Verif.Http
