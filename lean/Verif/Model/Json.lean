import Verif.Model.Value
/-!
# JSON output: packages/drafter/src/utils/so/JsonIo.cc

The C++ code streams to an `std::ostream`; the model returns the streamed octets.
`int` counters are unbounded here (objects of more than 2^31 members are not modelled).
-/
namespace Verif.Json
open Verif Verif.So

/-- One lower-case hexadecimal digit, as printed by `%x`. -/
def hexLower (n : Nat) : UInt8 := if n < 10 then (0x30 + n).toUInt8 else (0x61 + (n - 10)).toUInt8

/-- `json_utf_char`, JsonIo.cc:26-35: `snprintf("\\u%04x")`, of which 6 octets are copied
    (only called with `c ≤ 0x1f`). -/
def jsonUtfChar (c : Nat) : Bytes :=
  [asc '\\', asc 'u', hexLower (c / 4096 % 16), hexLower (c / 256 % 16), hexLower (c / 16 % 16), hexLower (c % 16)]

/-- Body of the loop of `escape_json_string`, JsonIo.cc:42-96. -/
def escapeByte (b : UInt8) : Bytes :=
  if b = asc '"' then [asc '\\', asc '"']
  else if b = asc '\\' then [asc '\\', asc '\\']
  else if b = 0x08 then [asc '\\', asc 'b']
  else if b = 0x0C then [asc '\\', asc 'f']
  else if b = 0x0A then [asc '\\', asc 'n']
  else if b = 0x0D then [asc '\\', asc 'r']
  else if b = 0x09 then [asc '\\', asc 't']
  else if b > 0x1f then [b]
  else jsonUtfChar b.toNat

/-- `escape_json_string`, JsonIo.cc:37-99. -/
def escape (s : Bytes) : Bytes := s.flatMap escapeByte

/-- Quoted string, JsonIo.cc:129-137 and 163-165. -/
def quoted (s : Bytes) : Bytes := asc '"' :: escape s ++ [asc '"']

/-- `break_indent`, JsonIo.cc:101-107. -/
def breakIndent (indent : Nat) : Bytes := asc '\n' :: List.replicate (2 * indent) (asc ' ')

mutual
/-- `json_printer<Packed>::operator()` and `visit`, JsonIo.cc:109-200. -/
def print (packed : Bool) (indent : Nat) : Value → Bytes
  | .null => str "null"
  | .tru => str "true"
  | .fls => str "false"
  | .str s => quoted s
  | .num s => s
  | .obj ms =>
      asc '{' :: printMembers packed indent (ms.length - 1) ms
        ++ (if packed || ms.isEmpty then [] else breakIndent indent) ++ [asc '}']
  | .arr es =>
      asc '[' :: printElems packed indent (es.length - 1) es
        ++ (if packed || es.isEmpty then [] else breakIndent indent) ++ [asc ']']
termination_by structural v => v
/-- Loop of `json_printer::operator()(const Object&)`, JsonIo.cc:158-176; `commas` is the counter of line 158. -/
def printMembers (packed : Bool) (indent : Nat) (commas : Nat) : List (Bytes × Value) → Bytes
  | [] => []
  | m :: r =>
      (if packed then [] else breakIndent (indent + 1)) ++ printMember packed indent m
        ++ (if commas > 0 then [asc ','] else []) ++ printMembers packed indent (commas - 1) r
termination_by structural v => v
/-- One member, JsonIo.cc:163-170. -/
def printMember (packed : Bool) (indent : Nat) : Bytes × Value → Bytes
  | (k, v) => quoted k ++ [asc ':'] ++ (if packed then [] else [asc ' ']) ++ print packed (indent + 1) v
termination_by structural v => v
/-- Loop of `json_printer::operator()(const Array&)`, JsonIo.cc:186-196. -/
def printElems (packed : Bool) (indent : Nat) (commas : Nat) : List Value → Bytes
  | [] => []
  | m :: r =>
      (if packed then [] else breakIndent (indent + 1)) ++ print packed (indent + 1) m
        ++ (if commas > 0 then [asc ','] else []) ++ printElems packed indent (commas - 1) r
termination_by structural v => v
end

/-- `serialize_json`, JsonIo.cc:203-213 (both overloads). -/
def serializeJson (packed : Bool) (v : Value) : Bytes := print packed 0 v

end Verif.Json
