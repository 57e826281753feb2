import Verif.Model.Value
import Verif.Model.Utf8
/-!
# YAML output: packages/drafter/src/utils/so/YamlIo.cc

The C++ code streams to an `std::ostream`; the model returns the streamed octets.
-/
namespace Verif.Yaml
open Verif Verif.So Verif.Utf8

/-- `is_alphanum_dash`, YamlIo.cc:28-34 (octets ≥ 0x80 are rejected both with signed and with unsigned `char`). -/
def isAlphanumDash (s : Bytes) : Bool :=
  s.all fun c => !(c < asc 'A' || c > asc 'z' || (c > asc 'Z' && c < asc 'a') || c = asc '-')

/-- `is_yaml_printable`, YamlIo.cc:36-46. -/
def isYamlPrintable (c : Nat) : Bool :=
  c = 0x9 || c = 0xA || c = 0xD || (0x20 ≤ c && c ≤ 0x7E) || c = 0x85 || (0xA0 ≤ c && c ≤ 0xD7FF)
    || (0xE000 ≤ c && c ≤ 0xFFFD && c ≠ 0xFEFF) || (0x10000 ≤ c && c ≤ 0x10FFFF)

/-- One upper-case hexadecimal digit, as printed by `%X`. -/
def hexUpper (n : Nat) : UInt8 := if n < 10 then (0x30 + n).toUInt8 else (0x41 + (n - 10)).toUInt8

/-- `serialize_escaped`, YamlIo.cc:48-64. -/
def serializeEscaped (c : Nat) : Bytes :=
  if c < 0x100 then [asc '\\', asc 'x', hexUpper (c / 16 % 16), hexUpper (c % 16)]
  else if c < 0x10000 then
    [asc '\\', asc 'u', hexUpper (c / 4096 % 16), hexUpper (c / 256 % 16), hexUpper (c / 16 % 16), hexUpper (c % 16)]
  else
    [asc '\\', asc 'U', hexUpper (c / 268435456 % 16), hexUpper (c / 16777216 % 16), hexUpper (c / 1048576 % 16),
     hexUpper (c / 65536 % 16), hexUpper (c / 4096 % 16), hexUpper (c / 256 % 16), hexUpper (c / 16 % 16), hexUpper (c % 16)]

/-- `escape_sequence`, YamlIo.cc:66-76. -/
def escSeq (c : Char) : Bytes := [asc '\\', asc c]

/-- Body of the loop of `escape_yaml_string`, YamlIo.cc:87-147.  `encode` fails (an `assert`) only above 0x10FFFF,
    which is never printable. -/
def escapeCp (c : Nat) : Bytes :=
  if c = 0x00 then escSeq '0'
  else if c = 0x07 then escSeq 'a'
  else if c = 0x08 then escSeq 'b'
  else if c = 0x09 then escSeq 't'
  else if c = 0x0A then escSeq 'n'
  else if c = 0x0B then escSeq 'v'
  else if c = 0x0C then escSeq 'f'
  else if c = 0x0D then escSeq 'r'
  else if c = 0x1B then escSeq 'e'
  else if c = 0x22 then escSeq '"'
  else if c = 0x5C then escSeq '\\'
  else if c = 0x85 then escSeq 'N'
  else if c = 0xA0 then escSeq '_'
  else if c = 0x2028 then escSeq 'L'
  else if c = 0x2029 then escSeq 'P'
  else if isYamlPrintable c then (encode c).getD []
  else serializeEscaped c

/-- `escape_yaml_string`, YamlIo.cc:78-150. -/
def escape (s : Bytes) : Bytes := (decodeAll s).flatMap escapeCp

/-- `serialize_yaml(std::ostream&, const std::string&)`, YamlIo.cc:152-161. -/
def quoted (s : Bytes) : Bytes := asc '"' :: escape s ++ [asc '"']

/-- `do_indent`, YamlIo.cc:163-168. -/
def doIndent (indent : Nat) : Bytes := List.replicate (2 * indent) (asc ' ')

/-- `if (indent > 0) out << ' ';`, e.g. YamlIo.cc:176-177. -/
def lead (indent : Nat) : Bytes := if indent > 0 then [asc ' '] else []

/-- Key of a member, YamlIo.cc:240-245. -/
def key (k : Bytes) : Bytes := (if isAlphanumDash k then k else quoted k) ++ [asc ':']

mutual
/-- `yaml_printer::operator()`, YamlIo.cc:170-281. -/
def print (indent : Nat) : Value → Bytes
  | .null => lead indent ++ str "null"
  | .tru => lead indent ++ str "true"
  | .fls => lead indent ++ str "false"
  | .str s => lead indent ++ quoted s
  | .num s => lead indent ++ s
  | .obj [] => lead indent ++ str "{}"
  | .obj (m :: r) => (if indent > 0 then [asc '\n'] else []) ++ printMembers indent r.length (m :: r)
  | .arr [] => lead indent ++ str "[]"
  | .arr (m :: r) => (if indent > 0 then [asc '\n'] else []) ++ printElems indent r.length (m :: r)
termination_by structural v => v
/-- Loop of YamlIo.cc:235-253; `newlines` is the counter of line 235. -/
def printMembers (indent : Nat) (newlines : Nat) : List (Bytes × Value) → Bytes
  | [] => []
  | m :: r => doIndent indent ++ printMember indent m ++ (if newlines > 0 then [asc '\n'] else [])
      ++ printMembers indent (newlines - 1) r
termination_by structural v => v
/-- One member, YamlIo.cc:239-247. -/
def printMember (indent : Nat) : Bytes × Value → Bytes
  | (k, v) => key k ++ print (indent + 1) v
termination_by structural v => v
/-- Loop of YamlIo.cc:268-280. -/
def printElems (indent : Nat) (newlines : Nat) : List Value → Bytes
  | [] => []
  | m :: r => doIndent indent ++ ([asc '-'] ++ print (indent + 1) m) ++ (if newlines > 0 then [asc '\n'] else [])
      ++ printElems indent (newlines - 1) r
termination_by structural v => v
end

/-- `so::serialize_yaml`, YamlIo.cc:284-288. -/
def serializeYaml (v : Value) : Bytes := print 0 v

end Verif.Yaml
