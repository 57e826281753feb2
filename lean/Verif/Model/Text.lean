import Verif.Model.Bytes
/-!
# Strings: packages/apib-parser/src/snowcrash/StringUtility.h

`S` below is packages/apib-parser/src/snowcrash.
-/
namespace Verif.Text
open Verif

/-- `isSpace`, S/StringUtility.h:28-33. -/
def isSpace (c : UInt8) : Bool :=
  c = asc ' ' || c = asc '\t' || c = asc '\n' || c = 11 || c = 12 || c = asc '\r'

/-- `TrimStringStart`, S/StringUtility.h:36-40. -/
def trimStart (s : Bytes) : Bytes := s.dropWhile isSpace

/-- `TrimStringEnd`, S/StringUtility.h:43-47. -/
def trimEnd (s : Bytes) : Bytes := (s.reverse.dropWhile isSpace).reverse

/-- `TrimString`, S/StringUtility.h:50-53. -/
def trim (s : Bytes) : Bytes := trimStart (trimEnd s)

/-- `GetTrimInfo`, S/StringUtility.h:60-70: the position of the first character that is not white space and, as the difference of
    two reverse iterators, the distance from there to the end of the last one. -/
def trimInfo (s : Bytes) : Int × Int :=
  let front : Int := (s.takeWhile isSpace).length
  let back : Int := s.length - (s.reverse.takeWhile isSpace).length
  (front, back - front)

/-- `Split`, S/StringUtility.h:73-89: `std::getline` fails when there is nothing left. -/
def split (delim : UInt8) (s : Bytes) : List Bytes :=
  if s = [] then []
  else match h : s.dropWhile (· ≠ delim) with
    | [] => [s.takeWhile (· ≠ delim)]
    | _ :: r => s.takeWhile (· ≠ delim) :: split delim r
termination_by s.length
decreasing_by
  have : (s.dropWhile (· ≠ delim)).length ≤ s.length := (List.dropWhile_sublist _).length_le
  rw [h] at this; simp at this; omega

/-- `SplitOnFirst`, S/StringUtility.h:92-103. -/
def splitOnFirst (delim : UInt8) (s : Bytes) : List Bytes :=
  match s.dropWhile (· ≠ delim) with
  | [] => [s]
  | _ :: r => [s.takeWhile (· ≠ delim), r]

/-- `TwoNewLines`, S/StringUtility.h:106-118; `none` if a character before the first is read. -/
def twoNewLines (s : Bytes) : Option Bytes :=
  match s.getLast? with
  | none => none
  | some c =>
    let s := if c ≠ asc '\n' then s ++ [asc '\n'] else s
    match s.dropLast.getLast? with
    | none => none
    | some c => some (if c ≠ asc '\n' then s ++ [asc '\n'] else s)

/-- `GetFirstLine`, S/StringUtility.h:145-153: the first line and what remains. -/
def getFirstLine (s : Bytes) : Bytes × Bytes :=
  match splitOnFirst (asc '\n') s with
  | [] => ([], [])
  | [l] => (l, [])
  | l :: r :: _ => (l, r)

/-- `std::tolower` in the C locale. -/
def toLower (c : UInt8) : UInt8 := if asc 'A' ≤ c ∧ c ≤ asc 'Z' then c + 32 else c

/-- `IEqual`, S/StringUtility.h:172-214. -/
def iEqual (a b : Bytes) : Bool := a.map toLower == b.map toLower

/-- `std::string::find` of a string. -/
def findSub (p : Bytes) : Bytes → Option Nat
  | [] => if p = [] then some 0 else none
  | c :: r => if p.isPrefixOf (c :: r) then some 0 else (findSub p r).map (· + 1)

/-- `RetrieveEscaped`, S/StringUtility.h:229-257: the escaped string and the new subject.  All the callers pass the position of one
    of the characters `*`, `_` and the backtick, so `subject[begin]` is a character and the loop ends at the latest at the NUL
    that follows the string. -/
def retrieveEscaped (subject : Bytes) (start : Nat := 0) (strip : Bool := false) : Bytes × Bytes :=
  let c := (subject.drop start).headD 0
  let levels := ((subject.drop start).takeWhile (· = c)).length
  let border := (subject.drop start).take levels
  match findSub border (subject.drop (levels + start)) with
  | none => ([], subject)
  | some e =>
    if strip then ((subject.drop (start + levels)).take e, subject.drop (start + levels + e))
    else ((subject.drop start).take (e + 2 * levels), subject.drop (e + 2 * levels + start))

/-- `StripBackticks`, S/StringUtility.h:268-286. -/
def stripBackticks (subject : Bytes) : Bytes :=
  if subject.head? ≠ some (asc '`') ∨ subject.getLast? ≠ some (asc '`') then subject
  else
    let e := retrieveEscaped subject 0 true
    if e.1.isEmpty then e.2 else trim e.1

/-- `keyValueFromLine`, S/CodeBlockUtility.h:174-186; `none` is the result `false`. -/
def keyValueFromLine (line : Bytes) : Option (Bytes × Bytes) :=
  match splitOnFirst (asc ':') line with
  | [k, v] => if (trim k).isEmpty || (trim v).isEmpty then none else some (trim k, trim v)
  | _ => none

end Verif.Text
