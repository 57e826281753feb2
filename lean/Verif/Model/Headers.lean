import Verif.Model.Text
/-!
# HTTP headers: packages/apib-parser/src/snowcrash/HeadersParser.{h,cc}

`S` below is packages/apib-parser/src/snowcrash.  Source maps are not modelled; the character of a warning is its rule.
-/
namespace Verif.Headers
open Verif Verif.Text

/-- `Header`, S/Blueprint.h: name and value. -/
abbrev Header := Bytes × Bytes

/-- The warnings of `parseHeaderLine`, S/HeadersParser.h:208-228, S/HeadersParser.cc:60-111. -/
inductive Warning where
  | unparsable
  | illegalName (name : Bytes)
  | missingColon (name : Bytes)
  | duplicate (name : Bytes)
  | noValue (name : Bytes)
deriving DecidableEq, Repr

/-- `std::isalnum` in the C locale; that a negative `char` is passed to it is not modelled. -/
def isAlnum (c : UInt8) : Bool := (asc '0' ≤ c && c ≤ asc '9') || (asc 'A' ≤ c && c ≤ asc 'Z') || (asc 'a' ≤ c && c ≤ asc 'z')

/-- The negation of `isNotValidTokenChar`, S/HeadersParser.cc:42-47. -/
def validTokenChar (c : UInt8) : Bool := isAlnum c || (str "-#$%&'*+.^_`|~").contains c

/-- `HeaderNameTokenChecker::operator()`, S/HeadersParser.cc:49-59. -/
def validName (name : Bytes) : Bool := name.all validTokenChar

/-- `isAllowedMultipleDefinition`, S/HeadersParser.cc:15-40. -/
def allowedMultiple (h : Header) : Bool := [str "Set-Cookie", str "Link"].any fun k => iEqual h.1 k

/-- `findHeader(headers, header) != headers.end()`, S/HeadersParser.cc:6-11. -/
def isDefined (headers : List Header) (h : Header) : Bool := headers.any fun x => iEqual x.1 h.1

/-- The captures 1, 3 and 4 of the expression `^ *([^:[:blank:]]+)(( *:? *)(.*)?)$`, S/HeadersParser.h:205-208, with the rule of
    POSIX that each subexpression takes the longest text; the text ends at a NUL, as `regexec` is given a C string
    (S/posix/RegexMatch.cc:54-90).  `none` if there is no match. -/
def captures (line : Bytes) : Option (Bytes × Bytes × Bytes) :=
  let s := (line.takeWhile (· ≠ 0)).dropWhile (· = asc ' ')
  let name := s.takeWhile fun c => c ≠ asc ':' && c ≠ asc ' ' && c ≠ asc '\t'
  if name = [] then none
  else
    let r := s.drop name.length
    let sp := r.takeWhile (· = asc ' ')
    match r.drop sp.length with
    | c :: r' =>
      if c = asc ':' then some (name, sp ++ [c] ++ r'.takeWhile (· = asc ' '), r'.dropWhile (· = asc ' '))
      else some (name, sp, c :: r')
    | [] => some (name, sp, [])

/-- `parseHeaderLine`, S/HeadersParser.h:199-231: the header, if it is valid, and the warnings. -/
def parseHeaderLine (headers : List Header) (line : Bytes) : Option Header × List Warning :=
  match captures line with
  | none => (none, [.unparsable])
  | some (name, colon, value) =>
    let h : Header := (name, trim value)
    if !validName name then (none, [.illegalName name])
    else
      (some h,
        (if colon.contains (asc ':') then [] else [.missingColon name]) ++
        (if !isDefined headers h || allowedMultiple h then [] else [.duplicate name]) ++
        (if h.2.isEmpty then [.noValue name] else []))

/-- `fetchLine`, S/HeadersParser.h:233-255: the text of a range of bytes without surrounding white space.  The length of a blank
    range is negative and becomes, as it is unsigned, greater than the input, so that it is not 0 and everything from
    the end of the range on is taken. -/
def fetchLine (input : Bytes) (location length : Nat) : Option Bytes :=
  if input.length < location + length then none
  else
    let t := trimInfo ((input.drop location).take length)
    if t.2 = 0 then none
    else
      let s := input.drop (location + t.1.toNat)
      some (if t.2 < 0 then s else s.take t.2.toNat)

/-- `isCodeFence`, S/HeadersParser.h:257-260; reading past the end of a line of one or two characters is not modelled. -/
def isCodeFence (line : Bytes) : Bool := (str "```").isPrefixOf line || (str "~~~").isPrefixOf line

/-- The step of the loop of `headersFromContent`, S/HeadersParser.h:272-301, for a line that was fetched. -/
def addLine (out : List Header × List Warning) (line : Bytes) : List Header × List Warning :=
  let r := parseHeaderLine out.1 line
  (out.1 ++ r.1.toList, out.2 ++ r.2)

/-- The loop of `headersFromContent`, S/HeadersParser.h:270-302, after the first range. -/
def headersLoop (input : Bytes) (inCodeFence : Bool) : List (Nat × Nat) → List Header × List Warning → List Header × List Warning
  | [], out => out
  | r :: rs, out =>
    match fetchLine input r.1 r.2 with
    | none => headersLoop input inCodeFence rs out
    | some line =>
      if inCodeFence && isCodeFence line then headersLoop input inCodeFence rs out
      else headersLoop input inCodeFence rs (addLine out line)

/-- `headersFromContent`, S/HeadersParser.h:262-303: the headers and warnings so far and the ranges of the lines. -/
def headersFromContent (input : Bytes) (ranges : List (Nat × Nat)) (out : List Header × List Warning) : List Header × List Warning :=
  match ranges with
  | [] => out
  | r :: rs =>
    match fetchLine input r.1 r.2 with
    | none => headersLoop input false rs out
    | some line =>
      if isCodeFence line then headersLoop input true rs out
      else headersLoop input false rs (addLine out line)

end Verif.Headers
