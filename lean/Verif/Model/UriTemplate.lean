import Verif.Model.Text
/-!
# URI templates: packages/apib-parser/src/grammar/Uritemplate.h, packages/apib-parser/src/grammar/recover.h and
packages/apib-parser/src/snowcrash/UriTemplateParser.cc

`G` below is packages/apib-parser/src/grammar, `U` is packages/apib-parser/src/snowcrash/UriTemplateParser.cc.  The rules are PEGTL
rules: a rule gives the rest of the input or fails; a global failure (`must`) becomes a local one in `try_catch`.  The split
of the URI in scheme, host and path (U:262-279), which nothing uses, is left out.
-/
namespace Verif.UriTemplate
open Verif Verif.Text

/-! ## Characters -/

/-- `pegtl::abnf::DIGIT`. -/
def digit (c : UInt8) : Bool := asc '0' ≤ c && c ≤ asc '9'
/-- `pegtl::abnf::ALPHA`. -/
def alpha (c : UInt8) : Bool := (asc 'a' ≤ c && c ≤ asc 'z') || (asc 'A' ≤ c && c ≤ asc 'Z')
/-- `pegtl::abnf::HEXDIG`, which takes lower case letters too. -/
def hexdig (c : UInt8) : Bool := digit c || (asc 'a' ≤ c && c ≤ asc 'f') || (asc 'A' ≤ c && c ≤ asc 'F')

/-- `pct_encoded`, G/Uritemplate.h:41-47: the matched text and the rest. -/
def pctEncoded : Bytes → Option (Bytes × Bytes)
  | a :: b :: c :: r => if a = asc '%' && hexdig b && hexdig c then some ([a, b, c], r) else none
  | _ => none

/-- `varchar`, G/Uritemplate.h:97-102. -/
def varchar (s : Bytes) : Option (Bytes × Bytes) :=
  match pctEncoded s with
  | some x => some x
  | none =>
    match s with
    | [] => none
    | c :: r => if alpha c || digit c || c = asc '_' then some ([c], r) else none

/-- `sor<noncontinuous_dots, varchar>`, G/Uritemplate.h:104-119. -/
def nameUnit (s : Bytes) : Option (Bytes × Bytes) :=
  match s with
  | [] => none
  | c :: r => if c = asc '.' then (if r.head? = some (asc '.') then none else some ([c], r)) else varchar s

/-- `pegtl::star<R>`.  Every rule used consumes something; without that the loop would not end (the test of the lengths is not in
    the code). -/
def star (p : Bytes → Option (Bytes × Bytes)) (s : Bytes) : Bytes × Bytes :=
  match p s with
  | none => ([], s)
  | some (u, r) => if r.length < s.length then (u ++ (star p r).1, (star p r).2) else ([], s)
termination_by s.length

/-! ## Variables -/

/-- `state::variable`, G/Uritemplate.h:228-232. -/
structure Variable where
  name : Bytes
  limit : Nat := 0
  explode : Bool := false
deriving DecidableEq, Repr

/-- An element of `expression::variables`, G/Uritemplate.h:246-258. -/
inductive Item where
  | variable (v : Variable)
  | invalid (content : Bytes) (position : Nat)
deriving DecidableEq, Repr

/-- `varname`, G/Uritemplate.h:111-119, with the action 339-346. -/
def varname (s : Bytes) : Option (Bytes × Bytes) :=
  match varchar s with
  | none => none
  | some (u, r) => some (u ++ (star nameUnit r).1, (star nameUnit r).2)

/-- `rep_max<n, DIGIT>`. -/
def digits : Nat → Bytes → Bytes × Bytes
  | 0, s => ([], s)
  | _ + 1, [] => ([], [])
  | n + 1, c :: s => if digit c then (c :: (digits n s).1, (digits n s).2) else ([], c :: s)

/-- `std::atol` of digits. -/
def atol (s : Bytes) : Nat := s.foldl (fun n c => 10 * n + (c.toNat - 48)) 0

/-- `opt<mod_l4>`, G/Uritemplate.h:91-95, with the actions 348-364. -/
def modifier (v : Variable) : Bytes → Variable × Bytes
  | [] => (v, [])
  | c :: s =>
    if c = asc ':' then ({ v with limit := atol (digits 3 s).1 }, (digits 3 s).2)
    else if c = asc '*' then ({ v with explode := true }, s)
    else (v, c :: s)

/-- `varspec`, G/Uritemplate.h:121, with the actions 339-364. -/
def varspec (s : Bytes) : Option (Variable × Bytes) :=
  match varname s with
  | none => none
  | some (n, r) => some (modifier { name := n } r)

/-- `at<sor<S, T>>` for `S` the comma and `T` the closing brace or the end. -/
def atItemEnd (s : Bytes) : Bool :=
  match s with
  | [] => true
  | c :: _ => c = asc ',' || c = asc '}'

/-- `head`, G/recover.h:55-71, with the actions G/Uritemplate.h:315-337: an item that is right up to its end, or else what is skipped up to the end; with the position of
    what was skipped. -/
def head (pos : Nat) (s : Bytes) : Item × Bytes :=
  let skipped := s.takeWhile fun c => !(c = asc ',' || c = asc '}')
  let invalid := (Item.invalid skipped pos, s.dropWhile fun c => !(c = asc ',' || c = asc '}'))
  match varspec s with
  | none => invalid
  | some (v, r) => if atItemEnd r then (.variable v, r) else invalid

/-- `seq<S, head>` of `tail`, G/recover.h:73-80, as often as possible; the test of the lengths is not in the code (`head` never
    makes the input longer). -/
def tail (pos : Nat) (s : Bytes) : List Item × Bytes :=
  match s with
  | [] => ([], [])
  | c :: r =>
    if c = asc ',' then
      if (head (pos + 1) r).2.length ≤ r.length then
        ((head (pos + 1) r).1 :: (tail (pos + 1 + (r.length - (head (pos + 1) r).2.length)) (head (pos + 1) r).2).1,
          (tail (pos + 1 + (r.length - (head (pos + 1) r).2.length)) (head (pos + 1) r).2).2)
      else ([(head (pos + 1) r).1], (head (pos + 1) r).2)
    else ([], c :: r)
termination_by s.length

/-- `variable_list`, G/Uritemplate.h:123-130, which always matches. -/
def variableList (pos : Nat) (s : Bytes) : List Item × Bytes :=
  let h := head pos s
  let t := tail (pos + (s.length - h.2.length)) h.2
  (h.1 :: t.1, t.2)

/-! ## Expressions and literals -/

/-- `expression_type`, G/Uritemplate.h:234-244. -/
inductive Kind where
  | noop | reservedChars | fragment | label | path | pathParam | queryParam | queryContinue | reserved
deriving DecidableEq, Repr

/-- `state::expression`, G/Uritemplate.h:252-258. -/
structure Expression where
  kind : Kind
  variables : List Item
  missingClose : Bool
deriving DecidableEq, Repr

/-- `state::part`, G/Uritemplate.h:261-266; `monostate` is never made. -/
inductive Part where
  | literals (s : Bytes)
  | expression (e : Expression)
  | invalid (content : Bytes) (position : Nat)
deriving DecidableEq, Repr

/-- `operator_`, G/Uritemplate.h:62-89, with the actions 366-381. -/
def operator (c : UInt8) : Option Kind :=
  if c = asc '+' then some .reservedChars
  else if c = asc '#' then some .fragment
  else if c = asc '.' then some .label
  else if c = asc '/' then some .path
  else if c = asc ';' then some .pathParam
  else if c = asc '?' then some .queryParam
  else if c = asc '&' then some .queryContinue
  else if c = asc '=' || c = asc ',' || c = asc '!' || c = asc '@' || c = asc '|' then some .reserved
  else none

/-- `opt<operator_>`: the kind and the rest. -/
def optOperator (s : Bytes) : Kind × Bytes :=
  match s with
  | [] => (.noop, [])
  | c :: r => match operator c with
    | some k => (k, r)
    | none => (.noop, c :: r)

/-- `expression`, G/Uritemplate.h:137-144, after the opening brace. -/
def expression (pos : Nat) (s : Bytes) : Expression × Bytes :=
  let o := optOperator s
  let l := variableList (pos + (s.length - o.2.length)) o.2
  match l.2 with
  | c :: r => if c = asc '}' then (⟨o.1, l.1, false⟩, r) else (⟨o.1, l.1, true⟩, c :: r)
  | [] => (⟨o.1, l.1, true⟩, [])

/-- `ascii_allowed`, G/Uritemplate.h:186-195. -/
def asciiAllowed (c : UInt8) : Bool :=
  c = 0x21 || (0x23 ≤ c && c ≤ 0x24) || c = 0x26 || (0x28 ≤ c && c ≤ 0x3b) || c = 0x3d || (0x3f ≤ c && c ≤ 0x5a) || c = 0x5f ||
    (0x61 ≤ c && c ≤ 0x7a)

/-- Continuation byte. -/
def cont (b : UInt8) : Bool := 0x80 ≤ b && b < 0xC0

/-- `peek_utf8::peek` of PEGTL: a code point and the rest. -/
def peekUtf8 : Bytes → Option (Nat × Bytes)
  | [] => none
  | a :: r =>
    if a < 0x80 then some (a.toNat, r)
    else if 0xC0 ≤ a && a < 0xE0 then
      match r with
      | b :: r =>
        let x := (a.toNat % 32) * 64 + b.toNat % 64
        if cont b && 0x80 ≤ x then some (x, r) else none
      | _ => none
    else if 0xE0 ≤ a && a < 0xF0 then
      match r with
      | b :: c :: r =>
        let x := (a.toNat % 16) * 4096 + (b.toNat % 64) * 64 + c.toNat % 64
        if cont b && cont c && 0x800 ≤ x && !(0xD800 ≤ x && x ≤ 0xDFFF) then some (x, r) else none
      | _ => none
    else if 0xF0 ≤ a && a < 0xF8 then
      match r with
      | b :: c :: d :: r =>
        let x := (a.toNat % 8) * 262144 + (b.toNat % 64) * 4096 + (c.toNat % 64) * 64 + d.toNat % 64
        if cont b && cont c && cont d && 0x10000 ≤ x && x ≤ 0x10FFFF then some (x, r) else none
      | _ => none
    else none

/-- The ranges of `ucschar` and `iprivate`, G/Uritemplate.h:49-60. -/
def ucsRanges : List (Nat × Nat) :=
  [(0x000A0, 0x0D7FF), (0x0F900, 0x0FDCF), (0x0FDF0, 0x0FFEF), (0x10000, 0x1FFFD), (0x20000, 0x2FFFD), (0x30000, 0x3FFFD),
   (0x40000, 0x4FFFD), (0x50000, 0x5FFFD), (0x60000, 0x6FFFD), (0x70000, 0x7FFFD), (0x80000, 0x8FFFD), (0x90000, 0x9FFFD),
   (0xA0000, 0xAFFFD), (0xB0000, 0xBFFFD), (0xC0000, 0xCFFFD), (0xD0000, 0xDFFFD), (0xE1000, 0xEFFFD),
   (0xE000, 0xF8FF), (0xF0000, 0xFFFFD), (0x100000, 0x10FFFD)]

def ucs (x : Nat) : Bool := ucsRanges.any fun r => r.1 ≤ x && x ≤ r.2

/-- The alternatives of `literals_`, G/Uritemplate.h:197-204. -/
def literalUnit (s : Bytes) : Option (Bytes × Bytes) :=
  match pctEncoded s with
  | some x => some x
  | none =>
    match s with
    | [] => none
    | c :: r =>
      if asciiAllowed c then some ([c], r)
      else match peekUtf8 s with
        | some (x, r) => if ucs x then some (s.take (s.length - r.length), r) else none
        | none => none

/-- `literals_`, G/Uritemplate.h:197-204. -/
def literals_ (s : Bytes) : Option (Bytes × Bytes) :=
  match literalUnit s with
  | none => none
  | some (u, r) => some (u ++ (star literalUnit r).1, (star literalUnit r).2)

/-- `at<sor<expression_open, eof>>`. -/
def atOpen (s : Bytes) : Bool :=
  match s with
  | [] => true
  | c :: _ => c = asc '{'

/-- `literals`, G/Uritemplate.h:207-213 with `ensure`, G/recover.h:122-133: literals up to the next brace or the end, or else what is
    skipped up to there. -/
def literals (pos : Nat) (s : Bytes) : Option (Part × Bytes) :=
  let skipped := s.takeWhile fun c => !(c = asc '{')
  let skip := if skipped.isEmpty then none else some (Part.invalid skipped pos, s.dropWhile fun c => !(c = asc '{'))
  match literals_ s with
  | none => skip
  | some (u, r) => if atOpen r then some (.literals u, r) else skip

/-- `sor<literals, expression>`, G/Uritemplate.h:215-220. -/
def part (pos : Nat) (s : Bytes) : Option (Part × Bytes) :=
  match literals pos s with
  | some x => some x
  | none =>
    match s with
    | [] => none
    | c :: r => if c = asc '{' then let e := expression (pos + 1) r; some (.expression e.1, e.2) else none

/-- `plus<sor<literals, expression>>`, G/Uritemplate.h:215-220: the parts and the rest.  The test of the lengths is not in the code (see
    `star`). -/
def grammar (pos : Nat) (s : Bytes) : List Part × Bytes :=
  match part pos s with
  | none => ([], s)
  | some (p, r) =>
    if r.length < s.length then (p :: (grammar (pos + (s.length - r.length)) r).1, (grammar (pos + (s.length - r.length)) r).2) else ([], s)
termination_by s.length

/-! ## Warnings -/

/-- `std::hex << std::uppercase << int(c)`. -/
def hexText (c : UInt8) : Bytes :=
  let d (n : Nat) : UInt8 := if n < 10 then (48 + n).toUInt8 else (55 + n).toUInt8
  if c.toNat < 16 then [d c.toNat] else [d (c.toNat / 16), d (c.toNat % 16)]

/-- `encodeString`, U:66-73. -/
def encodeString (s : Bytes) : Bytes := s.flatMap fun c => asc '%' :: hexText c

/-- `sor<pct_triplet, continuous_dots, invalid_char>` with the actions, U:37-118: the message and the encoded text. -/
def locate (s : Bytes) : Bytes × Bytes :=
  let char : Bytes × Bytes :=
    match peekUtf8 s with
    | none => ([], [])
    | some (_, r) =>
      let m := s.take (s.length - r.length)
      (if m = [asc '{'] then str "nested expression brace '{'" else str "character '" ++ m ++ str "'", encodeString m)
  match s with
  | a :: b :: c =>
    if a = asc '%' && !c.isEmpty then (str "percent encoded character '" ++ a :: b :: c.take 1 ++ str "'", [])
    else if a = asc '.' && b = asc '.' then (str "continuous dots '" ++ s.takeWhile (fun c => c = asc '.') ++ str "'", [])
    else char
  | _ => char

/-- `checkVariableValidity`, U:123-157. -/
def itemWarnings : Item → List Bytes
  | .variable _ => []
  | .invalid content _ =>
    let rest := match varspec content with | some (_, r) => r | none => content
    let l := locate rest
    [str "URI template variable '" ++ content ++ str "' contains invalid " ++ l.1 ++
      (if l.2.isEmpty then [] else str ", which should be encoded as '" ++ l.2 ++ str "'") ++
      str ". Allowed characters for expressions are A-Z a-z 0-9 _ and percent encoded characters"]

/-- `isSupportedOperator`, U:169-175. -/
def supported : Kind → Bool
  | .noop | .reservedChars | .fragment | .queryParam | .queryContinue => true
  | _ => false

/-- `operatorToText`, U:177-191. -/
def operatorText : Kind → Bytes
  | .label => str "label"
  | .path => str "path segment"
  | .pathParam => str "path segment parameter"
  | _ => str "reserved operator"

/-- `checkTemplateValidity`, U:193-243. -/
def partWarnings : Part → List Bytes
  | .literals _ => []
  | .invalid content _ =>
    let rest := match literals_ content with | some (_, r) => r | none => content
    [str "URI template contains disallowed " ++ (locate rest).1 ++ str ". Disallowed characters must be percent encoded."]
  | .expression e =>
    (if supported e.kind then [] else [str "URI template '" ++ operatorText e.kind ++ str "' expansion is not supported"]) ++
    e.variables.flatMap itemWarnings ++
    (if e.missingClose then [str "URI Template expression is missing closing bracket '}'"] else [])

/-- The state after `parse<match_grammar>`, U:281-290. -/
def parseParts (uri : Bytes) : List Part := (grammar 0 uri).1

/-- `URITemplateParser::parse`, U:259-291: the warnings. -/
def warnings (uri : Bytes) : List Bytes := if uri.isEmpty then [] else (parseParts uri).flatMap partWarnings

end Verif.UriTemplate
