import Verif.Model.Text
/-!
# Media types: packages/apib-parser/src/grammar/Mediatype.h, packages/apib-parser/src/MediaTypeParser.cc,
packages/apib/src/MediaType.cc, packages/drafter/src/backend/MediaTypeS11n.cc

`G` below is packages/apib-parser/src/grammar.  The rules are PEGTL rules: a rule gives the rest of the input or fails.
-/
namespace Verif.MediaType
open Verif Verif.Text

/-- `media_type`, packages/apib/include/apib/syntax/MediaType.h:19-26. -/
structure MediaType where
  type : Bytes := []
  subtype : Bytes := []
  suffix : Bytes := []
  parameters : List (Bytes × Bytes) := []
deriving DecidableEq, Repr

/-- `pegtl::ascii::alnum`. -/
def alnum (c : UInt8) : Bool := (asc '0' ≤ c && c ≤ asc '9') || (asc 'A' ≤ c && c ≤ asc 'Z') || (asc 'a' ≤ c && c ≤ asc 'z')

/-- `restricted`, G/Mediatype.h:39. -/
def restricted (c : UInt8) : Bool := (str "!#$&^_-.").contains c

/-- At most `n` characters that satisfy `p`: `rep_max<n, p>`. -/
def repMax (p : UInt8 → Bool) : Nat → Bytes → Bytes × Bytes
  | 0, s => ([], s)
  | _ + 1, [] => ([], [])
  | n + 1, c :: s => if p c then ((c :: (repMax p n s).1), (repMax p n s).2) else ([], c :: s)

/-- `name`, G/Mediatype.h:64-67: the matched text and the rest. -/
def name : Bytes → Option (Bytes × Bytes)
  | [] => none
  | c :: s => if alnum c then some (c :: (repMax (fun c => alnum c || restricted c) 126 s).1, (repMax (fun c => alnum c || restricted c) 126 s).2) else none

/-- `pegtl::abnf::WSP`. -/
def ws (c : UInt8) : Bool := c = asc ' ' || c = asc '\t'

/-- The content of `quoted`, G/Mediatype.h:48-62: the text up to the closing quote and the rest; a backslash must be followed
    by a visible character, white space or a byte that is not ASCII.  `none` if the rule fails or the parse ends. -/
def quotedContent : Bytes → Option (Bytes × Bytes)
  | [] => none
  | c :: s =>
    if c = asc '\\' then
      match s with
      | [] => none
      | d :: r => if (0x21 ≤ d && d ≤ 0x7E) || 0x80 ≤ d || ws d then (quotedContent r).map fun x => (c :: d :: x.1, x.2) else none
    else if c = asc '"' then some ([], s)
    else (quotedContent s).map fun x => (c :: x.1, x.2)

/-- `value`, G/Mediatype.h:73 and the actions 178-194. -/
def value : Bytes → Option (Bytes × Bytes)
  | [] => none
  | c :: s => if c = asc '"' then quotedContent s else name (c :: s)

/-- `parameter`, G/Mediatype.h:76 and the actions 117-176. -/
def parameter (s : Bytes) : Option ((Bytes × Bytes) × Bytes) :=
  match name s with
  | none => none
  | some (a, r) =>
    match r with
    | [] => none
    | c :: r => if c = asc '=' then (value r).map fun v => ((a, v.1), v.2) else none

theorem repMax_length (p : UInt8 → Bool) : ∀ n s, (repMax p n s).2.length ≤ s.length
  | 0, _ => by simp [repMax]
  | n + 1, [] => by simp [repMax]
  | n + 1, c :: s => by
    rw [repMax]; split
    · have := repMax_length p n s; simp; omega
    · simp

theorem name_length {s : Bytes} {x : Bytes × Bytes} (h : name s = some x) : x.2.length < s.length := by
  cases s with
  | nil => cases h
  | cons c s =>
    rw [name] at h; split at h
    · cases h; have := repMax_length (fun c => alnum c || restricted c) 126 s; simp; omega
    · cases h

theorem quoted_length (s : Bytes) : ∀ {x : Bytes × Bytes}, quotedContent s = some x → x.2.length ≤ s.length := by
  fun_induction quotedContent s with
  | case1 => intro x h; cases h
  | case2 => intro x h; cases h
  | case3 d r hd ih =>
    intro x h
    cases hq : quotedContent r with
    | none => rw [hq] at h; cases h
    | some y => rw [hq] at h; cases h; have := ih hq; simp; omega
  | case4 => intro x h; cases h
  | case5 => intro x h; cases h; simp
  | case6 c s hc hq ih =>
    intro x h
    cases hq : quotedContent s with
    | none => rw [hq] at h; cases h
    | some y => rw [hq] at h; cases h; have := ih hq; simp; omega

theorem value_length {s : Bytes} {x : Bytes × Bytes} (h : value s = some x) : x.2.length ≤ s.length := by
  cases s with
  | nil => cases h
  | cons c s =>
    rw [value] at h; split at h
    · have := quoted_length s h; simp; omega
    · have := name_length h; omega

theorem parameter_length {s : Bytes} {x : (Bytes × Bytes) × Bytes} (h : parameter s = some x) : x.2.length < s.length := by
  unfold parameter at h
  split at h
  · cases h
  · rename_i a r hn
    have hl := name_length hn
    split at h
    · cases h
    · rename_i c r'
      split at h
      · cases hv : value r' with
        | none => rw [hv] at h; cases h
        | some y => rw [hv] at h; cases h; have := value_length hv; simp at hl this ⊢; omega
      · cases h

/-- `star<seq<RWS, parameter>>`, from `parameters`, G/Mediatype.h:77. -/
def moreParameters (s : Bytes) : List (Bytes × Bytes) :=
  if s.takeWhile ws = [] then []
  else match h : parameter (s.dropWhile ws) with
    | none => []
    | some (p, r) => p :: moreParameters r
termination_by s.length
decreasing_by
  have := parameter_length h
  have : (s.dropWhile ws).length ≤ s.length := (List.dropWhile_sublist _).length_le
  simp at *; omega

/-- `parameters`, G/Mediatype.h:77: the parameters pushed; what follows does not matter. -/
def parameters (s : Bytes) : List (Bytes × Bytes) :=
  match parameter s with
  | none => []
  | some (p, r) => p :: moreParameters r

/-- `subtype_prefix`, G/Mediatype.h:84: the names, each followed by a plus sign, without the last plus sign, and the rest. -/
def subtypePrefix (s : Bytes) : Option (Bytes × Bytes) :=
  match h : name s with
  | none => none
  | some (n, r) =>
    match hr : r with
    | [] => none
    | c :: r' =>
      if c = asc '+' then
        match subtypePrefix r' with
        | none => some (n, r')
        | some (m, q) => some (n ++ asc '+' :: m, q)
      else none
termination_by s.length
decreasing_by have := name_length h; simp at this; omega

/-- `subtype`, G/Mediatype.h:88-91, with its actions 139-166, which are not undone when a rule fails: the media type and the
    rest. -/
def subtype (t : MediaType) (s : Bytes) : MediaType × Option Bytes :=
  let plain (t : MediaType) : MediaType × Option Bytes :=
    match name s with
    | none => (t, none)
    | some (n, r) => ({ t with subtype := n }, some r)
  match subtypePrefix s with
  | none => plain t
  | some (p, r) =>
    let t := { t with subtype := p }
    match name r with
    | none => plain t
    | some (n, r) => ({ t with suffix := n }, some r)

/-- `grammar`, G/Mediatype.h:97-109, with the actions.  Whether it matches is not observed. -/
def grammar (s : Bytes) : MediaType :=
  match name s with
  | none => {}
  | some (n, r) =>
    let t : MediaType := { type := n }
    match r with
    | [] => t
    | c :: r =>
      if c = asc '/' then
        match subtype t r with
        | (t, none) => t
        | (t, some r) =>
          match r.dropWhile ws with
          | [] => t
          | c :: r => if c = asc ';' then { t with parameters := parameters (r.dropWhile ws) } else t
      else t

/-- `parseMediaType`, packages/apib-parser/src/MediaTypeParser.cc:17-23, with `match_grammar`, G/Mediatype.h:113: the result of the
    parse is ignored. -/
def parseMediaType (s : Bytes) : MediaType := grammar (s.dropWhile ws)

/-- `isJSON`, packages/apib/src/MediaType.cc:16-58. -/
def isJSON (t : MediaType) : Bool :=
  iEqual t.type (str "application") && iEqual (if t.suffix.isEmpty then t.subtype else t.suffix) (str "json")

/-- `isJSONSchema`, packages/apib/src/MediaType.cc:60-65. -/
def isJSONSchema (t : MediaType) : Bool :=
  iEqual t.type (str "application") && iEqual t.subtype (str "schema") && iEqual t.suffix (str "json")

/-- `s8_qtext`, packages/drafter/src/backend/MediaTypeS11n.cc:19-29. -/
def qtext : Bytes → Bytes
  | [] => []
  | c :: s =>
    (if c = asc '\\' || c = asc '"' then [asc '\\', c] else if c = asc '\r' then str "\\r" else [c]) ++ qtext s

/-- `is_tspecial(c) || std::isspace(c) || std::iscntrl(c)`, packages/drafter/src/backend/MediaTypeS11n.cc:36-50, in the C locale. -/
def mustQuote (c : UInt8) : Bool := (str "()<>@,;:\\\"/[]?=").contains c || isSpace c || c < 32 || c = 127

/-- `s8_value`, packages/drafter/src/backend/MediaTypeS11n.cc:31-54. -/
def printValue (v : Bytes) : Bytes := if v.any mustQuote then asc '"' :: qtext v ++ [asc '"'] else v

/-- `operator<<`, packages/drafter/src/backend/MediaTypeS11n.cc:57-81. -/
def print (t : MediaType) : Bytes :=
  if t.type.isEmpty || t.subtype.isEmpty then []
  else t.type ++ asc '/' :: t.subtype ++ (if t.suffix.isEmpty then [] else asc '+' :: t.suffix) ++
    (t.parameters.filter fun p => !p.1.isEmpty).flatMap fun p => str "; " ++ p.1 ++ asc '=' :: printValue p.2

end Verif.MediaType
