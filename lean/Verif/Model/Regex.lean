import Verif.Model.Bytes

/-!
# Regular expressions (`posix/RegexMatch.cc`)

S = packages/apib-parser/src/snowcrash.

The code hands the text of an expression to `regcomp` and the subject to `regexec`.  Neither is part of
the repository; what is modelled here is what POSIX.1-2017 (chapter 9) says of them for the extended
expressions the code uses: `compile` reads the very text that stands in the source, so that no
expression is transcribed by hand.  The locale is the C locale (nothing in the repository calls
`setlocale`), hence a character is a byte.  The parser of expressions knows the syntax that occurs in the
sources: literals, `.`, bracket expressions with ranges and classes, groups, alternatives, `*`, `+`, `?`,
`{n}` with one digit, `\c`, a leading `^` and a trailing `$`.
-/

namespace Verif.Regex

/-- An extended regular expression.  `cls neg ranges` is a bracket expression (`.` is the complement of
nothing), `group n` the `n`th pair of parentheses. -/
inductive Rx
  | eps
  | cls (neg : Bool) (ranges : List (UInt8 × UInt8))
  | seq (a b : Rx)
  | alt (a b : Rx)
  | star (a : Rx)
  | plus (a : Rx)
  | group (n : Nat) (a : Rx)
  deriving DecidableEq, Repr

/-- An expression with its anchors. -/
structure Pattern where
  start : Bool
  body : Rx
  stop : Bool
  deriving DecidableEq, Repr

/-! ## `regcomp` with `REG_EXTENDED` -/

/-- The character classes the sources use. -/
def namedClass (name : Bytes) : Option (List (UInt8 × UInt8)) :=
  if name = str "blank" then some [(32, 32), (9, 9)]
  else if name = str "digit" then some [(48, 57)]
  else if name = str "alnum" then some [(48, 57), (65, 90), (97, 122)]
  else none

/-- The items of a bracket expression, after `[` or `[^`; a `]` that is the first item stands for itself,
a backslash always does. -/
def bracket : Nat → Bool → Bytes → Option (List (UInt8 × UInt8) × Bytes)
  | 0, _, _ => none
  | _ + 1, _, [] => none
  | n + 1, first, c :: rest =>
    if c = asc ']' ∧ ¬ first then some ([], rest)
    else match c :: rest with
      | 91 :: 58 :: more =>
        match more.dropWhile (· ≠ 58) with
        | 58 :: 93 :: after =>
          match namedClass (more.takeWhile (· ≠ 58)), bracket n false after with
          | some k, some (items, left) => some (k ++ items, left)
          | _, _ => none
        | _ => none
      | lo :: 45 :: hi :: after =>
        if hi = asc ']' then
          (bracket n false rest).map fun r => ((c, c) :: r.1, r.2)
        else (bracket n false after).map fun r => ((lo, hi) :: r.1, r.2)
      | _ => (bracket n false rest).map fun r => ((c, c) :: r.1, r.2)

/-- Repetitions that follow an atom. -/
def quantified (a : Rx) : Bytes → Rx × Bytes
  | 42 :: rest => (.star a, rest)
  | 43 :: rest => (.plus a, rest)
  | 63 :: rest => (.alt a .eps, rest)
  | 123 :: d :: 125 :: rest =>
    ((List.replicate (d.toNat - 48 - 1) a).foldr Rx.seq a, rest)
  | rest => (a, rest)

/-- `a` followed by `b`. -/
def Rx.then (a : Rx) : Rx → Rx
  | .eps => a
  | b => .seq a b

mutual
/-- Alternatives up to the end of the text or a `)`; `k` is the number of the next group. -/
def alternatives : Nat → Nat → Bytes → Option (Rx × Nat × Bytes)
  | 0, _, _ => none
  | n + 1, k, s =>
    match sequence n k s with
    | some (a, k, 124 :: rest) =>
      match alternatives n k rest with
      | some (b, k, rest) => some (.alt a b, k, rest)
      | none => none
    | r => r

/-- Atoms up to the end of the text, a `)` or a `|`. -/
def sequence : Nat → Nat → Bytes → Option (Rx × Nat × Bytes)
  | 0, _, _ => none
  | _ + 1, k, [] => some (.eps, k, [])
  | n + 1, k, c :: rest =>
    if c = asc ')' ∨ c = asc '|' then some (.eps, k, c :: rest)
    else match atom n k c rest with
      | none => none
      | some (a, k, rest) =>
        let q := quantified a rest
        match sequence n k q.2 with
        | none => none
        | some (b, k, rest) => some (q.1.then b, k, rest)

/-- One atom that starts with the character `c`. -/
def atom : Nat → Nat → UInt8 → Bytes → Option (Rx × Nat × Bytes)
  | 0, _, _, _ => none
  | n + 1, k, c, rest =>
    if c = asc '(' then
      match alternatives n (k + 1) rest with
      | some (a, k', 41 :: rest) => some (.group k a, k', rest)
      | _ => none
    else if c = asc '[' then
      match rest with
      | 94 :: more => (bracket (more.length + 1) true more).map fun r => (.cls true r.1, k, r.2)
      | _ => (bracket (rest.length + 1) true rest).map fun r => (.cls false r.1, k, r.2)
    else if c = asc '.' then some (.cls true [], k, rest)
    else if c = asc '\\' then
      match rest with
      | d :: rest => some (.cls false [(d, d)], k, rest)
      | [] => none
    else some (.cls false [(c, c)], k, rest)
end

/-- `regcomp` -/
def compile (expression : Bytes) : Option Pattern :=
  let start := expression.head? == some (asc '^')
  let stop := expression.getLast? == some (asc '$')
  let s := if start then expression.drop 1 else expression
  let s := if stop then s.dropLast else s
  match alternatives (3 * s.length + 3) 1 s with
  | some (r, _, []) => some ⟨start, r, stop⟩
  | _ => none

/-! ## `regexec` -/

/-- A character of a bracket expression. -/
def inClass (neg : Bool) (ranges : List (UInt8 × UInt8)) (c : UInt8) : Bool :=
  neg != ranges.any fun r => r.1 ≤ c && c ≤ r.2

/-- The ways to cut a text in two, the longest first part in front. -/
def splits (s : Bytes) : List (Bytes × Bytes) :=
  ((List.range (s.length + 1)).map fun k => (s.take k, s.drop k)).reverse

/-- Repetition of what `p` accepts. -/
def accStar (p : Bytes → Bool) : Nat → Bytes → Bool
  | _, [] => true
  | 0, _ => false
  | n + 1, s => (splits s).any fun x => !x.1.isEmpty && p x.1 && accStar p n x.2

/-- The expression describes the text, all of it. -/
def acc : Rx → Bytes → Bool
  | .eps, s => s.isEmpty
  | .cls neg ranges, s => match s with
    | [c] => inClass neg ranges c
    | _ => false
  | .seq a b, s => (splits s).any fun x => acc a x.1 && acc b x.2
  | .alt a b, s => acc a s || acc b s
  | .star a, s => accStar (acc a) s.length s
  | .plus a, s => (splits s).any fun x => acc a x.1 && accStar (acc a) x.2.length x.2
  | .group _ a, s => acc a s

/-- What the groups hold when the expression describes `s`: each part, from left to right, is as long as
it can be.  Simplification: groups inside a repetition are not recorded (no caller asks for them). -/
def caps : Rx → Bytes → List (Nat × Bytes)
  | .seq a b, s =>
    match (splits s).find? fun x => acc a x.1 && acc b x.2 with
    | some x => caps a x.1 ++ caps b x.2
    | none => []
  | .alt a b, s => if acc a s then caps a s else caps b s
  | .group n a, s => (n, s) :: caps a s
  | _, _ => []

/-- The longest match at the beginning of the text. -/
def matchHere (p : Pattern) (s : Bytes) : Option Bytes :=
  ((splits s).find? fun x => acc p.body x.1 && (!p.stop || x.2.isEmpty)).map (·.1)

/-- The leftmost match and, among those, the longest. -/
def search (p : Pattern) : Bytes → Option Bytes
  | [] => matchHere p []
  | c :: s =>
    match matchHere p (c :: s) with
    | some m => some m
    | none => if p.start then none else search p s

/-- `target.c_str()`, what `regexec` sees of a `std::string`. -/
def cstr (target : Bytes) : Bytes := target.takeWhile (· ≠ 0)

/-- S/posix/RegexMatch.cc:16-44 `RegexMatch`. -/
def regexMatch (target expression : Bytes) : Bool :=
  if target.isEmpty || expression.isEmpty then false
  else match compile expression with
    | none => false
    | some p => (search p (cstr target)).isSome

/-- S/posix/RegexMatch.cc:55-94 `RegexCapture`: the groups, group 0 being the whole match; a group that
takes no part in the match is empty.  `none` is the result `false`. -/
def regexCapture (target expression : Bytes) (groupSize : Nat := 8) : Option (List Bytes) :=
  if target.isEmpty || expression.isEmpty then none
  else match compile expression with
    | none => none
    | some p =>
      match search p (cstr target) with
      | none => none
      | some m => some ((List.range groupSize).map fun i =>
          if i = 0 then m else ((caps p.body m).lookup i).getD [])

/-- S/posix/RegexMatch.cc:46-53 `RegexCaptureFirst`. -/
def regexCaptureFirst (target expression : Bytes) : Bytes :=
  match regexCapture target expression with
  | none => []
  | some groups => if groups.length < 2 then [] else groups.getD 1 []

end Verif.Regex
