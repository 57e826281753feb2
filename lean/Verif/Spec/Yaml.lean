import Verif.Model.Value
import Verif.Spec.Json
/-!
# A reader for a subset of YAML 1.2 (specification)

Written from the YAML 1.2 specification, independently of the printer: double-quoted scalars (§7.3.1, §5.7), block
sequences and block mappings (§8.2), the empty flow collections, plain scalars resolved with the core schema (§10.3).
What the reader does not cover (comments, anchors, tags, folding, compact collections, other plain scalars) is
rejected (`none`), so a successful result is always the YAML meaning.
-/
namespace Verif.Spec.Yaml
open Verif Verif.So Verif.Spec Verif.Spec.Json

/-- §5.1 c-printable. -/
def Printable (c : Nat) : Prop :=
  c = 0x9 ∨ c = 0xA ∨ c = 0xD ∨ (0x20 ≤ c ∧ c ≤ 0x7E) ∨ c = 0x85 ∨ (0xA0 ≤ c ∧ c ≤ 0xD7FF)
    ∨ (0xE000 ≤ c ∧ c ≤ 0xFFFD) ∨ (0x10000 ≤ c ∧ c ≤ 0x10FFFF)

/-- §5.4 line break characters (including the YAML 1.1 ones). -/
def LineBreak (c : Nat) : Prop := c = 0xA ∨ c = 0xD ∨ c = 0x85 ∨ c = 0x2028 ∨ c = 0x2029

/-- §5.7: escapes with a single character, as a code point. -/
def escapeChar (e : UInt8) : Option Nat :=
  if e = 0x30 then some 0x00        -- \0
  else if e = 0x61 then some 0x07   -- \a
  else if e = 0x62 then some 0x08   -- \b
  else if e = 0x74 then some 0x09   -- \t
  else if e = 0x09 then some 0x09   -- \<tab>
  else if e = 0x6E then some 0x0A   -- \n
  else if e = 0x76 then some 0x0B   -- \v
  else if e = 0x66 then some 0x0C   -- \f
  else if e = 0x72 then some 0x0D   -- \r
  else if e = 0x65 then some 0x1B   -- \e
  else if e = 0x20 then some 0x20   -- \<space>
  else if e = 0x22 then some 0x22   -- \"
  else if e = 0x2F then some 0x2F   -- \/
  else if e = 0x5C then some 0x5C   -- \\
  else if e = 0x4E then some 0x85   -- \N
  else if e = 0x5F then some 0xA0   -- \_
  else if e = 0x4C then some 0x2028 -- \L
  else if e = 0x50 then some 0x2029 -- \P
  else none

/-- §5.7: number of hexadecimal digits after `\x`, `\u`, `\U`. -/
def escapeWidth (e : UInt8) : Option Nat :=
  if e = 0x78 then some 2 else if e = 0x75 then some 4 else if e = 0x55 then some 8 else none

/-- Value of a sequence of hexadecimal digits. -/
def hexNum : Nat → Bytes → Option Nat
  | acc, [] => some acc
  | acc, c :: r => match hexVal c with
    | some d => hexNum (acc * 16 + d) r
    | none => none

/-- The rest of a one-line double-quoted scalar after the opening quote: contents and what follows the closing quote. -/
def readDq (s : Bytes) : Option (Bytes × Bytes) :=
  match s with
  | [] => none
  | c :: r =>
    if c = 0x22 then some ([], r)
    else if c = 0x5C then
      match r with
      | [] => none
      | e :: r =>
        match escapeWidth e with
        | some w =>
          if r.length < w then none
          else match hexNum 0 (r.take w) with
            | some u => if Scalar u then (readDq (r.drop w)).map fun (x, t) => (utf8 u ++ x, t) else none
            | none => none
        | none =>
          match escapeChar e with
          | some u => (readDq r).map fun (x, t) => (utf8 u ++ x, t)
          | none => none
    else if c < 0x20 then none
    else (readDq r).map fun (x, t) => (c :: x, t)
termination_by s.length
decreasing_by all_goals (simp; try omega)

/-- Number of leading spaces, and the rest. -/
def spaces : Bytes → Nat × Bytes
  | [] => (0, [])
  | c :: r => if c = 0x20 then ((spaces r).1 + 1, (spaces r).2) else (0, c :: r)

/-- ASCII letters. -/
def isAlpha (c : UInt8) : Bool := (0x41 ≤ c && c ≤ 0x5A) || (0x61 ≤ c && c ≤ 0x7A)

/-- §10.3: plain scalars that the core schema resolves to null or a boolean (the alphabetic ones). -/
def notAString : List Bytes :=
  [[], str "null", str "Null", str "NULL", str "true", str "True", str "TRUE", str "false", str "False", str "FALSE"]

/-- A mapping key that is a string: double-quoted, or a plain alphabetic scalar that the core schema resolves to a
    string. -/
def readKey (s : Bytes) : Option (Bytes × Bytes) :=
  match s with
  | [] => none
  | c :: r =>
    if c = 0x22 then readDq r
    else
      let w := (c :: r).takeWhile isAlpha
      if w ∈ notAString then none else some (w, (c :: r).dropWhile isAlpha)

/-- A scalar or empty flow collection that ends at the end of the line. -/
def readInline (s : Bytes) : Option (Value × Bytes) :=
  match s with
  | [] => none
  | c :: r =>
    if c = 0x22 then (readDq r).map fun (x, t) => (.str x, t)
    else
      let w := (c :: r).takeWhile (· ≠ 0x0A)
      let t := (c :: r).dropWhile (· ≠ 0x0A)
      if w = str "null" then some (.null, t)
      else if w = str "true" then some (.tru, t)
      else if w = str "false" then some (.fls, t)
      else if w = str "{}" then some (.obj [], t)
      else if w = str "[]" then some (.arr [], t)
      else if JsonNumber w then some (.num w, t)
      else none

/-- A `-` that is a block sequence indicator (§8.2.1: followed by white space). -/
def isDash : Bytes → Bool
  | a :: b :: _ => a = 0x2D && (b = 0x20 || b = 0x0A)
  | _ => false

mutual
/-- The value after a `:` or `-` in a collection at column `parent`. -/
def readNode : Nat → Nat → Bytes → Option (Value × Bytes)
  | 0, _, _ => none
  | n + 1, parent, s =>
    match s with
    | [] => none
    | c :: r =>
      if c = 0x20 then readInline r
      else if c = 0x0A then
        let k := (spaces r).1
        let r := (spaces r).2
        if k > parent then
          if isDash r then (readSeq n k r).map fun (es, t) => (.arr es, t)
          else (readMap n k r).map fun (ms, t) => (.obj ms, t)
        else none
      else none
/-- The entries of a block mapping at column `k`. -/
def readMap : Nat → Nat → Bytes → Option (List (Bytes × Value) × Bytes)
  | 0, _, _ => none
  | n + 1, k, s =>
    match readKey s with
    | none => none
    | some (x, s) =>
      match s with
      | [] => none
      | c :: s =>
        if c ≠ 0x3A then none
        else match readNode n k s with
          | none => none
          | some (v, s) =>
            match s with
            | [] => some ([(x, v)], [])
            | d :: r =>
              if d ≠ 0x0A then none
              else if (spaces r).1 < k then some ([(x, v)], d :: r)
              else if (spaces r).1 = k then (readMap n k (spaces r).2).map fun (ms, t) => ((x, v) :: ms, t)
              else none
/-- The entries of a block sequence at column `k`. -/
def readSeq : Nat → Nat → Bytes → Option (List Value × Bytes)
  | 0, _, _ => none
  | n + 1, k, s =>
    if isDash s then
      match readNode n k s.tail with
      | none => none
      | some (v, s) =>
        match s with
        | [] => some ([v], [])
        | d :: r =>
          if d ≠ 0x0A then none
          else if (spaces r).1 < k then some ([v], d :: r)
          else if (spaces r).1 = k then (readSeq n k (spaces r).2).map fun (es, t) => (v :: es, t)
          else none
    else none
end

/-- Read a document: a one-line scalar, or a block collection at column 0. -/
def readYaml (s : Bytes) : Option Value :=
  match readInline s with
  | some (v, []) => some v
  | _ =>
    if isDash s then
      match readSeq (4 * s.length) 0 s with
      | some (es, []) => some (.arr es)
      | _ => none
    else
      match readMap (4 * s.length) 0 s with
      | some (ms, []) => some (.obj ms)
      | _ => none

mutual
/-- Hypothesis of the round trip: number texts are JSON numbers, strings and keys are well-formed UTF-8, and no key is
    one of the words that YAML resolves to null or a boolean. -/
def YamlOk : Value → Prop
  | .num s => JsonNumber s
  | .str s => WellFormed s
  | .obj ms => YamlOkM ms
  | .arr es => YamlOkE es
  | _ => True
termination_by structural v => v
/-- `YamlOk` for all members. -/
def YamlOkM : List (Bytes × Value) → Prop
  | [] => True
  | m :: r => YamlOkP m ∧ YamlOkM r
termination_by structural v => v
/-- `YamlOk` for one member. -/
def YamlOkP : Bytes × Value → Prop
  | (k, v) => WellFormed k ∧ k ∉ notAString ∧ YamlOk v
termination_by structural v => v
/-- `YamlOk` for all elements. -/
def YamlOkE : List Value → Prop
  | [] => True
  | v :: r => YamlOk v ∧ YamlOkE r
termination_by structural v => v
end

end Verif.Spec.Yaml
