import Verif.Model.Api
import Verif.Model.Number

/-!
# The command line program: packages/drafter/src/{main.cc,reporting.cc}

`D` below is packages/drafter/src.  A result `none` means that the program does not go on: it is terminated by an exception thrown out of a
function that must not throw, or its behaviour is undefined.
-/
namespace Verif.CommandLine
open Verif Verif.Refract Verif.ByteBuffer Verif.Lines Verif.Api

/-- `std::stoi` in `Number::operator std::int64_t`, D/refract/dsd/Number.cc:41-48: blanks, a sign, digits; what follows is dropped.  No digits
    and numbers outside of `int` throw, and the operator is `noexcept`. -/
def stoi (s : Bytes) : Option Int :=
  let s := s.dropWhile Number.isspace
  let negative := s.head? = some (asc '-')
  let digits := (if negative ∨ s.head? = some (asc '+') then s.drop 1 else s).takeWhile Number.isDigit
  let n : Nat := digits.foldl (fun a c => 10 * a + (c.toNat - 48)) 0
  let v : Int := if negative then -n else n
  if digits.isEmpty then none else if v < -2147483648 ∨ 2147483647 < v then none else some v

/-- `static_cast<size_t>`, as the arguments of `mdp::Range`. -/
def toSize (n : Int) : Nat := (n % 18446744073709551616).toNat

/-- `TypeQueryVisitor::as<const ArrayElement>` and its value, D/refract/TypeQueryVisitor.h:88-107. -/
def asArray (e : Elem) : Option (List Elem) := match e.data with | .array l => some l | _ => none
/-- The same for numbers. -/
def asNumber (e : Elem) : Option Bytes := match e.data with | .number s => some s | _ => none
/-- The same for strings. -/
def asString (e : Elem) : Option Bytes := match e.data with | .string s => some s | _ => none

/-- What `stream << size_t` prints. -/
def decimal (n : Nat) : Bytes := str (toString n)

/-- Output of the position, D/reporting.cc:115-117. -/
def printPosition (p : Pos) : Bytes :=
  str "; line " ++ decimal p.fromLine ++ str ", column " ++ decimal p.fromColumn ++ str " - line " ++ decimal p.toLine ++
    str ", column " ++ decimal p.toColumn

/-- `AnnotationToString::location`, D/reporting.cc:100-124; the ends of lines are given if line numbers are used.  (Simplification: the sum of
    location and length does not overflow.) -/
def location (lines : Option (List Nat)) (map : Elem) : Option Bytes :=
  match asArray map with
  | some [a, b] =>
    match asNumber a, asNumber b with
    | some x, some y =>
      match lines with
      | none => some (x ++ str ":" ++ y)
      | some idx => (stoi x).bind fun l => (stoi y).bind fun n => (getLineFromMap idx (toSize l) (toSize n)).map printPosition
    | _, _ => some []
  | _ => some []

/-- The loop over the entries of a source map, D/reporting.cc:156-162; `first` is the comparison with the beginning. -/
def locations (lines : Option (List Nat)) : Bool → List Elem → Option Bytes
  | _, [] => some []
  | first, m :: r =>
    (location lines m).bind fun x => (locations lines false r).map fun y =>
      (match lines with
        | none => if first then str " :" else str ";"
        | some _ => []) ++ x ++ y

/-- `AnnotationToString::operator()`, D/reporting.cc:126-168. -/
def annotationToString (lines : Option (List Nat)) (e : Elem) : Option Bytes :=
  if e.name ≠ str "annotation" then some []
  else
    let type := match (Infos.find e.metas (str "classes")).bind asArray with
      | some [c] => (match asString c with | some k => k ++ str ": " | none => [])
      | _ => []
    let code := match (Infos.find e.attributes (str "code")).bind asNumber with
      | some c => str "(" ++ c ++ str ")  "
      | none => []
    let message := (asString e).getD []
    let map := match (Infos.find e.attributes (str "sourceMap")).bind asArray with
      | some [m] => (asArray m).getD []
      | _ => []
    (locations lines true map).map fun l => type ++ code ++ message ++ l

/-- `PrintReport`, D/reporting.cc:194-210: what is written to the error stream.  `FilterVisitor` and `Iterate<Children>` give the children that
    are annotations. -/
def printReport (result : Elem) (source : Bytes) (useLineNumbers : Bool) (error : Int) : Option Bytes :=
  (((childrenOf result).filter fun e => e.name == str "annotation").mapM
    (annotationToString (if useLineNumbers then some (linesEndIndex source) else none))).map fun ls =>
      str "\n" ++ (if error = 0 then str "OK.\n" else []) ++ (ls.map (· ++ str "\n")).flatten

/-- `Config`, D/config.h, without the names of the files and the logging. -/
structure Config where
  json : Bool := false
  sourceMap : Bool := false
  validate : Bool := false
  lineNumbers : Bool := false

/-- The serialize options that are set, D/main.cc:34-38. -/
def serializeOptions (c : Config) : SerializeOptions :=
  let o := if c.sourceMap then setSourcemaps initSerialize else initSerialize
  if c.json then setFormat o 1 else o

/-- What a run of the program writes and returns. -/
structure Outcome where
  out : Bytes
  err : Bytes
  status : Int
deriving DecidableEq

/-- `ProcessRefract`, D/main.cc:26-67: the input is passed on as a C string, but the report gets all of it. -/
def processRefract (env : Env) (config : Config) (input : Bytes) : Run Outcome :=
  (parseBlueprint env (some (input.takeWhile (· ≠ 0))) true (some initParse)).bind fun (ret, result) =>
    match result with
    | none => .ok ⟨[], [], -1⟩
    | some r =>
      let out := if config.validate then [] else
        match serialize (some r) (some (serializeOptions config)) with
        | some t => t ++ str "\n"
        | none => []
      (Run.ofOption (printReport r input config.lineNumbers ret)).bind fun err => .ok ⟨out, err, ret⟩

end Verif.CommandLine
