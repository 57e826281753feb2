import Verif.Model.Text
import Verif.Model.UriTemplate
/-!
# Parameters: packages/apib-parser/src/snowcrash/ParametersParser.h and packages/apib-parser/src/snowcrash/ParameterParser.h

`S` below is packages/apib-parser/src/snowcrash.  The signature of a parameter is read by `Verif.Signature`; here starts what is done
with it.
-/
namespace Verif.Parameters
open Verif Verif.Text

/-- `ParameterUse`, S/Blueprint.h:106-111. -/
inductive Use where
  | undefined | optional | required
deriving DecidableEq, Repr

/-- `Parameter`, S/Blueprint.h:114-136. -/
structure Parameter where
  name : Bytes
  description : Bytes := []
  type : Bytes := []
  use : Use := .undefined
  defaultValue : Bytes := []
  exampleValue : Bytes := []
  values : List Bytes := []
deriving DecidableEq, Repr

/-! ## The list of parameters -/

/-- The output of a `Parameters` section: parameters, their source maps, and the names in the redefinition warnings. -/
structure Out (M : Type) where
  node : List Parameter := []
  sourceMap : List M := []
  warnings : List Bytes := []

/-- `findParameter`, S/ParametersParser.h:154-158, with `MatchName`: the index of the first parameter of that name. -/
def findParameter (ps : List Parameter) (p : Parameter) : Option Nat := ps.findIdx? fun q => q.name == p.name

/-- `removeParameter`, S/ParametersParser.h:160-170.  (The code computes the index from the iterator it has just erased.) -/
def removeParameter {M} (i : Nat) (exportMaps : Bool) (out : Out M) : Out M :=
  { out with node := out.node.eraseIdx i, sourceMap := if exportMaps then out.sourceMap.eraseIdx i else out.sourceMap }

/-- `processNestedSection`, S/ParametersParser.h:68-114, for a parameter already read, with its source map. -/
def addParameter {M} (exportMaps : Bool) (out : Out M) (p : Parameter × M) : Out M :=
  let out := match findParameter out.node p.1 with
    | none => out
    | some i => { removeParameter i exportMaps out with warnings := out.warnings ++ [p.1.name] }
  { out with node := out.node ++ [p.1], sourceMap := if exportMaps then out.sourceMap ++ [p.2] else out.sourceMap }

/-- The nested sections of the section, one after the other. -/
def addParameters {M} (exportMaps : Bool) (items : List (Parameter × M)) : Out M := items.foldl (addParameter exportMaps) {}

/-- `finalize`, S/ParametersParser.h:140-151: is the section without parameters reported? -/
def reportsEmpty {M} (out : Out M) : Bool := out.node.isEmpty

/-! ## Parameters and the URI template -/

/-- The names of the valid variables, S/ParametersParser.h:210-223. -/
def variableNames (uri : Bytes) : List Bytes :=
  (UriTemplate.parseParts uri).flatMap fun part => match part with
    | .expression e => e.variables.filterMap fun i => match i with
      | .variable v => some v.name
      | .invalid _ _ => none
    | _ => []

/-- `checkParametersEligibility`, S/ParametersParser.h:197-235: the parameters reported. -/
def notFound (uri : Bytes) (ps : List Parameter) : List Bytes :=
  (ps.filter fun p => !(variableNames uri).contains p.name).map (·.name)

/-! ## The traits of a parameter -/

/-- `[[:blank:]]`. -/
def blank (c : UInt8) : Bool := c == asc ' ' || c == asc '\t'

/-- `RegexMatch(s, "^[[:blank:]]*[Xx]yz[[:blank:]]*$")` for the word `Xyz`; `RegexMatch` sees the text up to the first NUL only. -/
def matchesWord (lower upper : Bytes) (s : Bytes) : Bool :=
  let t := ((s.takeWhile (· ≠ 0)).dropWhile blank).reverse.dropWhile blank |>.reverse
  t == lower || t == upper

def isOptional (s : Bytes) : Bool := matchesWord (str "optional") (str "Optional") s
def isRequired (s : Bytes) : Bool := matchesWord (str "required") (str "Required") s

/-- `RegexCapture(s, "`([^`]*)`")`, the first group: what is between the first two backticks. -/
def example? (s : Bytes) : Option Bytes :=
  match (s.takeWhile (· ≠ 0)).dropWhile (· ≠ asc '`') with
  | [] => none
  | _ :: r => if asc '`' ∈ r then some (r.takeWhile (· ≠ asc '`')) else none

/-- `RegexCaptureFirst(s, "^enum\\[([^][]+)]$")`, trimmed, S/ParameterParser.h:274-282. -/
def insideEnum (s : Bytes) : Bytes :=
  let t := s.takeWhile (· ≠ 0)
  let inner := (t.drop 5).dropLast
  if t.take 5 == str "enum[" && t.getLast? == some (asc ']') && 5 < t.length && !inner.isEmpty && !inner.contains (asc '[') &&
      !inner.contains (asc ']') then trim inner else []

/-- The traits read so far. -/
structure Traits where
  use : Use := .undefined
  type : Bytes := []
  exampleValue : Bytes := []
deriving DecidableEq, Repr

/-- `warnAboutAdditionalTraits`, S/ParameterParser.h:299-329: the traits after it (the example of the new syntax is not a trait, it
    stays). -/
def cleared (oldSyntax : Bool) (t : Traits) : Traits := { exampleValue := if oldSyntax then [] else t.exampleValue }

/-- The loop of `parseAttributes`, S/ParameterParser.h:251-272: the traits and whether there was a warning. -/
def readAttributes (oldSyntax : Bool) : List Bytes → Bool → Traits → Traits × Bool
  | [], _, t => (t, false)
  | a :: as, defined, t =>
    if isOptional a && !defined then readAttributes oldSyntax as true { t with use := .optional }
    else if isRequired a && !defined then readAttributes oldSyntax as true { t with use := .required }
    else match (if oldSyntax then example? a else none) with
      | some v => readAttributes oldSyntax as defined { t with exampleValue := v }
      | none =>
        if !t.type.isEmpty then (cleared oldSyntax t, true)
        else readAttributes oldSyntax as defined { t with type := a }

/-- `parseAttributes`, S/ParameterParser.h:234-297, without the source maps: the traits and whether there was a warning.  `t` holds what
    the parameter had before (the type is empty, `use` is set first). -/
def parseAttributes (oldSyntax : Bool) (as : List Bytes) (exampleValue : Bytes) : Traits × Bool :=
  let t : Traits := { exampleValue := exampleValue }
  if as.length > (if oldSyntax then 3 else 2) then (cleared oldSyntax t, true)
  else
    match readAttributes oldSyntax as false t with
    | (t, true) => (t, true)
    | (t, false) =>
      if !oldSyntax && !t.type.isEmpty && !(insideEnum t.type).isEmpty then ({ t with type := insideEnum t.type }, false) else (t, false)

/-! ## Values -/

/-- `checkDefaultAndRequiredClash`, S/ParameterParser.h:331-349: is there a warning? -/
def defaultClash (p : Parameter) : Bool := p.use ≠ .optional && !p.defaultValue.isEmpty

/-- `checkExampleAndDefaultValue`, S/ParameterParser.h:351-399: the text of the warning, if any. -/
def valuesWarning (p : Parameter) : Option Bytes :=
  if (p.exampleValue.isEmpty && p.defaultValue.isEmpty) || p.values.isEmpty then none
  else
    let isExampleFound := p.values.any (· == p.exampleValue)
    let isDefaultFound := p.values.any (· == p.defaultValue)
    let e := !p.exampleValue.isEmpty && !isExampleFound
    let d := !p.defaultValue.isEmpty && !isDefaultFound
    let t (kind v : Bytes) : Bytes :=
      str "the " ++ kind ++ str " value '" ++ v ++ str "' of parameter '" ++ p.name ++ str "' is not in its list of expected values"
    if e || d then some ((if e then t (str "example") p.exampleValue else []) ++ (if d then t (str "default") p.defaultValue else []))
    else none

end Verif.Parameters
