import Verif.Model.ByteBuffer
import Verif.Model.Lines
import Verif.Model.SerializeSo
import Verif.Model.Json
import Verif.Model.Yaml
/-!
# C API, parse results and options: packages/drafter/src/{drafter.cc,options.cc,options.h,SerializeResult.cc,
ConversionContext.cc,RefractAPI.cc,RefractSourceMap.cc} and packages/apib-parser/src/snowcrash/snowcrash.cc

The blueprint parser proper and the conversion of the blueprint are parameters (`Env`): everything is stated for all
of them.  Memory management (`strdup`, `delete`) is not modelled; results are values.
-/
namespace Verif.Api
open Verif Verif.Refract Verif.ByteBuffer Verif.Lines

/-- `SourceAnnotation`, SourceAnnotation.h:25-94. -/
structure Annotation where
  location : List Range
  code : Int
  message : Bytes
deriving Repr, DecidableEq

/-- The default annotation, SourceAnnotation.h:36-40. -/
def Annotation.ok : Annotation := ⟨[], 0, []⟩

/-- `Report`, SourceAnnotation.h:144-166. -/
structure Report where
  error : Annotation
  warnings : List Annotation
deriving Repr, DecidableEq

/-- What C++ code may throw: something derived from `std::exception`, a `snowcrash::Error`, or anything else
    (such as the `const char*` thrown in Blueprint.cc:25 or MSON.cc:46). -/
inductive Thrown where
  | std (what : Bytes)
  | error (e : Annotation)
  | other
deriving Repr, DecidableEq

/-! ## Options -/

/-- `drafter_parse_options`, options.h:14-22. -/
structure ParseOptions where
  flags : BitVec 3
deriving Repr, DecidableEq

/-- `drafter_serialize_options`, options.h:24-31; the format is the integer value of the enumeration. -/
structure SerializeOptions where
  flags : BitVec 1
  format : Nat
deriving Repr, DecidableEq

/-- `std::bitset::set(pos)`. -/
def setBit {n : Nat} (b : BitVec n) (pos : Nat) : BitVec n := b ||| BitVec.ofNat n (2 ^ pos)

/-- `drafter_init_parse_options`, drafter.cc:171-174. -/
def initParse : ParseOptions := ⟨0⟩
/-- `drafter_set_name_required`, drafter.cc:181-185. -/
def setNameRequired (o : ParseOptions) : ParseOptions := { o with flags := setBit o.flags 0 }
/-- `drafter_set_skip_gen_bodies`, drafter.cc:187-191. -/
def setSkipBodies (o : ParseOptions) : ParseOptions := { o with flags := setBit o.flags 1 }
/-- `drafter_set_skip_gen_body_schemas`, drafter.cc:193-197. -/
def setSkipSchemas (o : ParseOptions) : ParseOptions := { o with flags := setBit o.flags 2 }
/-- `drafter_init_serialize_options`, drafter.cc:199-202. -/
def initSerialize : SerializeOptions := ⟨0, 0⟩
/-- `drafter_set_sourcemaps_included`, drafter.cc:209-213. -/
def setSourcemaps (o : SerializeOptions) : SerializeOptions := { o with flags := setBit o.flags 0 }
/-- `drafter_set_format`, drafter.cc:215-219. -/
def setFormat (o : SerializeOptions) (f : Nat) : SerializeOptions := { o with format := f }

/-- options.cc:3-6; a null pointer is `none`. -/
def isNameRequired (o : Option ParseOptions) : Bool := match o with | none => false | some o => o.flags.getLsbD 0
/-- options.cc:18-21. -/
def isSkipBodies (o : Option ParseOptions) : Bool := match o with | none => false | some o => o.flags.getLsbD 1
/-- options.cc:23-26. -/
def isSkipSchemas (o : Option ParseOptions) : Bool := match o with | none => false | some o => o.flags.getLsbD 2
/-- options.cc:8-11. -/
def areSourcemapsIncluded (o : Option SerializeOptions) : Bool := match o with | none => false | some o => o.flags.getLsbD 0
/-- options.cc:13-16. -/
def getFormat (o : Option SerializeOptions) : Nat := match o with | none => 0 | some o => o.format

/-! ## snowcrash.cc -/

/-- `source.find("x")` for one character. -/
def findByte (s : Bytes) (b : UInt8) : Option Nat := s.findIdx? (· == b)

/-- The text of the tab error, snowcrash.cc:29. -/
def tabMessage : Bytes := str "the use of tab(s) '\\t' in source data isn't currently supported, please contact makers"
/-- snowcrash.cc:42. -/
def crMessage : Bytes := str "the use of carriage return(s) '\\r' in source data isn't currently supported, please contact makers"

/-- `CheckSource`, snowcrash.cc:20-49: the error, if any.  The outer `none` is undefined behaviour. -/
def checkSource (source : Bytes) : Option (Option Annotation) :=
  match findByte source 9 with
  | some pos => (toCharactersByBuffer ⟨pos, 1⟩ source).bind fun r => some (some ⟨[r], 2, tabMessage⟩)
  | none =>
    match findByte source 13 with
    | some pos => (toCharactersByBuffer ⟨pos, 1⟩ source).bind fun r => some (some ⟨[r], 2, crMessage⟩)
    | none => some none

/-- What running the parser proper (markdown parser, section parsers) on a source gives: the report as filled so far,
    and what was thrown, if anything. -/
structure Parsed where
  report : Report
  thrown : Option Thrown
deriving Repr, DecidableEq

/-- What converting the parsed blueprint gives: the warnings given to `ConversionContext::warn`, in order, and the
    category element or what was thrown (`RegisterNamedTypes` and `BlueprintToRefract` together). -/
structure Converted where
  warned : List Annotation
  result : Except Thrown Elem

/-- The parts that are not modelled here. -/
structure Env where
  /-- markdown and blueprint parser on a source; the flag is `RequireBlueprintNameOption` -/
  parser : Bytes → Bool → Parsed
  /-- conversion of the blueprint that the parser produced -/
  converter : Bytes → Bool → Option ParseOptions → Converted

/-- `snowcrash::parse`, snowcrash.cc:51-87: the report.  `none` is undefined behaviour. -/
def scParse (env : Env) (source : Bytes) (nameRequired : Bool) : Option Report :=
  (checkSource source).bind fun c =>
    match c with
    | some e => some ⟨e, []⟩
    | none =>
      if source.isEmpty then some ⟨.ok, []⟩
      else
        let p := env.parser source nameRequired
        match p.thrown with
        | none => some p.report
        | some (.error e) => some { p.report with error := e }
        | some (.std w) => some { p.report with error := ⟨[], 1, str "parser exception: '" ++ w ++ str "'"⟩ }
        | some .other => some { p.report with error := ⟨[], 1, str "parser exception has occurred"⟩ }

/-! ## ConversionContext::warn -/

/-- The loop that compares source maps, ConversionContext.cc:50-56. -/
def equalEntries : List Range → List Range → Bool
  | a :: r, b :: s => !(a.length != b.length || a.location != b.location) && equalEntries r s
  | _, _ => true

/-- The comparison of ConversionContext.cc:46-64. -/
def sameWarning (item w : Annotation) : Bool :=
  (if item.location.length == w.location.length then equalEntries item.location w.location else false)
    && item.code == w.code && item.message == w.message

/-- `ConversionContext::warn`, ConversionContext.cc:44-68. -/
def warn (ws : List Annotation) (w : Annotation) : List Annotation :=
  if ws.any (fun item => sameWarning item w) then ws else ws ++ [w]

/-! ## Annotations -/

/-- `from_primitive` of an integer and `make_element<NumberElement>(n)`: the decimal representation, dsd/Number.cc. -/
def numberElem (n : Int) : Elem := makeElement (.number (str (toString n)))
/-- `from_primitive` of a string. -/
def stringElem (s : Bytes) : Elem := makeElement (.string s)

/-- The lambda of RefractSourceMap.cc:41-53. -/
def rangeToRefract (lines : List Nat) (r : Range) : Option Elem :=
  (getLineFromMap lines r.location r.length).map fun p =>
    makeElement (.array
      [(numberElem r.location).setAttributes [(str "line", numberElem p.fromLine), (str "column", numberElem p.fromColumn)],
       (numberElem r.length).setAttributes [(str "line", numberElem p.toLine), (str "column", numberElem p.toColumn)]])

/-- `SourceMapToRefractWithColumnLineInfo`, RefractSourceMap.cc:31-56. -/
def sourceMapToRefract (lines : List Nat) (rs : List Range) : Option Elem :=
  (rs.mapM (rangeToRefract lines)).map fun l => makeElement (.array [(makeElement (.array l)).setName (str "sourceMap")])

/-- `AnnotationToRefract`, RefractAPI.cc:633-647.  `none` is undefined behaviour of the line lookup. -/
def annotationToRefract (lines : List Nat) (key : Bytes) (a : Annotation) : Option Elem :=
  (sourceMapToRefract lines a.location).map fun sm =>
    (((stringElem a.message).setName (str "annotation")).setMetas
      [(str "classes", makeElement (.array [stringElem key]))]).setAttributes
      [(str "code", numberElem a.code), (str "sourceMap", sm)]

/-! ## WrapRefract -/

/-- What a call may do: return, let an exception escape, or undefined behaviour. -/
inductive Run (α : Type) where
  | ok (a : α)
  | escaped
  | undefined
deriving Repr, DecidableEq

def Run.ofOption {α} : Option α → Run α
  | some a => .ok a
  | none => .undefined

def Run.bind {α β} (r : Run α) (f : α → Run β) : Run β :=
  match r with
  | .ok a => f a
  | .escaped => .escaped
  | .undefined => .undefined

/-- SerializeResult.cc:49-71: the error, if any, the converted blueprint and the warnings of the context. -/
def convert (report : Report) (c : Converted) : Run (Annotation × List Elem × List Annotation) :=
  if report.error.code = 0 then
    match c.result with
    | .ok e => .ok (report.error, [e], c.warned.foldl warn [])
    | .error .other => .escaped
    | .error (.std w) => .ok (⟨[], 4, w⟩, [], c.warned.foldl warn [])
    | .error (.error e) => .ok (if e.code ≠ 0 then e else report.error, [], c.warned.foldl warn [])
  else .ok (report.error, [], [])

/-- `WrapRefract`, SerializeResult.cc:40-91: the parse result and the report after the call. -/
def wrapRefract (lines : List Nat) (report : Report) (c : Converted) : Run (Elem × Report) :=
  (convert report c).bind fun (error, blueprint, warned) =>
    let warnings := report.warnings ++ warned
    (Run.ofOption (if error.code ≠ 0 then (annotationToRefract lines (str "error") error).map ([·]) else some [])).bind fun err =>
    (Run.ofOption (warnings.mapM (annotationToRefract lines (str "warning")))).bind fun ws =>
    .ok ((makeElement (.array (blueprint ++ err ++ ws))).setName (str "parseResult"), ⟨error, warnings⟩)

/-! ## drafter.cc

An out-parameter is a flag that says whether the pointer is given; the second result is what is written to it (`none`
if nothing is written; an inner `none` is a null pointer). -/

/-- `DRAFTER_EINVALID_INPUT`, drafter.h:114. -/
def invalidInput : Int := -2

/-- `drafter_parse_blueprint`, drafter.cc:69-93; a null source is `none`. -/
def parseBlueprint (env : Env) (source : Option Bytes) (out : Bool) (opts : Option ParseOptions) : Run (Int × Option Elem) :=
  match source with
  | none => .ok (invalidInput, none)
  | some src =>
    (Run.ofOption (scParse env src (isNameRequired opts))).bind fun report =>
    (wrapRefract (linesEndIndex src) report (env.converter src (isNameRequired opts) opts)).bind fun (result, report) =>
    .ok (report.error.code, if out then some result else none)

/-- `drafter_serialize`, drafter.cc:96-121.  The result is a C string: the text up to its first NUL. -/
def serialize (res : Option Elem) (opts : Option SerializeOptions) : Option Bytes :=
  match res with
  | none => none
  | some e =>
    if getFormat opts = 1 then some ((Json.serializeJson false (renderSo e (areSourcemapsIncluded opts))).takeWhile (· ≠ 0))
    else if getFormat opts = 0 then some ((Yaml.serializeYaml (renderSo e (areSourcemapsIncluded opts))).takeWhile (· ≠ 0))
    else none

/-- `drafter_parse_blueprint_to`, drafter.cc:39-63. -/
def parseBlueprintTo (env : Env) (source : Option Bytes) (out : Bool) (popts : Option ParseOptions) (sopts : Option SerializeOptions) :
    Run (Int × Option (Option Bytes)) :=
  match source with
  | none => .ok (invalidInput, none)
  | some src =>
    (parseBlueprint env (some src) true popts).bind fun (ret, result) =>
      match result with
      | none => .ok (ret, none)
      | some r => .ok (ret, if out then some (serialize (some r) sopts) else none)

/-- The children of an element that `Iterate<Children>` visits, Iterate.h:66-106: those of the list-like kinds. -/
def childrenOf (e : Elem) : List Elem :=
  match e.data with
  | .array es => es
  | .object es => es
  | .extend es => es
  | .option es => es
  | .select es => es
  | _ => []

/-- `drafter_check_blueprint`, drafter.cc:125-164. -/
def checkBlueprint (env : Env) (source : Option Bytes) (res : Bool) (opts : Option ParseOptions) : Run (Int × Option (Option Elem)) :=
  match source with
  | none => .ok (invalidInput, none)
  | some src =>
    (parseBlueprint env (some src) res opts).bind fun (ret, result) =>
      match result with
      | none => .ok (ret, none)
      | some r =>
        let found := (childrenOf r).filter fun e => e.name == str "annotation"
        .ok (ret, some (if found.isEmpty then none
          else some ((makeElement (.array (found.map cloneAll))).setName (str "parseResult"))))

end Verif.Api
