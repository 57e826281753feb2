import Verif.Model.ElementSize
import Verif.Model.JsonValue
/-!
# Generation of JSON Schemas: packages/drafter/src/refract/JsonSchema.cc

As in `Verif.Model.JsonValue` the mutually recursive functions are steps over a record of the recursive calls.  A schema that is
filled in through a reference (`so::Object&`) is modelled by the list of its entries before and after.
-/
namespace Verif.JsonSchema
open Verif Verif.Refract

abbrev Value := So.Value
abbrev Entries := List (Bytes × Value)
abbrev R (α : Type) := Except Fault α

/-- `TypeAttributes`, JsonSchema.cc:32-36. -/
structure Flags where
  fixed : Bool
  fixedType : Bool
  nullable : Bool
  required : Bool
deriving Repr, DecidableEq

/-- `updateTypeAttributes`, JsonSchema.cc:38-53. -/
def update (e : Elem) (o : Flags) : Flags :=
  ⟨o.fixed || hasFixed e, o.fixedType || hasFixedType e, o.nullable || hasNullable e, o.required || hasRequired e⟩

/-- `inheritFlags`, JsonSchema.cc:60-66. -/
def inherit (o : Flags) : Flags := ⟨o.fixed, false, false, false⟩

/-- `inheritOrPassFlags`, JsonSchema.cc:68-76. -/
def inheritOrPass (o : Flags) (e : Elem) : R Flags :=
  (inheritsFixed e).bind fun b => .ok ⟨o.fixed && b, false, false, false⟩

/-- `key`, JsonSchema.cc:81-93, in a release build (a key that is not a string fails an assertion in a debug build). -/
def keyOf (k : Elem) : Bytes :=
  match k.data with
  | .string s => if k.has then s else []
  | _ => []

/-- `so::Number{n}`, Value.h:94-97. -/
def decimal (n : Nat) : Bytes := str (toString n)

/-- `addEnum`, JsonSchema.cc:153-161. -/
def addEnum (s : Entries) (vs : List Value) : Entries :=
  match vs with
  | [v] => s ++ [(str "const", v)]
  | vs => s ++ [(str "enum", .arr vs)]

/-- `nullSchema` and `typeSchema`, JsonSchema.cc:193-201. -/
def typeSchema (t : Bytes) : Value := .obj [(str "type", .str t)]

/-- `wrapNullable`, JsonSchema.cc:203-210, together with the entries that are added afterwards to the object it returns. -/
def wrapNullable (s : Entries) (o : Flags) (added : Entries) : Entries :=
  if o.nullable then s ++ [(str "anyOf", .arr [typeSchema (str "null"), .obj added])] else s ++ added

/-- The escapes of `renderPattern`, JsonSchema.cc:233-282. -/
def escapePattern : Bytes → Bytes
  | [] => []
  | c :: r => (if c ∈ str "^$*+?.()|{}[]\\" then [asc '\\', c] else [c]) ++ escapePattern r

/-- `renderPattern`, JsonSchema.cc:219-289. -/
def renderPattern (e : Elem) (s : Bytes) (o : Flags) : Bytes :=
  if o.fixed || hasFixed e then (if e.has then escapePattern s else str "^(?![\\s\\S])") else str "(?:)"

/-- `ObjectSchema`, JsonSchema.cc:291-296. -/
structure ObjectSchema where
  properties : Entries := []
  patternProperties : Entries := []
  required : List Value := []
  allOf : List Value := []

/-- `materialize`, JsonSchema.cc:298-320. -/
def materialize (s : ObjectSchema) : Entries :=
  (if s.properties.isEmpty then [] else [(str "properties", .obj s.properties)]) ++
  (if s.patternProperties.isEmpty then [] else [(str "patternProperties", .obj s.patternProperties)]) ++
  (if s.allOf.isEmpty then [] else [(str "allOf", .arr s.allOf)]) ++
  (if s.required.isEmpty then [] else [(str "required", .arr s.required)])

/-- The recursive calls `renderSchema` and `renderProperty`. -/
structure Calls where
  schema : Entries → Elem → Flags → R Entries
  property : ObjectSchema → Elem → Flags → R ObjectSchema

/-- `makeSchema`, JsonSchema.cc:365-370. -/
def makeSchema (c : Calls) (e : Elem) (o : Flags) : R Value := (c.schema [] e o).bind fun s => .ok (.obj s)

/-- `errorByImpossibleSchema`, JsonSchema.cc:375-381. -/
def impossible (s : Entries) : Entries := s ++ [(str "oneOf", .arr [.obj [], .obj []])]

/-- The loop at JsonSchema.cc:411-418. -/
def properties (c : Calls) (o : Flags) : ObjectSchema → List Elem → R ObjectSchema
  | s, [] => .ok s
  | s, e :: r => (inheritOrPass o e).bind fun o' =>
      (c.property s e (if o.fixedType || o.fixed then { o' with required := true } else o')).bind fun s' => properties c o s' r

/-- The loops at JsonSchema.cc:446-449 and 458-461: the schemas of the items. -/
def itemSchemas (c : Calls) (o : Flags) : List Elem → R (List Value)
  | [] => .ok []
  | e :: r => (inheritOrPass o e).bind fun o' => (makeSchema c e o').bind fun v => (itemSchemas c o r).bind fun vs => .ok (v :: vs)

/-- `so::emplace_unique` of several values, e.g. JsonSchema.cc:506-507. -/
def emplaceAll (c : List Value) (vs : List Value) : List Value := vs.foldl So.emplaceUniqueA c

/-- JsonSchema.cc:500-517: a schema is sorted into the single values or the alternatives. -/
def sortSchema (enm anyOf : List Value) (s : Entries) : List Value × List Value :=
  match s with
  | [(k, .arr vals)] =>
    if k = str "enum" then (emplaceAll enm vals, anyOf)
    else if k = str "anyOf" then (enm, emplaceAll anyOf vals)
    else (enm, So.emplaceUniqueA anyOf (.obj s))
  | s => (enm, So.emplaceUniqueA anyOf (.obj s))

/-- The loop at JsonSchema.cc:496-518. -/
def enumEntries (c : Calls) (o : Flags) : List Value → List Value → List Elem → R (List Value × List Value)
  | enm, anyOf, [] => .ok (enm, anyOf)
  | enm, anyOf, e :: r =>
    (elementSize e false).bind fun size =>
      if size = 1 then (JsonValue.generateJsonValue e).bind fun v => enumEntries c o (So.emplaceUniqueA enm v) anyOf r
      else (c.schema [] e (inherit o)).bind fun s =>
        enumEntries c o (sortSchema enm anyOf s).1 (sortSchema enm anyOf s).2 r

/-- JsonSchema.cc:523-535. -/
def enumSchema (s : Entries) (enm anyOf : List Value) : Entries :=
  if anyOf.isEmpty then addEnum s enm
  else s ++ [(str "anyOf", .arr (if enm.isEmpty then anyOf else So.emplaceUniqueA anyOf (.obj (addEnum [] enm))))]

/-- `renderSchemaPrimitive`, JsonSchema.cc:564-587. -/
def schemaPrimitive (s : Entries) (e : Elem) (o : Flags) (typeName : Bytes) : Entries :=
  let o := update e o
  if o.fixed && e.has then
    addEnum s (if o.nullable then [.null, JsonValue.instantiate e.data] else [JsonValue.instantiate e.data])
  else if o.nullable then s ++ [(str "anyOf", .arr [typeSchema (str "null"), typeSchema typeName])]
  else s ++ [(str "type", .str typeName)]

/-- The entries added for an array, JsonSchema.cc:428-474. -/
def arrayEntries (c : Calls) (e : Elem) (es : List Elem) (o : Flags) : R Entries :=
  if o.fixedType then
    if e.empty then .ok [(str "type", .str (str "array")), (str "maxItems", .num (decimal 0))]
    else match es with
      | [x] => (inheritOrPass o x).bind fun o' => (makeSchema c x o').bind fun v =>
          .ok [(str "type", .str (str "array")), (str "items", v)]
      | es => (itemSchemas c o es).bind fun vs =>
          .ok [(str "type", .str (str "array")), (str "items", .obj [(str "anyOf", .arr (emplaceAll [] vs))])]
  else if o.fixed then
    (itemSchemas c o (if e.has then es else [])).bind fun vs =>
      .ok [(str "type", .str (str "array")), (str "minItems", .num (decimal vs.length)), (str "items", .arr vs),
        (str "additionalItems", .fls)]
  else .ok [(str "type", .str (str "array"))]

/-- `renderSchemaSpecific`, JsonSchema.cc:383-624. -/
def schemaStep (c : Calls) (s : Entries) (e : Elem) (o : Flags) : R Entries :=
  match e.data with
  | .holder d => match d with  -- JsonSchema.cc:383-388
    | some d => if e.has then c.schema s d o else .ok s
    | none => .ok s
  | .ref _ => (resolve e).bind fun r => c.schema s r o  -- JsonSchema.cc:390-396
  | .object es =>  -- JsonSchema.cc:398-426
    let o := update e o
    (if e.empty then .ok {} else properties c o {} es).bind fun q =>
      .ok (wrapNullable s o ([(str "type", .str (str "object"))] ++ materialize q ++
        (if o.fixedType || o.fixed then [(str "additionalProperties", .fls)] else [])))
  | .array es =>  -- JsonSchema.cc:428-477
    let o := update e o
    (arrayEntries c e es o).bind fun a => .ok (wrapNullable s o a)
  | .enum _ =>  -- JsonSchema.cc:479-538
    let o := update e o
    let enm : List Value := if o.nullable then [.null] else []
    match Infos.find e.attributes (str "enumerations") with
    | none => .ok (enumSchema s enm [])
    | some x =>
      match asArray x with
      | none => .error .undefined
      | some es => (enumEntries c o enm [] (if x.has then es else [])).bind fun p => .ok (enumSchema s p.1 p.2)
  | .null => .ok (s ++ [(str "type", .str (str "null"))])
  | .member _ _ => .ok (impossible s)
  | .option _ => .ok (impossible s)
  | .select _ => .ok (impossible s)
  | .string _ => .ok (schemaPrimitive s e o (str "string"))
  | .number _ => .ok (schemaPrimitive s e o (str "number"))
  | .boolean _ => .ok (schemaPrimitive s e o (str "boolean"))
  | .extend es => (mergeF es).bind fun m => c.schema s m o  -- JsonSchema.cc:619-624

/-- The loop at JsonSchema.cc:773-776. -/
def optionEntries (c : Calls) (o : Flags) : ObjectSchema → List Elem → R ObjectSchema
  | s, [] => .ok s
  | s, e :: r => (c.property s e o).bind fun s' => optionEntries c o s' r

/-- The loop at JsonSchema.cc:760-779: the schemas of the options that are not empty. -/
def optionSchemas (c : Calls) (o : Flags) : List Elem → R (List Value)
  | [] => .ok []
  | e :: r =>
    match e.data with
    | .option es =>
      if e.empty || es.isEmpty then optionSchemas c o r
      else (optionEntries c o {} es).bind fun q => (optionSchemas c o r).bind fun vs => .ok (.obj (materialize q) :: vs)
    | _ => .error .undefined

/-- Flags of a property, JsonSchema.cc:691-701. -/
def memberFlags (e : Elem) (o : Flags) : Flags :=
  ⟨o.fixed || hasFixed e, hasFixedType e, hasNullable e, (o.required || hasRequired e) && !hasOptional e⟩

/-- The loop at JsonSchema.cc:793-796. -/
def mixinEntries (c : Calls) (o : Flags) : ObjectSchema → List Elem → R ObjectSchema
  | s, [] => .ok s
  | s, e :: r => (c.property s e (inherit o)).bind fun s' => mixinEntries c o s' r

/-- `renderPropertySpecific`, JsonSchema.cc:654-806. -/
def propertyStep (c : Calls) (s : ObjectSchema) (e : Elem) (o : Flags) : R ObjectSchema :=
  match e.data with
  | .array _ => .ok s
  | .boolean _ => .ok s
  | .enum _ => .ok s
  | .null => .ok s
  | .number _ => .ok s
  | .string _ => .ok s
  | .option _ => .ok s
  | .member k v =>  -- JsonSchema.cc:689-742
    let o := memberFlags e o
    match k with
    | none => .error .undefined
    | some k =>
      if isVariable e then
        (match k.data with
          | .extend es => (mergeF es).bind fun m => match m.data with | .string t => .ok (some (renderPattern m t o)) | _ => .error .undefined
          | .string t => .ok (some (renderPattern k t o))
          | _ => .ok none : R (Option Bytes)).bind fun pattern =>
        match pattern with
        | none => .ok s
        | some p => match v with
          | none => .error .undefined
          | some v => (makeSchema c v o).bind fun x => .ok { s with patternProperties := So.emplaceUnique s.patternProperties p x }
      else match v with
        | none => .error .undefined
        | some v => (makeSchema c v o).bind fun x =>
            .ok { s with properties := s.properties ++ [(keyOf k, x)],
                         required := if o.required then s.required ++ [.str (keyOf k)] else s.required }
  | .holder d => match d with  -- JsonSchema.cc:744-748
    | some d => if e.has then c.property s d o else .ok s
    | none => .ok s
  | .ref _ => (resolve e).bind fun r => c.property s r o  -- JsonSchema.cc:750-755
  | .select es =>  -- JsonSchema.cc:757-783
    (optionSchemas c o es).bind fun vs => .ok { s with allOf := s.allOf ++ [.obj [(str "oneOf", .arr vs)]] }
  | .object es =>  -- JsonSchema.cc:785-797
    if e.empty then .ok s
    else mixinEntries c { o with fixed := o.fixed || hasFixed e } s es
  | .extend es => (mergeF es).bind fun m => c.property s m o  -- JsonSchema.cc:799-806

/-- The recursive functions with a bound on the depth of calls. -/
def renderN : Nat → Calls
  | 0 => ⟨fun _ _ _ => .error .fuel, fun _ _ _ => .error .fuel⟩
  | n + 1 => ⟨schemaStep (renderN n), propertyStep (renderN n)⟩

/-- `reduce`, JsonSchema.cc:827-887.  The visitor takes its argument by `const` reference, so for every nested value the
    overload that does nothing is selected (JsonSchema.cc:863-876), and the entries of a top-level `anyOf` are kept as they
    are; the result is stored in the last entry of the schema (line 853). -/
def reduce (s : Entries) : Entries :=
  match So.find s (str "anyOf") with
  | some (.arr vs) => match s.getLast? with
    | some (k, _) => s.dropLast ++ [(k, .arr vs)]
    | none => s
  | _ => s

/-- `generateJsonSchema`, JsonSchema.cc:889-899. -/
def generateJsonSchema (e : Elem) : R Value :=
  ((renderN (weight e)).schema [(str "$schema", .str (str "http://json-schema.org/draft-07/schema#"))] e ⟨false, false, false, false⟩).bind
    fun s => .ok (.obj (reduce s))

end Verif.JsonSchema
