import Verif.Model.ElementUtils
import Verif.Model.Value
/-!
# Generation of JSON bodies: packages/drafter/src/refract/JsonValue.cc

The mutually recursive functions are written as steps over a record of the recursive calls; `renderN` ties the knot with a
bound on the depth of calls, which is never exceeded when it is the weight of the element (`Verif.Proof.JsonValue`).
A call on the same element (e.g. JsonValue.cc:419) is a call of the step, not of the record.
-/
namespace Verif.JsonValue
open Verif Verif.Refract

abbrev Value := So.Value
abbrev R (α : Type) := Except Fault α

/-- `TypeAttributes`, JsonValue.cc:29-31. -/
structure Flags where
  fixed : Bool
  nullable : Bool
deriving Repr, DecidableEq

/-- `updateTypeAttributes`, JsonValue.cc:33-42. -/
def update (e : Elem) (o : Flags) : Flags := ⟨o.fixed || hasFixed e, o.nullable || hasNullable e⟩

/-- `inheritFlags`, JsonValue.cc:49-53. -/
def inherit (o : Flags) : Flags := ⟨o.fixed, false⟩

/-- `inheritOrPassFlags`, JsonValue.cc:55-63. -/
def inheritOrPass (o : Flags) (e : Elem) : R Flags :=
  (inheritsFixed e).bind fun b => .ok ⟨o.fixed && b, false⟩

/-- The recursive calls `renderValue`, `renderProperty`, `renderItem`. -/
structure Calls where
  value : Elem → Flags → R Value
  property : List (Bytes × Value) → Elem → Flags → R (List (Bytes × Value))
  item : List Value → Elem → Flags → R (List Value)

/-- `renderSampleOrDefaultOrNull`, JsonValue.cc:127-140; `none` is the unsuccessful result. -/
def sampleOrDefaultOrNull (c : Calls) (e : Elem) (o : Flags) : R (Option Value) :=
  match findFirstSample e with
  | some s => (c.value s o).map some
  | none =>
    match findDefault e with
    | some d => (c.value d o).map some
    | none => .ok (if o.nullable then some .null else none)

/-- `utils::instantiate(…)`, JsonUtils.cc:19-34. -/
def instantiate : Data → Value
  | .string s => .str s
  | .number s => .num s
  | .boolean b => if b then .tru else .fls
  | _ => .null

/-- `utils::instantiateEmpty(…)`, JsonUtils.cc:36-49; `so::Number{}` is `0` (Value.h:86). -/
def instantiateEmpty : Data → Value
  | .string _ => .str []
  | .number _ => .num (str "0")
  | .boolean _ => .fls
  | _ => .null

/-- `renderValuePrimitive`, JsonValue.cc:152-167. -/
def valuePrimitive (c : Calls) (e : Elem) (o : Flags) : R Value :=
  let o := update e o
  if e.empty then
    (sampleOrDefaultOrNull c e o).bind fun alt =>
      match alt with
      | some v => .ok v
      | none => .ok (instantiateEmpty e.data)
  else .ok (instantiate e.data)

/-- The loop at JsonValue.cc:217-220. -/
def properties (c : Calls) (o : Flags) : List (Bytes × Value) → List Elem → R (List (Bytes × Value))
  | obj, [] => .ok obj
  | obj, e :: r => (inheritOrPass o e).bind fun o' => (c.property obj e o').bind fun obj' => properties c o obj' r

/-- The loop at JsonValue.cc:235-238. -/
def items (c : Calls) (o : Flags) : List Value → List Elem → R (List Value)
  | arr, [] => .ok arr
  | arr, e :: r => (inheritOrPass o e).bind fun o' => (c.item arr e o').bind fun arr' => items c o arr' r

/-- `renderValueSpecific`, JsonValue.cc:169-290. -/
def valueStep (c : Calls) (e : Elem) (o : Flags) : R Value :=
  match e.data with
  | .string _ => valuePrimitive c e o
  | .number _ => valuePrimitive c e o
  | .boolean _ => valuePrimitive c e o
  | .member _ _ => .ok .null
  | .option _ => .ok .null
  | .select _ => .ok .null
  | .holder d => match d with  -- JsonValue.cc:199-204
    | some d => if e.has then c.value d o else .ok .null
    | none => .ok .null
  | .object es =>  -- JsonValue.cc:206-223
    let o := update e o
    if e.empty then
      (sampleOrDefaultOrNull c e o).bind fun alt => .ok (alt.getD (.obj []))
    else (properties c o [] es).bind fun ms => .ok (.obj ms)
  | .array es =>  -- JsonValue.cc:225-241
    let o := update e o
    if e.empty then
      (sampleOrDefaultOrNull c e o).bind fun alt => .ok (alt.getD (.arr []))
    else (items c o [] es).bind fun vs => .ok (.arr vs)
  | .enum v =>  -- JsonValue.cc:243-270
    let o := update e o
    if e.empty then
      (sampleOrDefaultOrNull c e o).bind fun alt =>
        match alt with
        | some v => .ok v
        | none =>
          match Infos.find e.attributes (str "enumerations") with
          | none => .ok .null
          | some x =>
            match asArray x with
            | none => .error .undefined
            | some es => match (if x.has then es else []) with
              | [] => .ok .null
              | y :: _ => c.value y o
    else match v with
      | none => .error .undefined
      | some v => c.value v (inherit o)
  | .null => .ok .null
  | .extend es => (mergeF es).bind fun m => c.value m o  -- JsonValue.cc:277-282
  | .ref _ => (resolve e).bind fun r => c.value r o  -- JsonValue.cc:284-290

/-- The loop at JsonValue.cc:405-408. -/
def optionEntries (c : Calls) (o : Flags) : List (Bytes × Value) → List Elem → R (List (Bytes × Value))
  | obj, [] => .ok obj
  | obj, e :: r => (c.property obj e o).bind fun obj' => optionEntries c o obj' r

/-- The loop at JsonValue.cc:393-411: the first option that is not empty.  The elements of a select are options by their
    type (dsd/Select.h), other elements are not possible. -/
def firstOption (c : Calls) (o : Flags) (obj : List (Bytes × Value)) : List Elem → R (List (Bytes × Value))
  | [] => .ok obj
  | e :: r =>
    match e.data with
    | .option es => if e.empty || es.isEmpty then firstOption c o obj r else optionEntries c o obj es
    | _ => .error .undefined

/-- The loop at JsonValue.cc:421-422. -/
def mixin (obj : List (Bytes × Value)) (ms : List (Bytes × Value)) : List (Bytes × Value) :=
  ms.foldl (fun obj p => So.emplaceUnique obj p.1 p.2) obj

/-- `renderPropertySpecific`, JsonValue.cc:318-433. -/
def propertyStep (c : Calls) (obj : List (Bytes × Value)) (e : Elem) (o : Flags) : R (List (Bytes × Value)) :=
  match e.data with
  | .array _ => .ok obj
  | .boolean _ => .ok obj
  | .enum _ => .ok obj
  | .null => .ok obj
  | .number _ => .ok obj
  | .string _ => .ok obj
  | .option _ => .ok obj
  | .holder d => match d with  -- JsonValue.cc:353-359
    | some d => if e.has then c.property obj d o else .ok obj
    | none => .ok obj
  | .member k v =>  -- JsonValue.cc:361-380
    match k, v with
    | some k, some v =>
      if hasOptional e && !definesValue v then .ok obj
      else (renderKey k).bind fun key =>
        if key.isEmpty then .ok obj
        else (c.value v (update e o)).bind fun x => .ok (So.emplaceUnique obj key x)
    | none, _ => .error .undefined
    | some k, none =>
      -- a null value is dereferenced, unless the property is not optional and its key is empty
      if hasOptional e then .error .undefined
      else (renderKey k).bind fun key => if key.isEmpty then .ok obj else .error .undefined
  | .ref _ => (resolve e).bind fun r => c.property obj r o  -- JsonValue.cc:382-388
  | .select es => firstOption c o obj es  -- JsonValue.cc:390-414
  | .object _ =>  -- JsonValue.cc:416-423
    (valueStep c e o).bind fun x => match x with
      | .obj ms => .ok (mixin obj ms)
      | _ => .ok obj
  | .extend es => (mergeF es).bind fun m => c.property obj m o  -- JsonValue.cc:425-433

/-- `renderItemPrimitive`, JsonValue.cc:462-471. -/
def itemPrimitive (c : Calls) (arr : List Value) (e : Elem) (o : Flags) : R (List Value) :=
  let o := update e o
  if o.fixed || definesValue e then
    (inheritOrPass o e).bind fun o' => (valueStep c e o').bind fun v => .ok (arr ++ [v])
  else .ok arr

/-- `renderItemSpecific`, JsonValue.cc:473-544. -/
def itemStep (c : Calls) (arr : List Value) (e : Elem) (o : Flags) : R (List Value) :=
  let push : R (List Value) := (inheritOrPass o e).bind fun o' => (valueStep c e o').bind fun v => .ok (arr ++ [v])
  match e.data with
  | .array _ => push
  | .enum _ => push
  | .extend _ => push
  | .null => push
  | .object _ => push
  | .holder _ => push
  | .member _ _ => .ok arr
  | .option _ => .ok arr
  | .select _ => .ok arr
  | .ref _ =>  -- JsonValue.cc:518-529
    (resolve e).bind fun r =>
      match r.data with
      | .array _ => (c.value r o).bind fun x => match x with
        | .arr vs => .ok (arr ++ vs)
        | _ => .ok arr
      | _ => .ok arr
  | .number _ => itemPrimitive c arr e o
  | .string _ => itemPrimitive c arr e o
  | .boolean _ => itemPrimitive c arr e o

/-- The recursive functions with a bound on the depth of calls. -/
def renderN : Nat → Calls
  | 0 => ⟨fun _ _ => .error .fuel, fun _ _ _ => .error .fuel, fun _ _ _ => .error .fuel⟩
  | n + 1 => ⟨valueStep (renderN n), propertyStep (renderN n), itemStep (renderN n)⟩

/-- `generateJsonValue`, JsonValue.cc:564-567. -/
def generateJsonValue (e : Elem) : R Value := (renderN (weight e)).value e ⟨false, false⟩

end Verif.JsonValue
