import Verif.Model.ElementUtils
/-!
# Cardinalities: packages/drafter/src/refract/Cardinal.h, packages/drafter/src/refract/ElementSize.cc
-/
namespace Verif.Refract
open Verif

/-- `cardinal`, Cardinal.h:16-42: `value_type` is `unsigned`, taken to have 32 bits. -/
abbrev Cardinal := UInt32

namespace Cardinal
/-- Cardinal.h:34-37. -/
def «open» : Cardinal := 0xFFFFFFFF
/-- Cardinal.h:39-42. -/
def empty : Cardinal := 0
/-- `operator+`, Cardinal.h:60-64; unsigned addition wraps around. -/
def add (l r : Cardinal) : Cardinal := if l = «open» ∨ r = «open» then «open» else l + r
/-- `operator*`, Cardinal.h:66-72; unsigned multiplication wraps around. -/
def mul (l r : Cardinal) : Cardinal :=
  if l = empty ∨ r = empty then empty else if l = «open» ∨ r = «open» then «open» else l * r
end Cardinal

/-- `wrapNullable`, ElementSize.cc:49-52. -/
def sizeNullable (s : Cardinal) (e : Elem) : Cardinal := if hasNullable e then Cardinal.add s 1 else s

/-- `sizeOfMult`, ElementSize.cc:31-38 (`noexcept`). -/
def sizeOfMult (f : Elem → Except Fault Cardinal) : Cardinal → List Elem → Except Fault Cardinal
  | a, [] => .ok a
  | a, e :: r => match noexceptF (f e) with | .error x => .error x | .ok c => sizeOfMult f (Cardinal.mul a c) r

/-- `sizeOfSum`, ElementSize.cc:40-47 (`noexcept`). -/
def sizeOfSum (f : Elem → Except Fault Cardinal) : Cardinal → List Elem → Except Fault Cardinal
  | a, [] => .ok a
  | a, e :: r => match noexceptF (f e) with | .error x => .error x | .ok c => sizeOfSum f (Cardinal.add a c) r

/-- `enumerations`, ElementSize.cc:21-29. -/
def enumerations (e : Elem) : Option Elem :=
  match Infos.find e.attributes (str "enumerations") with
  | none => none
  | some x => match x.data with | .array _ => some x | _ => none

/-- A primitive with `n` values, ElementSize.cc:127-149. -/
def sizePrimitive (n : Cardinal) (e : Elem) (inherits : Bool) : Cardinal :=
  sizeNullable (if (definesValue e && inherits) || hasFixed e then 1 else n) e

/-- `sizeOf`, ElementSize.cc:65-187, with a bound on the depth of calls. -/
def sizeOfN : Nat → Elem → Bool → Except Fault Cardinal
  | 0, _, _ => .error .fuel
  | n + 1, e, inherits =>
    match e.data with
    | .object es =>  -- ElementSize.cc:70-81
      let isFixed := inherits || hasFixed e
      if isFixed || hasFixedType e then
        if e.empty then .ok (sizeNullable 1 e)
        else match sizeOfMult (fun x => sizeOfN n x isFixed) 1 es with
          | .error x => .error x
          | .ok c => .ok (sizeNullable c e)
      else .ok (sizeNullable Cardinal.open e)
    | .member _ v =>  -- ElementSize.cc:83-89
      match v with
      | none => .ok Cardinal.empty
      | some v =>
        if e.empty then .ok Cardinal.empty
        else match sizeOfN n v inherits with
          | .error x => .error x
          | .ok c => .ok (sizeNullable (Cardinal.mul (if isVariable e then Cardinal.open else 1) c) e)
    | .array es =>  -- ElementSize.cc:91-107
      if inherits || hasFixed e then
        if e.empty then .ok (sizeNullable 1 e)
        else match sizeOfMult (fun x => sizeOfN n x true) 1 es with
          | .error x => .error x
          | .ok c => .ok (sizeNullable c e)
      else if hasFixedType e then
        if e.empty then .ok (sizeNullable Cardinal.empty e)
        else match sizeOfSum (fun x => sizeOfN n x false) Cardinal.empty es with
          | .error x => .error x
          | .ok _ => .ok (sizeNullable Cardinal.open e)
      else .ok (sizeNullable Cardinal.open e)
    | .enum _ =>  -- ElementSize.cc:109-120
      match enumerations e with
      | none => .ok Cardinal.empty
      | some x => match x.data with
        | .array es =>
          if x.empty then .ok Cardinal.empty
          else match sizeOfSum (fun y => sizeOfN n y (inherits || hasFixed e)) Cardinal.empty es with
            | .error x => .error x
            | .ok c => .ok (sizeNullable c e)
        | _ => .ok Cardinal.empty
    | .null => .ok 1
    | .string _ => .ok (sizePrimitive Cardinal.open e inherits)
    | .number _ => .ok (sizePrimitive Cardinal.open e inherits)
    | .boolean _ => .ok (sizePrimitive 2 e inherits)
    | .extend es =>  -- ElementSize.cc:151-158
      if e.empty then .ok Cardinal.empty
      else match merge es with
        | .error .logicError => .error .logicError
        | .error .undefined => .error .undefined
        | .ok none => .ok Cardinal.empty
        | .ok (some m) => sizeOfN n m inherits
    | .ref _ =>  -- ElementSize.cc:160-166
      match resolve e with
      | .error x => .error x
      | .ok r => sizeOfN n r inherits
    | .holder d =>  -- ElementSize.cc:168-173
      match d with
      | none => .ok Cardinal.empty
      | some d => if e.empty then .ok Cardinal.empty else sizeOfN n d inherits
    | .select es =>  -- ElementSize.cc:175-180
      if e.empty then .ok Cardinal.empty else sizeOfSum (fun x => sizeOfN n x inherits) Cardinal.empty es
    | .option es =>  -- ElementSize.cc:182-187
      if e.empty then .ok Cardinal.empty else sizeOfMult (fun x => sizeOfN n x inherits) 1 es

/-- `sizeOf(e, inheritsFixed)`; the default of the second argument is `false` (ElementSize.h). -/
def elementSize (e : Elem) (inherits : Bool) : Except Fault Cardinal := sizeOfN (weight e) e inherits

end Verif.Refract
