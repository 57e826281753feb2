import Verif.Model.Extend
/-!
# Queries on elements: packages/drafter/src/refract/ElementUtils.cc

Functions that recurse through `Extend::merge` follow the code with a bound on the depth of the calls (`fuel`); the fault
`Fault.fuel` stands for exceeding it.  `Verif.Proof.ElementUtils` shows that a bound of `weight e` is never exceeded, so
the bound is not a simplification.
-/
namespace Verif.Refract
open Verif

/-- The ways in which a computation on elements can end without a result. -/
inductive Fault where
  /-- the exception `LogicError` thrown by `Extend::merge` -/
  | logicError
  /-- `std::terminate`, an exception leaves a `noexcept` function -/
  | terminate
  /-- undefined behaviour: a failed assertion in a debug build, a null dereference in a release build -/
  | undefined
  /-- the bound on the depth of calls is exceeded (this never happens, see `Verif.Proof.ElementUtils`) -/
  | fuel
deriving Repr, DecidableEq

instance : DecidableEq (Except Fault Bool)
  | .ok a, .ok b => if h : a = b then isTrue (h ▸ rfl) else isFalse (fun x => h (Except.ok.inj x))
  | .error a, .error b => if h : a = b then isTrue (h ▸ rfl) else isFalse (fun x => h (Except.error.inj x))
  | .ok _, .error _ => isFalse nofun
  | .error _, .ok _ => isFalse nofun

mutual
/-- Number of elements reachable from an element without looking into meta information (not in the code: the measure for
    termination). -/
def weight : Elem → Nat
  | .mk _ _ a _ d => 1 + weightInfos a + weightData d
termination_by structural e => e
def weightInfos : List (Bytes × Elem) → Nat
  | [] => 0
  | p :: r => weightInfo p + weightInfos r
termination_by structural l => l
def weightInfo : Bytes × Elem → Nat
  | (_, e) => weight e
termination_by structural p => p
def weightData : Data → Nat
  | .null => 0 | .string _ => 0 | .number _ => 0 | .boolean _ => 0 | .ref _ => 0
  | .array es => weightList es | .object es => weightList es | .extend es => weightList es
  | .option es => weightList es | .select es => weightList es
  | .enum v => weightOpt v | .holder v => weightOpt v
  | .member k v => weightOpt k + weightOpt v
termination_by structural d => d
def weightList : List Elem → Nat
  | [] => 0
  | e :: r => weight e + weightList r
termination_by structural l => l
def weightOpt : Option Elem → Nat
  | none => 0
  | some e => weight e
termination_by structural o => o
end

/-- `e.get().merge()` followed by a dereference of the result, e.g. JsonValue.cc:279-281. -/
def mergeF (es : List Elem) : Except Fault Elem :=
  match merge es with
  | .ok (some m) => .ok m
  | .ok none => .error .undefined
  | .error .logicError => .error .logicError
  | .error .undefined => .error .undefined

/-- A call from a `noexcept` function. -/
def noexceptF {α} : Except Fault α → Except Fault α
  | .error .logicError => .error .terminate
  | r => r

/-- `get<const ArrayElement>(…)->get()`: the content of an array element. -/
def asArray (e : Elem) : Option (List Elem) := match e.data with | .array es => some es | _ => none

/-- `hasTypeAttr`, ElementUtils.cc:101-115. -/
def hasTypeAttr (e : Elem) (name : Bytes) : Bool :=
  match Infos.find e.attributes (str "typeAttributes") with
  | none => false
  | some t => match asArray t with
    | none => false
    | some es => es.any fun x => match x.data with | .string s => x.has && s == name | _ => false

/-- ElementUtils.cc:117-120. -/
def hasFixed (e : Elem) : Bool := hasTypeAttr e (str "fixed")
/-- ElementUtils.cc:122-125. -/
def hasFixedType (e : Elem) : Bool := hasTypeAttr e (str "fixedType")
/-- ElementUtils.cc:127-130. -/
def hasRequired (e : Elem) : Bool := hasTypeAttr e (str "required")
/-- ElementUtils.cc:132-135. -/
def hasOptional (e : Elem) : Bool := hasTypeAttr e (str "optional")
/-- ElementUtils.cc:137-140. -/
def hasNullable (e : Elem) : Bool := hasTypeAttr e (str "nullable")

/-- `isVariable`, ElementUtils.cc:142-161. -/
def isVariable (e : Elem) : Bool :=
  match Infos.find e.attributes (str "variable") with
  | none => false
  | some v => match v.data with | .boolean b => v.has && b | _ => false

/-- `findDefault`, ElementUtils.cc:273-279. -/
def findDefault (e : Elem) : Option Elem := Infos.find e.attributes (str "default")

/-- `hasDefault`, ElementUtils.cc:163-166. -/
def hasDefault (e : Elem) : Bool := (findDefault e).isSome

/-- `findFirstSample`, ElementUtils.cc:262-271. -/
def findFirstSample (e : Elem) : Option Elem :=
  match Infos.find e.attributes (str "samples") with
  | none => none
  | some s => match asArray s with
    | none => none
    | some es => if s.has then es.head? else none

/-- `findValue`, ElementUtils.cc:281-290. -/
def findValue (e : Elem) : Option Elem :=
  if e.has then some e
  else match findFirstSample e with
    | some s => some s
    | none => findDefault e

/-- `definesValue`, ElementUtils.cc:292-295. -/
def definesValue (e : Elem) : Bool := (findValue e).isSome

/-- `resolve`, ElementUtils.cc:297-307 (a missing entry is a failed assertion or the dereference of `end()`). -/
def resolve (e : Elem) : Except Fault Elem :=
  match Infos.find e.attributes (str "resolved") with
  | none => .error .undefined
  | some r => .ok r

/-- `inheritsFixed`, ElementUtils.cc:24-99 and the template at ElementUtils.h:64-68.  The visitor is `noexcept`
    (ElementUtils.cc:26). -/
def inheritsFixedN : Nat → Elem → Except Fault Bool
  | 0, _ => .error .fuel
  | n + 1, e =>
    match e.data with
    | .object _ => .ok true
    | .array _ => .ok (definesValue e)
    | .member _ v =>
      if isVariable e then .ok false
      else if e.empty then .ok (hasDefault e)
      else match v with | none => .error .undefined | some v => inheritsFixedN n v
    | .enum v =>
      if e.empty then .ok (hasDefault e)
      else match v with | none => .error .undefined | some v => inheritsFixedN n v
    | .null => .ok true
    | .string _ => .ok (definesValue e)
    | .number _ => .ok (definesValue e)
    | .boolean _ => .ok (definesValue e)
    | .extend es => match noexceptF (mergeF es) with | .error x => .error x | .ok m => inheritsFixedN n m
    | .ref _ => .ok true
    | .holder _ => .ok true
    | .option _ => .ok true
    | .select _ => .ok true

/-- `inheritsFixed(const IElement&)`. -/
def inheritsFixed (e : Elem) : Except Fault Bool := inheritsFixedN (weight e) e

/-- `renderKey`, ElementUtils.cc:168-194 in a release build (the assertion at line 190 fails in a debug build). -/
def renderKeyN : Nat → Elem → Except Fault Bytes
  | 0, _ => .error .fuel
  | n + 1, e =>
    match e.data with
    | .string s =>
      if e.has then .ok s
      else match findFirstSample e with
        | some x => renderKeyN n x
        | none => match findDefault e with
          | some x => renderKeyN n x
          | none => .ok []
    | .extend es => match mergeF es with | .error x => .error x | .ok m => renderKeyN n m
    | _ => .ok []

def renderKey (e : Elem) : Except Fault Bytes := renderKeyN (weight e) e

end Verif.Refract
