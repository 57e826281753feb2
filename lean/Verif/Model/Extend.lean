import Verif.Model.Element
/-!
# Merging of inheritance chains: packages/drafter/src/refract/dsd/Extend.cc
-/
namespace Verif.Refract
open Verif

/-- How a merge can fail: `LogicError` (Extend.cc:278,313,315), or undefined behaviour (a failed assertion in a debug
    build, a null dereference otherwise). -/
inductive MergeError where
  | logicError
  | undefined
deriving Repr, DecidableEq

/-- `InfoMerge::operator()`, Extend.cc:47-55. -/
def infoMerge (skip : Bytes → Bool) (target source : Infos) : Infos :=
  source.foldl (fun t p => if skip p.1 then t else Infos.set t p.1 p.2) target

/-- `SkipMetaKeywords`, Extend.cc:65-70. -/
def skipMetaKeywords (k : Bytes) : Bool := k == str "id" || k == str "prefix" || k == str "namespace"

/-- `as<StringElement>(member->get().key())`, Extend.cc:98,104-105,123-125: the text of the key if it is a string
    element (also an empty one, whose text is empty). -/
def keyText (e : Elem) : Option Bytes :=
  match e.data with
  | .member (some k) _ => (match k.data with | .string s => some s | _ => none)
  | _ => none

/-- Comparison of two keys, Extend.cc:108,127; `none` when one of them is null. -/
def sameKey : Option Bytes → Option Bytes → Option Bool
  | some a, some b => some (a == b)
  | _, _ => none

/-- `std::find_if(…) != end`, with possibly undefined predicate. -/
def anyM (p : Elem → Option Bool) : List Elem → Option Bool
  | [] => some false
  | e :: r => match p e with | none => none | some true => some true | some false => anyM p r

/-- The predicate at Extend.cc:102-136: does an existing element match a member with key `mk`? -/
def matchKey (mk : Option Bytes) (e : Elem) : Option Bool :=
  match e.data with
  | .member _ _ => sameKey mk (keyText e)
  | .select options =>
    anyM (fun o => match o.data with
      | .option es => anyM (fun x => match x.data with | .member _ _ => sameKey (keyText x) mk | _ => some false) es
      | _ => some false) options
  | _ => some false

/-- The predicate at Extend.cc:139-144. -/
def matchRef (symbol : Bytes) (e : Elem) : Option Bool :=
  match e.data with
  | .ref s => some (symbol == s)
  | _ => some false

/-- The predicate selected at Extend.cc:94-148 for an element of the object to be merged in. -/
def mergeMatch (m : Elem) (e : Elem) : Option Bool :=
  match m.data with
  | .member _ _ => matchKey (keyText m) e
  | .ref s => matchRef s e
  | _ => some false

/-- `std::find_if` as an index (the length if nothing is found), with possibly undefined predicate. -/
def findM (p : Elem → Option Bool) : List Elem → Option Nat
  | [] => some 0
  | e :: r => match p e with | none => none | some true => some 0 | some false => (findM p r).map (· + 1)

/-- One step of the loop at Extend.cc:91-155 on the elements of the target object. -/
def mergeStep (es : List Elem) (m : Elem) : Option (List Elem) :=
  (findM (mergeMatch m) es).map fun i => if i = es.length then objectPushBack es m else es.set i m

/-- The loop at Extend.cc:91-155. -/
def mergeElems (es : List Elem) : List Elem → Option (List Elem)
  | [] => some es
  | m :: r => (mergeStep es m).bind fun es' => mergeElems es' r

/-- `ValueMerge`, Extend.cc:72-171, for a merged-in element that is not empty. -/
def valueMerge (value merge : Elem) : Option Elem :=
  match value.data, merge.data with
  | .object es, .object ms =>
      if ms.isEmpty then some value
      else (mergeElems (if value.has then es else []) ms).map fun r => value.setData (.object r)
  | .array es, .array ms => if value.has then some (value.setData (.array (es ++ ms))) else some value
  | _, d => some (value.setData d)

/-- Loop at Extend.cc:229-240. -/
def mergeEnums (target : List Elem) : List Elem → Option (List Elem)
  | [] => some target
  | a :: r => (findM (fun t => eqElem a t) target).bind fun i => mergeEnums (target.eraseIdx i ++ [a]) r

/-- Extend.cc:214-243: merging of the attribute `enumerations`. -/
def enumerationsMerge (target append : Infos) : Option Infos :=
  match Infos.find append (str "enumerations") with
  | none => some target
  | some ae =>
    match ae.data with
    | .array as =>
      if as.isEmpty then some target
      else match Infos.find target (str "enumerations") with
        | none => some (Infos.set target (str "enumerations") ae)
        | some te =>
          match te with
          | .mk n m a h (.array ts) => (mergeEnums ts as).map fun r => Infos.set target (str "enumerations") (.mk n m a h (.array r))
          | _ => none
    | _ => none

/-- `ElementMerge`, Extend.cc:173-186 and, for enumerations, 204-248. -/
def elementMerge (target append : Elem) : Option Elem :=
  let metas := infoMerge skipMetaKeywords target.metas append.metas
  match target.kind with
  | .enum =>
    (enumerationsMerge (infoMerge (· == str "enumerations") target.attributes append.attributes) append.attributes).bind fun attrs =>
      let t := (target.setMetas metas).setAttributes attrs
      if append.has then valueMerge t append else some t
  | _ =>
    let t := (target.setMetas metas).setAttributes (infoMerge (fun _ => false) target.attributes append.attributes)
    if append.has then valueMerge t append else some t

/-- Kinds that `ElementMerger` can merge, Extend.cc:281-316. -/
def mergeable : Kind → Bool
  | .string | .number | .boolean | .array | .object | .enum | .ref => true
  | _ => false

/-- `ElementMerger::operator()`, Extend.cc:259-317, for a non-null element. -/
def mergerStep (result : Option Elem) (e : Elem) : Except MergeError (Option Elem) :=
  match result with
  | none => .ok (some e)
  | some r =>
    if e.kind ≠ r.kind then .error .logicError
    else if mergeable r.kind then
      match elementMerge r e with
      | none => .error .undefined
      | some r' => .ok (some r')
    else .error .logicError

/-- `std::for_each` over the elements. -/
def mergerLoop (result : Option Elem) : List Elem → Except MergeError (Option Elem)
  | [] => .ok result
  | e :: es => match mergerStep result e with | .error x => .error x | .ok r => mergerLoop r es

/-- `Extend::merge`, Extend.cc:371-374. -/
def merge (es : List Elem) : Except MergeError (Option Elem) := mergerLoop none es

end Verif.Refract
