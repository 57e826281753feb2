import Verif.Model.Bytes
/-!
# Simple objects: packages/drafter/src/utils/so/Value.{h,cc}
-/
namespace Verif.So
open Verif

/-- `so::Value`, packages/drafter/src/utils/so/Value.h:32-111. A `Number` is kept as its text, an `Object` is a
    vector of pairs (so repeated keys are representable), an `Array` a vector. -/
inductive Value where
  | null | tru | fls
  | str (s : Bytes)
  | num (s : Bytes)
  | obj (ms : List (Bytes × Value))
  | arr (es : List Value)
deriving Repr

mutual
/-- `operator==(const Value&, const Value&)` and the overloads it dispatches to,
    packages/drafter/src/utils/so/Value.cc:15-85. -/
def eqV : Value → Value → Bool
  | .null, .null => true
  | .tru, .tru => true
  | .fls, .fls => true
  | .str a, .str b => a == b
  | .num a, .num b => a == b
  | .obj ms, .obj ns => ms.length == ns.length && eqMembers ms ns
  | .arr es, .arr fs => es.length == fs.length && eqElems es fs
  | _, _ => false
termination_by structural v => v
/-- `hasEqualMembers`, packages/drafter/src/utils/so/Value.cc:42-54: each member of the left object occurs in the
    right one. -/
def eqMembers : List (Bytes × Value) → List (Bytes × Value) → Bool
  | [], _ => true
  | p :: r, ns => ns.any (fun q => eqMember p q) && eqMembers r ns
termination_by structural v => v
/-- `item == rItem` at packages/drafter/src/utils/so/Value.cc:47 (`std::pair` equality). -/
def eqMember : Bytes × Value → Bytes × Value → Bool
  | (k, v), q => k == q.1 && eqV v q.2
termination_by structural v => v
/-- `std::equal` at packages/drafter/src/utils/so/Value.cc:64 (called with ranges of the same length). -/
def eqElems : List Value → List Value → Bool
  | [], _ => true
  | _ :: _, [] => true
  | v :: r, w :: s => eqV v w && eqElems r s
termination_by structural v => v
end

/-- `find`, packages/drafter/src/utils/so/Value.cc:87-97. -/
def find (c : List (Bytes × Value)) (key : Bytes) : Option Value :=
  match c with
  | [] => none
  | (k, v) :: r => if k = key then some v else find r key

/-- `emplace_unique(Object&, …)`, packages/drafter/src/utils/so/Value.cc:109-119 and Value.h:125-139:
    overwrite the first entry with that key, append otherwise. -/
def emplaceUnique (c : List (Bytes × Value)) (key : Bytes) (v : Value) : List (Bytes × Value) :=
  match c with
  | [] => [(key, v)]
  | (k, w) :: r => if k = key then (k, v) :: r else (k, w) :: emplaceUnique r key v

/-- `emplace_unique(Array&, Value&&)`, packages/drafter/src/utils/so/Value.cc:99-107. -/
def emplaceUniqueA (c : List Value) (v : Value) : List Value :=
  if c.any (fun e => eqV e v) then c else c ++ [v]

end Verif.So
