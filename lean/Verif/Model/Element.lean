import Verif.Model.Bytes
/-!
# API Elements: packages/drafter/src/refract/{Element.h,InfoElements.cc,Utils.cc,dsd/*}

`std::unique_ptr<IElement>` values are modelled by value; a null pointer where the code allows one is `Option.none`.
-/
namespace Verif.Refract
open Verif

mutual
/-- `Element<DataType>`, packages/drafter/src/refract/Element.h:33-44: name, meta, attributes, `hasValue_` and the
    data.  The C++ class is a template over the data type, so the kind of an element is the constructor of `data`,
    also when `has` is false (then the data is the default-constructed one). -/
inductive Elem where
  | mk (name : Bytes) (metas attributes : List (Bytes × Elem)) (has : Bool) (data : Data)
/-- The data structure definitions, packages/drafter/src/refract/dsd/{Null,String,Number,Bool,Ref,Array,Object,Extend,
    Option,Select,Enum,Holder,Member}.h.  A `Number` is kept as its text (dsd/Number.cc:35). -/
inductive Data where
  | null | string (s : Bytes) | number (s : Bytes) | boolean (b : Bool) | ref (symbol : Bytes)
  | array (es : List Elem) | object (es : List Elem) | extend (es : List Elem) | option (es : List Elem) | select (es : List Elem)
  | enum (value : Option Elem) | holder (data : Option Elem)
  | member (key value : Option Elem)
end

instance : Inhabited Elem := ⟨.mk [] [] [] false .null⟩
instance : Inhabited Data := ⟨.null⟩

/-- An `InfoElements` container, packages/drafter/src/refract/InfoElements.h:22-24. -/
abbrev Infos := List (Bytes × Elem)

namespace Elem
def name : Elem → Bytes | mk n _ _ _ _ => n
def metas : Elem → Infos | mk _ m _ _ _ => m
def attributes : Elem → Infos | mk _ _ a _ _ => a
def has : Elem → Bool | mk _ _ _ h _ => h
def data : Elem → Data | mk _ _ _ _ d => d
/-- `empty()`, Element.h:146-149. -/
def empty (e : Elem) : Bool := !e.has
/-- `element(name)`, Element.h:105-108. -/
def setName (n : Bytes) : Elem → Elem | mk _ m a h d => mk n m a h d
def setMetas (m : Infos) : Elem → Elem | mk n _ a h d => mk n m a h d
def setAttributes (a : Infos) : Elem → Elem | mk n m _ h d => mk n m a h d
/-- `set(data)`, Element.h:77-81. -/
def setData (d : Data) : Elem → Elem | mk n m a _ _ => mk n m a true d
end Elem

/-- `TypeQueryVisitor::ElementType`, packages/drafter/src/refract/TypeQueryVisitor.h:20-43 (`Unknown` has the same
    number as `Null` there). -/
inductive Kind where
  | null | holder | string | number | boolean | array | member | object | enum | ref | extend | option | select
deriving Repr, DecidableEq

/-- `TypeQueryVisitor`, packages/drafter/src/refract/TypeQueryVisitor.cc:13-40. -/
def Data.kind : Data → Kind
  | .null => .null | .string _ => .string | .number _ => .number | .boolean _ => .boolean | .ref _ => .ref
  | .array _ => .array | .object _ => .object | .extend _ => .extend | .option _ => .option | .select _ => .select
  | .enum _ => .enum | .holder _ => .holder | .member _ _ => .member

def Elem.kind (e : Elem) : Kind := e.data.kind

/-- `DataType::name` of each data type: the `name` constants in dsd/*.cc. -/
def Kind.name : Kind → Bytes
  | .null => str "null" | .holder => [] | .string => str "string" | .number => str "number" | .boolean => str "boolean"
  | .array => str "array" | .member => str "member" | .object => str "object" | .enum => str "enum" | .ref => str "ref"
  | .extend => str "extend" | .option => str "option" | .select => str "select"

/-- Default-constructed data `DataType data_ = {}`, Element.h:39. -/
def Kind.default : Kind → Data
  | .null => .null | .holder => .holder none | .string => .string [] | .number => .number (str "0") | .boolean => .boolean false
  | .array => .array [] | .member => .member none none | .object => .object [] | .enum => .enum none | .ref => .ref []
  | .extend => .extend [] | .option => .option [] | .select => .select []

/-- `make_empty<…>()`, Element.h:159-163. -/
def makeEmpty (k : Kind) : Elem := .mk k.name [] [] false k.default

/-- `make_element<…>(…)`, Element.h:169-174. -/
def makeElement (d : Data) : Elem := .mk d.kind.name [] [] true d

/-! ## InfoElements -/
namespace Infos

/-- `find`, InfoElements.cc:134-146. -/
def find (m : Infos) (k : Bytes) : Option Elem := (m.find? (fun p => p.1 = k)).map (·.2)

/-- `set`, InfoElements.cc:99-110. -/
def set (m : Infos) (k : Bytes) (e : Elem) : Infos :=
  match m with
  | [] => [(k, e)]
  | (k', e') :: r => if k' = k then (k', e) :: r else (k', e') :: set r k e

/-- `erase(key)`, InfoElements.cc:91-97 (erase–remove of all entries with that key). -/
def erase (m : Infos) (k : Bytes) : Infos := m.filter (fun p => p.1 ≠ k)

/-- `claim(key)`, InfoElements.cc:117-132: the first entry with that key is moved out of the container. -/
def claim (m : Infos) (k : Bytes) : Option Elem × Infos :=
  match m with
  | [] => (none, [])
  | (k', e) :: r => if k' = k then (some e, r) else ((claim r k).1, (k', e) :: (claim r k).2)

end Infos

/-! ## Copying -/

mutual
/-- `clone(cAll)`, Element.h:120-144, and the copy constructors of the containers (InfoElements.cc:72-80,
    dsd/Array.cc:47-57, Object.cc:39-49, Extend.cc:339-349, Option.cc:44-54, Select.cc:45-56, Enum.cc:42, Holder.cc:41,
    Member.cc:42-45). -/
def cloneAll : Elem → Elem
  | .mk n m a h d => .mk n (cloneInfos m) (cloneInfos a) h (cloneData d)
termination_by structural e => e
def cloneInfos : List (Bytes × Elem) → List (Bytes × Elem)
  | [] => []
  | p :: r => cloneInfo p :: cloneInfos r
termination_by structural l => l
def cloneInfo : Bytes × Elem → Bytes × Elem
  | (k, e) => (k, cloneAll e)
termination_by structural p => p
def cloneData : Data → Data
  | .null => .null | .string s => .string s | .number s => .number s | .boolean b => .boolean b | .ref s => .ref s
  | .array es => .array (cloneList es) | .object es => .object (cloneList es) | .extend es => .extend (cloneList es)
  | .option es => .option (cloneList es) | .select es => .select (cloneList es)
  | .enum v => .enum (cloneOpt v) | .holder v => .holder (cloneOpt v)
  | .member k v => .member (cloneOpt k) (cloneOpt v)
termination_by structural d => d
def cloneList : List Elem → List Elem
  | [] => []
  | e :: r => cloneAll e :: cloneList r
termination_by structural l => l
def cloneOpt : Option Elem → Option Elem
  | none => none
  | some e => some (cloneAll e)
termination_by structural o => o
end

/-- `IElement::cloneFlags`, packages/drafter/src/refract/ElementIfc.h:28-36. -/
structure CloneFlags where
  cMeta : Bool
  cAttributes : Bool
  cValue : Bool
  cElement : Bool
  cNoMetaId : Bool
deriving DecidableEq

/-- `IElement::cAll`. -/
def cAll : CloneFlags := ⟨true, true, true, true, false⟩

/-- `clone(flags)`, Element.h:120-144. -/
def clone (f : CloneFlags) (e : Elem) : Elem :=
  .mk (if f.cElement then e.name else e.kind.name)
    (if f.cMeta then (if f.cNoMetaId then Infos.erase (cloneInfos e.metas) (str "id") else cloneInfos e.metas) else [])
    (if f.cAttributes then cloneInfos e.attributes else [])
    (if f.cValue then e.has else false)
    (if f.cValue then cloneData e.data else e.kind.default)

/-! ## Equality -/

/-- `a && b` where evaluating `b` may be undefined behaviour. -/
def andThen (a : Option Bool) (b : Option Bool) : Option Bool :=
  match a with
  | none => none
  | some false => some false
  | some true => b

mutual
/-- `operator==(const IElement&, const IElement&)` with `Equal`, packages/drafter/src/refract/Utils.cc:18-38.
    `none` is undefined behaviour (null dereference in dsd/Enum.cc:57 and dsd/Holder.cc:56). -/
def eqElem : Elem → Elem → Option Bool
  | .mk _ m a h d, e' =>
    if d.kind = e'.kind then
      andThen (some (h == e'.has)) (andThen (eqInfos a e'.attributes) (andThen (eqInfos m e'.metas)
        (if h then eqData d e'.data else some true)))
    else some false
termination_by structural e => e
/-- `operator==(const InfoElements&, const InfoElements&)`, Utils.cc:45-55 (lengths are compared first there; comparing
    element by element first could only differ by undefined behaviour, so the length test is here as well). -/
def eqInfos : List (Bytes × Elem) → List (Bytes × Elem) → Option Bool
  | [], [] => some true
  | p :: r, q :: s => if r.length = s.length then andThen (eqInfo p q) (eqInfos r s) else some false
  | _, _ => some false
termination_by structural l => l
def eqInfo : Bytes × Elem → Bytes × Elem → Option Bool
  | (k, e), q => andThen (some (k == q.1)) (eqElem e q.2)
termination_by structural p => p
/-- The `operator==` of the data types, dsd/*.cc, for data of the same kind. -/
def eqData : Data → Data → Option Bool
  | .null, .null => some true
  | .string s, .string t => some (s == t)
  | .number s, .number t => some (s == t)
  | .boolean s, .boolean t => some (s == t)
  | .ref s, .ref t => some (s == t)
  | .array s, .array t => eqList s t
  | .object s, .object t => eqList s t
  | .extend s, .extend t => eqList s t
  | .option s, .option t => eqList s t
  | .select s, .select t => eqList s t
  | .enum s, .enum t => eqDeref s t
  | .holder s, .holder t => eqDeref s t
  | .member k v, .member k' v' => andThen (eqOpt k k') (eqOpt v v')
  | _, _ => some false
termination_by structural d => d
/-- `dsd::Array::operator==` and the like, dsd/Array.cc:73-85. -/
def eqList : List Elem → List Elem → Option Bool
  | [], [] => some true
  | e :: r, f :: s => if r.length = s.length then andThen (eqElem e f) (eqList r s) else some false
  | _, _ => some false
termination_by structural l => l
/-- `*l.value() == *r.value()`, dsd/Enum.cc:55-58. -/
def eqDeref : Option Elem → Option Elem → Option Bool
  | some e, some f => eqElem e f
  | _, _ => none
termination_by structural o => o
/-- The `eq` of `dsd::Member::operator==`, dsd/Member.cc:64-70 (two elements never share a pointer). -/
def eqOpt : Option Elem → Option Elem → Option Bool
  | some e, some f => eqElem e f
  | none, none => some true
  | _, _ => some false
termination_by structural o => o
end

/-! ## Objects -/

/-- Key of a member that `Object::find` (dsd/Object.cc:93-104) and `push_back` (dsd/Object.cc:62-77) look at: the text
    of a non-empty string key of a non-empty member. -/
def stringKey (e : Elem) : Option Bytes :=
  match e.has, e.data with
  | true, .member (some k) _ =>
    match k.has, k.data with
    | true, .string s => some s
    | _, _ => none
  | _, _ => none

/-- `Object::find`, dsd/Object.cc:93-104, as an index. -/
def objectFind (es : List Elem) (name : Bytes) : Nat := es.findIdx (fun e => stringKey e = some name)

/-- `Object::push_back`, dsd/Object.cc:62-77. -/
def objectPushBack (es : List Elem) (e : Elem) : List Elem :=
  (if es.isEmpty then es
   else match stringKey e with
     | some k => if objectFind es k < es.length then es.eraseIdx (objectFind es k) else es
     | none => es) ++ [e]

/-- `Object::addMember`, dsd/Object.cc:106-112. -/
def objectAddMember (es : List Elem) (name : Bytes) (value : Option Elem) : List Elem :=
  (if objectFind es name < es.length then es.eraseIdx (objectFind es name) else es)
    ++ [makeElement (.member (some (makeElement (.string name))) value)]

end Verif.Refract
