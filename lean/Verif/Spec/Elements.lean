import Verif.Model.Element
import Verif.Model.Value
/-!
# Source maps, element trees and ordered maps (specification)
-/
namespace Verif.Spec
open Verif Verif.Refract Verif.So

mutual
/-- The element tree without its source maps, except for those among the attributes of annotations (and below). -/
def withoutMaps : Elem → Elem
  | .mk n m a h d => .mk n (withoutMapsI m) (if n = str "annotation" then a else withoutMapsI a) h (withoutMapsD d)
termination_by structural e => e
def withoutMapsI : List (Bytes × Elem) → List (Bytes × Elem)
  | [] => []
  | p :: r => if p.1 = str "sourceMap" then withoutMapsI r else withoutMapsP p :: withoutMapsI r
termination_by structural l => l
def withoutMapsP : Bytes × Elem → Bytes × Elem
  | (k, e) => (k, withoutMaps e)
termination_by structural p => p
def withoutMapsD : Data → Data
  | .null => .null | .string s => .string s | .number s => .number s | .boolean b => .boolean b | .ref s => .ref s
  | .array es => .array (withoutMapsL es) | .object es => .object (withoutMapsL es) | .extend es => .extend (withoutMapsL es)
  | .option es => .option (withoutMapsL es) | .select es => .select (withoutMapsL es)
  | .enum v => .enum (withoutMapsO v) | .holder v => .holder (withoutMapsO v)
  | .member k v => .member (withoutMapsO k) (withoutMapsO v)
termination_by structural d => d
def withoutMapsL : List Elem → List Elem
  | [] => []
  | e :: r => withoutMaps e :: withoutMapsL r
termination_by structural l => l
def withoutMapsO : Option Elem → Option Elem
  | none => none
  | some e => some (withoutMaps e)
termination_by structural o => o
end

/-- A generic element tree, as a reader of the serialised document sees it. -/
inductive Tree where
  | node (name : Bytes) (metas attributes : List (Bytes × Tree)) (content : Option Tree)
  | null | str (s : Bytes) | num (s : Bytes) | bool (b : Bool)
  | list (es : List Tree)
  | pair (key : Tree) (value : Option Tree)

mutual
/-- The generic tree of an element. -/
def treeOf : Elem → Tree
  | .mk n m a h d => .node n (treeOfI m) (treeOfI a) (if h then some (treeOfD d) else none)
termination_by structural e => e
def treeOfI : List (Bytes × Elem) → List (Bytes × Tree)
  | [] => []
  | p :: r => treeOfP p :: treeOfI r
termination_by structural l => l
def treeOfP : Bytes × Elem → Bytes × Tree
  | (k, e) => (k, treeOf e)
termination_by structural p => p
def treeOfD : Data → Tree
  | .null => .null | .string s => .str s | .number s => .num s | .boolean b => .bool b | .ref s => .str s
  | .array es => .list (treeOfL es) | .object es => .list (treeOfL es) | .extend es => .list (treeOfL es)
  | .option es => .list (treeOfL es) | .select es => .list (treeOfL es)
  | .enum v => treeOfO v | .holder v => treeOfO v
  | .member k v => .pair (treeOfO k) (treeOfQ v)
termination_by structural d => d
def treeOfL : List Elem → List Tree
  | [] => []
  | e :: r => treeOf e :: treeOfL r
termination_by structural l => l
def treeOfO : Option Elem → Tree
  | none => .null
  | some e => treeOf e
termination_by structural o => o
def treeOfQ : Option Elem → Option Tree
  | none => none
  | some e => some (treeOf e)
termination_by structural o => o
end

/-- Lookup of a key in an object of a document (the first occurrence counts). -/
def lookup {α} (k : Bytes) : List (Bytes × α) → Option α
  | [] => none
  | (k', v) :: r => if k' = k then some v else lookup k r

mutual
/-- Reader of serialised documents: an object with the key `element` is an element with that name and the optional
    members `meta`, `attributes` and `content`; any other object is a key/value pair. -/
def readTree : Value → Tree
  | .null => .null
  | .tru => .bool true
  | .fls => .bool false
  | .str s => .str s
  | .num s => .num s
  | .arr es => .list (readList es)
  | .obj ms =>
    let rs := readMembers ms
    match lookup (str "element") rs with
    | some (.str n, _) => .node n (((lookup (str "meta") rs).map (·.2)).getD []) (((lookup (str "attributes") rs).map (·.2)).getD [])
        ((lookup (str "content") rs).map (·.1))
    | _ => .pair (((lookup (str "key") rs).map (·.1)).getD .null) ((lookup (str "value") rs).map (·.1))
termination_by structural v => v
/-- The members of an object, each value read both as a tree and as a collection of named trees. -/
def readMembers : List (Bytes × Value) → List (Bytes × Tree × List (Bytes × Tree))
  | [] => []
  | p :: r => readMember p :: readMembers r
termination_by structural l => l
def readMember : Bytes × Value → Bytes × Tree × List (Bytes × Tree)
  | (k, v) => (k, readTree v, readNamed v)
termination_by structural p => p
def readNamed : Value → List (Bytes × Tree)
  | .obj ms => (readMembers ms).map fun p => (p.1, p.2.1)
  | _ => []
termination_by structural v => v
def readList : List Value → List Tree
  | [] => []
  | v :: r => readTree v :: readList r
termination_by structural l => l
end

mutual
/-- No source map occurs in a serialised document, except below the attributes of an annotation. -/
def noMaps : Value → Bool
  | .obj ms =>
      match lookup (str "element") ms with
      | some (.str n) => noMapsMembers (n == str "annotation") ms
      | _ => noMapsMembers false ms
  | .arr es => noMapsList es
  | _ => true
termination_by structural v => v
def noMapsMembers (ann : Bool) : List (Bytes × Value) → Bool
  | [] => true
  | p :: r => noMapsMember ann p && noMapsMembers ann r
termination_by structural l => l
def noMapsMember (ann : Bool) : Bytes × Value → Bool
  | (k, v) => if k = str "attributes" ∧ ann = true then true else k ≠ str "sourceMap" && noMaps v
termination_by structural p => p
def noMapsList : List Value → Bool
  | [] => true
  | v :: r => noMaps v && noMapsList r
termination_by structural l => l
end

/-! ## Equality of elements -/
mutual
/-- What element equality looks at: everything but the names of the elements, and the data only if there is a value. -/
def anonymous : Elem → Elem
  | .mk _ m a h d => .mk [] (anonymousI m) (anonymousI a) h (if h then anonymousD d else d.kind.default)
termination_by structural e => e
def anonymousI : List (Bytes × Elem) → List (Bytes × Elem)
  | [] => []
  | p :: r => anonymousP p :: anonymousI r
termination_by structural l => l
def anonymousP : Bytes × Elem → Bytes × Elem
  | (k, e) => (k, anonymous e)
termination_by structural p => p
def anonymousD : Data → Data
  | .null => .null | .string s => .string s | .number s => .number s | .boolean b => .boolean b | .ref s => .ref s
  | .array es => .array (anonymousL es) | .object es => .object (anonymousL es) | .extend es => .extend (anonymousL es)
  | .option es => .option (anonymousL es) | .select es => .select (anonymousL es)
  | .enum v => .enum (anonymousO v) | .holder v => .holder (anonymousO v)
  | .member k v => .member (anonymousO k) (anonymousO v)
termination_by structural d => d
def anonymousL : List Elem → List Elem
  | [] => []
  | e :: r => anonymous e :: anonymousL r
termination_by structural l => l
def anonymousO : Option Elem → Option Elem
  | none => none
  | some e => some (anonymous e)
termination_by structural o => o
end

mutual
/-- Every enumeration or holder that has a value has a non-null one, everywhere in the tree. -/
def noNull : Elem → Bool
  | .mk _ m a h d => noNullI m && noNullI a && (!h || noNullD d)
termination_by structural e => e
def noNullI : List (Bytes × Elem) → Bool
  | [] => true
  | p :: r => noNullP p && noNullI r
termination_by structural l => l
def noNullP : Bytes × Elem → Bool
  | (_, e) => noNull e
termination_by structural p => p
def noNullD : Data → Bool
  | .array es => noNullL es | .object es => noNullL es | .extend es => noNullL es
  | .option es => noNullL es | .select es => noNullL es
  | .enum v => v.isSome && noNullO v | .holder v => v.isSome && noNullO v
  | .member k v => noNullO k && noNullO v
  | _ => true
termination_by structural d => d
def noNullL : List Elem → Bool
  | [] => true
  | e :: r => noNull e && noNullL r
termination_by structural l => l
def noNullO : Option Elem → Bool
  | none => true
  | some e => noNull e
termination_by structural o => o
end

/-! ## Ordered maps -/

/-- An ordered map: its keys in order and the value of each key. -/
structure OMap where
  keys : List Bytes
  val : Bytes → Option Elem

/-- Operations on a collection of attributes. -/
inductive InfoOp where
  | set (k : Bytes) (e : Elem)
  | erase (k : Bytes)
  | claim (k : Bytes)

/-- Effect of the operations on an ordered map: setting keeps the place of an existing key and appends a new one;
    erasing and claiming remove the key. -/
def OMap.apply (m : OMap) : InfoOp → OMap
  | .set k e => ⟨if k ∈ m.keys then m.keys else m.keys ++ [k], fun k' => if k' = k then some e else m.val k'⟩
  | .erase k => ⟨m.keys.filter (· ≠ k), fun k' => if k' = k then none else m.val k'⟩
  | .claim k => ⟨m.keys.filter (· ≠ k), fun k' => if k' = k then none else m.val k'⟩

/-! ## Objects -/

/-- Property name of an element of an object, if it is a member with a text key. -/
def propertyName : Elem → Option Bytes
  | .mk _ _ _ true (.member (some (.mk _ _ _ true (.string s))) _) => some s
  | _ => none

/-- The elements of a list of which no later element has the same property name. -/
def lastOfEach : List Elem → List Elem
  | [] => []
  | e :: r => if (propertyName e).isSome ∧ ∃ f ∈ r, propertyName f = propertyName e then lastOfEach r else e :: lastOfEach r

end Verif.Spec
