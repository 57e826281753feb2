import Verif.Model.NamedTypes
import Verif.Model.Element
/-!
# Registration of named types: packages/drafter/src/NamedTypesRegistry.cc and packages/drafter/src/refract/Registry.cc
-/
namespace Verif.Registry
open Verif Verif.Refract Verif.NamedTypes

/-! ## Registry.cc -/

/-- The names in `reserved_`, packages/drafter/src/refract/Element.cc:24-38. -/
def reservedNames : List Bytes :=
  [str "array", str "boolean", str "enum", str "extend", str "generic", str "member", str "null", str "number", str "object",
   str "option", str "ref", str "select", str "string"]

/-- `isReserved`, Element.cc:41-52: the comparison is `strcmp`, which sees the string up to its first NUL.  The binary
    search in the sorted array is modelled as membership. -/
def isReserved (w : Bytes) : Bool := reservedNames.contains (w.takeWhile (· ≠ 0))

/-- `Registry`, Registry.h:20-37. -/
abbrev Reg := StdMap Elem

/-- `baseTypeMap`, Registry.cc:20-31. -/
def baseTypes : Reg :=
  [(str "array", makeEmpty .array), (str "boolean", makeEmpty .boolean), (str "enum", makeEmpty .enum), (str "null", makeEmpty .null),
   (str "number", makeEmpty .number), (str "object", makeEmpty .object), (str "string", makeEmpty .string)]

/-- `getElementId`, Registry.cc:55-69; `none` stands for the `LogicError`. -/
def elementId (e : Elem) : Option Bytes :=
  match Infos.find e.metas (str "id") with
  | some i => (match i.data with | .string s => some s | _ => none)
  | none => none

/-- `Registry::add`, Registry.cc:83-108; `none` stands for the `LogicError`. -/
def Reg.add (r : Reg) (e : Elem) : Option (Bool × Reg) :=
  match elementId e with
  | none => none
  | some id =>
    if isReserved id then none
    else match StdMap.find r id with
      | some _ => some (false, r)
      | none => some (true, StdMap.set r id e)

/-- `Registry::remove`, Registry.cc:110-120. -/
def Reg.remove (r : Reg) (name : Bytes) : Bool × Reg :=
  match StdMap.find r name with
  | none => (false, r)
  | some _ => (true, StdMap.erase r name)

/-- `FindRootAncestor`, Registry.cc:36-51, from the key of the current element on.  Two pointers into the registry are
    equal iff they are found under the same key.  The outer `none` means that the loop does not end. -/
def rootFrom (r : Reg) (k : Bytes) : Option (Option Elem) :=
  match StdMap.find r k with
  | none => some none
  | some p =>
    if isReserved p.name then some (some p)
    else match StdMap.find r p.name with
      | none => some (some p)
      | some _ => if p.name = k then some (some p) else rootFrom r p.name
partial_fixpoint

/-! ## NamedTypesRegistry.cc -/

/-- What is used of a `DataStructure`: its name, the literal of its type specification (the parent, empty if none), the
    base type name of the specification, and the names its sections mention (l.89-208, not modelled; members inside `One Of` and groups are not among them). -/
structure Named where
  name : Bytes
  parent : Bytes
  base : Option BaseName
  members : Names
deriving Repr, DecidableEq

mutual
/-- `collectMembers(id, members, resolved)`, NamedTypesRegistry.cc:210-232: what is collected and the new `resolved`. -/
def collect (m : StdMap Names) (id : Bytes) (resolved : Names) : Option (Names × Names) :=
  if resolved.contains id then some ([], resolved)
  else match StdMap.find m id with
    | none => some ([], resolved.insert id)
    | some ms => collectAll m ms [] (resolved.insert id)
partial_fixpoint
/-- The loop at NamedTypesRegistry.cc:225-229. -/
def collectAll (m : StdMap Names) (ms : Names) (acc resolved : Names) : Option (Names × Names) :=
  match ms with
  | [] => some (acc, resolved)
  | x :: r => collect m x resolved >>= fun p => collectAll m r (Names.addAll (acc.insert x) p.1) p.2
partial_fixpoint
end

/-- `DependencyTypeInfo`, NamedTypesRegistry.cc:234-294. -/
structure TypeInfo where
  childToParent : StdMap Bytes
  nameToElement : StdMap Named
  members : StdMap Names
deriving Repr

/-- Its constructor. -/
def typeInfo (ts : List Named) : TypeInfo :=
  { childToParent := ts.foldl (fun m t => if t.parent ≠ [] then StdMap.set m t.name t.parent else m) []
    nameToElement := ts.foldl (fun m t => StdMap.set m t.name t) []
    members := ts.foldl (fun m t => StdMap.set m t.name t.members) [] }

/-- `hasMember`, NamedTypesRegistry.cc:296-304 (the deep sets are computed when needed instead of in advance). -/
def hasMember (i : TypeInfo) (object member : Named) : Bool :=
  if (StdMap.find i.members object.name).isSome then
    match collect i.members object.name [] with
    | some c => c.1.contains member.name
    | none => false
  else false

/-- The loop of `hasAncestor`, NamedTypesRegistry.cc:315-326.  `none` if it does not end. -/
def ancestorLoop (c : StdMap Bytes) (ancestor current : Bytes) (symbols : List Bytes) : Option Bool :=
  if current = ancestor then some true
  else match StdMap.find c current with
    | none => some false
    | some next => if symbols.contains current then some false else ancestorLoop c ancestor next (symbols ++ [current])
partial_fixpoint

/-- `hasAncestor`, NamedTypesRegistry.cc:306-329. -/
def hasAncestor (i : TypeInfo) (object ancestor : Named) : Bool := (ancestorLoop i.childToParent ancestor.name object.name []).getD false

/-- `ResolveType`, NamedTypesRegistry.cc:336-361, from the name `s` on.  The outer `none` means that the loop does not
    end, the inner one is `UndefinedTypeName`. -/
def resolveType (i : TypeInfo) (s : Bytes) : Option (Option BaseName) :=
  if s = [] then some none
  else match StdMap.find i.nameToElement s with
    | none => some none
    | some e =>
      match e.base with
      | some b => some (some b)
      | none =>
        match StdMap.find i.childToParent s with
        | none => some none
        | some p => if s = p then some none else resolveType i p
partial_fixpoint

/-- `InheritanceComparator`, NamedTypesRegistry.cc:364-393. -/
def less (i : TypeInfo) (first second : Named) : Bool :=
  if hasAncestor i first second || hasMember i first second then false
  else if hasAncestor i second first || hasMember i second first then true
  else bytesLt first.name second.name

end Verif.Registry
