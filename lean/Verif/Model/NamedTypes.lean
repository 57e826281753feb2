import Verif.Model.StdMap
/-!
# Tables of named types: packages/apib-parser/src/snowcrash/{BlueprintParser.h,MSONUtility.h,MSONMixinParser.h}

Not modelled: the markdown nodes and source maps that accompany the entries, the text of the messages (the name they
mention is kept) and the warnings.
-/
namespace Verif.NamedTypes
open Verif

/-- `BaseTypeName`, MSON.h:103-112 (`UndefinedTypeName` is `none` of `Option`). -/
inductive BaseName where
  | boolean | string | number | array | enum | object
deriving Repr, DecidableEq

/-- `BaseType`, MSON.h:47-56, as far as it is stored in the base table. -/
inductive BaseType where
  | primitive | object | implicitObject | value
deriving Repr, DecidableEq

/-- `parseBaseType`, MSONUtility.h:46-64, for a defined name. -/
def parseBaseType : BaseName → BaseType
  | .string | .number | .boolean => .primitive
  | .object => .object
  | .array | .enum => .value

/-- `TypeName`, MSON.h:115-128, with `Symbol`, MSON.h:71-83. -/
structure TypeName where
  base : Option BaseName
  literal : Bytes
  isVariable : Bool
deriving Repr, DecidableEq

/-- What `fillNamedTypeTables` gets from a header or `Attributes` section: the identifier (the name of the resource, or
    the identifier of the signature without backticks), and the type specification. -/
structure Decl where
  identifier : Bytes
  type : TypeName
  nested : List TypeName
deriving Repr, DecidableEq

/-- The error messages of the tables. -/
inductive Err where
  | duplicate (name : Bytes) | circular (name : Bytes) | undefinedType (name : Bytes)
deriving Repr, DecidableEq

/-- `std::set<Literal>` as the list of its elements (the iteration order is not modelled: no result depends on it). -/
abbrev Names := List Bytes

/-- `set.insert(first, last)`. -/
def Names.addAll (s l : Names) : Names := l.foldl (fun s x => s.insert x) s

/-- `NamedTypeDependencyTable`, MSON.h:65. -/
abbrev DepTable := StdMap Names

/-- `table[k]` when read: the set, empty for a missing key (the entry that is created then: `touch`). -/
def DepTable.get (t : DepTable) (k : Bytes) : Names := (StdMap.find t k).getD []

/-- `table[k]`: creates an empty entry if there is none. -/
def DepTable.touch (t : DepTable) (k : Bytes) : DepTable :=
  match StdMap.find t k with
  | some _ => t
  | none => StdMap.set t k []

/-- `SectionParserData`, SectionParserData.h:51-57, and `report.error`. -/
structure Tables where
  dep : DepTable
  base : StdMap BaseType
  inh : StdMap Bytes
  error : Option Err
deriving Repr

/-- `addDependency`, MSONUtility.h:302-354. -/
def addDependency (t : DepTable) (dependency dependent : Bytes) (circularCheck : Bool) : Except Err DepTable :=
  match StdMap.find t dependency with
  | none => .error (.undefinedType dependency)
  | some deps =>
    if circularCheck && (dependent == dependency || deps.contains dependent) then .error (.circular dependent)
    else
      let t := t.touch dependent
      if (t.get dependent).contains dependency then .ok t
      else .ok (t.map fun p => if p.1 == dependent || p.2.contains dependent then (p.1, Names.addAll (p.2.insert dependency) deps) else p)

/-- Effect on the tables of `parseTypeDefinition`, MSONUtility.h:395-409, when the type named is `ty` and the context
    (`pd.namedTypeContext`) is `ctx`. -/
def parseTypeDefinition (t : DepTable) (base : StdMap BaseType) (ty : TypeName) (ctx : Bytes) : Except Err DepTable :=
  if ty.base = none ∧ StdMap.find base ty.literal = none ∧ ty.literal ≠ [] ∧ ty.isVariable = false
  then addDependency t ty.literal ctx false
  else .ok t

/-- `fillNamedTypeTables`, BlueprintParser.h:327-400.  The case of a named resource whose signature is a variable
    (l.346-348) is left out: it does not occur (`C91_never_variable`). -/
def fill (s : Tables) (d : Decl) : Tables :=
  -- l.339: the report is a temporary one; `pd.namedTypeContext` is empty
  let dep := match parseTypeDefinition s.dep s.base d.type [] with | .ok t => t | .error _ => s.dep
  match StdMap.find dep d.identifier with
  | some _ => { s with dep := dep, error := some (.duplicate d.identifier) }
  | none =>
    match d.type.base with
    | some b =>
      { s with
        dep := StdMap.set dep d.identifier (if b = .array ∨ b = .enum then
          Names.addAll [] ((d.nested.filter fun n => n.literal ≠ [] ∧ n.isVariable = false).map (·.literal)) else [])
        base := StdMap.set s.base d.identifier (parseBaseType b) }
    | none =>
      if d.type.literal ≠ [] ∧ d.type.isVariable = false then
        { s with dep := StdMap.set dep d.identifier [d.type.literal], inh := StdMap.set s.inh d.identifier d.type.literal }
      else if d.type.literal = [] ∧ d.type.isVariable = false then
        { s with dep := StdMap.set dep d.identifier [], base := StdMap.set s.base d.identifier .implicitObject }
      else { s with dep := StdMap.set dep d.identifier [] }

/-- The loop of BlueprintParser.h:442-446: the sets of all initial dependencies are added to the set of `id`. -/
def gather (t : DepTable) (id : Bytes) : List Bytes → DepTable
  | [] => t
  | x :: r =>
    let t := t.touch x
    gather (StdMap.set t id (Names.addAll (t.get id) (t.get x))) id r

/-- `resolveNamedTypeDependencyTableEntry`, BlueprintParser.h:432-457.  `none` if the loop does not end. -/
def resolveDep (t : DepTable) (id : Bytes) : Option DepTable :=
  let t := t.touch id
  let initial := t.get id
  let t' := gather t id initial
  if (t'.get id).any (fun x => !initial.contains x) then resolveDep t' id else some t'
partial_fixpoint

/-- The loop of BlueprintParser.h:411-413, over the keys present at its beginning.  (Entries created meanwhile by
    `operator[]` may be visited too; they are empty, and visiting an empty entry does nothing: `resolveDep_empty`.) -/
def resolveDeps (t : DepTable) : List Bytes → Option DepTable
  | [] => some t
  | k :: r => (resolveDep t k).bind fun t => resolveDeps t r

/-- `resolveNamedTypeBaseTableEntry`, BlueprintParser.h:467-533.  `none` if the recursion does not end, and for the
    dereference of `end()` at l.527. -/
def resolveBase (dep : DepTable) (inh : StdMap Bytes) (sub super : Bytes) (base : StdMap BaseType) :
    Option (Except Err (StdMap BaseType)) :=
  if (StdMap.find base sub).isSome then some (.ok base)
  else if (dep.get sub).contains sub then some (.error (.circular sub))
  else match StdMap.find base super with
    | some b => some (.ok (StdMap.set base sub b))
    | none =>
      match StdMap.find inh super with
      | none => some (.error (.undefinedType super))
      | some super' =>
        resolveBase dep inh super super' base >>= fun r =>
          match r with
          | .error e => some (.error e)
          | .ok base' =>
            match StdMap.find base' super with
            | some b => some (.ok (StdMap.set base' sub b))
            | none => none
partial_fixpoint

/-- The loop of BlueprintParser.h:415-421. -/
def resolveBases (dep : DepTable) (inh : StdMap Bytes) : List (Bytes × Bytes) → StdMap BaseType → Option (Except Err (StdMap BaseType))
  | [], base => some (.ok base)
  | (k, super) :: r, base => (resolveBase dep inh k super base).bind fun res =>
      match res with
      | .error e => some (.error e)
      | .ok base' => resolveBases dep inh r base'

/-- `resolveNamedTypeTables`, BlueprintParser.h:408-422, without an earlier error. -/
def resolveTables (s : Tables) : Option (Except Err Tables) :=
  (resolveDeps s.dep (StdMap.keys s.dep)).bind fun dep =>
    (resolveBases dep s.inh s.inh s.base).bind fun r =>
      match r with
      | .error e => some (.error e)
      | .ok base => some (.ok { s with dep := dep, base := base })

/-- Filling and resolving of the tables, BlueprintParser.h:165-236, for the declarations in document order; an error
    of `fillNamedTypeTables` stays in the report.  (Simplification: the first entry of the inheritance table is looked at even then, and its error,
    if there is one, is reported instead.) -/
def buildTables (ds : List Decl) : Option (Except Err Tables) :=
  let s := ds.foldl fill ⟨[], [], [], none⟩
  match s.error with
  | some e => some (.error e)
  | none => resolveTables s

/-- What happens to the tables while members are parsed: reference to a type from a member (MSONUtility.h:404-409,
    MSONValueMemberParser.h:146-158) and `Include` (MSONMixinParser.h:56-75), inside the type `ctx`. -/
inductive Op where
  | refer (type ctx : Bytes)
  | mixin (type ctx : Bytes)
deriving Repr, DecidableEq

/-- One such step.  An include first goes through `parseTypeDefinition`. -/
def opStep (base : StdMap BaseType) (t : DepTable) : Op → Except Err DepTable
  | .refer ty ctx => addDependency t ty ctx false
  | .mixin ty ctx =>
    match parseTypeDefinition t base ⟨none, ty, false⟩ ctx with
    | .error e => .error e
    | .ok t => addDependency t ty ctx true

/-- A sequence of steps up to the first error. -/
def opRun (base : StdMap BaseType) (t : DepTable) : List Op → Except Err DepTable
  | [] => .ok t
  | o :: r => match opStep base t o with | .error e => .error e | .ok t => opRun base t r

end Verif.NamedTypes
