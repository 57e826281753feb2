import Verif.Model.Registry
/-!
# Expansion of named types: packages/drafter/src/refract/{ExpandVisitor.cc,IsExpandableVisitor.cc}

`Context::members`, the stack of names being expanded, is a list with the top first.
-/
namespace Verif.Expand
open Verif Verif.Refract Verif.Registry

/-- How an expansion can fail: the `snowcrash::Error` of ExpandVisitor.cc:246-253, or undefined behaviour (a failed
    assertion in a debug build, possibly a null dereference otherwise). -/
inductive ExpandError where
  | circular (symbol : Bytes)
  | undefined
deriving Repr, DecidableEq

/-- A computation that may not end (the outer `none`) or fail. -/
abbrev M := ExceptT ExpandError Option

/-- A loop that never ends. -/
def endless {α : Type} : M α := ExceptT.mk none

/-- A failed assertion. -/
def undef {α : Type} : M α := ExceptT.mk (some (.error .undefined))

/-- The thrown error. -/
def circular {α : Type} (symbol : Bytes) : M α := ExceptT.mk (some (.error (.circular symbol)))

/-! ## IsExpandableVisitor.cc -/

/-- `if (a) return true; …b…` where both may be undefined. -/
def orThen (a b : Option Bool) : Option Bool :=
  match a with
  | none => none
  | some true => some true
  | some false => b

mutual
/-- `IsExpandableVisitor`, IsExpandableVisitor.cc:13-173; `none` is undefined behaviour (the null dereference of
    l.131). -/
def expandable : Elem → Option Bool
  | .mk n _ a h d =>
    if d.kind = .ref then some true
    else if !isReserved n then some true
    else orThen (if h then expandableD d else some false) (if d.kind = .enum then expandableE a else some false)
termination_by structural e => e
/-- The content: l.62-73 and l.113-121 (containers), l.90-101 (members), l.129-134 (enumerations). -/
def expandableD : Data → Option Bool
  | .null => some false | .string _ => some false | .number _ => some false | .boolean _ => some false
  | .holder _ => some false | .ref _ => some true
  | .array es => expandableL es | .object es => expandableL es | .extend es => expandableL es
  | .option es => expandableL es | .select es => expandableL es
  | .enum v => expandableV v
  | .member k v => orThen (expandableO k) (expandableO v)
termination_by structural d => d
def expandableL : List Elem → Option Bool
  | [] => some false
  | e :: r => orThen (expandable e) (expandableL r)
termination_by structural l => l
def expandableO : Option Elem → Option Bool
  | none => some false
  | some e => expandable e
termination_by structural o => o
def expandableV : Option Elem → Option Bool
  | none => none
  | some e => expandable e
termination_by structural o => o
/-- The attribute `enumerations`, l.136-142. -/
def expandableE : List (Bytes × Elem) → Option Bool
  | [] => some false
  | p :: r => if p.1 = str "enumerations" then expandableP p else expandableE r
termination_by structural l => l
def expandableP : Bytes × Elem → Option Bool
  | (_, e) => expandable e
termination_by structural p => p
end

/-! ## Helpers of ExpandVisitor.cc -/

/-- The condition of l.44 and l.53: the entry `id`, if there is one and it is not empty. -/
def filledId (m : Infos) : Option Elem :=
  match Infos.find m (str "id") with
  | some i => if i.empty then none else some i
  | none => none

/-- `CopyMetaId`, ExpandVisitor.cc:41-47, on the two collections. -/
def copyMetaId (dst src : Infos) : Infos :=
  match filledId src with
  | some i => Infos.set dst (str "id") (clone cAll i)
  | none => dst

/-- `MetaIdToRef`, ExpandVisitor.cc:49-56. -/
def metaIdToRef (m : Infos) : Infos :=
  match filledId m with
  | some i => Infos.erase (Infos.set m (str "ref") (clone cAll i)) (str "id")
  | none => m

/-- The copy of a registered element at l.130-132: without its name and `id`, with the meta `ref`. -/
def treeEntry (name : Bytes) (p : Elem) : Elem :=
  let c := clone ⟨true, true, true, false, true⟩ p
  c.setMetas (Infos.set c.metas (str "ref") (makeElement (.string name)))

/-- What a cyclic occurrence is replaced by, l.214-216. -/
def cycleEntry (name : Bytes) (root : Elem) : Elem :=
  let c := clone ⟨true, true, false, false, true⟩ root
  c.setMetas (Infos.set c.metas (str "ref") (makeElement (.string name)))

/-- The loop of `GetInheritanceTree`, ExpandVisitor.cc:118-133, from the name `en` on when the names `seen` have been
    visited: the entries, nearest first, or `none` for the early return of l.127. -/
def lineage (r : Reg) (seen : List Bytes) (en : Bytes) : Option (List Elem) :=
  match _h : StdMap.find r en with
  | none => some []
  | some p =>
    if isReserved en then some []
    else if _hs : seen.contains en then none
    else (lineage r (en :: seen) p.name).map (treeEntry en p :: ·)
termination_by ((StdMap.keys r).filter (fun k => !seen.contains k)).length
decreasing_by
  have hk : en ∈ StdMap.keys r := (StdMap.find_isSome r en).1 (by rw [_h]; rfl)
  have : ((StdMap.keys r).filter (fun k => !(en :: seen).contains k)) =
      (((StdMap.keys r).filter (fun k => !seen.contains k)).filter (fun k => k ≠ en)) := by
    rw [List.filter_filter]
    congr 1; funext k
    by_cases h : k = en <;> simp [h, List.contains_cons]
  rw [this]
  have hm : en ∈ (StdMap.keys r).filter (fun k => !seen.contains k) := by
    rw [List.mem_filter]; exact ⟨hk, by simpa using _hs⟩
  have := List.length_filter_lt_length_iff_exists (l := (StdMap.keys r).filter (fun k => !seen.contains k)) (p := fun k => decide (k ≠ en))
  exact this.2 ⟨en, hm, by simp⟩

/-- `GetInheritanceTree`, ExpandVisitor.cc:110-153. -/
def inheritanceTree (r : Reg) (name : Bytes) : Elem :=
  match lineage r [] name with
  | none => makeEmpty .extend
  | some [] => makeEmpty .extend
  | some (e :: es) => makeElement (.extend (e :: es).reverse)

/-- The content of an `ExtendElement`. -/
def extendContent : Data → List Elem
  | .extend es => es
  | _ => []

/-! ## ExpandVisitor::Context and ExpandElement -/
mutual
/-- `Context::ExpandOrClone`, ExpandVisitor.cc:164-178, with the dispatch of `ExpandElement`, l.272-378, 398-415.
    The `static_cast` of l.341 is undefined behaviour if the result is no option. -/
def expand (r : Reg) (ms : List Bytes) (e : Elem) : M Elem :=
  match e.data with
  | .null => pure (clone cAll e)
  | .holder _ => pure (clone cAll e)
  | .string _ => if isReserved e.name then pure (clone cAll e) else expandNamed r ms e
  | .number _ => if isReserved e.name then pure (clone cAll e) else expandNamed r ms e
  | .boolean _ => if isReserved e.name then pure (clone cAll e) else expandNamed r ms e
  | .ref symbol => expandRef r ms e (if e.has then symbol else [])
  | .enum _ => if isReserved e.name then expandEnum r ms e else expandNamed r ms e
  | .select es =>
    match expandable e with
    | none => undef
    | some false => pure (clone cAll e)
    | some true =>
      if e.has then do
        let xs ← expandAll r ms es
        if xs.all (fun x => x.kind = .option) then pure ((makeElement (.select xs)).setMetas e.metas) else undef
      else undef
  | .member k v =>
    match expandable e with
    | none => undef
    | some false => pure (clone cAll e)
    | some true =>
      if e.has then do
        let k' ← expandOpt r ms k
        let v' ← expandOpt r ms v
        pure ((clone ⟨true, true, false, true, false⟩ e).setData (.member k' v'))
      else undef
  | _ =>
    match expandable e with
    | none => undef
    | some false => pure (clone cAll e)
    | some true => if isReserved e.name then expandMembers r ms e else expandNamed r ms e
partial_fixpoint
/-- `ExpandValueImpl` for the iterable types, ExpandVisitor.cc:87-101, before the elements are put in a container. -/
def expandAll (r : Reg) (ms : List Bytes) (es : List Elem) : M (List Elem) :=
  match es with
  | [] => pure []
  | e :: rest => do
    let x ← expand r ms e
    let xs ← expandAll r ms rest
    pure (x :: xs)
partial_fixpoint
/-- `ExpandOrClone` on a pointer that may be null. -/
def expandOpt (r : Reg) (ms : List Bytes) (o : Option Elem) : M (Option Elem) :=
  match o with
  | none => pure none
  | some e => do
    let x ← expand r ms e
    pure (some x)
partial_fixpoint
/-- `Context::ExpandMembers`, ExpandVisitor.cc:188-199, with `ExpandValue`, l.58-101; for an object `std::back_inserter`
    calls `Object::push_back`. -/
def expandMembers (r : Reg) (ms : List Bytes) (e : Elem) : M Elem :=
  if e.has then
    match e.data with
    | .array es => do let xs ← expandAll r ms es; pure (.mk e.kind.name e.metas e.attributes true (.array xs))
    | .object es => do let xs ← expandAll r ms es; pure (.mk e.kind.name e.metas e.attributes true (.object (xs.foldl objectPushBack [])))
    | .extend es => do let xs ← expandAll r ms es; pure (.mk e.kind.name e.metas e.attributes true (.extend xs))
    | .option es => do let xs ← expandAll r ms es; pure (.mk e.kind.name e.metas e.attributes true (.option xs))
    | .select es => do let xs ← expandAll r ms es; pure (.mk e.kind.name e.metas e.attributes true (.select xs))
    | .enum v => do let x ← expandOpt r ms v; pure (.mk e.kind.name e.metas e.attributes true (.enum x))
    | .holder v => do let x ← expandOpt r ms v; pure (.mk e.kind.name e.metas e.attributes true (.holder x))
    | d => pure (.mk e.kind.name e.metas e.attributes true d)
  else pure (.mk e.kind.name e.metas e.attributes false e.kind.default)
partial_fixpoint
/-- `Context::ExpandNamedType`, ExpandVisitor.cc:201-236. -/
def expandNamed (r : Reg) (ms : List Bytes) (e : Elem) : M Elem :=
  if ms.contains e.name then
    match rootFrom r e.name with
    | none => endless
    | some none => undef
    | some (some root) => pure (cycleEntry e.name root)
  else do
    let x ← expandMembers r (e.name :: ms) (inheritanceTree r e.name)
    let o ← expandMembers r ms e
    pure ((x.setMetas (copyMetaId x.metas e.metas)).setData (.extend (extendContent x.data ++ [o.setMetas (Infos.erase o.metas (str "id"))])))
partial_fixpoint
/-- `Context::ExpandReference`, ExpandVisitor.cc:238-269; the symbol of an empty element is empty. -/
def expandRef (r : Reg) (ms : List Bytes) (e : Elem) (symbol : Bytes) : M Elem :=
  if symbol = [] then pure (clone cAll e)
  else if ms.contains symbol then circular symbol
  else
    match StdMap.find r symbol with
    | none => pure (clone cAll e)
    | some t => do
      let x ← expand r (symbol :: ms) t
      let c := clone cAll e
      pure (c.setAttributes (Infos.set c.attributes (str "resolved") (x.setMetas (metaIdToRef x.metas))))
partial_fixpoint
/-- `ExpandElement<EnumElement>` with a reserved name, ExpandVisitor.cc:296-321. -/
def expandEnum (r : Reg) (ms : List Bytes) (e : Elem) : M Elem := do
  let o ← (if e.has then
      match e.data with
      | .enum v => do let x ← expandOpt r ms v; pure (makeElement (.enum x))
      | _ => undef
    else pure (makeEmpty .enum))
  let attrs ← enumAttributes r ms [] e.attributes
  pure ((o.setMetas e.metas).setAttributes attrs)
partial_fixpoint
/-- The loop of l.302-318. -/
def enumAttributes (r : Reg) (ms : List Bytes) (acc attrs : Infos) : M Infos :=
  match attrs with
  | [] => pure acc
  | (k, v) :: rest =>
    if k = str "enumerations" then
      match v.data with
      | .array es =>
        if v.has then do
          let xs ← expandAll r ms es
          enumAttributes r ms (Infos.set acc (str "enumerations") (makeElement (.array xs))) rest
        else undef
      | _ => undef
    else enumAttributes r ms (Infos.set acc k (clone cAll v)) rest
partial_fixpoint
end

/-- `ExpandRefract`, packages/drafter/src/RefractDataStructure.cc:1329-1343, on a non-null element. -/
def expandRefract (r : Reg) (e : Elem) : M Elem := expand r [] e

end Verif.Expand
