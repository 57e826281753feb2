import Verif.Model.Registry
import Verif.Spec.NamedTypes
/-!
# Type registry (specification)
-/
namespace Verif.Spec
open Verif Verif.Refract Verif.NamedTypes Verif.Registry

/-- The words that cannot name a type. -/
def reserved (w : Bytes) : Prop :=
  w.takeWhile (· ≠ 0) ∈ ["array", "boolean", "enum", "extend", "generic", "member", "null", "number", "object", "option", "ref",
    "select", "string"].map str

/-- The name of an element, if it has a textual `id`. -/
def idOf (e : Elem) : Option Bytes :=
  match Infos.find e.metas (str "id") with
  | some (.mk _ _ _ _ (.string s)) => some s
  | _ => none

inductive RegOp where
  | add (e : Elem)
  | remove (name : Bytes)
  | clear

/-- A finite map under these operations. -/
noncomputable def regApply (m : Bytes → Option Elem) : RegOp → Bytes → Option Elem
  | .add e => fun k =>
      match idOf e with
      | none => m k
      | some id => open Classical in if ¬ reserved id ∧ m id = none ∧ k = id then some e else m k
  | .remove n => fun k => if k = n then none else m k
  | .clear => fun _ => none

/-- One step to the parent: `k` and its parent are registered, the parent is another, not reserved, name. -/
def ParentStep (r : Reg) (k k' : Bytes) : Prop :=
  k' ≠ k ∧ ¬ reserved k' ∧ (StdMap.find r k').isSome ∧ ∃ p, StdMap.find r k = some p ∧ p.name = k'

/-- The element at the end of the chain of parents: its own parent is a reserved name, not registered, or itself. -/
inductive RootOf (r : Reg) : Bytes → Elem → Prop
  | here (k : Bytes) (p : Elem) (h : StdMap.find r k = some p) (hs : reserved p.name ∨ StdMap.find r p.name = none ∨ p.name = k) : RootOf r k p
  | up (k k' : Bytes) (p : Elem) (h : ParentStep r k k') (hr : RootOf r k' p) : RootOf r k p

/-- `t` names `u` as its parent. -/
def IsParent (ts : List Named) (a b : Bytes) : Prop := ∃ t ∈ ts, t.name = a ∧ t.parent = b ∧ b ≠ []

/-- The sections of the type named `a` mention `b`. -/
def Mentions (ts : List Named) (a b : Bytes) : Prop := ∃ t ∈ ts, t.name = a ∧ b ∈ t.members

/-- `s` depends on `t`: `t` is an ancestor of `s`, or is mentioned by it directly or not. -/
def DependsOn (ts : List Named) (s t : Named) : Prop := Reaches (IsParent ts) s.name t.name ∨ Reaches (Mentions ts) s.name t.name

/-- The base type of the first type in the chain of parents that has one. -/
inductive BaseOf (ts : List Named) : Bytes → BaseName → Prop
  | here (t : Named) (h : t ∈ ts) (b : BaseName) (hb : t.base = some b) : BaseOf ts t.name b
  | up (t : Named) (h : t ∈ ts) (hn : t.base = none) (hp : t.parent ≠ []) (b : BaseName) (hb : BaseOf ts t.parent b) : BaseOf ts t.name b

end Verif.Spec
