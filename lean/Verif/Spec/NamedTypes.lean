import Verif.Model.NamedTypes
import Mathlib.Logic.Relation
/-!
# References between named types (specification)
-/
namespace Verif.Spec
open Verif Verif.NamedTypes

/-- The parent a declaration names, if any: `# A (B)`. -/
def parent (d : Decl) : Option Bytes :=
  if d.type.base = none ∧ d.type.literal ≠ [] ∧ d.type.isVariable = false then some d.type.literal else none

/-- The base type a declaration has of itself: `# A (array)`, or `# A`, which is an object. -/
def ownBase (d : Decl) : Option BaseType :=
  match d.type.base with
  | some .string | some .number | some .boolean => some .primitive
  | some .object => some .object
  | some .array | some .enum => some .value
  | none => if d.type.literal = [] ∧ d.type.isVariable = false then some .implicitObject else none

/-- The types a declaration refers to: its parent, or the nested types of an array or enumeration. -/
def references (d : Decl) : List Bytes :=
  match d.type.base with
  | some .array | some .enum => (d.nested.filter fun n => n.literal ≠ [] ∧ n.isVariable = false).map (·.literal)
  | some _ => []
  | none => (parent d).toList

/-- `a` is declared with a reference to `b`. -/
def Refers (ds : List Decl) (a b : Bytes) : Prop := ∃ d ∈ ds, d.identifier = a ∧ b ∈ references d

/-- `b` can be reached from `a` by one or more steps. -/
abbrev Reaches (R : Bytes → Bytes → Prop) (a b : Bytes) : Prop := Relation.TransGen R a b

/-- The inheritance chain from `a` ends at a type whose own base type is `b`. -/
inductive HasBase (ds : List Decl) : Bytes → BaseType → Prop
  | own (d : Decl) (h : d ∈ ds) (b : BaseType) (hb : ownBase d = some b) : HasBase ds d.identifier b
  | inherited (d : Decl) (h : d ∈ ds) (p : Bytes) (hp : parent d = some p) (b : BaseType) (hb : HasBase ds p b) : HasBase ds d.identifier b

/-- The error says why the type of the declaration has no base type: it depends on itself, or its parent is not declared (or declared without
    parent and base type: as a variable). -/
inductive Blames (ds : List Decl) (d : Decl) : Err → Prop
  | circular : Reaches (Refers ds) d.identifier d.identifier → Blames ds d (.circular d.identifier)
  | undefined {p} : parent d = some p → (∀ d' ∈ ds, d'.identifier = p → parent d' = none ∧ ownBase d' = none) → Blames ds d (.undefinedType p)

/-- The reference that an operation adds. -/
def Op.edge : Op → Bytes × Bytes
  | .refer ty ctx => (ctx, ty)
  | .mixin ty ctx => (ctx, ty)

/-- References by declarations or by one of the operations. -/
def Edges (R : Bytes → Bytes → Prop) (ops : List Op) (a b : Bytes) : Prop := R a b ∨ ∃ o ∈ ops, Op.edge o = (a, b)

/-- References by declarations or by one of the includes. -/
def Includes (R : Bytes → Bytes → Prop) (ops : List Op) (a b : Bytes) : Prop := R a b ∨ Op.mixin b a ∈ ops

/-- No type can be reached from itself. -/
def Acyclic (R : Bytes → Bytes → Prop) : Prop := ∀ a, ¬ Reaches R a a

end Verif.Spec
