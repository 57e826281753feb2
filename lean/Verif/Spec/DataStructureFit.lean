import Verif.Spec.DataStructure
/-!
# Syntax trees that can be converted (specification)
-/
namespace Verif.Spec.DataStructure
open Verif Verif.Refract Verif.Registry Verif.DataStructure
open Verif.NamedTypes (BaseName TypeName)
open Verif.Mson (Value TypeDef TypeSpec ValueDef PropertyName)

/-- The reserved words that are registered are registered as the basic types they are. -/
def Standard (r : Reg) : Prop := ∀ k e, StdMap.find r k = some e → reserved k → e.name = k ∧ e.data.kind.name = k

/-- A type name as the parser makes them, that stands for a basic type if one is named. -/
def Known (r : Reg) (n : TypeName) : Prop := Parsed n ∧ (n.literal ≠ [] → ∃ t, StandsFor r n t)

/-- A key is a text: the type of its variable is not given, or it stands for text. -/
def FitKey (r : Reg) (n : PropertyName) : Prop :=
  (n.isVariable.type.attributes = 0 ∧ n.isVariable.type.spec.nested = [] ∧ n.isVariable.type.spec.name = ⟨none, [], false⟩) ∨
    n.isVariable.type.spec.name.base = some .string ∨ ∃ p, RootOf r n.isVariable.type.spec.name.literal p ∧ Is .string p

/-- An entry of an enumeration: the type of a value is known. -/
def FitEntry (r : Reg) : Element → Prop
  | .value m => Known r m.definition.type.spec.name
  | _ => True

/-- The sections of an enumeration: the types of its values, and those between its brackets, are as they should be. -/
def FitEnum (r : Reg) (nested : List TypeName) (ss : List Section) : Prop :=
  (∀ n ∈ nested, Parsed n) ∧ ∀ s ∈ ss, ∀ e ∈ s.elements, FitEntry r e

mutual
/-- A member of a list or an object whose items are of the type `nested`. -/
inductive FitElement (r : Reg) : BaseName → Element → Prop
  | property {nested n nm m} : FitKey r n → FitMember r nested m → FitElement r nested (.property n nm m)
  | value {nested m} : FitMember r nested m → FitElement r nested (.value m)
  | mixin {nested t} : FitElement r nested (.mixin t)
  | oneOf {nested es} : (∀ e ∈ es, FitChoice r e) → FitElement r nested (.oneOf es)
/-- An alternative, which may be a group of members. -/
inductive FitChoice (r : Reg) : Element → Prop
  | single {e} : FitElement r .string e → FitChoice r e
  | group {es} : (∀ e ∈ es, FitElement r .string e) → FitChoice r (.group es)
/-- A member: its sections have a class and are made of members; it has one value on its line if its type holds a text; if it is an
    enumeration, the types of its values are known. -/
inductive FitMember (r : Reg) : BaseName → Member → Prop
  | mk {nested m} : (∀ s ∈ m.sections, s.klass ≠ .undefined) →
      (∀ s ∈ m.sections, ∀ e ∈ s.elements, FitElement r (itemType m.definition.type.spec.nested) e) →
      (∀ t, MemberIs r nested m t → Primitive t → Lined m.definition → m.definition.values.length ≤ 1) →
      (MemberIs r nested m .enum → FitEnum r m.definition.type.spec.nested m.sections) → FitMember r nested m
end

/-- The same for a named type, which has no line. -/
structure FitNamed (r : Reg) (ds : NamedType) : Prop where
  classes : ∀ s ∈ ds.sections, s.klass ≠ .undefined
  elements : ∀ s ∈ ds.sections, ∀ e ∈ s.elements, FitElement r (itemType ds.type.spec.nested) e
  enum : NamedIs r ds .enum → FitEnum r ds.type.spec.nested ds.sections

end Verif.Spec.DataStructure
