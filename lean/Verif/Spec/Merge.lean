import Verif.Spec.Elements
/-!
# Inheritance (specification)
-/
namespace Verif.Spec
open Verif Verif.Refract

/-- The elements of an object (none if it has no value). -/
def members (e : Elem) : List Elem :=
  match e with
  | .mk _ _ _ true (.object es) => es
  | _ => []

/-- The members of an object with their property names. -/
def named (es : List Elem) : List (Bytes × Elem) := es.filterMap fun e => (propertyName e).map fun k => (k, e)

/-- Every element is a member with a property name, and the names are distinct. -/
def PlainMembers (es : List Elem) : Prop := (∀ e ∈ es, (propertyName e).isSome) ∧ ((named es).map (·.1)).Nodup

/-- Properties of a derived object: each inherited property in its place, with the derived definition if there is one,
    then the properties that are new. -/
def overlay (base derived : List (Bytes × Elem)) : List (Bytes × Elem) :=
  base.map (fun p => (p.1, (lookup p.1 derived).getD p.2)) ++ derived.filter (fun p => p.1 ∉ base.map (·.1))

end Verif.Spec
