import Verif.Model.ElementUtils
import Verif.Spec.Same
/-!
# What a generated body has to look like (specification)
-/
namespace Verif.Spec
open Verif Verif.Refract

mutual
/-- No object in the tree has a member with an empty name. -/
def NamedKeys : So.Value → Prop
  | .obj ms => NamedKeysM ms
  | .arr es => NamedKeysE es
  | _ => True
termination_by structural v => v
def NamedKeysM : List (Bytes × So.Value) → Prop
  | [] => True
  | p :: r => NamedKeysP p ∧ NamedKeysM r
termination_by structural v => v
def NamedKeysP : Bytes × So.Value → Prop
  | (k, v) => k ≠ [] ∧ NamedKeys v
termination_by structural v => v
def NamedKeysE : List So.Value → Prop
  | [] => True
  | v :: r => NamedKeys v ∧ NamedKeysE r
termination_by structural v => v
end

/-- The JSON value of a primitive that has a value, and the one of its type. -/
inductive Literal : Data → So.Value → So.Value → Prop
  | string (s : Bytes) : Literal (.string s) (.str s) (.str [])
  | number (s : Bytes) : Literal (.number s) (.num s) (.num (str "0"))
  | true : Literal (.boolean true) .tru .fls
  | false : Literal (.boolean false) .fls .fls

/-- `Shows e nullable v`: a primitive element is shown as `v`: its value; or else its first sample; or else its default; or
    else null, if it is nullable itself or its context is; or else the value of its type. -/
inductive Shows : Elem → Bool → So.Value → Prop
  | value {e nul v z} : Literal e.data v z → e.has = true → Shows e nul v
  | sample {e nul v z s w} : Literal e.data w z → e.has = false → findFirstSample e = some s → Shows s (nul || hasNullable e) v → Shows e nul v
  | default {e nul v z d w} : Literal e.data w z → e.has = false → findFirstSample e = none → findDefault e = some d →
      Shows d (nul || hasNullable e) v → Shows e nul v
  | null {e nul z w} : Literal e.data w z → e.has = false → findFirstSample e = none → findDefault e = none →
      (nul || hasNullable e) = true → Shows e nul .null
  | type {e nul z w} : Literal e.data w z → e.has = false → findFirstSample e = none → findDefault e = none →
      (nul || hasNullable e) = false → Shows e nul z

/-- A property named `k` with value `x`. -/
def Property (m : Elem) (k : Bytes) (x : Elem) : Prop :=
  ∃ key, m.data = .member (some key) (some x) ∧ key.data = .string k ∧ key.has = true ∧ k ≠ []

/-- A property named `k` with value `x` that is required or has a value. -/
def Present (m : Elem) (k : Bytes) (x : Elem) : Prop := Property m k x ∧ (hasOptional m = false ∨ definesValue x = true)

end Verif.Spec
