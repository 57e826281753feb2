import Verif.Spec.Body
/-!
# Data structures whose generated bodies are valid (specification)
-/
namespace Verif.Spec
open Verif Verif.Refract

/-- Two primitives of the same kind. -/
inductive SameKind : Data → Data → Prop
  | string (a b : Bytes) : SameKind (.string a) (.string b)
  | number (a b : Bytes) : SameKind (.number a) (.number b)
  | boolean (a b : Bool) : SameKind (.boolean a) (.boolean b)

/-- The element is a literal, or an enumeration set to a literal. -/
inductive Writes : Elem → So.Value → Prop
  | literal {e v z} : e.has = true → Literal e.data v z → Writes e v
  | enum {e c v} : e.has = true → e.data = .enum (some c) → Writes c v → Writes e v

/-- Where an element occurs: as a value, or in an object as a part that declares the properties `names`; `fixed`, `fixedType` and
    `nullable` are inherited from its context. -/
inductive Place where
  | value (fixed fixedType nullable : Bool)
  | content (fixed : Bool) (names : List Bytes)

/-- An element that contributes one item to the array that contains it. -/
def OneItem (e : Elem) : Prop :=
  match e.data with
  | .ref _ => False
  | .string _ => definesValue e = true
  | .number _ => definesValue e = true
  | .boolean _ => definesValue e = true
  | _ => True

/-- No sample and no default value. -/
def Unset (e : Elem) : Prop := e.has = false ∧ findFirstSample e = none ∧ findDefault e = none

/-- Structures made of primitives with values of their type, objects without repeated or variable properties and alternatives,
    arrays without mixins, tuples of values, arrays of one type or of primitive types, enumerations set to one of their members,
    and of references to and extensions of such structures. -/
inductive Regular : Place → Elem → Prop
  | primitive {e f t n w z} : Literal e.data w z →
      (e.has = false → ∀ s, findFirstSample e = some s ∨ findDefault e = some s → s.has = true ∧ SameKind s.data e.data) → Regular (.value f t n) e
  | null {e f t n} : e.data = .null → Regular (.value f t n) e
  | object {e f t n es} (names : Elem → List Bytes) (inherits : Elem → Bool) : e.data = .object es → e.has = true →
      (∀ x ∈ es, inheritsFixed x = .ok (inherits x)) → (∀ x ∈ es, Regular (.content ((f || hasFixed e) && inherits x) (names x)) x) →
      (es.flatMap names).Nodup → Regular (.value f t n) e
  | objectUnset {e f t n es} : e.data = .object es → Unset e → Regular (.value f t n) e
  | array {e f t n es} : e.data = .array es → e.has = true → (f || hasFixed e) = false → (t || hasFixedType e) = false →
      Regular (.value f t n) e
  | arrayUnset {e f t n es} : e.data = .array es → Unset e → Regular (.value f t n) e
  | tuple {e f t n es} (inherits : Elem → Bool) : e.data = .array es → e.has = true → (t || hasFixedType e) = false →
      (∀ x ∈ es, OneItem x ∧ inheritsFixed x = .ok (inherits x)) →
      (∀ x ∈ es, Regular (.value ((f || hasFixed e) && inherits x) false false) x) → Regular (.value f t n) e
  | typedArray {e f t n es} (inherits : Elem → Bool) : e.data = .array es → e.has = true → (t || hasFixedType e) = true →
      (es.length = 1 ∨ ∀ x ∈ es, ∃ w z, Literal x.data w z) →
      (∀ x ∈ es, (∀ k, x.data ≠ .ref k) ∧ inheritsFixed x = .ok (inherits x)) →
      (∀ x ∈ es, Regular (.value ((f || hasFixed e) && inherits x) false false) x) → Regular (.value f t n) e
  | enumSet {e f t n v x es c y w z} : e.data = .enum v → Infos.find e.attributes (str "enumerations") = some x → x.data = .array es →
      x.has = true →
      (e.has = true ∧ v = some c ∨ e.has = false ∧ (findFirstSample e = some c ∨ findFirstSample e = none ∧ findDefault e = some c)) →
      Writes c w → y ∈ es → y.has = true → Literal y.data w z → Regular (.value f t n) e
  | enumNull {e f t n v} : e.data = .enum v → Unset e → (n || hasNullable e) = true → Regular (.value f t n) e
  | enumFirst {e f t n v x y es w z} : e.data = .enum v → Unset e → (n || hasNullable e) = false →
      Infos.find e.attributes (str "enumerations") = some x → x.data = .array (y :: es) → x.has = true → Literal y.data w z →
      Regular (.value (f || hasFixed e) false false) y → Regular (.value f t n) e
  | ref {e k r p} : e.data = .ref k → resolve e = .ok r → Regular p r → Regular p e
  | holder {e d p} : e.data = .holder (some d) → e.has = true → Regular p d → Regular p e
  | extend {e es m p} : e.data = .extend es → mergeF es = .ok m → Regular p m → Regular p e
  | property {e f k v} : Property e k v → isVariable e = false →
      Regular (.value (f || hasFixed e) (hasFixedType e) (hasNullable e)) v → Regular (.content f [k]) e
  | mixin {e f es} (names : Elem → List Bytes) : e.data = .object es → e.has = true →
      ((f || hasFixed e) = true → ∀ x ∈ es, inheritsFixed x = .ok true) →
      (∀ x ∈ es, Regular (.content (f || hasFixed e) (names x)) x) → Regular (.content f (es.flatMap names)) e
  | mixinUnset {e f es} : e.data = .object es → Unset e → Regular (.content f []) e

end Verif.Spec
