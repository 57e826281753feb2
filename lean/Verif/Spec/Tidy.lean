import Verif.Model.ElementUtils
/-!
# Data structures in which no object declares a name twice (specification)
-/
namespace Verif.Spec
open Verif Verif.Refract

/-- `Tidy none e`: in the type described by `e`, no object declares a property twice, not even through a mixin, each enumeration
    has a member, each list of alternatives has one.  `Tidy (some names) e`: the same for the contents of an object, which
    declare exactly the properties `names`. -/
inductive Tidy : Option (List Bytes) → Elem → Prop
  | string {e s} : e.data = .string s → Tidy none e
  | number {e s} : e.data = .number s → Tidy none e
  | boolean {e b} : e.data = .boolean b → Tidy none e
  | null {e} : e.data = .null → Tidy none e
  | object {e es} (f : Elem → List Bytes) : e.data = .object es → e.has = true → (∀ x ∈ es, Tidy (some (f x)) x) →
      (es.flatMap f).Nodup → Tidy none e
  | objectEmpty {e es} : e.data = .object es → e.has = false → Tidy none e
  | array {e es} : e.data = .array es → e.has = true → es ≠ [] → (∀ x ∈ es, Tidy none x) → Tidy none e
  | arrayEmpty {e es} : e.data = .array es → e.has = false → Tidy none e
  | enum {e v x es} : e.data = .enum v → Infos.find e.attributes (str "enumerations") = some x → x.data = .array es →
      x.has = true → es ≠ [] → (∀ y ∈ es, Tidy none y) → Tidy none e
  | ref {e k r p} : e.data = .ref k → resolve e = .ok r → Tidy p r → Tidy p e
  | holder {e d p} : e.data = .holder (some d) → e.has = true → Tidy p d → Tidy p e
  | extend {e es m p} : e.data = .extend es → mergeF es = .ok m → Tidy p m → Tidy p e
  | property {e k n v} : e.data = .member (some k) (some v) → k.data = .string n → k.has = true → isVariable e = false →
      Tidy none v → Tidy (some [n]) e
  | pattern {e k v} : e.data = .member k (some v) → isVariable e = true → Tidy none v → Tidy (some []) e
  | mixin {e es} (f : Elem → List Bytes) : e.data = .object es → e.has = true → (∀ x ∈ es, Tidy (some (f x)) x) →
      Tidy (some (es.flatMap f)) e
  | mixinEmpty {e es} : e.data = .object es → e.has = false → Tidy (some []) e
  | oneOf {e es} (f : Elem → List Bytes) : e.data = .select es →
      (∃ o ∈ es, ∃ os, o.data = .option os ∧ o.has = true ∧ os ≠ []) →
      (∀ o ∈ es, ∀ os, o.data = .option os → ∀ x ∈ os, Tidy (some (f x)) x) →
      (∀ o ∈ es, ∀ os, o.data = .option os → (os.flatMap f).Nodup) → Tidy (some []) e

end Verif.Spec
