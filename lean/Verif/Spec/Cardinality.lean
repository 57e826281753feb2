import Verif.Model.ElementUtils
import Mathlib.Data.ENat.Basic
import Mathlib.Algebra.BigOperators.Group.List.Basic
/-!
# How many values an element types (specification)

Counting with exact arithmetic on the natural numbers with infinity; `fixed` tells whether the element inherits `fixed`
from its parent.
-/
namespace Verif.Spec
open Verif Verif.Refract

/-- One more value, `null`, if the element is nullable. -/
def orNull (e : Elem) (n : ℕ∞) : ℕ∞ := if hasNullable e then n + 1 else n

/-- The number denoted by a machine cardinality: the largest one stands for infinity. -/
def den (c : UInt32) : ℕ∞ := if c = 0xFFFFFFFF then ⊤ else (c.toNat : ℕ∞)

/-- `Counts e fixed n`: the element types `n` values. -/
inductive Counts : Elem → Bool → ℕ∞ → Prop
  /-- null types one value -/
  | null {e f} : e.data = .null → Counts e f 1
  /-- a string or number types its only value if it is fixed, and infinitely many otherwise -/
  | stringFixed {e f s} : e.data = .string s → (definesValue e = true ∧ f = true ∨ hasFixed e = true) → Counts e f (orNull e 1)
  | stringOpen {e f s} : e.data = .string s → ¬(definesValue e = true ∧ f = true ∨ hasFixed e = true) → Counts e f (orNull e ⊤)
  | numberFixed {e f s} : e.data = .number s → (definesValue e = true ∧ f = true ∨ hasFixed e = true) → Counts e f (orNull e 1)
  | numberOpen {e f s} : e.data = .number s → ¬(definesValue e = true ∧ f = true ∨ hasFixed e = true) → Counts e f (orNull e ⊤)
  /-- a boolean types one or two values -/
  | boolFixed {e f b} : e.data = .boolean b → (definesValue e = true ∧ f = true ∨ hasFixed e = true) → Counts e f (orNull e 1)
  | boolOpen {e f b} : e.data = .boolean b → ¬(definesValue e = true ∧ f = true ∨ hasFixed e = true) → Counts e f (orNull e 2)
  /-- an object that may have further properties types infinitely many values -/
  | objectOpen {e f es} : e.data = .object es → f = false → hasFixed e = false → hasFixedType e = false → Counts e f (orNull e ⊤)
  /-- otherwise its values are the choices of a value for each property -/
  | objectEmpty {e f es} : e.data = .object es → (f = true ∨ hasFixed e = true ∨ hasFixedType e = true) → e.has = false →
      Counts e f (orNull e 1)
  | object {e f es} (g : Elem → ℕ∞) : e.data = .object es → (f = true ∨ hasFixed e = true ∨ hasFixedType e = true) → e.has = true →
      (∀ x ∈ es, Counts x (f || hasFixed e) (g x)) → Counts e f (orNull e (es.map g).prod)
  /-- a property types the values of its value, for infinitely many keys if the key is variable -/
  | memberNone {e f k v} : e.data = .member k v → (e.has = false ∨ v = none) → Counts e f 0
  | member {e f k v n} : e.data = .member k (some v) → e.has = true → isVariable e = false → Counts v f n → Counts e f (orNull e n)
  | memberVariable {e f k v n} : e.data = .member k (some v) → e.has = true → isVariable e = true → Counts v f n →
      Counts e f (orNull e (⊤ * n))
  /-- a fixed array types the choices of a value for each item -/
  | arrayEmpty {e f es} : e.data = .array es → (f = true ∨ hasFixed e = true) → e.has = false → Counts e f (orNull e 1)
  | array {e f es} (g : Elem → ℕ∞) : e.data = .array es → (f = true ∨ hasFixed e = true) → e.has = true →
      (∀ x ∈ es, Counts x true (g x)) → Counts e f (orNull e (es.map g).prod)
  /-- an array of fixed types without an item type counts as empty; all other arrays as infinite -/
  | arrayNone {e f es} : e.data = .array es → f = false → hasFixed e = false → hasFixedType e = true → e.has = false →
      Counts e f (orNull e 0)
  | arrayOpen {e f es} : e.data = .array es → f = false → hasFixed e = false → (hasFixedType e = true → e.has = true) →
      Counts e f (orNull e ⊤)
  /-- an enumeration types the values of its enumerations together -/
  | enumNone {e f v} : e.data = .enum v →
      (∀ x es, Infos.find e.attributes (str "enumerations") = some x → x.data = .array es → x.has = false) → Counts e f 0
  | enum {e f v x es} (g : Elem → ℕ∞) : e.data = .enum v → Infos.find e.attributes (str "enumerations") = some x → x.data = .array es →
      x.has = true → (∀ y ∈ es, Counts y (f || hasFixed e) (g y)) → Counts e f (orNull e (es.map g).sum)
  /-- an inheritance chain types the values of the merged element -/
  | extendNone {e f es} : e.data = .extend es → (e.has = false ∨ merge es = .ok none) → Counts e f 0
  | extend {e f es m n} : e.data = .extend es → e.has = true → merge es = .ok (some m) → Counts m f n → Counts e f n
  /-- a reference types the values of the element it refers to -/
  | ref {e f s r n} : e.data = .ref s → Infos.find e.attributes (str "resolved") = some r → Counts r f n → Counts e f n
  | holderNone {e f d} : e.data = .holder d → (e.has = false ∨ d = none) → Counts e f 0
  | holder {e f d n} : e.data = .holder (some d) → e.has = true → Counts d f n → Counts e f n
  /-- alternatives add up -/
  | selectNone {e f es} : e.data = .select es → e.has = false → Counts e f 0
  | select {e f es} (g : Elem → ℕ∞) : e.data = .select es → e.has = true → (∀ x ∈ es, Counts x f (g x)) → Counts e f (es.map g).sum
  | optionNone {e f es} : e.data = .option es → e.has = false → Counts e f 0
  | option {e f es} (g : Elem → ℕ∞) : e.data = .option es → e.has = true → (∀ x ∈ es, Counts x f (g x)) → Counts e f (es.map g).prod

end Verif.Spec
