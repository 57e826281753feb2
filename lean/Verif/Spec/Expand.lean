import Verif.Model.Expand
import Verif.Spec.Registry
/-!
# Expansion of named types (specification)
-/
namespace Verif.Spec.Expand
open Verif Verif.Refract Verif.Registry

/-- The elements directly inside an element. -/
def children : Elem → List Elem
  | .mk _ _ _ false _ => []
  | .mk _ _ _ true d =>
    match d with
    | .array es => es | .object es => es | .extend es => es | .option es => es | .select es => es
    | .enum v => v.toList
    | .member k v => k.toList ++ v.toList
    | _ => []

/-- The kinds of elements that describe values: their name is the name of a type. -/
def typeKind : Kind → Prop
  | .string | .number | .boolean | .enum | .array | .object | .extend | .option | .select => True
  | _ => False

/-- The elements on which the expansion is meant to run: an enumeration with a value has a non-null one, the attribute
    `enumerations` of an enumeration is a non-empty array, a list of alternatives consists of alternatives, a member or list
    of alternatives with the name of a type has a value.  References to other types occur only if `mixins`. -/
inductive Usable (mixins : Prop) : Elem → Prop
  | mk (e : Elem) (content : ∀ c ∈ children e, Usable mixins c)
    (value : e.kind = .enum → e.has = true → e.data ≠ .enum none)
    (enums : e.kind = .enum → ∀ x, (str "enumerations", x) ∈ e.attributes → x.has = true ∧ x.kind = .array ∧ reserved x.name)
    (entries : e.kind = .enum → ∀ x, (str "enumerations", x) ∈ e.attributes → ∀ c ∈ children x, Usable mixins c)
    (options : e.kind = .select → ∀ c ∈ children e, c.kind = .option ∧ reserved c.name)
    (filled : e.kind = .select ∨ e.kind = .member → reserved e.name ∨ e.has = true)
    (refs : e.kind = .ref → mixins) : Usable mixins e

/-- Nothing in the element refers to a named type that can still be looked up: no value has the name of a type, each reference
    to a registered type carries the type in its attribute `resolved`, in which the same holds. -/
inductive Resolved (r : Reg) : Elem → Prop
  | value (e : Elem) (h : typeKind e.kind) (name : reserved e.name) (content : ∀ c ∈ children e, Resolved r c) : Resolved r e
  | member (e : Elem) (h : e.kind = .member) (content : ∀ c ∈ children e, Resolved r c) : Resolved r e
  | other (e : Elem) (h : e.kind = .null ∨ e.kind = .holder) : Resolved r e
  | unknown (e : Elem) (h : e.kind = .ref) (unknown : e.has = false ∨ ∃ s, e.data = .ref s ∧ (s = [] ∨ StdMap.find r s = none)) : Resolved r e
  | resolved (e : Elem) (h : e.kind = .ref) (x : Elem) (hx : Infos.find e.attributes (str "resolved") = some x) (content : Resolved r x) :
      Resolved r e

/-- No element in `e` (or in the values of an enumeration) has the name of a type or is a reference, and an enumeration keeps
    its values in a plain array. -/
inductive Plain : Elem → Prop
  | mk (e : Elem) (name : reserved e.name) (ref : e.kind ≠ .ref) (content : ∀ c ∈ children e, Plain c)
    (value : e.kind = .enum → if e.has then e.data ≠ .enum none else e.data = .enum none)
    (base : e.kind = .enum → e.name = str "enum" ∧ (e.attributes.map (·.1)).Nodup)
    (enums : e.kind = .enum → ∀ x, (str "enumerations", x) ∈ e.attributes → ∃ es, x = .mk (str "array") [] [] true (.array es))
    (entries : e.kind = .enum → ∀ x, (str "enumerations", x) ∈ e.attributes → ∀ c ∈ children x, Plain c) : Plain e

/-- `Lineage r n l`: `l` are the names from `n` upwards that are registered, each the parent of the one before; the last one has
    a parent that is reserved or not registered. -/
inductive Lineage (r : Reg) : Bytes → List Bytes → Prop
  | done (n : Bytes) (h : reserved n ∨ StdMap.find r n = none) : Lineage r n []
  | up (n : Bytes) (p : Elem) (l : List Bytes) (hp : StdMap.find r n = some p) (hn : ¬ reserved n) (hl : Lineage r p.name l) : Lineage r n (n :: l)

/-- The text of the meta `ref`. -/
def refOf (e : Elem) : Option Bytes :=
  match Infos.find e.metas (str "ref") with
  | some (.mk _ _ _ _ (.string s)) => some s
  | _ => none

end Verif.Spec.Expand
