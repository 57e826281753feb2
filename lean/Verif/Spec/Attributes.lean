import Verif.Model.Element
/-!
# Attributes of an element, read as a list (specification)
-/
namespace Verif.Spec
open Verif Verif.Refract

/-- The first entry of a list of named elements under `k` is `x`. -/
def Entry (l : List (Bytes × Elem)) (k : Bytes) (x : Elem) : Prop :=
  ∃ before after, l = before ++ (k, x) :: after ∧ ∀ p ∈ before, p.1 ≠ k

/-- The element carries the type attribute `word`: its attribute "typeAttributes" is an array one of whose elements is a string with
    that content. -/
def Flag (e : Elem) (word : String) : Prop :=
  ∃ t es x, Entry e.attributes (str "typeAttributes") t ∧ t.data = .array es ∧ x ∈ es ∧ x.data = .string (str word) ∧ x.has = true

/-- The first sample is `s`: the attribute "samples" is an array with content, and `s` is its first element. -/
def FirstSample (e s : Elem) : Prop :=
  ∃ t r, Entry e.attributes (str "samples") t ∧ t.data = .array (s :: r) ∧ t.has = true

/-- The default is `d`. -/
def Default (e d : Elem) : Prop := Entry e.attributes (str "default") d

/-- The element that gives the value of `e`: itself if it has content, else its first sample, else its default. -/
inductive ValueOf (e : Elem) : Elem → Prop
  | own : e.has = true → ValueOf e e
  | sample {s} : e.has = false → FirstSample e s → ValueOf e s
  | default {d} : e.has = false → (∀ s, ¬FirstSample e s) → Default e d → ValueOf e d

/-- The attribute "variable" is the boolean `true`. -/
def Variable (e : Elem) : Prop := ∃ v, Entry e.attributes (str "variable") v ∧ v.data = .boolean true ∧ v.has = true

end Verif.Spec
