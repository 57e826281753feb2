import Verif.Model.Regex

/-!
# Regular expressions (specification)

What texts an extended regular expression describes (POSIX.1-2017, 9.3 and 9.4), as a relation.
-/

namespace Verif.Spec.Regex
open Verif Verif.Regex

/-- The character is one of the bracket expression: in one of the ranges, or in none if it is negated. -/
def OneOf (neg : Bool) (ranges : List (UInt8 × UInt8)) (c : UInt8) : Prop :=
  if neg then ∀ r ∈ ranges, ¬ (r.1 ≤ c ∧ c ≤ r.2) else ∃ r ∈ ranges, r.1 ≤ c ∧ c ≤ r.2

/-- The texts an expression describes. -/
inductive Lang : Rx → Bytes → Prop
  | eps : Lang .eps []
  | cls {neg ranges c} : OneOf neg ranges c → Lang (.cls neg ranges) [c]
  | seq {a b x y} : Lang a x → Lang b y → Lang (.seq a b) (x ++ y)
  | left {a b x} : Lang a x → Lang (.alt a b) x
  | right {a b x} : Lang b x → Lang (.alt a b) x
  | none {a} : Lang (.star a) []
  | more {a x y} : Lang a x → Lang (.star a) y → Lang (.star a) (x ++ y)
  | plus {a x y} : Lang a x → Lang (.star a) y → Lang (.plus a) (x ++ y)
  | group {n a x} : Lang a x → Lang (.group n a) x

/-- The expression, with its anchors, matches the part `m` of the text `before ++ m ++ after`. -/
def Fits (p : Pattern) (before m after : Bytes) : Prop :=
  Lang p.body m ∧ (p.start = true → before = []) ∧ (p.stop = true → after = [])

/-- Of all matches in the text, this is the one that starts first and, among those that start there, the
longest. -/
def Chosen (p : Pattern) (s before m after : Bytes) : Prop :=
  s = before ++ m ++ after ∧ Fits p before m after ∧
  ∀ before' m' after', s = before' ++ m' ++ after' → Fits p before' m' after' →
    before.length < before'.length ∨ before.length = before'.length ∧ m'.length ≤ m.length

end Verif.Spec.Regex
