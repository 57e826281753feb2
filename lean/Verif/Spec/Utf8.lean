import Verif.Model.Bytes
/-!
# UTF-8 (specification, RFC 3629 §3)
-/
namespace Verif.Spec
open Verif

/-- Unicode scalar value: a code point that is not a surrogate. -/
def Scalar (c : Nat) : Prop := c < 0xD800 ∨ (0xE000 ≤ c ∧ c < 0x110000)

instance (c : Nat) : Decidable (Scalar c) := by unfold Scalar; infer_instance

/-- RFC 3629 encoding of a code point. -/
def utf8 (c : Nat) : Bytes :=
  if c < 0x80 then [c.toUInt8]
  else if c < 0x800 then [(0xC0 + c / 64).toUInt8, (0x80 + c % 64).toUInt8]
  else if c < 0x10000 then [(0xE0 + c / 4096).toUInt8, (0x80 + c / 64 % 64).toUInt8, (0x80 + c % 64).toUInt8]
  else [(0xF0 + c / 262144).toUInt8, (0x80 + c / 4096 % 64).toUInt8, (0x80 + c / 64 % 64).toUInt8, (0x80 + c % 64).toUInt8]

/-- Encoding of a sequence of code points. -/
def utf8s (cs : List Nat) : Bytes := cs.flatMap utf8

/-- A byte string is well-formed UTF-8 iff it is the encoding of some scalar values. -/
def WellFormed (bs : Bytes) : Prop := ∃ cs, (∀ c ∈ cs, Scalar c) ∧ bs = utf8s cs

/-- Continuation byte `10xxxxxx`. -/
def Cont (b : UInt8) : Prop := 0x80 ≤ b ∧ b < 0xC0

/-- A lead byte followed by exactly the number of continuation bytes it announces (its contents may still be
    overlong, a surrogate or out of range). -/
def FramedUnit (u : Bytes) : Prop :=
  (∃ a, a < 0x80 ∧ u = [a]) ∨
  (∃ a b, 0xC0 ≤ a ∧ a < 0xE0 ∧ Cont b ∧ u = [a, b]) ∨
  (∃ a b c, 0xE0 ≤ a ∧ a < 0xF0 ∧ Cont b ∧ Cont c ∧ u = [a, b, c]) ∨
  (∃ a b c d, 0xF0 ≤ a ∧ a < 0xF8 ∧ Cont b ∧ Cont c ∧ Cont d ∧ u = [a, b, c, d])

/-- What a decoder must produce for one framed unit: its scalar if it encodes one, the replacement character
    otherwise. -/
def UnitMeaning (u : Bytes) (c : Nat) : Prop :=
  (Scalar c ∧ u = utf8 c) ∨ ((¬ ∃ d, Scalar d ∧ u = utf8 d) ∧ c = 0xFFFD)

/-- The two lists have the same length and corresponding elements are related. -/
inductive Pairwise2 {α β} (R : α → β → Prop) : List α → List β → Prop
  | nil : Pairwise2 R [] []
  | cons {a b as bs} : R a b → Pairwise2 R as bs → Pairwise2 R (a :: as) (b :: bs)

end Verif.Spec
