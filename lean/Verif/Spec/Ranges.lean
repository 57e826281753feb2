import Batteries.Data.List.Basic
import Verif.Spec.Utf8
import Verif.Model.ByteBuffer
/-!
# Coverage of ranges and character offsets (specification)
-/
namespace Verif.Spec
open Verif Verif.ByteBuffer

/-- The positions a range given by start and length covers, in order. -/
def cover (loc len : Nat) : List Nat := List.range' loc len

/-- All positions covered by a range set, in order and with repetitions. -/
def positions (rs : List Range) : List Nat := rs.flatMap fun r => cover r.location r.length

/-- No range starts exactly where its predecessor ends. -/
def Separated (rs : List Range) : Prop := rs.IsChain fun x y => y.location ≠ x.location + x.length

/-- Byte offset at which the `k`-th character of a text starts (also `k` = number of characters: the end). -/
def byteOffset (cs : List Nat) (k : Nat) : Nat := (utf8s (cs.take k)).length

/-- Length of the UTF-8 sequence a lead byte announces; stray continuation bytes count for themselves. -/
def announced (b : UInt8) : Nat := if b < 0xC0 then 1 else if b < 0xE0 then 2 else if b < 0xF0 then 3 else 4

/-- The byte string consists of complete units (each as long as its first byte announces and not starting with NUL)
    followed by a unit cut off by the end of the string. -/
def TruncatedTail (s : Bytes) : Prop :=
  ∃ (us : List Bytes) (x : UInt8) (t : Bytes), s = us.flatten ++ x :: t ∧
    (∀ u ∈ us, ∃ b r, u = b :: r ∧ b ≠ 0 ∧ announced b = r.length + 1) ∧ x ≠ 0 ∧ t.length + 1 < announced x

end Verif.Spec
